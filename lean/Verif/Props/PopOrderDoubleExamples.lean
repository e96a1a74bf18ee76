import Verif.Props.PopOrderDouble
import Verif.Props.BestKeptDoubleExamples

/-!
# C92 on the runs of `DimacsDoubleExamples`
-/

namespace Verif
open F64 Spec Dbl

namespace DimacsDoubleEx
open DoubleEx

/-- C92 applies: the two members after four calls, of which the later found one comes first, have lengths in order. -/
example : ∃ xs, Program.held lib cfg ProgramEx.text draws (chs ++ more.take 2) = some xs ∧
    xs.map (·.phenotype) = [[[3, 2, 1], [], [], []], [[2, 3, 1], [], [], []]] ∧
    (routeDist (nearestDist ProgramEx.nodes) [3, 2, 1] ≤ routeDist (nearestDist ProgramEx.nodes) [2, 3, 1]) := by
  obtain ⟨xs, hh, hx⟩ := Option.map_eq_some_iff.mp held_four
  refine ⟨xs, hh, hx, ?_⟩
  have hr : Program.DblRun lib cfg ProgramEx.nodes.length (chs ++ more.take 2) [] :=
    ⟨run_ok.fleet, run_ok.lib, run_ok.settings, fun ch h => run_ok.choices ch (by
      rw [List.mem_append] at h ⊢
      exact h.imp id List.mem_of_mem_take), run_ok.dchoices⟩
  have h := (C92_held_plane (lib := lib) (cfg := cfg) (dchs := []) root_ok
    (textOf_lf ProgramEx.raw (by decide)) (forall₂_lineWords _) ProgramEx.blockFile describes ProgramEx.euclidean
    hr loads_ok rfl coords_ok (by decide) hh).2
  have e : ∀ (f : List (List ℕ) → ℚ), (xs.map fun x => f x.phenotype) = (xs.map (·.phenotype)).map f := by
    intro f
    rw [List.map_map]
    rfl
  rw [e fun R => (R.map (routeDist (nearestDist ProgramEx.nodes))).sum, hx] at h
  have h' := (List.pairwise_cons.mp h).1 _ (List.mem_singleton.mpr rfl)
  simpa using h'

end DimacsDoubleEx

namespace ElitesEx

/-- The distances of `ElitesEx.ctx`. -/
def dz (a b : ℕ) : ℤ :=
  if a = b then 0 else if a = 0 ∨ b = 0 then 1
  else if (a = 1 ∧ b = 2) ∨ (a = 2 ∧ b = 1) then 3
  else if (a = 2 ∧ b = 3) ∨ (a = 3 ∧ b = 2) then 2 else 1

theorem whole : Whole ctx (fun _ => 1) 10 1 :=
  ⟨fun _ => by simp [ctx, ofInt], fun _ => by decide, fun _ => le_refl _, by simp [ctx, ofInt], by decide, by
    show ((4 : ℕ) : ℤ) * 1 + 10 ≤ 2 ^ 52
    norm_num⟩

theorem wholeDist : WholeDist ctx dz 3 := by
  refine ⟨fun a b => ?_, fun a b => ?_, fun a b => ?_, rfl, ?_⟩
  · simp only [ctx, dz, ofInt]
    repeat' split
    all_goals simp
  · unfold dz
    repeat' split
    all_goals simp
  · unfold dz
    repeat' split
    all_goals simp
  · show 4 * (((4 : ℕ) : ℤ) * 3) ≤ 2 ^ 53
    norm_num

/-- C92 applies to the population with two members: the one inserted last, of length 6, comes before that of length 7,
and the best cost is 6. -/
example : ∃ p : Population (Dbl nearestEven), (p.feasible.pop.map fun x =>
      (x.phenotype.map (routeDist fun a b => (dz a b : ℚ))).sum).Pairwise (· ≤ ·) ∧
    p.feasible.pop.map (fun x => (x.phenotype.map (routeDist fun a b => (dz a b : ℚ))).sum) = [6, 7] ∧
    p.feasible.bestCost = fin 6 := by
  have h : two.map (fun p => (p.feasible.pop.map (·.phenotype), decide (p.feasible.bestCost = fin 6))) =
      some ([[[2, 1, 3]], [[1, 2, 3]]], true) := by decide +kernel
  obtain ⟨p, hp, e⟩ := Option.map_eq_some_iff.mp h
  simp only [Prod.mk.injEq, decide_eq_true_eq] at e
  unfold two at hp
  obtain ⟨q, hq, hp⟩ := Option.bind_eq_some_iff.mp hp
  have r := ((Population.Run.new (ctx := ctx) (cfg := cfg) (bs := bsearchNew) (sort := some)
    (ok := fun _ => True)).add good1 trivial hq).add good2 trivial hp
  refine ⟨p, (C92_sorted whole wholeDist cfg bsearchNew bsearchNew_ok some
    (fun l l' h => by rw [Option.some.injEq] at h; exact h ▸ List.Perm.refl _) p _ r).2, ?_, e.2⟩
  have := congrArg (List.map fun R => (R.map (routeDist fun a b => (dz a b : ℚ))).sum) e.1
  rw [List.map_map] at this
  refine this.trans ?_
  decide +kernel

end ElitesEx
end Verif
