import Verif.Props.PenaltyDouble
import Verif.Props.ProgramDoubleExamples

/-!
# C93 on the run of `ProgramDoubleExamples`
-/

namespace Verif
open F64 Spec Dbl

namespace DoubleEx

/-- The instance. -/
abbrev inst : Parsed F := Program.parsed (Program.dblNodes nearestEven ProgramEx.nodes) (fin 20) none

/-- The states before and after the first crossover iteration. -/
def firstCycle : Option (GA F × GA F) :=
  (Program.matrices lib cfg inst).bind fun m =>
    (GA.steps (Program.gaEnv lib cfg (Program.context lib inst m.1) m.1 m.2) (Program.context lib inst m.1) (chs.take 4)
      (GA.new (Program.gaEnv lib cfg (Program.context lib inst m.1) m.1 m.2) (Program.context lib inst m.1)
        fun _ => 0)).bind fun g =>
      (GA.iterate (Program.gaEnv lib cfg (Program.context lib inst m.1) m.1 m.2) (Program.context lib inst m.1)
        (choice 5 7) g).map fun g' => (g, g')

theorem firstCycle_view : firstCycle.map (fun p => (p.1.state, p.2.state,
    ((p.1.pop.history ++ [p.2.child.isFeasible]).drop 1).count true, decide (p.1.rr.pen = p.2.rr.pen))) =
    some (.cycle, .cycle, 100, false) := by
  decide +kernel

/-- C93 applies to the first crossover iteration of the run: all of the latest 100 outcomes are feasible, more than
the target of a quarter, and the penalty is lowered: the rounded product with 0.85, and not the old value. -/
example : ∃ (g g' : GA F) (p p' : ℚ), g.rr.pen = fin p ∧ g'.rr.pen = fin p' ∧ p ≠ p' ∧
    p' = Spec.clamp nearestEven (nearestEven.fl (p * nearestEven.fl 0.85)) := by
  obtain ⟨⟨g, g'⟩, hf, e⟩ := Option.map_eq_some_iff.mp firstCycle_view
  simp only [Prod.mk.injEq, decide_eq_false_iff_not] at e
  obtain ⟨s1, s2, s3, s4⟩ := e
  unfold firstCycle at hf
  obtain ⟨⟨d, c⟩, hm, hf⟩ := Option.bind_eq_some_iff.mp hf
  obtain ⟨g0, hg, hf⟩ := Option.bind_eq_some_iff.mp hf
  obtain ⟨g1, hit, hf⟩ := Option.map_eq_some_iff.mp hf
  simp only [Prod.mk.injEq] at hf
  obtain ⟨rfl, rfl⟩ := hf
  have hr := GA.steps_reach (chs.take 4) (fun ch hch => run_ok.choices ch (List.mem_of_mem_take hch)) (.new _) hg
  obtain ⟨s, hrun⟩ := hr.run
  obtain ⟨-, d', ed, hb⟩ := exactPlane_data (lib := lib) (cfg := cfg) (cap := 20) root_ok
    (nodes := ProgramEx.nodes) (by decide) rfl coords_ok
  have hd : d = d' ∧ buildCorr lib.sqrt lib.corrSort d = some c := by
    unfold Program.matrices at hm
    split at hm
    · cases hm
    · obtain ⟨d1, h1, h2⟩ := Option.bind_eq_some_iff.mp hm
      obtain ⟨c1, h3, h4⟩ := Option.map_eq_some_iff.mp h2
      simp only [Prod.mk.injEq] at h4
      obtain ⟨rfl, rfl⟩ := h4
      have h1' : buildDist lib.sqrt (Program.locations inst) (decide (inst.nodes.length - 1 < cfg.precomputeLimit)) cfg.rounded
        none = some d1 := h1
      rw [ed, Option.some.injEq] at h1'
      exact ⟨h1'.symm, h3⟩
  obtain ⟨rfl, hc⟩ := hd
  have hx : Program.DblDist ProgramEx.nodes.length
      (fun a b => ((⌊realDist ProgramEx.nodes a b + 1 / 2⌋ : ℤ) : ℚ)) := by
    intro a ha b hb
    obtain ⟨x, y⟩ := (Program.plane_nearest root_ok coords_ok ha hb).2
    have y' : ⌊realDist ProgramEx.nodes a b + 1 / 2⌋ ≤ 2 ^ 43 := y.trans (by norm_num)
    dsimp only
    exact ⟨by exact_mod_cast x, by exact_mod_cast y'⟩
  have ht : cfg.target = fin (1 / 4) := by decide +kernel
  have hd5 : cfg.decMultiplier = fin (nearestEven.fl 0.85) := ofRat_le (m := 0) (by norm_num) (by norm_num)
  have hi5 : cfg.incMultiplier = fin (nearestEven.fl 1.2) := ofRat_le (m := 1) (by norm_num) (by norm_num)
  obtain ⟨p, p', e1, e2, -, hdue, -⟩ := C93_program_partial (m := none) lib_ok run_ok.settings loads_ok hx hb hc rfl
    (le_refl 1) ht (by norm_num) (by norm_num) hi5 hd5 hrun s1 (fun _ _ _ l => List.Perm.refl l) hit (by simp [s2])
  have hD : Spec.PenaltyDue cfg.penaltyInterval s g0.iterations := by
    cases s with
    | none => exact one_dvd _
    | some s => exact Or.inr (one_dvd _)
  refine ⟨g0, g1, p, p', e1, e2, fun h => s4 (by rw [e1, e2, h]), (hdue hD).above ?_⟩
  rw [s3]
  norm_num

end DoubleEx
end Verif
