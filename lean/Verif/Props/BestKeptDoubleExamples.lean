import Verif.Props.BestKeptDouble
import Verif.Props.DblEndsExamples

/-!
# C88 on the runs of `DimacsDoubleExamples`
-/

namespace Verif
open F64 Spec Dbl

namespace DimacsDoubleEx
open DoubleEx

/-- The routes of the feasible subpopulation after two calls. -/
theorem held_two : ((Program.held lib cfg ProgramEx.text draws chs).map fun xs => xs.map (·.phenotype)) =
    some [[[2, 3, 1], [], [], []]] := by
  decide +kernel

/-- After four calls. -/
theorem held_four :
    ((Program.held lib cfg ProgramEx.text draws (chs ++ more.take 2)).map fun xs => xs.map (·.phenotype)) =
      some [[[3, 2, 1], [], [], []], [[2, 3, 1], [], [], []]] := by
  decide +kernel

/-- For the explicit matrix, after four calls. -/
theorem held_rows : ((Program.held lib cfg ExplicitEx.text draws (chs ++ more.take 2)).map fun xs =>
    xs.map fun x => (x.phenotype, decide (x.cost = nan))) = some [([[1], [3], [2], [], []], false)] := by
  decide +kernel

theorem total_ok : Program.DblEndsOK cfg ProgramEx.nodes.length :=
  ⟨by decide, by decide, by decide, by decide, by decide, .inl rfl⟩

/-- C88 applies: what is held after two calls and after four is no shorter than what is printed last. -/
example : ∀ k : Bool, ∀ xs, Program.held lib cfg ProgramEx.text draws (if k then chs else chs ++ more.take 2) = some xs →
    ∀ x ∈ xs, (14 : ℚ) ≤ (x.phenotype.map (routeDist (nearestDist ProgramEx.nodes))).sum := by
  have key : ∀ a b : List (GAChoice F), a ++ b = chs ++ more → ∀ xs,
      Program.held lib cfg ProgramEx.text draws a = some xs →
      ∀ x ∈ xs, (14 : ℚ) ≤ (x.phenotype.map (routeDist (nearestDist ProgramEx.nodes))).sum := by
    intro a b hab xs hh x hx
    obtain ⟨t, R, N, h1, h2, h3⟩ := C88_all_plane (lib := lib) (cfg := cfg) (chs := a) (chs' := b) (dchs := []) root_ok
      (textOf_lf ProgramEx.raw (by decide)) (forall₂_lineWords _) ProgramEx.blockFile describes ProgramEx.euclidean
      (hab ▸ run_ok) total total_ok loads_ok rfl coords_ok (ending DoubleEx.cfg (.inl rfl) 20 loads_ok).coords (by decide)
      hh hx (hab ▸ out_all)
    have ht : t = "Route #1: 3 2 1\nCost 14\n".toList := by
      have : printed.getLast? = some "Route #1: 3 2 1\nCost 14\n".toList := rfl
      rw [this] at h1
      exact (Option.some.inj h1).symm
    rw [ht, show readSolution "Route #1: 3 2 1\nCost 14\n".toList = some ([[3, 2, 1]], 14) by decide +kernel] at h2
    simp only [Option.some.injEq, Prod.mk.injEq] at h2
    rw [← h2.2] at h3
    exact_mod_cast h3
  intro k xs hh
  cases k
  · exact key (chs ++ more.take 2) (more.drop 2) rfl xs hh
  · exact key chs more rfl xs hh

/-- C88 applies to the explicit matrix. -/
example : ∃ x : Individual F, x.phenotype = [[1], [3], [2], [], []] ∧ ∃ t R N, printedRows.getLast? = some t ∧
    readSolution t = some (R, N) ∧ (N : ℚ) ≤ (x.phenotype.map (routeDist (lowerRowDist cfg.rounded ExplicitEx.rows))).sum := by
  have h := held_rows
  obtain ⟨xs, e, h⟩ := Option.map_eq_some_iff.mp h
  obtain ⟨x, rfl, -⟩ := List.map_eq_singleton_iff.mp h
  replace h := (List.cons.inj h).1
  have h1 := congrArg Prod.fst h
  have h2 := of_decide_eq_false (congrArg Prod.snd h)
  exact ⟨x, h1, (C88_kept_explicit (lib := lib) (cfg := cfg) (M := 9) (chs := chs ++ more.take 2) (chs' := more.drop 2)
    (dchs := []) (textOf_lf ExplicitEx.raw (by decide)) (forall₂_lineWords _) ExplicitEx.blockFile ExplicitEx.describesDbl
    ExplicitEx.explicitDbl rfl ExplicitEx.triangular
    (fun row hr x hx => ⟨(ExplicitEx.entries row hr x hx).1, (ExplicitEx.entries row hr x hx).2.1, .inl rfl⟩)
    (by norm_num) (by norm_num [ProgramEx.nodes]) run_ok ExplicitEx.loads_ok (by decide) e (List.mem_singleton.mpr rfl)
    h2 out_rows).2.2⟩

/-- Settings with decomposition: subproblems of two customers, one neighbour each. -/
def split : Settings F := { cfg with decomposeLimit := 2, decomposedSize := 2, granularity := 1 }

/-- C88 with decomposition applies to every run with these settings on the instance. -/
example {c : Correlation} {d : DistMatrix F} {dchs : List (DGAChoice F)} {ω : Oracle}
    (hb : Program.Built lib ProgramEx.nodes.length
      (fun a b => fin ((⌊realDist ProgramEx.nodes a b + 1 / 2⌋ : ℤ) : ℚ)) d)
    (hc : buildCorr lib.sqrt lib.corrSort d = some c) (hch : ∀ ch ∈ dchs, DGA.ChOK ch) {s s' : DGA F}
    (ctx : Ctx F) (hctx : ctx = Program.context lib (Program.parsed (Program.dblNodes nearestEven ProgramEx.nodes) (fin 20) none) d)
    (hrun : DGA.steps (Program.decompEnv lib split ctx d c) ctx dchs (DGA.new (Program.decompEnv lib split ctx d c) ctx ω) =
      some s)
    {ch : DGAChoice F} (hok : DGA.ChOK ch) (hst : s.state = .cycle) {x : Individual F}
    (hx : DGA.solveSub (Program.decompEnv lib split ctx d c) ctx ch s = some x)
    (hs' : DGA.improve (Program.decompEnv lib split ctx d c) ctx ch x s = some s') (hf : x.isFeasible = true)
    (hn : x.cost ≠ nan) : ∃ e, s'.ga.rr.hist.entries.getLast? = some e :=
  let ⟨_, e, h, _⟩ := C88_decomposed (M := 2 ^ 24) lib_ok ⟨by decide, fun _ => by decide⟩ loads_ok
    (fun _ ha _ hb => (Program.plane_nearest root_ok coords_ok ha hb).2)
    (exactPlane_data (lib := lib) (cfg := split) (cap := 20) root_ok (by decide) rfl coords_ok).1
    (by norm_num) (by norm_num [ProgramEx.nodes]) hb hc (by decide) ctx hctx hch hrun hok hst hx hs' x (.inl rfl) hf hn
  ⟨e, h⟩

end DimacsDoubleEx
end Verif
