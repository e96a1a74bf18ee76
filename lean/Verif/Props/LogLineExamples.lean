import Verif.Props.LogLine
import Verif.Props.RunExamples
import Verif.Props.ProgramDoubleExamples

/-!
# C90: the counterexamples, and a run that logs
-/

namespace Verif
open F64

namespace LogEx

deriving instance DecidableEq for LogLine

/-! ### Diversities that are no numbers -/

open DoubleEx in
/-- **C90 is false: NaN and a negative diversity.** This run of the program in double precision writes its solution
file; the one line that it logs says that there is one feasible individual and no infeasible one, and that their
diversities are NaN (a mean over no other individual) and about `-0.33`. The same holds for every run in which a clone
was removed and one individual is left. -/
theorem C90_diversity_nan_refuted :
    Program.main lib cfg ProgramEx.text (fun _ => 0) chs [] = some (some ProgramEx.file) ∧
    ∃ l, Program.lines lib cfg ProgramEx.text (fun _ => 0) chs = some [l] ∧ l.feasSize = 1 ∧ l.infSize = 0 ∧
      l.feasDiversity = .nan ∧ (l.infDiversity <. lit (-0.3)) = true := by
  refine ⟨run, ?_⟩
  have h : (Program.lines lib cfg ProgramEx.text (fun _ => 0) chs).map (·.map fun l =>
      (l.feasSize, l.infSize, decide (l.feasDiversity = .nan), l.infDiversity <. lit (-0.3))) =
      some [(1, 0, true, true)] := by decide +kernel
  obtain ⟨ls, hl, e⟩ := Option.map_eq_some_iff.mp h
  obtain ⟨l, rfl, e1⟩ := List.map_eq_singleton_iff.mp e
  simp only [Prod.mk.injEq, decide_eq_true_eq] at e1
  exact ⟨l, hl, e1⟩

/-! ### Diversities above one -/

/-- Six customers, any two places at distance one; two vehicles with room for three customers each. -/
def ctx : Ctx ℚ where
  n := 7
  dist a b := if a = b then 0 else 1
  demand c := if c = 0 then 0 else 1
  cap := 3
  pen := 10
  lng c := c
  lat c := c

/-- No local search and no ruin and recreate. -/
def env : GAEnv ℚ := { GeneticEx.env with
  split := ⟨true, 1.5, 2⟩
  rrMutation := false
  rr := ⟨10, 10, 2, 1.2, 0.85, fun c => some ([1, 2, 3, 4, 5, 6].erase c), fun _ _ => 0, fun _ => 1, fun _ => -1⟩
  corr := [0, 0, 2, 3, 1, 3, 2, 4, 3, 2, 1, 2, 1, 2] }

def choice (k : ℕ) : GAChoice ℚ := { GeneticEx.choice k 7 with ω := fun i => k / (i + 1) }

theorem choice_ok (k : ℕ) : GA.ChOK (choice k) := fun _ _ _ l => List.Perm.refl l

theorem valid : GA.Valid env ctx where
  n := by decide
  dist a b := by
    have h : (1 : ℚ) ≤ (maxv : ℚ) := by
      show (1 : ℚ) ≤ 2 ^ 1023
      exact one_le_pow₀ (by norm_num)
    simp only [ctx]
    split
    · exact ⟨le_refl _, by linarith⟩
    · exact ⟨by norm_num, h⟩
  fleet := by decide
  bound := by decide
  vehicles := rfl
  bs := bsearchNew_ok
  sort := fun l l' h => by
    simp only [env, GeneticEx.env, Option.some.injEq] at h
    exact h ▸ List.Perm.refl _
  pen := by norm_num [env, GeneticEx.env]
  mult := by norm_num [env]
  lim := le_refl _
  mag := fun _ => by
    refine ⟨1, 1, ?_, ?_, ?_, ?_⟩
    · intro a b
      simp only [RR.ctxAt, ctx]
      split <;> norm_num
    · intro c
      simp only [RR.ctxAt, ctx]
      split <;> norm_num
    · norm_num [RR.ctxAt]
    · norm_num [RR.ctxAt, ctx]
  nbr := by
    refine ⟨by decide, by decide, by decide, ?_, ?_⟩
    · intro u i h1 h2 h3 v hv
      have hu : u < 7 := h2
      have hi : i < 2 := h3
      have hv' : ([0, 0, 2, 3, 1, 3, 2, 4, 3, 2, 1, 2, 1, 2] : List ℕ)[u * 2 + i]? = some v := hv
      show 0 < v ∧ v < 7 ∧ v ≠ u
      interval_cases u <;> interval_cases i <;> simp at hv' <;> omega
    · decide

/-- Two individuals, then a cycle. -/
def chs : List (GAChoice ℚ) := [choice 0, choice 0, choice 12866, choice 12866, choice 713]

/-- **C90 is false: a diversity above one.** In exact arithmetic this run of the genetic algorithm logs one line; it
says that there are two feasible individuals and that their diversity is `7/6`: the plans 3-4-5, 6-1-2 and
3-2-4, 1-5-6 are at distance 7 with six customers, as a customer counts twice if its successor differs and it comes first in one of the
plans only. -/
theorem C90_diversity_above_one_refuted : GA.Valid env ctx ∧ (∀ ch ∈ chs, GA.ChOK ch) ∧
    ∃ g' l, GA.steps env ctx chs (GA.new env ctx fun _ => 0) = some g' ∧
      GA.lines env ctx chs (GA.new env ctx fun _ => 0) = some [l] ∧ l.feasSize = 2 ∧
      g'.pop.feasible.pop.map (·.phenotype) = [[[3, 2, 4], [1, 5, 6]], [[3, 4, 5], [6, 1, 2]]] ∧
      l.feasDiversity = 7 / 6 ∧ 1 < l.feasDiversity := by
  refine ⟨valid, ?_, ?_⟩
  · intro ch h
    simp only [chs, List.mem_cons, List.not_mem_nil, or_false] at h
    rcases h with rfl | rfl | rfl | rfl | rfl <;> exact choice_ok _
  · have h : (GA.lines env ctx chs (GA.new env ctx fun _ => 0)).map (·.map fun l => (l.feasSize, l.feasDiversity)) =
        some [(2, 7 / 6)] := by decide +kernel
    have h2 : (GA.steps env ctx chs (GA.new env ctx fun _ => 0)).map (fun g => g.pop.feasible.pop.map (·.phenotype)) =
        some [[[3, 2, 4], [1, 5, 6]], [[3, 4, 5], [6, 1, 2]]] := by decide +kernel
    obtain ⟨ls, hl, e⟩ := Option.map_eq_some_iff.mp h
    obtain ⟨l, rfl, e1⟩ := List.map_eq_singleton_iff.mp e
    obtain ⟨g', hg, eg⟩ := Option.map_eq_some_iff.mp h2
    simp only [Prod.mk.injEq] at e1
    exact ⟨g', l, hg, hl, e1.1, eg, e1.2, by rw [e1.2]; norm_num⟩

/-! ### A run that logs -/

/-- The hypotheses of the C90 theorems are met by the run of `RunExamples`; with two individuals in either
subpopulation its first lines are these. -/
theorem lines : GA.Valid RunEx.env RunEx.ctx ∧ 1 ≤ RunEx.env.pop.minSize ∧
    (GA.steps RunEx.env RunEx.ctx ((List.range 7).map RunEx.ch) (GA.new RunEx.env RunEx.ctx fun _ => 0)).isSome ∧
    GA.lines RunEx.env RunEx.ctx ((List.range 7).map RunEx.ch) (GA.new RunEx.env RunEx.ctx fun _ => 0) =
      some [⟨0, 0, 2, 17, 17, 2, 311 / 20, 311 / 20, 1 / 3, 1 / 3, 97 / 100, 51 / 20⟩,
        ⟨1, 1, 2, 17, 17, 2, 311 / 20, 311 / 20, 1 / 3, 1 / 3, 24 / 25, 51 / 20⟩,
        ⟨2, 2, 2, 17, 17, 2, 6067 / 400, 6067 / 400, 1 / 3, 1 / 3, 19 / 20, 867 / 400⟩] :=
  ⟨RunEx.valid, by decide, by decide +kernel, by decide +kernel⟩

/-- So every line of that run describes a population. -/
theorem described : ∀ l ∈ ([⟨0, 0, 2, 17, 17, 2, 311 / 20, 311 / 20, 1 / 3, 1 / 3, 97 / 100, 51 / 20⟩,
    ⟨1, 1, 2, 17, 17, 2, 311 / 20, 311 / 20, 1 / 3, 1 / 3, 24 / 25, 51 / 20⟩,
    ⟨2, 2, 2, 17, 17, 2, 6067 / 400, 6067 / 400, 1 / 3, 1 / 3, 19 / 20, 867 / 400⟩] : List (LogLine ℚ)),
    ∃ p, Spec.LogOK RunEx.env.pop RunEx.ctx.n p l := by
  obtain ⟨hv, h1, hs, hl⟩ := lines
  obtain ⟨g', hg⟩ := Option.isSome_iff_exists.mp hs
  obtain ⟨ls, e1, e2, -⟩ := C90_lines_partial RunEx.env RunEx.ctx hv h1 _ _ g'
    (fun ch hch => by
      obtain ⟨i, -, rfl⟩ := List.mem_map.mp hch
      exact RunEx.ch_ok i) (.new _) hg
  rw [hl, Option.some.injEq] at e1
  subst e1
  exact fun l hl => (e2 l hl).2.2.2

end LogEx
end Verif
