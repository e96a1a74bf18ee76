import Verif.Props.GeneticRun
import Verif.Props.PopOrder

/-!
# C40: the counterexample; concrete cases for the theorems about the genetic loop
-/

namespace Verif
open F64

namespace GeneticEx

/-- Three customers at distance 10 from the depot; 2 lies next to 1 and 3. -/
def ctx : Ctx ℚ where
  n := 4
  dist a b := if a = b then 0 else if a = 0 ∨ b = 0 then 10 else if a = 2 ∨ b = 2 then 1 else 5
  demand c := if c = 0 then 0 else 1
  cap := 10
  pen := 10
  lng c := c
  lat c := c

/-- One vehicle, no local search, one ruin-and-recreate round for every individual. -/
def env : GAEnv ℚ where
  rr := ⟨10, 10, 1, 1.2, 0.85, fun c => some ([1, 2, 3].erase c), fun _ _ => 0, fun _ => 1, fun _ => -1⟩
  split := ⟨true, 1.5, 1⟩
  pop := ⟨2, 2, 1, 1, 2⟩
  moves := ⟨false, false, false, false, false, false, false, false, false, false⟩
  lowerBound := 1
  bs := bsearchNew
  sort := some
  granularity := 2
  angle := fun _ => 0
  corr := [0, 0, 2, 3, 1, 3, 1, 2]
  corrCols := 2
  lsEnabled := false
  rrMutation := true
  rrProbability := 1
  rrStartTemp := 1
  rrIterations := 1
  repairProbability := 1 / 2
  target := 1 / 4
  penaltyInterval := 1
  logInterval := 1
  initialIndividuals := 2
  maxStagnation := 3
  maxIterations := some 5
  timeLimit := 100
  initialPen := 10
  eliteEducation := false
  eliteLimit := 1000
  eliteTemp := 1
  eliteIterations := 1
  eliteTimeBased := false
  eliteDuration := 1

def choice (a b : ℕ) : GAChoice ℚ where
  ω := fun i => a / 2 ^ (i % 10)
  rr := fun _ _ => ⟨fun i => b / 2 ^ (i % 10), fun _ l => l, 0⟩
  clock := fun _ => 0
  elapsed := 0
  fuel := 5

theorem choice_ok (a b : ℕ) : GA.ChOK (choice a b) := fun _ _ _ l => List.Perm.refl l

/-- The hypotheses on instance and configuration are met. -/
theorem valid : GA.Valid env ctx where
  n := by decide
  dist a b := by
    have h : (10 : ℚ) ≤ (maxv : ℚ) := by
      show (10 : ℚ) ≤ 2 ^ 1023
      calc (10 : ℚ) ≤ 2 ^ 4 := by norm_num
        _ ≤ 2 ^ 1023 := pow_le_pow_right₀ (by norm_num) (by norm_num)
    simp only [ctx]
    split
    · exact ⟨le_refl _, by linarith⟩
    · split
      · exact ⟨by norm_num, h⟩
      · split
        · exact ⟨by norm_num, by linarith⟩
        · exact ⟨by norm_num, by linarith⟩
  fleet := by decide
  bound := by decide
  vehicles := rfl
  bs := bsearchNew_ok
  sort := fun l l' h => by
    simp only [env, Option.some.injEq] at h
    exact h ▸ List.Perm.refl _
  pen := by norm_num [env]
  mult := by norm_num [env]
  lim := le_refl _
  mag := fun _ => by
    refine ⟨10, 1, ?_, ?_, ?_, ?_⟩
    · intro a b
      simp only [RR.ctxAt, ctx]
      split
      · norm_num
      · split
        · norm_num
        · split <;> norm_num
    · intro c
      simp only [RR.ctxAt, ctx]
      split <;> norm_num
    · norm_num [RR.ctxAt]
    · norm_num [RR.ctxAt, ctx]
  nbr := by
    refine ⟨by decide, by decide, by decide, ?_, ?_⟩
    · intro u i h1 h2 h3 v hv
      have hu : u < 4 := h2
      have hi : i < 2 := h3
      have hv' : ([0, 0, 2, 3, 1, 3, 1, 2] : List ℕ)[u * 2 + i]? = some v := hv
      show 0 < v ∧ v < 4 ∧ v ≠ u
      interval_cases u <;> interval_cases i <;> simp at hv' <;> omega
    · decide

/-- The run of `C40_refuted`: the second call creates the first individual. -/
def run : Option (GA ℚ) := GA.steps env ctx [choice 0 0, choice 0 0] (GA.new env ctx fun _ => 0)

/-- **C40** is false: in this reachable state ruin and recreate has recorded the tour 3-2-1 of cost 22 in
the search history, while the genetic algorithm has no `best_solution` at all. (`update_best` compares the
child with the history, which already holds this very solution.) -/
theorem C40_refuted : ∃ g, run = some g ∧ GA.Reach env ctx GA.ChOK g ∧
    g.rr.hist.entries.length = 1 ∧ g.rr.hist.bestCost = 22 ∧ g.bestSolution.isNone = true ∧
    ¬ Spec.BestAgrees g.rr.hist g.bestSolution := by
  have h : run.map (fun g => (g.rr.hist.entries.length, g.rr.hist.bestCost, g.bestSolution.isNone)) =
      some (1, 22, true) := by decide +kernel
  obtain ⟨g, hg, e⟩ := Option.map_eq_some_iff.mp h
  simp only [Prod.mk.injEq] at e
  obtain ⟨e1, e2, e3⟩ := e
  refine ⟨g, hg, ?_, e1, e2, e3, ?_⟩
  · exact GA.steps_reach _ (fun ch hch => by
      simp only [List.mem_cons, List.not_mem_nil, or_false, or_self] at hch
      exact hch ▸ choice_ok 0 0) (.new _) hg
  · unfold Spec.BestAgrees
    rw [Option.isNone_iff_eq_none.mp e3, Option.map_none, List.getLast?_eq_none_iff]
    intro hn
    rw [hn] at e1
    simp at e1

/-- `C38_history_improves` and `C39_recorded_feasible` speak about something here: a valid setting and a
reachable state with a recorded solution. -/
example : ∃ g e, GA.Valid env ctx ∧ GA.Reach env ctx GA.ChOK g ∧ e ∈ g.rr.hist.log ∧
    Spec.IsPartition 4 e.routes := by
  obtain ⟨g, -, hr, hl, -⟩ := C40_refuted
  obtain ⟨-, -, -, -, h5, -⟩ := C38_history_improves env ctx valid g hr
  have hlen : g.rr.hist.log.length = 1 := by
    rw [← hl]
    simpa using (congrArg List.length h5).symm
  obtain ⟨e, he⟩ := List.exists_mem_of_length_pos (by omega : 0 < g.rr.hist.log.length)
  exact ⟨g, e, valid, hr, he, (C39_recorded_feasible env ctx valid g hr e he).1⟩

end GeneticEx
end Verif
