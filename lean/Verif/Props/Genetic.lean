import Verif.Lemmas.Genetic

/-!
# C40 (part), C42, C55: the loop of the genetic algorithm

For every arithmetic. An execution is any sequence of `iterate` calls from a new solver, with arbitrary
random draws, hash orders and clock readings in every call.
-/

namespace Verif
open F64

variable {α : Type} [F64 α]

namespace GA

/-- The states of all executions whose choices satisfy `ok`. -/
inductive Reach (env : GAEnv α) (ctx : Ctx α) (ok : GAChoice α → Prop) : GA α → Prop
  | new (ω : Oracle) : Reach env ctx ok (new env ctx ω)
  | step {g g' : GA α} {ch : GAChoice α} (r : Reach env ctx ok g) (hok : ok ch)
      (h : iterate env ctx ch g = some g') : Reach env ctx ok g'

theorem steps_reach {env : GAEnv α} {ctx : Ctx α} {ok : GAChoice α → Prop} :
    ∀ (chs : List (GAChoice α)) {g g' : GA α}, (∀ ch ∈ chs, ok ch) → Reach env ctx ok g →
      steps env ctx chs g = some g' → Reach env ctx ok g'
  | [], g, g', _, r, h => by
    simp only [steps, Option.some.injEq] at h
    exact h ▸ r
  | ch :: chs, g, g', hok, r, h => by
    unfold steps at h
    split at h
    · rw [Option.some.injEq] at h
      exact h ▸ r
    · obtain ⟨g1, h1, h⟩ := Option.bind_eq_some_iff.mp h
      exact steps_reach chs (fun c hc => hok c (by simp [hc])) (r.step (hok ch (by simp)) h1) h

/-- What the branch `Cycle` does to the state and the context's iteration counter. -/
theorem stepCycle_counts {env : GAEnv α} {ctx : Ctx α} {ch : GAChoice α} {g g' : GA α}
    (hs : g.state = .cycle) (h : stepCycle env ctx ch g = some g') :
    g'.ctxIteration = g.ctxIteration + 1 ∧ (g'.state = .cycle ∨ g'.state = .created) ∧
      (g'.state = .created → g'.numInitialized = 0) := by
  unfold stepCycle at h
  obtain ⟨g1, h1, h⟩ := Option.bind_eq_some_iff.mp h
  obtain ⟨g2, h2, h⟩ := Option.bind_eq_some_iff.mp h
  have f := (breed_frame h1).trans (addToPop_frame h2)
  obtain ⟨g3, g4, -, -, w, -, rfl⟩ := finishCycle_some h
  split
  · exact ⟨w.ctxIteration.trans f.ctxIteration, Or.inr rfl, fun _ => rfl⟩
  · have e : g4.state = .cycle := w.state.trans (f.state.trans hs)
    refine ⟨w.ctxIteration.trans f.ctxIteration, Or.inl e, fun hc => ?_⟩
    rw [show g4.state = .created from hc] at e
    simp at e

/-- The branches before the cycle do not count as iterations of the context. -/
theorem step_counts {env : GAEnv α} {ctx : Ctx α} {ch : GAChoice α} {g g' : GA α}
    (hs : g.state ≠ .cycle) (h : iterate env ctx ch g = some g') : g'.ctxIteration = g.ctxIteration := by
  unfold iterate at h
  split at h
  · rw [Option.some.injEq] at h; subst h; rfl
  · split at h
    · unfold stepCreated at h
      split at h
      · obtain ⟨g1, h1, h⟩ := Option.bind_eq_some_iff.mp h
        obtain ⟨g2, h2, h⟩ := Option.bind_eq_some_iff.mp h
        obtain ⟨r, -, rfl⟩ := Option.map_eq_some_iff.mp h
        exact (educate_frame h2).ctxIteration.trans (runSplit_frame h1).ctxIteration
      · rw [Option.some.injEq] at h; subst h; rfl
    · unfold stepElite at h
      split at h
      · obtain ⟨x, -, h⟩ := Option.bind_eq_some_iff.mp h
        obtain ⟨g2, h2, h⟩ := Option.bind_eq_some_iff.mp h
        obtain ⟨-, rfl⟩ := log_some h
        exact (addToPop_frame h2).ctxIteration.trans (updateBest_frame _).ctxIteration
      · obtain ⟨r, -, rfl⟩ := Option.map_eq_some_iff.mp h
        rfl
    · unfold stepInit at h
      split at h
      · obtain ⟨⟨x, g1⟩, h1, h⟩ := Option.bind_eq_some_iff.mp h
        obtain ⟨g2, h2, rfl⟩ := Option.map_eq_some_iff.mp h
        exact (addToPop_frame h2).ctxIteration.trans (createInitial_frame h1).ctxIteration
      · rw [Option.some.injEq] at h; subst h; rfl
    · rename_i e; exact absurd e hs
    · rw [Option.some.injEq] at h; subst h; rfl

/-! ### C42 -/

/-- The states visited by successive `iterate` calls, the first one included. -/
def trace (env : GAEnv α) (ctx : Ctx α) : List (GAChoice α) → GA α → Option (List GAState)
  | [], g => some [g.state]
  | ch :: chs, g => (iterate env ctx ch g).bind fun g' => (trace env ctx chs g').map (g.state :: ·)

end GA

/-- The number of crossover iterations in a list of visited states: calls made in the state `cycle` that
did not find the solver terminated. -/
def Spec.crossovers : List GAState → ℕ
  | s :: t :: l => (if s = .cycle ∧ t ≠ .terminated then 1 else 0) + Spec.crossovers (t :: l)
  | _ => 0

/-- **C42**, first half. When the time limit or the iteration limit is reached, `iterate` only switches to
the state `terminated` (population, history, penalty, counters stay), and in that state every further call
changes nothing. -/
theorem C42_terminates (env : GAEnv α) (ctx : Ctx α) (ch : GAChoice α) (g : GA α) :
    (env.timeLimit ≤ ch.elapsed ∨ (∃ m, env.maxIterations = some m ∧ m ≤ g.ctxIteration) →
      GA.iterate env ctx ch g = some { g with state := .terminated }) ∧
    (g.state = .terminated → GA.iterate env ctx ch g = some g) := by
  constructor
  · intro h
    unfold GA.iterate
    rw [if_pos]
    unfold terminateNow
    rw [Bool.or_eq_true]
    rcases h with h | ⟨m, h1, h2⟩
    · exact Or.inl (by simpa using h)
    · exact Or.inr (by rw [h1]; simpa using h2)
  · intro h
    unfold GA.iterate
    split
    · rw [← h]
    · rw [h]

theorem GA.iterate_cycle {env : GAEnv α} {ctx : Ctx α} {ch : GAChoice α} {g g' : GA α} {m : ℕ}
    (hm : env.maxIterations = some m) (hs : g.state = .cycle)
    (h : GA.iterate env ctx ch g = some g') :
    (g'.state = .terminated ∧ g'.ctxIteration = g.ctxIteration) ∨
    (g'.state ≠ .terminated ∧ g'.ctxIteration = g.ctxIteration + 1 ∧ g'.ctxIteration ≤ m) := by
  unfold GA.iterate at h
  split at h
  · rw [Option.some.injEq] at h; subst h; exact Or.inl ⟨rfl, rfl⟩
  · rename_i hc
    rw [hs] at h
    obtain ⟨e1, e2, -⟩ := stepCycle_counts hs h
    refine Or.inr ⟨by rcases e2 with e | e <;> simp [e], e1, ?_⟩
    unfold terminateNow at hc
    rw [hm] at hc
    simp only [Option.any_some, Bool.or_eq_true, decide_eq_true_eq, not_or, not_le] at hc
    omega

/-- **C42**, second half. With `max_iterations = m`, whatever the clock says, no execution performs more
than `m` crossover iterations. -/
theorem C42_crossover_bound (env : GAEnv α) (ctx : Ctx α) (m : ℕ) (hm : env.maxIterations = some m)
    (ω : Oracle) (chs : List (GAChoice α)) (l : List GAState)
    (h : GA.trace env ctx chs (GA.new env ctx ω) = some l) : Spec.crossovers l ≤ m := by
  have key : ∀ (chs : List (GAChoice α)) (g : GA α) (l : List GAState), g.ctxIteration ≤ m →
      GA.trace env ctx chs g = some l → (∃ t, l = g.state :: t) ∧
      Spec.crossovers l + g.ctxIteration ≤ m := by
    intro chs
    induction chs with
    | nil =>
      intro g l hg h
      simp only [GA.trace, Option.some.injEq] at h
      subst h
      exact ⟨⟨[], rfl⟩, by simpa [Spec.crossovers] using hg⟩
    | cons ch chs ih =>
      intro g l hg h
      unfold GA.trace at h
      obtain ⟨g1, h1, h⟩ := Option.bind_eq_some_iff.mp h
      obtain ⟨l1, h2, rfl⟩ := Option.map_eq_some_iff.mp h
      refine ⟨⟨_, rfl⟩, ?_⟩
      by_cases hs : g.state = .cycle
      · rcases GA.iterate_cycle hm hs h1 with ⟨e1, e2⟩ | ⟨e1, e2, e3⟩
        · obtain ⟨⟨t, rfl⟩, hle⟩ := ih g1 l1 (by omega) h2
          unfold Spec.crossovers
          rw [if_neg (by simp [e1])]
          omega
        · obtain ⟨⟨t, rfl⟩, hle⟩ := ih g1 l1 e3 h2
          unfold Spec.crossovers
          rw [if_pos ⟨hs, e1⟩]
          omega
      · have e := GA.step_counts hs h1
        obtain ⟨⟨t, rfl⟩, hle⟩ := ih g1 l1 (by omega) h2
        unfold Spec.crossovers
        rw [if_neg (by simp [hs])]
        omega
  have := (key chs _ l (Nat.zero_le _) h).2
  simpa [GA.new] using this

/-! ### C55 -/

/-- **C55.** In every reachable state `best_iteration` is at most the iteration counter, so neither the log
nor the stagnation test underflows. -/
theorem C55_best_iteration (env : GAEnv α) (ctx : Ctx α) (ok : GAChoice α → Prop) (g : GA α)
    (h : GA.Reach env ctx ok g) : g.bestIteration ≤ g.iterations := by
  induction h with
  | new ω => exact Nat.le_refl 0
  | step _ _ h ih => exact GA.iterate_booked ih h

/-- **C55**, restart. A cycle breeds a child and inserts it (state `g2`); there `best_iteration` is the old
one or the present iteration. The cycle restarts the search exactly when more than
`max_iterations_without_improvement` iterations lie between the two counters: then both subpopulations are
empty, the numbering starts again, the outcomes count as feasible, every feasible individual will count as
an improvement, the next cycle updates the penalty, and the recorded history and the best solution stay. Otherwise
the loop goes on with the feasible subpopulation as it is. -/
theorem C55_restart (env : GAEnv α) (ctx : Ctx α) (ch : GAChoice α) (g g' : GA α)
    (hs : g.state = .cycle) (h : GA.stepCycle env ctx ch g = some g') :
    ∃ g1 g2, GA.breed env ctx ch { g with ctxIteration := g.ctxIteration + 1 } = some g1 ∧
      GA.addToPop env g1.child true g1 = some g2 ∧
      (g2.bestIteration = g.bestIteration ∨ g2.bestIteration = g.iterations) ∧
      g'.iterations = g.iterations + 1 ∧
      g'.rr.hist = g2.rr.hist ∧ g'.bestSolution = g2.bestSolution ∧
      (g'.state = .created ↔ env.maxStagnation < g.iterations - g2.bestIteration) ∧
      (g'.state = .created → g'.pop.feasible.pop = [] ∧ g'.pop.infeasible.pop = [] ∧
        g'.numInitialized = 0 ∧ g'.bestIteration = g.iterations ∧ g'.currentBest = inf ∧
        g'.nextPenaltyUpdate = g.iterations ∧ g'.pop.history = List.replicate 100 true) ∧
      (g'.state ≠ .created → g'.state = .cycle ∧ g'.bestIteration = g2.bestIteration ∧
        g'.pop.feasible = g2.pop.feasible) := by
  unfold GA.stepCycle at h
  obtain ⟨g1, h1, h⟩ := Option.bind_eq_some_iff.mp h
  obtain ⟨g2, h2, h⟩ := Option.bind_eq_some_iff.mp h
  have f := (GA.breed_frame h1).trans (GA.addToPop_frame h2)
  obtain ⟨g3, g4, u, v, w, hb, rfl⟩ := GA.finishCycle_some h
  have hf : g4.pop.feasible = g2.pop.feasible := by
    have e3 : g3.pop.feasible = g2.pop.feasible := by
      rcases u with rfl | u
      · rfl
      · unfold GA.updatePenalty at u
        obtain ⟨p, hp, rfl⟩ := Option.map_eq_some_iff.mp u
        unfold Population.reprice at hp
        obtain ⟨a, -, hp⟩ := Option.bind_eq_some_iff.mp hp
        obtain ⟨b, -, rfl⟩ := Option.map_eq_some_iff.mp hp
        rfl
    rcases v with rfl | v
    · exact e3
    · obtain ⟨-, rfl⟩ := GA.log_some v
      exact e3
  have hit : g4.iterations = g.iterations := w.iterations.trans f.iterations
  have hst : g4.state = .cycle := w.state.trans (f.state.trans hs)
  refine ⟨g1, g2, h1, h2, f.best, ?_⟩
  have hcond : (env.maxStagnation < g4.iterations - g4.bestIteration) ↔
      env.maxStagnation < g.iterations - g2.bestIteration := by rw [hit, w.best]
  by_cases hc : env.maxStagnation < g4.iterations - g4.bestIteration
  · simp only [if_pos hc]
    refine ⟨by rw [hit], w.hist, w.sol, ⟨fun _ => hcond.mp hc, fun _ => rfl⟩,
      fun _ => ⟨rfl, rfl, rfl, hit, rfl, hit, rfl⟩, fun hn => absurd rfl hn⟩
  · simp only [if_neg hc]
    refine ⟨by rw [hit], w.hist, w.sol, ⟨fun e => ?_, fun hc' => absurd (hcond.mpr hc') hc⟩,
      fun e => ?_, fun _ => ⟨hst, w.best, hf⟩⟩
    · rw [hst] at e; simp at e
    · rw [hst] at e; simp at e

/-! ### C40 (part) -/

/-- The recorded best solution and the individual kept by the genetic algorithm are the same: the last
entry of the history carries its routes and its cost, and without entries there is no individual. -/
def Spec.BestAgrees (h : History α) (b : Option (Individual α)) : Prop :=
  h.entries.getLast? = b.map fun x => ⟨x.phenotype, x.cost⟩

namespace GA

theorem stable_agrees : Stable (fun g : GA α => Spec.BestAgrees g.rr.hist g.bestSolution) where
  ls _ _ _ h := h
  split _ _ _ h := h
  pop _ _ h := h
  child _ _ h := h
  best g h := by
    unfold updateBest
    split
    · dsimp only
      split
      · simp [Spec.BestAgrees, History.add]
      · exact h
    · exact h

end GA

/-- **C40** (part). Without the ruin-and-recreate mutation and without elite education the individual kept
as `best_solution` always is the last recorded solution. Missing: those two options, with which the
ruin-and-recreate search records solutions itself and `best_solution` falls behind
(`GeneticEx.C40_refuted`). -/
theorem C40_best_solution_partial (env : GAEnv α) (ctx : Ctx α) (ok : GAChoice α → Prop)
    (hm : env.rrMutation = false) (he : env.eliteEducation = false) (g : GA α)
    (h : GA.Reach env ctx ok g) : Spec.BestAgrees g.rr.hist g.bestSolution := by
  have hJ := GA.stable_agrees (α := α)
  have key : g.state ≠ .elite ∧ Spec.BestAgrees g.rr.hist g.bestSolution := by
    induction h with
    | new ω => exact ⟨by simp [GA.new], rfl⟩
    | @step g g' ch r hok h ih =>
      obtain ⟨ih1, ih2⟩ := ih
      have hmut : ∀ {w : ℕ} {a b : GA α}, GA.mutate env ctx ch w a = some b →
          Spec.BestAgrees a.rr.hist a.bestSolution → Spec.BestAgrees b.rr.hist b.bestSolution := by
        intro w a b hab ha
        rcases GA.mutate_some hab with rfl | ⟨e, -⟩
        · exact ha
        · simp [hm] at e
      unfold GA.iterate at h
      split at h
      · rw [Option.some.injEq] at h; subst h; exact ⟨by simp, ih2⟩
      · split at h
        · unfold GA.stepCreated at h
          rw [if_neg (by simp [he]), Option.some.injEq] at h
          subst h
          exact ⟨by simp, ih2⟩
        · rename_i e; exact absurd e ih1
        · rename_i e
          unfold GA.stepInit at h
          split at h
          · obtain ⟨⟨x, g1⟩, h1, h⟩ := Option.bind_eq_some_iff.mp h
            obtain ⟨g2, h2, rfl⟩ := Option.map_eq_some_iff.mp h
            have f := (GA.createInitial_frame h1).trans (GA.addToPop_frame h2)
            refine ⟨by rw [show g2.state = g.state from f.state, e]; simp, ?_⟩
            unfold GA.createInitial at h1
            obtain ⟨g3, h3, h1⟩ := Option.bind_eq_some_iff.mp h1
            obtain ⟨g4, h4, e'⟩ := Option.map_eq_some_iff.mp h1
            simp only [Prod.mk.injEq] at e'
            obtain ⟨rfl, rfl⟩ := e'
            have j3 := GA.runSplit_pres hJ h3 ih2
            have j4 := GA.educate_pres hJ hmut h4 j3
            have j5 : Spec.BestAgrees g2.rr.hist g2.bestSolution :=
              GA.addToPop_pres hJ h2 (hJ.child _ g.child j4)
            exact j5
          · rw [Option.some.injEq] at h; subst h; exact ⟨by simp, ih2⟩
        · rename_i e
          obtain ⟨-, e', -⟩ := GA.stepCycle_counts e h
          refine ⟨by rcases e' with e' | e' <;> simp [e'], ?_⟩
          obtain ⟨g1, g2, h1, h2, -, -, e1, e2, -⟩ := C55_restart env ctx ch g g' e h
          rw [e1, e2]
          refine GA.addToPop_pres hJ h2 ?_
          unfold GA.breed at h1
          obtain ⟨p1, -, h1⟩ := Option.bind_eq_some_iff.mp h1
          obtain ⟨p2, -, h1⟩ := Option.bind_eq_some_iff.mp h1
          obtain ⟨c, -, h1⟩ := Option.bind_eq_some_iff.mp h1
          obtain ⟨g3, h3, h1⟩ := Option.bind_eq_some_iff.mp h1
          exact GA.educate_pres hJ hmut h1 (GA.runSplit_pres hJ h3 ih2)
        · rename_i e
          rw [Option.some.injEq] at h
          subst h
          exact ⟨ih1, ih2⟩
  exact key.2

end Verif
