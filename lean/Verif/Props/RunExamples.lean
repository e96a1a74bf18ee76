import Verif.Props.BestKept
import Verif.Props.GeneticExamples
import Verif.Props.PenaltyTimes
import Verif.Props.Progress

/-!
# A run of the genetic algorithm, evaluated in the kernel

Concrete cases for the theorems about runs: an instance on which the local search prefers overloaded
routes, so that both subpopulations fill, repairs happen, the penalty moves, the population restarts and
the iteration limit ends the run.
-/

namespace Verif
open F64

namespace RunEx

/-- Customer 3 has demand 2, the others 1; the vehicles hold 2; customers 2 and 3 are neighbours. -/
def ctx : Ctx ℚ where
  n := 4
  dist a b := if a = b then 0 else if a = 0 ∨ b = 0 then 3 else if a = 1 ∨ b = 1 then 5 else 1
  demand c := if c = 0 then 0 else if c = 3 then 2 else 1
  cap := 2
  pen := 3
  lng c := c
  lat c := c

/-- Two vehicles, all moves of the local search, repair and ruin and recreate half of the time, a penalty
update every second iteration, a restart after two iterations without improvement, six iterations. -/
def env : GAEnv ℚ := { GeneticEx.env with
  rr := { GeneticEx.env.rr with numVehicles := 2 }
  split := ⟨true, 1.5, 2⟩
  lowerBound := 2
  initialPen := 3
  rrProbability := 1 / 2
  penaltyInterval := 2
  maxStagnation := 1
  maxIterations := some 6
  lsEnabled := true
  moves := ⟨true, true, true, true, true, true, true, true, true, true⟩ }

def ch (i : ℕ) : GAChoice ℚ := { GeneticEx.choice (1000 + 37 * i) (5 + 7 * i) with fuel := 40 }

theorem ch_ok (i : ℕ) : GA.ChOK (ch i) := fun _ _ _ l => List.Perm.refl l

theorem small {x : ℚ} (h : x ≤ 2 ^ 40) {k : ℕ} (hk : 40 ≤ k) : x ≤ 2 ^ k :=
  h.trans (pow_le_pow_right₀ (by norm_num) hk)

theorem dist_mem (a b : ℕ) : 0 ≤ ctx.dist a b ∧ ctx.dist a b ≤ 5 := by
  simp only [ctx]
  split
  · norm_num
  · split
    · norm_num
    · split <;> norm_num

theorem demand_mem (c : ℕ) : 0 ≤ ctx.demand c ∧ ctx.demand c ≤ 2 := by
  simp only [ctx]
  split
  · norm_num
  · split <;> norm_num

theorem valid : GA.Valid env ctx where
  n := by decide
  dist a b := ⟨(dist_mem a b).1, (dist_mem a b).2.trans (small (by norm_num) (by norm_num))⟩
  fleet := by decide
  bound := by decide
  vehicles := rfl
  bs := bsearchNew_ok
  sort := GeneticEx.valid.sort
  pen := by norm_num [env]
  mult := by norm_num [env, GeneticEx.env]
  lim := le_refl _
  mag := fun _ => by
    refine ⟨5, 2, dist_mem, demand_mem, ?_, ?_⟩
    · norm_num [RR.ctxAt]
    · norm_num [RR.ctxAt, ctx]
  nbr := by
    have h := GeneticEx.valid.nbr
    exact ⟨by decide, by decide, h.len, h.nbr, h.cust⟩

/-- The state after `k` calls of `iterate`. -/
def after : ℕ → Option (GA ℚ)
  | 0 => some (GA.new env ctx fun _ => 0)
  | k + 1 => (after k).bind (GA.iterate env ctx (ch k))

theorem after_reach : ∀ {k : ℕ} {g : GA ℚ}, after k = some g → GA.Reach env ctx GA.ChOK g
  | 0, g, h => by
    simp only [after, Option.some.injEq] at h
    exact h ▸ .new _
  | k + 1, g, h => by
    obtain ⟨g0, h0, h1⟩ := Option.bind_eq_some_iff.mp h
    exact (after_reach h0).step (ch_ok k) h1

/-- State, iterations, penalty, the two subpopulations, the feasible outcomes in the record, the routes of
the child, whether there is a best solution, and what the history holds. -/
structure View where
  state : GAState
  iterations : ℕ
  pen : ℚ
  feasible : List (List (List ℕ))
  infeasible : List (List (List ℕ))
  outcomes : ℕ
  child : List (List ℕ)
  best : Option (List (List ℕ))
  recorded : List (List (List ℕ) × ℚ)
deriving DecidableEq

def view (g : GA ℚ) : View :=
  ⟨g.state, g.iterations, g.rr.pen, g.pop.feasible.pop.map (·.phenotype),
    g.pop.infeasible.pop.map (·.phenotype), g.pop.history.count true, g.child.phenotype,
    g.bestSolution.map (·.phenotype), g.rr.hist.entries.map fun e => (e.routes, e.cost)⟩

/-- The first call only leaves the state `created`. -/
theorem view1 : (after 1).map view = some (View.mk .init 0 3 [] [] 100 [[], []] none []) := by
  decide +kernel

/-- The first individual is infeasible; its repaired copy is feasible and the first recorded solution. -/
theorem view2 : (after 2).map view = some (View.mk .init 0 3 [[[3], [2, 1]]] [[[1], [2, 3]]] 99 [[], []] (some [[3], [2, 1]]) [([[3], [2, 1]], 17)]) := by
  decide +kernel

/-- The second individual and its repaired copy. -/
theorem view3 : (after 3).map view = some (View.mk .init 0 3 [[[1, 2], [3]], [[3], [2, 1]]] [[[3, 2], [1]], [[1], [2, 3]]] 98 [[], []] (some [[3], [2, 1]]) [([[3], [2, 1]], 17)]) := by
  decide +kernel

/-- Initialization is over. -/
theorem view4 : (after 4).map view = some (View.mk .cycle 0 3 [[[1, 2], [3]], [[3], [2, 1]]] [[[3, 2], [1]], [[1], [2, 3]]] 98 [[], []] (some [[3], [2, 1]]) [([[3], [2, 1]], 17)]) := by
  decide +kernel

/-- The first iteration updates the penalty; its child is an infeasible copy that survivor selection removes. -/
theorem view5 : (after 5).map view = some (View.mk .cycle 1 (51 / 20) [[[1, 2], [3]], [[3], [2, 1]]] [[[3, 2], [1]], [[1], [2, 3]]] 97 [[1], [3, 2]] (some [[3], [2, 1]]) [([[3], [2, 1]], 17)]) := by
  decide +kernel

/-- The second does not. -/
theorem view6 : (after 6).map view = some (View.mk .cycle 2 (51 / 20) [[[1, 2], [3]], [[3], [2, 1]]] [[[3, 2], [1]], [[1], [2, 3]]] 96 [[2, 3], [1]] (some [[3], [2, 1]]) [([[3], [2, 1]], 17)]) := by
  decide +kernel

/-- The third updates the penalty and restarts. -/
theorem view7 : (after 7).map view = some (View.mk .created 3 (867 / 400) [] [] 100 [[1], [3, 2]] (some [[3], [2, 1]]) [([[3], [2, 1]], 17)]) := by
  decide +kernel

/-- The iteration limit ends the run. -/
theorem view15 : (after 15).map view = some (View.mk .terminated 6 (250563 / 160000) [] [] 100 [[1], [3, 2]] (some [[3], [2, 1]]) [([[3], [2, 1]], 17)]) := by
  decide +kernel

/-- The state after `k` calls, its successor and their views. -/
theorem at_step {k : ℕ} {v v' : View} (h : (after k).map view = some v)
    (h' : (after (k + 1)).map view = some v') : ∃ g g', after k = some g ∧ GA.Reach env ctx GA.ChOK g ∧
      GA.iterate env ctx (ch k) g = some g' ∧ view g = v ∧ view g' = v' := by
  obtain ⟨g, hg, rfl⟩ := Option.map_eq_some_iff.mp h
  obtain ⟨g', hg', rfl⟩ := Option.map_eq_some_iff.mp h'
  refine ⟨g, g', hg, after_reach hg, ?_, rfl, rfl⟩
  rw [after, hg, Option.bind_some] at hg'
  exact hg'

/-- `C37_penalty_moves` at the first iteration: 97 of the last 100 outcomes are feasible, more than the
target of a quarter, and the penalty falls from 3 to 2.55. -/
example : ∃ g g', GA.Reach env ctx GA.ChOK g ∧ GA.iterate env ctx (ch 4) g = some g' ∧
    g.rr.pen = 3 ∧ g'.rr.pen = 51 / 20 ∧
    Spec.PenaltyRule (1 / 4) (6 / 5) (17 / 20) (97 / 100) (3 : ℚ) (51 / 20) := by
  obtain ⟨g, g', -, hr, hi, e, e'⟩ := at_step view4 view5
  simp only [view, View.mk.injEq] at e e'
  obtain ⟨e1, e2, e3, -⟩ := e
  obtain ⟨f1, f2, f3, -, -, f6, -⟩ := e'
  obtain ⟨-, hh, hp, -⟩ := C37_penalty_moves env ctx valid g g' hr e1 (ch 4) (ch_ok 4) hi (by simp [f1]) _ rfl
  refine ⟨g, g', hr, hi, e3, f3, ?_⟩
  rw [← hh f1, f6, e3, f3] at hp
  rcases hp with ⟨-, hp⟩ | ⟨-, hp⟩
  · norm_num at hp
  · have h1 : env.rr.incMultiplier = 6 / 5 := by norm_num [env, GeneticEx.env]
    have h2 : env.rr.decMultiplier = 17 / 20 := by norm_num [env, GeneticEx.env]
    rw [h1, h2] at hp
    exact_mod_cast hp

/-- `C37_penalty_range` after that iteration. -/
example : ∃ g, GA.Reach env ctx GA.ChOK g ∧ g.rr.pen = 51 / 20 ∧ 1 / 10000 ≤ g.rr.pen ∧ g.rr.pen ≤ 10000000 := by
  obtain ⟨g, g', -, hr, hi, e, -⟩ := at_step view5 view6
  simp only [view, View.mk.injEq] at e
  exact ⟨g, hr, e.2.2.1, C37_penalty_range env ctx valid g hr (.inr (.inr e.1))⟩

/-- `C37_initial_outcomes` for the second individual: one more infeasible outcome. -/
example : ∃ g g' x g1, GA.iterate env ctx (ch 2) g = some g' ∧ GA.createInitial env ctx (ch 2) g = some (x, g1) ∧
    g'.pop.history = (g.pop.history ++ [x.isFeasible]).drop 1 ∧ g'.pop.history.count true = 98 := by
  obtain ⟨g, g', hg, hr, hi, e, e'⟩ := at_step view2 view3
  simp only [view, View.mk.injEq] at e e'
  have hn : (after 2).map (·.numInitialized) = some 1 := by decide +kernel
  rw [hg, Option.map_some, Option.some.injEq] at hn
  obtain ⟨x, g1, h1, h2, -⟩ := (C37_initial_outcomes env ctx (ch 2) g g' hi (by simp [e'.1])).2.2.2 e.1
    (by rw [hn]; decide)
  exact ⟨g, g', x, g1, hi, h1, h2, e'.2.2.2.2.2.1⟩

/-- `C35_any_pair`: the feasible 1-2, 3 and the infeasible 1, 2-3 can be the parents of the first child. -/
example : ∃ (g : GA ℚ) (x y : Individual ℚ), GA.Reach env ctx GA.ChOK g ∧ x.phenotype = [[1, 2], [3]] ∧ y.phenotype = [[1], [2, 3]] ∧
    ∃ ω : Oracle, GA.breed env ctx { ch 4 with ω := ω } g =
      (crossover (fun i => i) 40 x.genotype y.genotype).bind fun genotype =>
        (GA.runSplit env ctx x.numNonemptyRoutes
          { g with child := Individual.new genotype g.pop.total }).bind
          (GA.educate env ctx { ch 4 with ω := ω } fun _ => 0) := by
  obtain ⟨g, g', hg, hr, hi, e, -⟩ := at_step view4 view5
  simp only [view, View.mk.injEq] at e
  obtain ⟨x, hx, hxp⟩ := List.mem_map.mp (show [[1, 2], [3]] ∈ g.pop.feasible.pop.map (·.phenotype) by
    rw [e.2.2.2.1]; simp)
  obtain ⟨y, hy, hyp⟩ := List.mem_map.mp (show [[1], [2, 3]] ∈ g.pop.infeasible.pop.map (·.phenotype) by
    rw [e.2.2.2.2.1]; simp)
  exact ⟨g, x, y, hr, hxp, hyp, C35_any_pair env ctx (ch 4) g x y (List.mem_append_left _ hx)
    (List.mem_append_right _ hy) (by decide) (fun i => i) fun _ => 0⟩

/-- `C39_reported_solution` and `C40_best_recorded_partial` at the end of the run. -/
example : ∃ g e, GA.Reach env ctx GA.ChOK g ∧ g.state = .terminated ∧ g.rr.hist.entries.getLast? = some e ∧
    e.routes = [[3], [2, 1]] ∧ Spec.CapFeasible ctx.demand ctx.cap (1 / 1000000) e.routes ∧
    (∃ b, g.bestSolution = some b ∧ b.phenotype = [[3], [2, 1]] ∧ ⟨b.phenotype, b.cost⟩ ∈ g.rr.hist.log) := by
  obtain ⟨g, hg, e⟩ := Option.map_eq_some_iff.mp view15
  have hr := after_reach hg
  simp only [view, View.mk.injEq] at e
  obtain ⟨e1, -, -, -, -, -, -, e8, e9⟩ := e
  obtain ⟨b, hb, hbp⟩ := Option.map_eq_some_iff.mp e8
  obtain ⟨e, he, hee⟩ := List.map_eq_singleton_iff.mp e9
  have hl : g.rr.hist.entries.getLast? = some e := by rw [he]; rfl
  exact ⟨g, e, hr, e1, hl, (Prod.mk.inj hee).1, (C39_reported_solution env ctx valid g hr e hl).2.2.1,
    b, hb, hbp, (C40_best_recorded_partial env ctx valid g hr b hb).1⟩

/-- `C40_best_solution_partial` without ruin and recreate: best solution and history agree and are not
empty after the first individual. -/
example : ∃ g, GA.Reach { env with rrMutation := false } ctx GA.ChOK g ∧ g.bestSolution.isSome = true ∧
    Spec.BestAgrees g.rr.hist g.bestSolution := by
  have h : (GA.steps { env with rrMutation := false } ctx [ch 0, ch 1]
      (GA.new { env with rrMutation := false } ctx fun _ => 0)).map (fun g => g.bestSolution.isSome) =
      some true := by decide +kernel
  obtain ⟨g, hg, e⟩ := Option.map_eq_some_iff.mp h
  have hr : GA.Reach { env with rrMutation := false } ctx GA.ChOK g := GA.steps_reach _ (fun c hc => by
    simp only [List.mem_cons, List.not_mem_nil, or_false] at hc
    rcases hc with rfl | rfl <;> exact ch_ok _) (.new _) hg
  exact ⟨g, hr, e, C40_best_solution_partial _ ctx GA.ChOK rfl rfl g hr⟩

theorem trace15 : (GA.trace env ctx ((List.range 15).map ch) (GA.new env ctx fun _ => 0)).map
    (fun l => (l.getLast?, Spec.crossovers l)) = some (some .terminated, 6) := by decide +kernel

/-- `C42_terminates` and `C42_crossover_bound`: the run makes the six crossovers it may. -/
example : ∃ l, GA.trace env ctx ((List.range 15).map ch) (GA.new env ctx fun _ => 0) = some l ∧
    l.getLast? = some .terminated ∧ Spec.crossovers l = 6 ∧ Spec.crossovers l ≤ 6 := by
  obtain ⟨l, hl, e⟩ := Option.map_eq_some_iff.mp trace15
  simp only [Prod.mk.injEq] at e
  have hb := C42_crossover_bound env ctx 6 rfl (fun _ => 0) ((List.range 15).map ch) l hl
  exact ⟨l, hl, e.1, e.2, hb⟩

/-- `C55_restart` at the third iteration: two iterations without improvement. -/
example : ∃ g g' g2 : GA ℚ, GA.Reach env ctx GA.ChOK g ∧ GA.stepCycle env ctx (ch 6) g = some g' ∧
    g'.state = .created ∧ env.maxStagnation < g.iterations - g2.bestIteration ∧ g'.bestIteration = 2 ∧
    g'.rr.hist = g2.rr.hist ∧ g'.bestSolution.isSome = true ∧ g'.pop.feasible.pop = [] := by
  obtain ⟨g, g', hg, hr, hi, e, e'⟩ := at_step view6 view7
  simp only [view, View.mk.injEq] at e e'
  have hs : GA.stepCycle env ctx (ch 6) g = some g' := by
    unfold GA.iterate at hi
    split at hi
    · simp only [Option.some.injEq] at hi
      rw [← hi] at e'
      simp at e'
    · rw [e.1] at hi
      exact hi
  obtain ⟨g1, g2, -, -, -, -, h5, -, h7, h8, -⟩ := C55_restart env ctx (ch 6) g g' e.1 hs
  obtain ⟨k1, -, -, k4, -⟩ := h8 e'.1
  refine ⟨g, g', g2, hr, hs, e'.1, h7.mp e'.1, by rw [k4, e.2.1], h5, ?_, k1⟩
  rw [← Option.isSome_map (f := (·.phenotype)), e'.2.2.2.2.2.2.2.1]
  rfl

/-- `C55_best_iteration` after the restart. -/
example : ∃ g, GA.Reach env ctx GA.ChOK g ∧ g.iterations = 3 ∧ g.bestIteration ≤ g.iterations := by
  obtain ⟨g, hg, e⟩ := Option.map_eq_some_iff.mp view7
  simp only [view, View.mk.injEq] at e
  exact ⟨g, after_reach hg, e.2.1, C55_best_iteration env ctx GA.ChOK g (after_reach hg)⟩

/-- `C68_penalty_times` at the second iteration: no update is due, the penalty stays. -/
example : ∃ g g' s, GA.Run env ctx GA.ChOK s g ∧ GA.iterate env ctx (ch 5) g = some g' ∧ g.iterations = 1 ∧
    ¬ Spec.PenaltyDue env.penaltyInterval none g.iterations ∧ g'.rr.pen = g.rr.pen := by
  obtain ⟨g, g', hg, hr, hi, e, e'⟩ := at_step view5 view6
  simp only [view, View.mk.injEq] at e e'
  obtain ⟨s, hs⟩ := hr.run
  refine ⟨g, g', s, hs, hi, e.2.1, ?_, by rw [e.2.2.1, e'.2.2.1]⟩
  rw [e.2.1]
  show ¬ 2 ∣ 1
  decide

theorem sym (a b : ℕ) : ctx.dist a b = ctx.dist b a := by
  simp only [ctx]
  by_cases h : a = b
  · rw [if_pos h, if_pos h.symm]
  · rw [if_neg h, if_neg (Ne.symm h)]
    simp only [or_comm]

theorem robust : GA.Robust env ctx 10000000 where
  n := by decide
  sym := sym
  depot := rfl
  tame := {
    dist := fun a b => ⟨(dist_mem a b).1, (dist_mem a b).2.trans (small (by norm_num) (by norm_num))⟩
    demand := fun c => (demand_mem c).1
    cap := by norm_num [RR.ctxAt, ctx]
    pen := by norm_num [RR.ctxAt]
    bound := by
      refine small ?_ (by norm_num)
      have : Spec.routeLoad ctx.demand (Spec.customers 4) = 4 := by decide +kernel
      show Spec.routeLoad ctx.demand (Spec.customers 4) * 10000000 ≤ _
      rw [this]
      norm_num }
  nbrs := ProgressEx.robust.nbrs
  sort l := ⟨l, rfl⟩
  closest := by decide
  minSize := by decide
  tournament := by decide
  initial := by decide
  elite h := by simp [env, GeneticEx.env] at h

theorem fair (i : ℕ) (hi : i < 7) : GA.Fair ctx.n (ch i) := by
  have : ∀ i < 7, ∃ k < 10, 1 ≤ k ∧ (ch i).ω.sub 2 k % 3 ≠ (ch i).ω.sub 2 0 % 3 := by decide +kernel
  obtain ⟨k, -, h⟩ := this i hi
  exact ⟨k, h⟩

/-- `C63_call_returns_partial`: the iteration after the first one returns for every large fuel. -/
example : ∃ g g' N, GA.Reach env ctx GA.ChOK g ∧ g.iterations = 1 ∧
    ∀ f, N ≤ f → GA.iterate env ctx { ch 5 with fuel := f } g = some g' := by
  obtain ⟨g, hg, e⟩ := Option.map_eq_some_iff.mp view5
  simp only [view, View.mk.injEq] at e
  obtain ⟨g', N, h⟩ := C63_call_returns_partial env ctx valid robust g (after_reach hg) (ch 5) (ch_ok 5)
    (fair 5 (by norm_num))
  exact ⟨g, g', N, after_reach hg, e.2.1, h⟩

/-- The last call comes after the time limit. -/
def late : GAChoice ℚ := { ch 6 with elapsed := 100 }

/-- `C64_time_limit`: the time limit ends the run in the middle of the iterations. -/
example : ∃ g N, g.state = .terminated ∧ ∀ f, N ≤ f →
    GA.steps env ctx (((List.range 6).map ch ++ [late]).map fun c => { c with fuel := f })
      (GA.new env ctx fun _ => 0) = some g := by
  refine C64_time_limit env ctx valid robust _ ((List.range 6).map ch) late (fun c hc => ?_) (by decide)
  rcases List.mem_append.mp hc with h | h
  · obtain ⟨i, hi, rfl⟩ := List.mem_map.mp h
    exact ⟨ch_ok i, fair i (by have := List.mem_range.mp hi; omega)⟩
  · rw [List.mem_singleton.mp h]
    exact ⟨fun _ _ _ l => List.Perm.refl l, fair 6 (by norm_num)⟩

end RunEx
end Verif
