import Verif.Lemmas.GeneticInv

/-!
# C37, C38, C39: penalty and search history over whole runs

Exact arithmetic. Every statement is about all states reachable from a new solver by `iterate` calls, for
all random draws, hash orders and clock readings. `GA.Valid` collects what is asked of instance and
configuration.
-/

namespace Verif
open F64

namespace GA

variable {env : GAEnv ℚ} {ctx : Ctx ℚ}

theorem Reach.inv (hv : Valid env ctx) {g : GA ℚ} (h : Reach env ctx ChOK g) :
    Inv env ctx 10000000 g ∧ HistRun (0 < ·) ctx env.split.numVehicles History.new g.rr.hist ∧ BestIn none g := by
  induction h with
  | new ω => exact ⟨new_inv hv ω, .refl _, fun b hb => by simp [GA.new] at hb, fun c e => by simp at e⟩
  | step r hok h ih =>
    obtain ⟨i, hh, hb⟩ := iterate_inv hv hok ih.1 h
    exact ⟨i, ih.2.1.trans hh, hb _ ih.2.2⟩

end GA

/-! ### C38, C39 -/

/-- Costs recorded one after the other, each cheaper than all before it by more than `tol`. -/
def Spec.Improving (tol : ℚ) (costs : List ℚ) : Prop := costs.Pairwise fun a b => b < a - tol

/-- The facts about a history written properly. -/
theorem HistRun.facts {P : ℚ → Prop} {ctx : Ctx ℚ} {nv : ℕ} {h : History ℚ}
    (r : HistRun P ctx nv History.new h) :
    Spec.Improving (1 / 1000000) (h.log.map (·.cost)) ∧
    (∀ e ∈ h.log, h.bestCost ≤ e.cost) ∧
    h.log.getLast?.map (·.cost) = (if h.log = [] then none else some h.bestCost) ∧
    (h.log = [] → h.bestCost = inf) ∧
    h.entries.map (·.cost) = h.log.map (·.cost) ∧ h.entries.getLast? = h.log.getLast? ∧
    (∀ e ∈ h.entries.dropLast, e.routes = []) ∧
    ∀ e ∈ h.log, ∃ pen, P pen ∧ ∃ x : Individual ℚ, x.Good (RR.ctxAt ctx pen) ∧ x.isFeasible = true ∧
      x.phenotype.length = nv ∧ e = ⟨x.phenotype, x.cost⟩ := by
  generalize h0 : (History.new : History ℚ) = a at r
  induction r with
  | refl =>
    subst h0
    simp [History.new, Spec.Improving]
  | @step h' pen x r hp hx hf hl hc ih =>
    obtain ⟨i1, i2, i3, i4, i5, i6, i7, i8⟩ := ih
    rw [rat_approxLt, decide_eq_true_eq] at hc
    refine ⟨?_, ?_, ?_, ?_, ?_, ?_, ?_, ?_⟩
    · unfold Spec.Improving at *
      simp only [History.add, List.map_append, List.map_cons, List.map_nil]
      rw [List.pairwise_append]
      refine ⟨i1, List.pairwise_singleton _ _, ?_⟩
      intro c hc' d hd
      obtain ⟨e, he, rfl⟩ := List.mem_map.mp hc'
      simp only [List.mem_singleton] at hd
      subst hd
      have := i2 e he
      linarith
    · intro e he
      simp only [History.add, List.mem_append, List.mem_singleton] at he
      rcases he with he | rfl
      · have := i2 e he
        simp only [History.add]
        linarith
      · exact le_refl _
    · simp [History.add]
    · simp [History.add]
    · simp only [History.add, List.map_append, List.map_cons, List.map_nil]
      rw [← i5]
      congr 1
      unfold History.removePreviousData
      split
      · rfl
      · rename_i e he
        obtain ⟨ys, hys⟩ := List.getLast?_eq_some_iff.mp he
        rw [hys]
        simp
    · simp [History.add]
    · intro e he
      simp only [History.add, List.dropLast_concat] at he
      unfold History.removePreviousData at he
      split at he
      · rename_i hn
        rw [List.getLast?_eq_none_iff] at hn
        rw [hn] at he
        simp at he
      · rw [List.mem_append, List.mem_singleton] at he
        rcases he with he | rfl
        · exact i7 e he
        · rfl
    · intro e he
      simp only [History.add, List.mem_append, List.mem_singleton] at he
      rcases he with he | rfl
      · exact i8 e he
      · exact ⟨pen, hp, x, hx, hf, hl, rfl⟩

/-- The stored entries of a history written properly. -/
theorem HistRun.shape {P : ℚ → Prop} {ctx : Ctx ℚ} {nv : ℕ} {h : History ℚ}
    (r : HistRun P ctx nv History.new h) :
    Spec.Improving (1 / 1000000) (h.entries.map (·.cost)) ∧
    (h.entries = [] → h.bestCost = inf) ∧
    (∀ e, h.entries.getLast? = some e → e.cost = h.bestCost) ∧
    (∀ e ∈ h.entries.dropLast, e.routes = []) ∧
    h.entries.map (·.cost) = h.log.map (·.cost) ∧
    h.entries.getLast? = h.log.getLast? := by
  obtain ⟨h1, -, h3, h4, h5, h6, h7, -⟩ := r.facts
  have hnil : h.entries = [] → h.log = [] := fun e => by
    rw [e] at h5
    simpa using h5.symm
  refine ⟨h5 ▸ h1, fun e => h4 (hnil e), fun e he => ?_, h7, h5, h6⟩
  rw [h6] at he
  rw [he] at h3
  split at h3
  · rename_i hn
    rw [hn] at he
    simp at he
  · simpa using h3

/-- What is known of every recorded solution. -/
theorem HistRun.recorded {ctx : Ctx ℚ} {nv : ℕ} {h : History ℚ}
    (r : HistRun (0 < ·) ctx nv History.new h) (e : HistEntry ℚ) (he : e ∈ h.log) :
    Spec.IsPartition ctx.n e.routes ∧ e.routes.length = nv ∧
    Spec.CapFeasible ctx.demand ctx.cap (1 / 1000000) e.routes ∧
    (∃ pen, 0 < pen ∧ e.cost = Spec.solCost ctx.dist ctx.demand ctx.cap pen e.routes) ∧
    (Spec.CapFeasible ctx.demand ctx.cap 0 e.routes →
      e.cost = (e.routes.map (Spec.routeDist ctx.dist)).sum) := by
  obtain ⟨-, -, -, -, -, -, -, h8⟩ := r.facts
  obtain ⟨pen, hp, x, hx, hf, hl, rfl⟩ := h8 e he
  refine ⟨hx.part, hl, hx.feasible.mp hf, ⟨pen, hp, hx.cost⟩, fun hc => ?_⟩
  show x.cost = _
  rw [hx.cost]
  unfold Spec.solCost
  congr 1
  refine List.map_congr_left fun r hr => ?_
  have := hc r hr
  unfold Spec.routeCost
  rw [max_eq_left (by rw [add_zero] at this; show Spec.routeLoad ctx.demand r - ctx.cap ≤ 0; linarith)]
  show Spec.routeDist ctx.dist r + pen * 0 = _
  ring

/-- **C38.** At every point of every run: the recorded costs improve by more than `10⁻⁶` each time, the
recorded best cost is the cost of the last entry (`∞` before the first), all entries but the last have lost
their routes, and the last one still has the routes it was recorded with (`log` is the ghost list of
everything recorded). -/
theorem C38_history_improves (env : GAEnv ℚ) (ctx : Ctx ℚ) (hv : GA.Valid env ctx) (g : GA ℚ)
    (h : GA.Reach env ctx GA.ChOK g) :
    Spec.Improving (1 / 1000000) (g.rr.hist.entries.map (·.cost)) ∧
    (g.rr.hist.entries = [] → g.rr.hist.bestCost = inf) ∧
    (∀ e, g.rr.hist.entries.getLast? = some e → e.cost = g.rr.hist.bestCost) ∧
    (∀ e ∈ g.rr.hist.entries.dropLast, e.routes = []) ∧
    g.rr.hist.entries.map (·.cost) = g.rr.hist.log.map (·.cost) ∧
    g.rr.hist.entries.getLast? = g.rr.hist.log.getLast? :=
  (h.inv hv).2.1.shape

/-- **C39.** Everything ever recorded in the search history, by the genetic algorithm or by ruin and
recreate, at any point of any run: visits every customer exactly once with `num_vehicles` (possibly empty)
routes, exceeds the capacity on no route by more than `10⁻⁶`, and its recorded cost is its true penalized
cost at a positive penalty — the plain total length if no route is above the capacity. -/
theorem C39_recorded_feasible (env : GAEnv ℚ) (ctx : Ctx ℚ) (hv : GA.Valid env ctx) (g : GA ℚ)
    (h : GA.Reach env ctx GA.ChOK g) (e : HistEntry ℚ) (he : e ∈ g.rr.hist.log) :
    Spec.IsPartition ctx.n e.routes ∧ e.routes.length = env.split.numVehicles ∧
    Spec.CapFeasible ctx.demand ctx.cap (1 / 1000000) e.routes ∧
    (∃ pen, 0 < pen ∧ e.cost = Spec.solCost ctx.dist ctx.demand ctx.cap pen e.routes) ∧
    (Spec.CapFeasible ctx.demand ctx.cap 0 e.routes →
      e.cost = (e.routes.map (Spec.routeDist ctx.dist)).sum) :=
  (h.inv hv).2.1.recorded e he

/-- **C39** at the end of a run: the solution reported (`SearchHistory::last_entry`) is the last recorded
one, so all of `C39_recorded_feasible` holds of it, and no recorded solution was cheaper. -/
theorem C39_reported_solution (env : GAEnv ℚ) (ctx : Ctx ℚ) (hv : GA.Valid env ctx) (g : GA ℚ)
    (h : GA.Reach env ctx GA.ChOK g) (e : HistEntry ℚ) (he : g.rr.hist.entries.getLast? = some e) :
    Spec.IsPartition ctx.n e.routes ∧ e.routes.length = env.split.numVehicles ∧
    Spec.CapFeasible ctx.demand ctx.cap (1 / 1000000) e.routes ∧ ∀ e' ∈ g.rr.hist.log, e.cost ≤ e'.cost := by
  obtain ⟨-, hh, -⟩ := h.inv hv
  obtain ⟨-, h2, -, -, -, h6, -, -⟩ := hh.facts
  obtain ⟨-, -, c3, -⟩ := C38_history_improves env ctx hv g h
  have hm : e ∈ g.rr.hist.log := List.mem_of_getLast? (by rw [← h6]; exact he)
  obtain ⟨a, b, c, -⟩ := C39_recorded_feasible env ctx hv g h e hm
  exact ⟨a, b, c, fun e' he' => by rw [c3 e he]; exact h2 e' he'⟩

/-- **C40**, what holds with all options: the individual kept as `best_solution` is one of the recorded
solutions, and the recorded best is at most as expensive. Missing: that it is the recorded best
(`GeneticEx.C40_refuted`). -/
theorem C40_best_recorded_partial (env : GAEnv ℚ) (ctx : Ctx ℚ) (hv : GA.Valid env ctx) (g : GA ℚ)
    (h : GA.Reach env ctx GA.ChOK g) (b : Individual ℚ) (hb : g.bestSolution = some b) :
    ⟨b.phenotype, b.cost⟩ ∈ g.rr.hist.log ∧ g.rr.hist.bestCost ≤ b.cost :=
  (h.inv hv).2.2.1 b hb

/-! ### C37 -/

/-- The rule for the capacity penalty: raised below the target fraction of feasible individuals, lowered
above it, with a tolerance of 0.05, and kept within `[0.0001, 10000000]`. -/
structure Spec.PenaltyRule (target inc dec fraction p p' : ℚ) : Prop where
  below : fraction < target - 1 / 20 → p' = max (1 / 10000) (min 10000000 (p * inc))
  above : target + 1 / 20 < fraction → p' = max (1 / 10000) (min 10000000 (p * dec))
  between : target - 1 / 20 ≤ fraction → fraction ≤ target + 1 / 20 →
    p' = max (1 / 10000) (min 10000000 p)

theorem GA.nextPenalty_rule (env : GAEnv ℚ) (f p : ℚ) :
    Spec.PenaltyRule env.target env.rr.incMultiplier env.rr.decMultiplier f p (nextPenalty env f p) := by
  have e1 : ((0.05 : ℚ)) = 1 / 20 := by norm_num
  have e2 : ((0.0001 : ℚ)) = 1 / 10000 := by norm_num
  constructor
  · intro h
    unfold nextPenalty
    simp only [rat_lt, rat_sub, rat_add, rat_lit, rat_mul, rat_max, rat_min, e1, e2]
    rw [if_pos (by simpa using h)]
  · intro h
    unfold nextPenalty
    simp only [rat_lt, rat_sub, rat_add, rat_lit, rat_mul, rat_max, rat_min, e1, e2, decide_eq_true_eq]
    by_cases h2 : f < env.target - 1 / 20
    · exact absurd h2 (by linarith)
    · rw [if_neg h2, if_pos h]
  · intro h1 h2
    unfold nextPenalty
    simp only [rat_lt, rat_sub, rat_add, rat_lit, rat_mul, rat_max, rat_min, e1, e2, decide_eq_true_eq]
    rw [if_neg (by linarith), if_neg (by linarith)]

namespace GA

section
variable {α : Type} [F64 α] {env : GAEnv α} {ctx : Ctx α}

theorem add_history {cfg : PopCfg} {bs : BSearch} {x : Individual α} {u : Bool} {p p' : Population α}
    (h : p.add cfg bs x u = some p') :
    p'.history = if u then (p.history ++ [x.isFeasible]).drop 1 else p.history := by
  unfold Population.add at h
  dsimp only at h
  split at h
  · obtain ⟨s, -, rfl⟩ := Option.map_eq_some_iff.mp h
    rfl
  · obtain ⟨s, -, rfl⟩ := Option.map_eq_some_iff.mp h
    rfl

theorem localSearch_history {ω : Oracle} {fuel : ℕ} {factor : α} {g g' : GA α}
    (h : localSearch env ctx ω fuel factor g = some g') : g'.pop.history = g.pop.history := by
  unfold localSearch at h
  split at h
  · obtain ⟨p, -, rfl⟩ := Option.map_eq_some_iff.mp h
    rfl
  · rw [Option.some.injEq] at h
    rw [h]

theorem educate_history {ch : GAChoice α} {ω : Oracle} {g g' : GA α}
    (h : educate env ctx ch ω g = some g') : g'.pop.history = g.pop.history := by
  unfold educate at h
  obtain ⟨g1, h1, h⟩ := Option.bind_eq_some_iff.mp h
  obtain ⟨g2, h2, h⟩ := Option.bind_eq_some_iff.mp h
  obtain ⟨g3, h3, rfl⟩ := Option.map_eq_some_iff.mp h
  have e1 := localSearch_history h1
  have e2 : g2.pop.history = g1.pop.history := by
    rcases mutate_some h2 with rfl | ⟨-, rr, x, rfl⟩ <;> rfl
  have e3 : g3.pop.history = g2.pop.history := by
    unfold repair at h3
    split at h3
    · obtain ⟨g4, h4, h3⟩ := Option.bind_eq_some_iff.mp h3
      obtain ⟨g5, h5, rfl⟩ := Option.map_eq_some_iff.mp h3
      have e4 := localSearch_history h4
      split at h5
      · unfold addToPop at h5
        obtain ⟨p, hp, rfl⟩ := Option.map_eq_some_iff.mp h5
        have := add_history hp
        rw [(updateBest_other g4).2.1] at this
        exact this.trans e4
      · rw [Option.some.injEq] at h5
        subst h5
        exact e4
    · rw [Option.some.injEq] at h3
      rw [h3]
  rw [(updateBest_other g3).2.1, e3, e2, e1]

theorem breed_history {ch : GAChoice α} {g g' : GA α} (h : breed env ctx ch g = some g') :
    g'.pop.history = g.pop.history := by
  unfold breed at h
  obtain ⟨p1, -, h⟩ := Option.bind_eq_some_iff.mp h
  obtain ⟨p2, -, h⟩ := Option.bind_eq_some_iff.mp h
  obtain ⟨c, -, h⟩ := Option.bind_eq_some_iff.mp h
  obtain ⟨g1, h1, h⟩ := Option.bind_eq_some_iff.mp h
  rw [educate_history h]
  unfold runSplit at h1
  obtain ⟨p, -, rfl⟩ := Option.map_eq_some_iff.mp h1
  rfl

/-- What the end of a cycle does to penalty, history of outcomes and child. -/
theorem finishCycle_pen {g g' : GA α} (h : finishCycle env ctx g = some g') :
    g'.child = g.child ∧
    ((g.iterations < g.nextPenaltyUpdate ∧ g'.rr.pen = g.rr.pen) ∨
      (g.nextPenaltyUpdate ≤ g.iterations ∧
        g'.rr.pen = nextPenalty env (feasibleFraction g.pop) g.rr.pen)) ∧
    (g'.state ≠ .created → g'.pop.history = g.pop.history) := by
  unfold finishCycle at h
  obtain ⟨g1, h1, h⟩ := Option.bind_eq_some_iff.mp h
  obtain ⟨g2, h2, h⟩ := Option.bind_eq_some_iff.mp h
  split at h
  · rw [Option.some.injEq] at h
    have w1 : g1.child = g.child ∧
        ((g.iterations < g.nextPenaltyUpdate ∧ g1.rr.pen = g.rr.pen) ∨
          (g.nextPenaltyUpdate ≤ g.iterations ∧
            g1.rr.pen = nextPenalty env (feasibleFraction g.pop) g.rr.pen)) ∧
        g1.pop.history = g.pop.history := by
      split at h1
      · rename_i hc
        unfold updatePenalty at h1
        obtain ⟨p, hp, rfl⟩ := Option.map_eq_some_iff.mp h1
        refine ⟨rfl, Or.inr ⟨hc, rfl⟩, ?_⟩
        unfold Population.reprice at hp
        obtain ⟨a, -, hp⟩ := Option.bind_eq_some_iff.mp hp
        obtain ⟨b, -, rfl⟩ := Option.map_eq_some_iff.mp hp
        rfl
      · rename_i hc
        rw [Option.some.injEq] at h1
        subst h1
        exact ⟨rfl, Or.inl ⟨by omega, rfl⟩, rfl⟩
    have w2 : g2.child = g1.child ∧ g2.rr.pen = g1.rr.pen ∧ g2.pop.history = g1.pop.history := by
      split at h2
      · obtain ⟨-, rfl⟩ := log_some h2
        exact ⟨rfl, rfl, rfl⟩
      · rw [Option.some.injEq] at h2
        subst h2
        exact ⟨rfl, rfl, rfl⟩
    rw [← w2.2.1, ← w2.1, ← w2.2.2] at w1
    rw [← h]
    dsimp only
    split
    · exact ⟨w1.1, w1.2.1, fun e => absurd rfl e⟩
    · exact ⟨w1.1, w1.2.1, fun _ => w1.2.2⟩
  · simp at h

end
end GA

/-- **C37**, range. Outside elite education the penalty lies in `[0.0001, 10000000]` at every point of
every run. -/
theorem C37_penalty_range (env : GAEnv ℚ) (ctx : Ctx ℚ) (hv : GA.Valid env ctx) (g : GA ℚ)
    (h : GA.Reach env ctx GA.ChOK g) (hs : g.state = .created ∨ g.state = .init ∨ g.state = .cycle) :
    1 / 10000 ≤ g.rr.pen ∧ g.rr.pen ≤ 10000000 :=
  ((h.inv hv).1.mu hs).pen

/-- **C35**, in the loop. The two parents of a crossover are drawn independently: every ordered pair of
members of the population is crossed for some draws, whatever the draws of the crossover and of the
education are. -/
theorem C35_any_pair (env : GAEnv ℚ) (ctx : Ctx ℚ) (ch : GAChoice ℚ) (g : GA ℚ) (x y : Individual ℚ)
    (hx : x ∈ g.pop.feasible.pop ++ g.pop.infeasible.pop)
    (hy : y ∈ g.pop.feasible.pop ++ g.pop.infeasible.pop) (hk : 1 ≤ env.pop.tournamentSize)
    (ωc ωe : Oracle) :
    ∃ ω : Oracle, GA.breed env ctx { ch with ω := ω } g =
      (crossover ωc ch.fuel x.genotype y.genotype).bind fun genotype =>
        (GA.runSplit env ctx x.numNonemptyRoutes
          { g with child := Individual.new genotype g.pop.total }).bind
          (GA.educate env ctx { ch with ω := ω } ωe) := by
  have hp : g.pop.feasible.pop ≠ [] ∨ g.pop.infeasible.pop ≠ [] := by
    by_contra hc
    push Not at hc
    rw [hc.1, hc.2] at hx
    simp at hx
  have key : ∀ z ∈ g.pop.feasible.pop ++ g.pop.infeasible.pop, ∃ i, ∀ ω : Oracle, (∀ k, ω k = i) →
      g.pop.parent env.pop ω = some z := by
    intro z hz
    obtain ⟨i, hi, hz⟩ := List.mem_iff_getElem.mp hz
    refine ⟨i, fun ω hω => ?_⟩
    obtain ⟨w, h1, ⟨j, -, h2⟩, -⟩ := C35_tournament env.pop g.pop ω hp hk
    rw [hω, Nat.mod_eq_of_lt hi, List.getElem?_eq_getElem hi, hz] at h2
    rw [h1, h2]
  obtain ⟨i, hi⟩ := key x hx
  obtain ⟨j, hj⟩ := key y hy
  refine ⟨fun n => match (Nat.unpair n).1 with
    | 0 => i
    | 1 => j
    | 2 => ωc (Nat.unpair n).2
    | _ => ωe (Nat.unpair n).2, ?_⟩
  unfold GA.breed
  dsimp only
  rw [hi _ (fun k => by simp [Oracle.sub]), Option.bind_some, hj _ (fun k => by simp [Oracle.sub]),
    Option.bind_some]
  congr 1
  · congr 1
    funext k
    simp [Oracle.sub]
  · funext genotype
    congr 1
    funext g1
    congr 1
    funext k
    simp [Oracle.sub]

/-- **C37**, outcomes before the crossover iterations. A call that creates an initial individual enters its
outcome, as number `numInitialized` of the initial ones, into the list of the latest outcomes; calls in
the states before leave the list alone. -/
theorem C37_initial_outcomes {α : Type} [F64 α] (env : GAEnv α) (ctx : Ctx α) (ch : GAChoice α)
    (g g' : GA α) (hi : GA.iterate env ctx ch g = some g') (hn : g'.state ≠ .terminated) :
    (g.state = .created → g'.pop.history = g.pop.history) ∧
    (g.state = .elite → g'.pop.history = g.pop.history) ∧
    (g.state = .init → env.initialIndividuals ≤ g.numInitialized → g'.pop.history = g.pop.history) ∧
    (g.state = .init → g.numInitialized < env.initialIndividuals →
      ∃ x g1, GA.createInitial env ctx ch g = some (x, g1) ∧
        g'.pop.history = (g.pop.history ++ [x.isFeasible]).drop 1 ∧
        g'.numInitialized = g.numInitialized + 1) := by
  unfold GA.iterate at hi
  split at hi
  · rw [Option.some.injEq] at hi
    subst hi
    exact absurd rfl hn
  have hsp : ∀ {k : ℕ} {a b : GA α}, GA.runSplit env ctx k a = some b → b.pop.history = a.pop.history := by
    intro k a b h
    unfold GA.runSplit at h
    obtain ⟨p, -, rfl⟩ := Option.map_eq_some_iff.mp h
    rfl
  refine ⟨fun e => ?_, fun e => ?_, fun e hl => ?_, fun e hl => ?_⟩ <;> rw [e] at hi <;> dsimp only at hi
  · unfold GA.stepCreated at hi
    split at hi
    · obtain ⟨g1, h1, hi⟩ := Option.bind_eq_some_iff.mp hi
      obtain ⟨g2, h2, hi⟩ := Option.bind_eq_some_iff.mp hi
      obtain ⟨r, -, rfl⟩ := Option.map_eq_some_iff.mp hi
      have e1 := hsp h1
      exact (GA.educate_history h2).trans e1
    · rw [Option.some.injEq] at hi
      subst hi
      rfl
  · unfold GA.stepElite at hi
    split at hi
    · obtain ⟨x, -, hi⟩ := Option.bind_eq_some_iff.mp hi
      obtain ⟨g1, h1, hi⟩ := Option.bind_eq_some_iff.mp hi
      obtain ⟨-, rfl⟩ := GA.log_some hi
      unfold GA.addToPop at h1
      obtain ⟨p, hp, rfl⟩ := Option.map_eq_some_iff.mp h1
      have := GA.add_history hp
      rw [(GA.updateBest_other _).2.1] at this
      exact this
    · obtain ⟨r, -, rfl⟩ := Option.map_eq_some_iff.mp hi
      rfl
  · unfold GA.stepInit at hi
    rw [if_neg (by omega), Option.some.injEq] at hi
    subst hi
    rfl
  · unfold GA.stepInit at hi
    rw [if_pos hl] at hi
    obtain ⟨⟨x, g1⟩, h1, hi⟩ := Option.bind_eq_some_iff.mp hi
    obtain ⟨g2, h2, rfl⟩ := Option.map_eq_some_iff.mp hi
    refine ⟨x, g1, h1, ?_, ?_⟩
    · unfold GA.addToPop at h2
      obtain ⟨p, hp, rfl⟩ := Option.map_eq_some_iff.mp h2
      have := GA.add_history hp
      rw [if_pos rfl] at this
      have e1 : g1.pop.history = g.pop.history := by
        unfold GA.createInitial at h1
        obtain ⟨g3, h3, h1⟩ := Option.bind_eq_some_iff.mp h1
        obtain ⟨g4, h4, e4⟩ := Option.map_eq_some_iff.mp h1
        simp only [Prod.mk.injEq] at e4
        obtain ⟨rfl, rfl⟩ := e4
        have e3 := hsp h3
        exact (GA.educate_history h4).trans e3
      rw [e1] at this
      exact this
    · show g2.numInitialized + 1 = _
      rw [(GA.addToPop_frame h2).numInitialized, (GA.createInitial_frame h1).numInitialized]

/-- **C37**, direction. A crossover iteration appends one outcome (feasible or not) to the history of the
latest 100 outcomes. If an update is due, the penalty follows `Spec.PenaltyRule` for the fraction of
feasible ones among these 100; otherwise it stays. With an increase factor `≥ 1` and a decrease factor
`≤ 1` it rises only below the target and falls only above it. -/
theorem C37_penalty_moves (env : GAEnv ℚ) (ctx : Ctx ℚ) (hv : GA.Valid env ctx) (g g' : GA ℚ)
    (h : GA.Reach env ctx GA.ChOK g) (hs : g.state = .cycle) (ch : GAChoice ℚ) (hch : GA.ChOK ch)
    (hi : GA.iterate env ctx ch g = some g') (hn : g'.state ≠ .terminated)
    (outs : List Bool) (ho : outs = (g.pop.history ++ [g'.child.isFeasible]).drop 1) :
    outs.length = 100 ∧ (g'.state = .cycle → g'.pop.history = outs) ∧
    (g.iterations < g.nextPenaltyUpdate ∧ g'.rr.pen = g.rr.pen ∨ g.nextPenaltyUpdate ≤ g.iterations ∧
      Spec.PenaltyRule env.target env.rr.incMultiplier env.rr.decMultiplier
        ((outs.count true : ℚ) / 100) g.rr.pen g'.rr.pen) ∧
    (env.rr.decMultiplier ≤ 1 → g.rr.pen < g'.rr.pen →
      (outs.count true : ℚ) / 100 < env.target - 1 / 20) ∧
    (1 ≤ env.rr.incMultiplier → g'.rr.pen < g.rr.pen →
      env.target + 1 / 20 < (outs.count true : ℚ) / 100) := by
  obtain ⟨inv, -, -⟩ := h.inv hv
  have hm := inv.mu (Or.inr (Or.inr hs))
  have hstep : GA.stepCycle env ctx ch g = some g' := by
    unfold GA.iterate at hi
    split at hi
    · rw [Option.some.injEq] at hi
      subst hi
      exact absurd rfl hn
    · rw [hs] at hi
      exact hi
  have hlen : outs.length = 100 := by
    obtain ⟨hs', hr⟩ := inv.base.pop
    have := (C36_classes ctx env.pop env.bs hv.bs env.sort hv.sort g.pop hs' hr).2.2.2.2.2.1
    rw [ho]
    simp [this]
  unfold GA.stepCycle at hstep
  obtain ⟨g1, h1, hstep⟩ := Option.bind_eq_some_iff.mp hstep
  obtain ⟨g2, h2, h3⟩ := Option.bind_eq_some_iff.mp hstep
  have f := (GA.breed_frame h1).trans (GA.addToPop_frame h2)
  obtain ⟨i1, r1⟩ := GA.breed_edu hv hch (g := { g with ctxIteration := g.ctxIteration + 1 })
    ⟨inv.base.pop, inv.base.len, inv.base.ready, inv.base.nbr, inv.base.lsLen, inv.base.split⟩ hm h1
  obtain ⟨-, r2⟩ := GA.addToPop_edu hv i1 i1.child.good i1.child.len h2
  have hpen : g2.rr.pen = g.rr.pen := (r1.trans r2).pen
  obtain ⟨hc, hp, hh⟩ := GA.finishCycle_pen h3
  have hch2 : g2.child = g1.child ∧ g2.pop.history = (g.pop.history ++ [g1.child.isFeasible]).drop 1 := by
    unfold GA.addToPop at h2
    obtain ⟨p, hadd, rfl⟩ := Option.map_eq_some_iff.mp h2
    refine ⟨rfl, ?_⟩
    have := GA.add_history hadd
    rw [if_pos rfl, GA.breed_history h1] at this
    exact this
  have ho2 : g2.pop.history = outs := by rw [ho, hc, hch2.1]; exact hch2.2
  have hfrac : GA.feasibleFraction g2.pop = (outs.count true : ℚ) / 100 := by
    unfold GA.feasibleFraction
    rw [ho2, hlen]
    simp only [rat_div, rat_lit]
    norm_num
  rw [hfrac, hpen, f.iterations, f.nextPenaltyUpdate] at hp
  have hrule : g.iterations < g.nextPenaltyUpdate ∧ g'.rr.pen = g.rr.pen ∨
      g.nextPenaltyUpdate ≤ g.iterations ∧
      Spec.PenaltyRule env.target env.rr.incMultiplier env.rr.decMultiplier
        ((outs.count true : ℚ) / 100) g.rr.pen g'.rr.pen := by
    rcases hp with hp | ⟨hp, e⟩
    · exact Or.inl hp
    · exact Or.inr ⟨hp, by rw [e]; exact GA.nextPenalty_rule _ _ _⟩
  obtain ⟨lo, hi'⟩ := hm.pen
  have hclamp : max (1 / 10000) (min 10000000 g.rr.pen) = g.rr.pen := by
    rw [min_eq_right hi', max_eq_right lo]
  have hp0 : 0 ≤ g.rr.pen := by linarith
  refine ⟨hlen, fun e => ?_, hrule, fun hd hlt => ?_, fun hd hlt => ?_⟩
  · rw [hh (by rw [e]; simp), ho2]
  · rcases hrule with ⟨-, e⟩ | ⟨-, r⟩
    · rw [e] at hlt; exact absurd hlt (lt_irrefl _)
    · by_contra hc'
      push Not at hc'
      by_cases ha : env.target + 1 / 20 < (outs.count true : ℚ) / 100
      · have := r.above ha
        have h5 : g.rr.pen * env.rr.decMultiplier ≤ g.rr.pen := by nlinarith
        have h6 : max (1 / 10000) (min 10000000 (g.rr.pen * env.rr.decMultiplier)) ≤ g.rr.pen :=
          max_le lo (le_trans (min_le_right _ _) h5)
        linarith
      · have := r.between hc' (by linarith)
        rw [hclamp] at this
        linarith
  · rcases hrule with ⟨-, e⟩ | ⟨-, r⟩
    · rw [e] at hlt; exact absurd hlt (lt_irrefl _)
    · by_contra hc'
      push Not at hc'
      by_cases ha : (outs.count true : ℚ) / 100 < env.target - 1 / 20
      · have := r.below ha
        have h5 : g.rr.pen ≤ g.rr.pen * env.rr.incMultiplier := by nlinarith
        have h6 : g.rr.pen ≤ max (1 / 10000) (min 10000000 (g.rr.pen * env.rr.incMultiplier)) :=
          le_trans (le_min hi' h5) (le_max_right _ _)
        linarith
      · have := r.between (by linarith) hc'
        rw [hclamp] at this
        linarith

end Verif
