import Verif.Lemmas.FirstIndividual
import Verif.Props.BestKept
import Verif.Props.ProgramEnds
import Verif.Props.PenaltyTimes

/-!
# C89: no plan is out of reach

For every plan within the capacity and the fleet there are draws for one individual of the initial population
after which, whatever else is drawn, the reported solution is no longer than the plan, provided that no
overloaded solution is as cheap as the plan at the penalty in force. Exact arithmetic.
-/

namespace Verif
open F64 Spec

theorem solCost_ge_dist {d : ℕ → ℕ → ℚ} {q : ℕ → ℚ} {cap p : ℚ} (hp : 0 ≤ p) (R : List (List ℕ)) :
    totalDist d R ≤ solCost d q cap p R := by
  unfold totalDist solCost
  refine List.sum_le_sum fun r _ => ?_
  unfold Spec.routeCost
  have := mul_nonneg hp (le_max_left 0 (routeLoad q r - cap))
  linarith

theorem solCost_mono_pen {d : ℕ → ℕ → ℚ} {q : ℕ → ℚ} {cap p p' : ℚ} (h : p ≤ p') (R : List (List ℕ)) :
    solCost d q cap p R ≤ solCost d q cap p' R := by
  unfold solCost
  refine List.sum_le_sum fun r _ => ?_
  unfold Spec.routeCost
  have := mul_le_mul_of_nonneg_right h (le_max_left 0 (routeLoad q r - cap))
  linarith

/-- At the penalty `p` no overloaded solution with `m` routes, some of them possibly empty, costs `c` or less. -/
def Spec.OverloadDear (ctx : Ctx ℚ) (m : ℕ) (p c : ℚ) : Prop :=
  ∀ R, IsPartition ctx.n R → R.length = m → solCost ctx.dist ctx.demand ctx.cap p R ≤ c →
    CapFeasible ctx.demand ctx.cap 0 R

/-- **C89.** For any plan `R` within capacity and fleet there are draws `ω` for the order of the customers with
this effect. Take any state `g` of any run in which another individual of the initial population is due, and let
no overloaded solution cost as little as `R`, up to the slack `ε` of the split, at the penalty in force in `g`. If
this individual gets the draws `ω`, then whatever all other draws, hash orders and clock readings are, now and
later, a solution is recorded from then on, and the one to be reported is complete, within the capacity up to
the tolerance of the code, and longer than `R` by at most `ε + 2·10⁻⁶`. -/
theorem C89_in_reach (env : GAEnv ℚ) (ctx : Ctx ℚ) (hv : GA.Valid env ctx)
    (hs : GA.SplitSharp env ctx 10000000) (R : List (List ℕ)) (hR : IsPlan ctx env.split.numVehicles R) :
    ∃ ω : Oracle, ∀ g, GA.Reach env ctx GA.ChOK g → g.state = .init → g.numInitialized < env.initialIndividuals →
      ∀ ε, GA.Slack env ctx g.rr.pen ε → totalDist ctx.dist R + ε < 10 ^ 30 →
      OverloadDear ctx env.split.numVehicles g.rr.pen (totalDist ctx.dist R + ε) →
      ∀ ch, GA.ChOK ch → ch.ω.sub 0 = ω →
      terminateNow env.timeLimit env.maxIterations ch.elapsed g.ctxIteration = false →
      ∀ chs, (∀ c ∈ chs, GA.ChOK c) → ∀ g', GA.steps env ctx (ch :: chs) g = some g' →
        ∃ e, g'.rr.hist.entries.getLast? = some e ∧ IsPartition ctx.n e.routes ∧
          e.routes.length = env.split.numVehicles ∧ CapFeasible ctx.demand ctx.cap (1 / 1000000) e.routes ∧
          totalDist ctx.dist e.routes ≤ totalDist ctx.dist R + ε + 2 / 1000000 := by
  obtain ⟨ω, hω⟩ := C54_shuffle_onto (List.range' 1 (ctx.n - 1)) R.flatten hR.part
  refine ⟨ω, fun g h hst hinit ε hε hlt hdear ch hch e0 hterm chs hok g' hg => ?_⟩
  subst e0
  unfold GA.steps at hg
  rw [if_neg (by rw [hst]; decide)] at hg
  obtain ⟨g1, h1, hg⟩ := Option.bind_eq_some_iff.mp hg
  have r1 : GA.Reach env ctx GA.ChOK g1 := h.step hch h1
  obtain ⟨inv, hh, -⟩ := h.inv hv
  have h1' : GA.stepInit env ctx ch g = some g1 := by
    unfold GA.iterate at h1
    rw [if_neg (by rw [hterm]; decide), hst] at h1
    exact h1
  obtain ⟨R', a, b, c, d⟩ := GA.stepInit_best hv hs hch inv.base (inv.mu (Or.inr (Or.inl hst))) (h.seen hv) hε hR
    hω hlt hinit h1'
  have hf := hdear R' a b c
  have hb := d hf
  rw [solCost_capFeasible g.rr.pen hf] at c
  unfold totalDist at c
  have h2 := GA.steps_hist hv chs hok r1 hg
  have hr := GA.steps_reach chs hok r1 hg
  obtain ⟨-, c2, c3, -, -, c6⟩ := C38_history_improves env ctx hv g' hr
  cases he : g'.rr.hist.entries.getLast? with
  | none =>
    rw [List.getLast?_eq_none_iff] at he
    have e2 : g'.rr.hist.bestCost = (2 : ℚ) ^ 1024 := c2 he
    exfalso
    have b1 : (10 : ℚ) ^ 30 + 1 ≤ 2 ^ 1024 :=
      (show (10 : ℚ) ^ 30 + 1 ≤ 2 ^ 100 by norm_num).trans (pow_le_pow_right₀ (by norm_num) (by norm_num))
    rw [e2] at h2
    clear e2
    unfold totalDist at hlt
    generalize (2 : ℚ) ^ 1024 = z at *
    linarith
  | some e =>
    obtain ⟨x1, x2, x3, ⟨p, hp, x4⟩, -⟩ := C39_recorded_feasible env ctx hv g' hr e
      (List.mem_of_getLast? (by rw [← c6]; exact he))
    refine ⟨e, rfl, x1, x2, x3, ?_⟩
    have h3 := c3 e he
    have h4 := solCost_ge_dist (d := ctx.dist) (q := ctx.demand) (cap := ctx.cap) hp.le e.routes
    unfold totalDist at *
    linarith

/-- What an integer number of units `x` exceeds `y` by less than one is no excess. -/
theorem whole_le {x y : ℚ} (hx : ∃ k : ℤ, x = k) (hy : ∃ k : ℤ, y = k) (h : x < y + 1) : x ≤ y := by
  obtain ⟨k, rfl⟩ := hx
  obtain ⟨j, rfl⟩ := hy
  have : k < j + 1 := by exact_mod_cast h
  exact_mod_cast (by omega : k ≤ j)

theorem load_whole {q : ℕ → ℚ} (h : ∀ a, ∃ k : ℤ, q a = k) (r : List ℕ) : ∃ k : ℤ, routeLoad q r = k :=
  sum_whole fun x hx => by
    obtain ⟨a, -, rfl⟩ := List.mem_map.mp hx
    exact h a

/-- For whole numbers a penalty above the length of the plan is enough: an overload is at least one unit. -/
theorem overloadDear_whole {ctx : Ctx ℚ} (hw : WholeNumbers ctx) (hd : ∀ a b, 0 ≤ ctx.dist a b) (m : ℕ)
    {p c : ℚ} (hp : 0 ≤ p) (h : c < p) : OverloadDear ctx m p c := by
  intro R _ _ hc r hr
  by_contra hn
  rw [add_zero, not_le] at hn
  have h1 : ctx.cap + 1 ≤ routeLoad ctx.demand r := by
    by_contra h2
    exact absurd (whole_le (load_whole hw.demand r) hw.cap (not_le.mp h2)) (not_le.mpr hn)
  have h2 : p ≤ Spec.routeCost ctx.dist ctx.demand ctx.cap p r := by
    unfold Spec.routeCost
    have a1 : 1 ≤ max 0 (routeLoad ctx.demand r - ctx.cap) := le_max_of_le_right (by linarith)
    have a2 := mul_le_mul_of_nonneg_left a1 hp
    have a3 := routeDist_nonneg _ hd r
    linarith
  have h3 : Spec.routeCost ctx.dist ctx.demand ctx.cap p r ≤ solCost ctx.dist ctx.demand ctx.cap p R := by
    refine List.single_le_sum (fun x hx => ?_) _ (List.mem_map_of_mem hr)
    obtain ⟨r', -, rfl⟩ := List.mem_map.mp hx
    unfold Spec.routeCost
    have := mul_nonneg hp (le_max_left 0 (routeLoad ctx.demand r' - ctx.cap))
    linarith [routeDist_nonneg _ hd r']
  linarith

/-- **C89** for whole numbers: the solution to be reported is within the capacity and at most as long as `R`.
If `R` is a shortest plan then a shortest plan is reported. -/
theorem C89_in_reach_whole (env : GAEnv ℚ) (ctx : Ctx ℚ) (hv : GA.Valid env ctx) (hw : WholeNumbers ctx)
    (hs : GA.SplitSharp env ctx 10000000) (hn : ctx.n < 999999) (R : List (List ℕ))
    (hR : IsPlan ctx env.split.numVehicles R) (hlt : totalDist ctx.dist R + 1 < 10 ^ 30) :
    ∃ ω : Oracle, ∀ g, GA.Reach env ctx GA.ChOK g → g.state = .init → g.numInitialized < env.initialIndividuals →
      OverloadDear ctx env.split.numVehicles g.rr.pen (totalDist ctx.dist R + 1) →
      ∀ ch, GA.ChOK ch → ch.ω.sub 0 = ω →
      terminateNow env.timeLimit env.maxIterations ch.elapsed g.ctxIteration = false →
      ∀ chs, (∀ c ∈ chs, GA.ChOK c) → ∀ g', GA.steps env ctx (ch :: chs) g = some g' →
        ∃ e, g'.rr.hist.entries.getLast? = some e ∧ IsPlan ctx env.split.numVehicles e.routes ∧
          totalDist ctx.dist e.routes ≤ totalDist ctx.dist R := by
  have hload : ∀ r, routeLoad ctx.demand r ≤ ctx.cap ∨ ctx.cap + 1 / 1000000 < routeLoad ctx.demand r := by
    intro r
    rcases le_or_gt (routeLoad ctx.demand r) (ctx.cap + 1 / 1000000) with h | h
    · exact Or.inl (whole_le (load_whole hw.demand r) hw.cap (by linarith))
    · exact Or.inr h
  have hε : ∀ p, GA.Slack env ctx p (999997 / 1000000) := by
    intro p
    unfold GA.Slack
    split
    · have : ((ctx.n - 1 : ℕ) : ℚ) ≤ 999997 := by exact_mod_cast (by omega : ctx.n - 1 ≤ 999997)
      linarith
    · exact Or.inr ⟨by norm_num, hload⟩
  obtain ⟨ω, hω⟩ := C89_in_reach env ctx hv hs R hR
  refine ⟨ω, fun g h hst hinit hdear ch hch e0 hterm chs hok g' hg => ?_⟩
  obtain ⟨e, he, h1, h2, h3, h4⟩ := hω g h hst hinit _ (hε _) (by linarith)
    (fun R' a b c => hdear R' a b (by linarith)) ch hch e0 hterm chs hok g' hg
  refine ⟨e, he, ⟨h1, (List.length_filter_le _ _).trans h2.le, capFeasible_whole hw h3⟩, ?_⟩
  exact whole_le (length_whole hw.dist e.routes) (length_whole hw.dist R) (by
    unfold totalDist at h4
    unfold totalDist
    linarith)

namespace GeneticEx

/-- Two vehicles for four customers, two customers fit; an overloaded customer costs 60. -/
def envReach : GAEnv ℚ := { envRepair (1 / 2) with initialPen := 60, rr := { env.rr with numVehicles := 2 } }

theorem dist_repair (a b : ℕ) : 0 ≤ ctxRepair.dist a b ∧ ctxRepair.dist a b ≤ 15 := by
  simp only [ctxRepair]
  split
  · norm_num
  · split
    · norm_num
    · split <;> norm_num

theorem whole_repair : WholeNumbers ctxRepair where
  dist a b := by
    simp only [ctxRepair]
    split
    · exact ⟨0, by norm_num⟩
    · split
      · exact ⟨10, by norm_num⟩
      · split
        · exact ⟨15, by norm_num⟩
        · exact ⟨1, by norm_num⟩
  demand c := by
    simp only [ctxRepair]
    split
    · exact ⟨0, by norm_num⟩
    · exact ⟨1, by norm_num⟩
  cap := ⟨2, by norm_num [ctxRepair]⟩

theorem valid_reach : GA.Valid envReach ctxRepair where
  n := by decide
  dist a b := by
    have h : (15 : ℚ) ≤ (maxv : ℚ) := by
      show (15 : ℚ) ≤ 2 ^ 1023
      calc (15 : ℚ) ≤ 2 ^ 4 := by norm_num
        _ ≤ 2 ^ 1023 := pow_le_pow_right₀ (by norm_num) (by norm_num)
    exact ⟨(dist_repair a b).1, (dist_repair a b).2.trans h⟩
  fleet := by decide
  bound := by decide
  vehicles := rfl
  bs := bsearchNew_ok
  sort := valid.sort
  pen := by norm_num [envReach]
  mult := valid.mult
  lim := le_refl _
  mag := fun _ => by
    refine ⟨15, 1, fun a b => dist_repair a b, ?_, ?_, ?_⟩
    · intro c
      simp only [RR.ctxAt, ctxRepair]
      split <;> norm_num
    · norm_num [RR.ctxAt]
    · norm_num [RR.ctxAt, ctxRepair]
  nbr := by
    refine ⟨by decide, by decide, by decide, ?_, ?_⟩
    · intro u i h1 h2 h3 v hv
      have hu : u < 5 := h2
      have hi : i < 3 := h3
      have hv' : ([0, 0, 0, 2, 3, 4, 1, 3, 4, 1, 2, 4, 1, 2, 3] : List ℕ)[u * 3 + i]? = some v := hv
      show 0 < v ∧ v < 5 ∧ v ≠ u
      interval_cases u <;> interval_cases i <;> simp at hv' <;> omega
    · decide

theorem sharp_reach : GA.SplitSharp envReach ctxRepair 10000000 where
  depot := by norm_num [ctxRepair]
  sym a b := by simp only [ctxRepair, eq_comm, or_comm]
  load := by norm_num [ctxRepair]
  cap := by norm_num [ctxRepair]
  bellman := fun h => absurd h (by decide)

/-- The hypotheses of C89 are met at the start of this run, in which the capacity is tight: for suitable draws
for the second call, the plan 2-3, 4-1 of length 56 or one at most as long is reported, whatever happens in the
rest of the run. (`first 0` of C69 is a run at penalty 10, at which an overloaded solution is cheaper.) -/
example : ∃ ω : Oracle, ∀ c0 ch, c0.elapsed = 0 → GA.ChOK c0 → GA.ChOK ch → ch.ω.sub 0 = ω → ch.elapsed < 100 →
      ∀ chs, (∀ c ∈ chs, GA.ChOK c) → ∀ g',
        GA.steps envReach ctxRepair (c0 :: ch :: chs) (GA.new envReach ctxRepair fun _ => 0) = some g' →
        ∃ e, g'.rr.hist.entries.getLast? = some e ∧ IsPlan ctxRepair 2 e.routes ∧
          totalDist ctxRepair.dist e.routes ≤ 56 := by
  have hd : totalDist ctxRepair.dist [[2, 3], [4, 1]] = 56 := by decide +kernel
  obtain ⟨ω, h⟩ := C89_in_reach_whole envReach ctxRepair valid_reach whole_repair sharp_reach (by decide)
    [[2, 3], [4, 1]] ⟨by unfold IsPartition; decide, by decide, by
      intro r hr
      simp only [List.mem_cons, List.not_mem_nil, or_false] at hr
      rcases hr with rfl | rfl <;> decide +kernel⟩ (by rw [hd]; norm_num)
  refine ⟨ω, fun c0 ch h0 hc0 hch e hel chs hok g' hg => ?_⟩
  have h1 : GA.iterate envReach ctxRepair c0 (GA.new envReach ctxRepair fun _ => 0) =
      some { GA.new envReach ctxRepair fun _ => 0 with state := .init } := by
    unfold GA.iterate
    rw [h0, if_neg (by decide +kernel)]
    rfl
  have hr : GA.Reach envReach ctxRepair GA.ChOK
      { GA.new envReach ctxRepair fun _ => 0 with state := .init } := .step (.new _) hc0 h1
  rw [hd] at h
  refine h _ hr rfl (by decide) (overloadDear_whole whole_repair (fun a b => (dist_repair a b).1) _
      (by show (0 : ℚ) ≤ 60; norm_num) (by show (56 + 1 : ℚ) < 60; norm_num)) ch hch e ?_ chs hok g' ?_
  · show terminateNow 100 (some 5) ch.elapsed 0 = false
    simp [terminateNow, hel]
  · unfold GA.steps at hg
    rw [if_neg (by decide)] at hg
    rw [h1] at hg
    exact hg

end GeneticEx
end Verif
