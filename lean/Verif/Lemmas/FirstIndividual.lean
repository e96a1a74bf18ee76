import Verif.Lemmas.BestKept
import Verif.Lemmas.Education
import Verif.Props.SplitOptimal
import Verif.Props.RecreateOrder

/-!
# The first individual against a given plan

Exact arithmetic.
-/

namespace Verif
open F64 LS Spec

/-- Routes for all customers of the instance, within the capacity, at most `m` of them in use. -/
structure Spec.IsPlan (ctx : Ctx ℚ) (m : ℕ) (R : List (List ℕ)) : Prop where
  part : IsPartition ctx.n R
  fleet : (R.filter (· ≠ [])).length ≤ m
  fits : CapFeasible ctx.demand ctx.cap 0 R

/-- The total length of the routes. -/
def Spec.totalDist (dist : ℕ → ℕ → ℚ) (R : List (List ℕ)) : ℚ := (R.map (routeDist dist)).sum

theorem flatten_filter_ne {β : Type} [DecidableEq β] (R : List (List β)) : (R.filter (· ≠ [])).flatten = R.flatten := by
  induction R with
  | nil => rfl
  | cons r R ih =>
    by_cases h : r = []
    · subst h
      simpa using ih
    · rw [List.filter_cons_of_pos (by simpa using h), List.flatten_cons, List.flatten_cons, ih]

theorem solCost_filter_ne {d : ℕ → ℕ → ℚ} {q : ℕ → ℚ} {cap : ℚ} (h0 : d 0 0 = 0) (p : ℚ) {R : List (List ℕ)}
    (hf : CapFeasible q cap 0 R) : solCost d q cap p (R.filter (· ≠ [])) = totalDist d R := by
  induction R with
  | nil => rfl
  | cons r R ih =>
    have ih := ih fun x hx => hf x (by simp [hx])
    have hr := hf r (by simp)
    have e : Spec.routeCost d q cap p r = routeDist d r := by
      unfold Spec.routeCost
      rw [max_eq_left (by linarith)]
      ring
    unfold totalDist at ih ⊢
    rw [List.map_cons, List.sum_cons]
    by_cases h : r = []
    · subst h
      have : routeDist d [] = 0 := by simp [routeDist, h0]
      rw [this, zero_add, ← ih]
      simp
    · rw [List.filter_cons_of_pos (by simpa using h), solCost_cons, ih, e]

theorem solCost_capFeasible {d : ℕ → ℕ → ℚ} {q : ℕ → ℚ} {cap : ℚ} (p : ℚ) {R : List (List ℕ)}
    (hf : CapFeasible q cap 0 R) : solCost d q cap p R = totalDist d R := by
  unfold solCost totalDist
  congr 1
  refine List.map_congr_left fun r hr => ?_
  have := hf r hr
  unfold Spec.routeCost
  rw [max_eq_left (by linarith)]
  ring

namespace GA

variable {env : GAEnv ℚ} {ctx : Ctx ℚ} {hi : ℚ}

/-- `ε` covers what the split may lose through its tolerances, at the penalty `p`: `1e-6` per customer in the
linear variant; in the other one `p * 1e-6` per vehicle, and nothing if no load exceeds the capacity by at most
the tolerance. -/
def Slack (env : GAEnv ℚ) (ctx : Ctx ℚ) (p ε : ℚ) : Prop :=
  if env.split.linear then (ctx.n - 1 : ℕ) * (1 / 1000000) ≤ ε
  else env.split.numVehicles * (p * (1 / 1000000)) ≤ ε ∨
    0 ≤ ε ∧ ∀ r, routeLoad ctx.demand r ≤ ctx.cap ∨ ctx.cap + 1 / 1000000 < routeLoad ctx.demand r

/-- What is asked of the split, beyond validity, for it to be optimal. -/
structure SplitSharp (env : GAEnv ℚ) (ctx : Ctx ℚ) (hi : ℚ) : Prop where
  depot : ctx.dist 0 0 = 0
  sym : ∀ a b, ctx.dist a b = ctx.dist b a
  load : ctx.demand 0 = 0
  cap : 0 ≤ ctx.cap
  bellman : env.split.linear = false → 1 ≤ env.split.capacityFactor ∧ WellBelowSentinel (RR.ctxAt ctx hi)

theorem WellBelowSentinel.at_le {p q : ℚ} (h : WellBelowSentinel (RR.ctxAt ctx q)) (h0 : 0 ≤ p) (h1 : p ≤ q) :
    WellBelowSentinel (RR.ctxAt ctx p) := by
  obtain ⟨D, Q, hD, hQ, hp, hb⟩ := h
  refine ⟨D, Q, hD, hQ, h0, le_trans ?_ hb⟩
  have hQ0 : 0 ≤ Q := le_trans (hQ 0).1 (hQ 0).2
  have : (0 : ℚ) ≤ ctx.n * Q := mul_nonneg (Nat.cast_nonneg _) hQ0
  have h2 := mul_le_mul_of_nonneg_right h1 this
  show 2 * ((ctx.n : ℚ) * D) + p * (ctx.n * Q) ≤ 2 * (ctx.n * D) + q * (ctx.n * Q)
  linarith

/-- The split of a plan's customers in the order of the plan costs no more than the plan. -/
theorem runSplit_best (hv : ValidUpTo env ctx hi) (hs : SplitSharp env ctx hi) {g g' : GA ℚ}
    (hb : Base env ctx g) (hm : Mut env ctx hi g.rr) {R : List (List ℕ)}
    {ε : ℚ} (hε : Slack env ctx g.rr.pen ε) (hR : IsPlan ctx env.split.numVehicles R) (hg : g.child.genotype = R.flatten)
    (hlt : totalDist ctx.dist R + ε < 10 ^ 30)
    (h : runSplit env ctx env.split.numVehicles g = some g') :
    solCost ctx.dist ctx.demand ctx.cap g.rr.pen g'.child.phenotype ≤
      totalDist ctx.dist R + ε := by
  have hp0 : (0 : ℚ) ≤ g.rr.pen := by linarith [hm.pen.1]
  have hperm : g.child.genotype.Perm (Spec.customers (RR.ctxAt ctx g.rr.pen).n) := by rw [hg]; exact hR.part
  have hseg : IsSegmentation g.child.genotype (R.filter (· ≠ [])) :=
    ⟨by rw [hg, flatten_filter_ne], fun r hr => by simpa using (List.mem_filter.mp hr).2⟩
  have hc := solCost_filter_ne hs.depot g.rr.pen hR.fits
  unfold runSplit at h
  obtain ⟨⟨s', y⟩, h1, rfl⟩ := Option.map_eq_some_iff.mp h
  cases hlin : env.split.linear with
  | true =>
    obtain ⟨s1, y1, e, hle⟩ := C05_run_linear_optimal env.rr.atan2 env.split hlin (RR.ctxAt ctx g.rr.pen)
      env.lowerBound g.split hb.split g.child env.split.numVehicles hperm hv.n
      (le_trans hv.fleet (le_max_left _ _)) (max_le (le_refl _) hv.bound)
      (BelowSentinel.at_le (hv.mag hlin) hp0 hm.pen.2) hs.sym hs.depot hs.cap
    rw [h1, Option.some.injEq, Prod.mk.injEq] at e
    obtain ⟨rfl, rfl⟩ := e
    unfold Slack at hε
    rw [if_pos hlin] at hε
    have := hle _ hseg (hR.fleet.trans (le_max_left _ _))
      (by show solCost ctx.dist ctx.demand ctx.cap g.rr.pen _ + (ctx.n - 1 : ℕ) * (1 / 1000000) < 10 ^ 30
          rw [hc]; linarith)
    change solCost ctx.dist ctx.demand ctx.cap g.rr.pen y.phenotype ≤
      solCost ctx.dist ctx.demand ctx.cap g.rr.pen _ + (ctx.n - 1 : ℕ) * (1 / 1000000) at this
    rw [hc] at this
    exact this.trans (by linarith)
  | false =>
    obtain ⟨hf, hw⟩ := hs.bellman hlin
    obtain ⟨s1, y1, e, hle⟩ := C05_run_bellman_optimal env.rr.atan2 env.split hlin (RR.ctxAt ctx g.rr.pen)
      env.lowerBound g.split hb.split g.child env.split.numVehicles hperm hv.n
      (le_trans hv.fleet (le_max_left _ _)) (max_le (le_refl _) hv.bound)
      (WellBelowSentinel.at_le hw hp0 hm.pen.2) hs.depot hs.cap
    rw [h1, Option.some.injEq, Prod.mk.injEq] at e
    obtain ⟨rfl, rfl⟩ := e
    unfold Slack at hε
    rw [if_neg (by simp [hlin])] at hε
    have h0 : 0 ≤ ε := by
      rcases hε with h | h
      · exact le_trans (by positivity) h
      · exact h.1
    obtain ⟨this, this'⟩ := hle _ hseg (hR.fleet.trans (le_max_left _ _)) (fun r hr => by
      have := hR.fits r (List.mem_filter.mp hr).1
      show routeLoad ctx.demand r ≤ ctx.cap * _
      nlinarith [hs.cap]) (by
        show solCost ctx.dist ctx.demand ctx.cap g.rr.pen _ < 10 ^ 30
        rw [hc]; linarith)
    rcases hε with h | h
    · change solCost ctx.dist ctx.demand ctx.cap g.rr.pen y.phenotype ≤
        solCost ctx.dist ctx.demand ctx.cap g.rr.pen _ + env.split.numVehicles * (g.rr.pen * (1 / 1000000)) at this
      rw [hc] at this
      exact this.trans (by linarith)
    · have := this' h.2
      change solCost ctx.dist ctx.demand ctx.cap g.rr.pen y.phenotype ≤
        solCost ctx.dist ctx.demand ctx.cap g.rr.pen _ at this
      rw [hc] at this
      dsimp only
      linarith

/-- Local search with the factor one does not raise the cost of the child. -/
theorem localSearch_cost (hv : ValidUpTo env ctx hi) (hs : SplitSharp env ctx hi) {ω : Oracle} {fuel : ℕ}
    {g g' : GA ℚ} (hg : Edu env ctx hi g) (h : localSearch env ctx ω fuel (lit 1) g = some g') :
    solCost ctx.dist ctx.demand ctx.cap g.rr.pen g'.child.phenotype ≤
      solCost ctx.dist ctx.demand ctx.cap g.rr.pen g.child.phenotype := by
  unfold localSearch at h
  split at h
  · obtain ⟨⟨l, y⟩, h1, rfl⟩ := Option.map_eq_some_iff.mp h
    obtain ⟨R, k, -, hperm, st, -⟩ := run_done (ctx := RR.ctxAt ctx g.rr.pen) hv.dist hs.load hs.sym
      hg.base.ready (nbrOK_at hg.base.nbr) hg.child.good.part (hg.child.len.trans hg.base.lsLen.symm) h1
    have h2 := st.cost hs.load hs.sym
    have h3 : (0 : ℚ) ≤ k * (1 / 1000000) := by positivity
    have e : (RR.ctxAt ctx g.rr.pen).pen * lit 1 = g.rr.pen := by
      show g.rr.pen * ((1 : ℚ)) = _
      rw [mul_one]
    rw [e] at h2
    change solCost ctx.dist ctx.demand ctx.cap g.rr.pen R ≤
      solCost ctx.dist ctx.demand ctx.cap g.rr.pen g.child.phenotype - _ at h2
    dsimp only
    rw [Spec.solCost_perm ctx.dist ctx.demand ctx.cap _ hperm]
    linarith
  · rw [Option.some.injEq] at h
    subst h
    exact le_refl _

theorem repair_child {ω : Oracle} {fuel w : ℕ} {g g' : GA ℚ} (h : repair env ctx ω fuel w g = some g') :
    g'.child = g.child := by
  unfold repair at h
  split at h
  · obtain ⟨g1, h1, h⟩ := Option.bind_eq_some_iff.mp h
    obtain ⟨g2, h2, rfl⟩ := Option.map_eq_some_iff.mp h
    rfl
  · rw [Option.some.injEq] at h
    rw [h]

/-- Education does not raise the cost of the child. -/
theorem educate_cost (hv : ValidUpTo env ctx hi) (hs : SplitSharp env ctx hi) {ch : GAChoice ℚ} (hch : ChOK ch)
    {ω : Oracle} {g g' : GA ℚ} (hg : Edu env ctx hi g) (h : educate env ctx ch ω g = some g') :
    solCost ctx.dist ctx.demand ctx.cap g.rr.pen g'.child.phenotype ≤
      solCost ctx.dist ctx.demand ctx.cap g.rr.pen g.child.phenotype := by
  unfold educate at h
  obtain ⟨g1, h1, h⟩ := Option.bind_eq_some_iff.mp h
  obtain ⟨g2, h2, h⟩ := Option.bind_eq_some_iff.mp h
  obtain ⟨g3, h3, rfl⟩ := Option.map_eq_some_iff.mp h
  obtain ⟨i1, r1⟩ := localSearch_edu hv hg h1
  have c1 := localSearch_cost hv hs hg h1
  obtain ⟨-, -, -, c2⟩ := mutate_cost hv hch i1 h2
  rw [r1.pen] at c2
  rw [updateBest_child, repair_child h3]
  exact c2.trans c1

/-- The first individual made from the order of a plan: it is complete, costs no more than the plan at the
penalty in force and is beaten by what is recorded, or overloaded. -/
theorem createInitial_best (hv : ValidUpTo env ctx hi) (hs : SplitSharp env ctx hi) {ch : GAChoice ℚ}
    (hch : ChOK ch) {g g' : GA ℚ} {x : Individual ℚ} (hb : Base env ctx g) (hm : Mut env ctx hi g.rr)
    (hseen : Seen ctx g) {R : List (List ℕ)} {ε : ℚ}
    (hε : Slack env ctx g.rr.pen ε) (hR : IsPlan ctx env.split.numVehicles R)
    (hω : shuffle (ch.ω.sub 0) (List.range' 1 (ctx.n - 1)) = R.flatten)
    (hlt : totalDist ctx.dist R + ε < 10 ^ 30)
    (h : createInitial env ctx ch g = some (x, g')) :
    IsPartition ctx.n x.phenotype ∧ x.phenotype.length = env.split.numVehicles ∧
      solCost ctx.dist ctx.demand ctx.cap g.rr.pen x.phenotype ≤
        totalDist ctx.dist R + ε ∧
      Beaten ctx g'.rr.hist.bestCost x.phenotype := by
  have hbt := (createInitial_seen hv hch hb hm hseen h).2
  unfold createInitial at h
  obtain ⟨g1, h1, h⟩ := Option.bind_eq_some_iff.mp h
  obtain ⟨g2, h2, e⟩ := Option.map_eq_some_iff.mp h
  simp only [Prod.mk.injEq] at e
  obtain ⟨rfl, rfl⟩ := e
  have hp := newRandom_geno ctx env.split.numVehicles (ch.ω.sub 0) g.numInitialized
  have hgen : (Individual.newRandom ctx env.split.numVehicles (ch.ω.sub 0) g.numInitialized).genotype =
      R.flatten := hω
  generalize Individual.newRandom ctx env.split.numVehicles (ch.ω.sub 0) g.numInitialized = c at h1 hp hgen
  obtain ⟨i1, r1⟩ := runSplit_edu hv (g := { g with child := c }) (le_refl _) hv.fleet
    ⟨hb.pop, hb.len, hb.ready, hb.nbr, hb.lsLen, hb.split⟩ hm hp h1
  have c1 := runSplit_best hv hs (g := { g with child := c })
    ⟨hb.pop, hb.len, hb.ready, hb.nbr, hb.lsLen, hb.split⟩ hm hε hR hgen hlt h1
  have c2 := educate_cost hv hs hch i1 h2
  rw [show g1.rr.pen = g.rr.pen from r1.pen] at c2
  obtain ⟨i2, -⟩ := educate_edu hv hch i1 h2
  exact ⟨i2.child.good.part, i2.child.len, c2.trans c1, hbt⟩

/-- The call that makes an individual from the order of a plan. -/
theorem stepInit_best (hv : ValidUpTo env ctx hi) (hs : SplitSharp env ctx hi) {ch : GAChoice ℚ}
    (hch : ChOK ch) {g g' : GA ℚ} (hb : Base env ctx g) (hm : Mut env ctx hi g.rr)
    (hseen : Seen ctx g) {R : List (List ℕ)} {ε : ℚ}
    (hε : Slack env ctx g.rr.pen ε) (hR : IsPlan ctx env.split.numVehicles R)
    (hω : shuffle (ch.ω.sub 0) (List.range' 1 (ctx.n - 1)) = R.flatten)
    (hlt : totalDist ctx.dist R + ε < 10 ^ 30)
    (hinit : g.numInitialized < env.initialIndividuals) (h : stepInit env ctx ch g = some g') :
    ∃ R', IsPartition ctx.n R' ∧ R'.length = env.split.numVehicles ∧
      solCost ctx.dist ctx.demand ctx.cap g.rr.pen R' ≤
        totalDist ctx.dist R + ε ∧
      Beaten ctx g'.rr.hist.bestCost R' := by
  unfold stepInit at h
  rw [if_pos hinit] at h
  obtain ⟨⟨x, g1⟩, h1, h⟩ := Option.bind_eq_some_iff.mp h
  obtain ⟨g2, h2, rfl⟩ := Option.map_eq_some_iff.mp h
  obtain ⟨a, b, c, d⟩ := createInitial_best hv hs hch hb hm hseen hε hR hω hlt h1
  unfold addToPop at h2
  obtain ⟨p, -, rfl⟩ := Option.map_eq_some_iff.mp h2
  exact ⟨_, a, b, c, d⟩

end GA
end Verif
