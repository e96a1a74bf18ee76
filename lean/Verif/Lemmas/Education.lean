import Verif.Props.LocalOpt
import Verif.Props.GeneticRun

/-!
# What education leaves in the population

Exact arithmetic.
-/

namespace Verif
open F64 LS Spec

/-- No listed move of any customer towards any of its neighbours lowers the penalized cost of the routes
`R` by more than `1e-6`. -/
def Spec.LocalOptimum (ctx : Ctx ℚ) (ms : List MoveKind) (nbr : ℕ → ℕ → Prop) (p : ℚ) (R : List (List ℕ)) :
    Prop := ∀ u v, 0 < u → u < ctx.n → nbr u v → NoGain ctx p R ms u (.cust v)

/-- `v` is among the first `granularity` entries of the row of `u` in the configured neighbour table. -/
def GA.NbrOf (env : GAEnv ℚ) (u v : ℕ) : Prop :=
  ∃ i < env.granularity, env.corr[u * env.corrCols + i]? = some v

/-- No SWAP* move between two routes that have customers and whose sectors overlap lowers the penalized cost
of the routes `R` by more than `3e-6`. -/
def Spec.SwapOptimum (ctx : Ctx ℚ) (angle : ℕ → ℤ) (p : ℚ) (R : List (List ℕ)) : Prop :=
  ∀ r1 r2 l1 l2, r1 ≠ r2 → R[r1]? = some l1 → R[r2]? = some l2 → l1 ≠ [] → l2 ≠ [] →
    (routeSector angle l1).overlaps (routeSector angle l2) = true → ∀ R', SwapStarEffect R r1 r2 R' →
      solCost ctx.dist ctx.demand ctx.cap p R ≤ solCost ctx.dist ctx.demand ctx.cap p R' + 3 / 1000000

/-- Nothing is left to gain for any move the settings enable, SWAP* included if the distances satisfy the
triangle inequality. -/
def GA.Optimum (env : GAEnv ℚ) (ctx : Ctx ℚ) (p : ℚ) (R : List (List ℕ)) : Prop :=
  LocalOptimum ctx env.moves.neighbor (GA.NbrOf env) p R ∧
    (env.moves.swapStar = true → (∀ a b c, ctx.dist a c ≤ ctx.dist a b + ctx.dist b c) →
      SwapOptimum ctx env.angle p R)

namespace GA

variable {env : GAEnv ℚ} {ctx : Ctx ℚ} {hi : ℚ}

/-- The routes come out of education: for a penalty within ten times the limits, they cost no more than some
local optimum, and without mutation they are one. -/
def Educated (env : GAEnv ℚ) (ctx : Ctx ℚ) (hi : ℚ) (R : List (List ℕ)) : Prop :=
  ∃ p, 1 / 10000 ≤ p ∧ p ≤ 10 * hi ∧
    (∃ R0, IsPartition ctx.n R0 ∧ Optimum env ctx p R0 ∧
      solCost ctx.dist ctx.demand ctx.cap p R ≤ solCost ctx.dist ctx.demand ctx.cap p R0) ∧
    (env.rrMutation = false → Optimum env ctx p R)

/-- The parts of the local search that last from run to run. -/
structure Table (env : GAEnv ℚ) (ctx : Ctx ℚ) (g : GA ℚ) : Prop where
  cust : ∀ u, 0 < u → u < ctx.n → u ∈ g.ls.customers
  nbr : ∀ u v, u < ctx.n → (Neighbour g.ls u v ↔ NbrOf env u v)
  angle : g.ls.angle = env.angle

/-- Every member of the population comes out of education. -/
def AllEducated (env : GAEnv ℚ) (ctx : Ctx ℚ) (hi : ℚ) (g : GA ℚ) : Prop :=
  ∀ x ∈ g.pop.feasible.pop ++ g.pop.infeasible.pop, Educated env ctx hi x.phenotype

/-- What is asked of the instance beyond validity. -/
structure Even (ctx : Ctx ℚ) : Prop where
  depot : ctx.demand 0 = 0
  sym : ∀ a b, ctx.dist a b = ctx.dist b a

theorem localSearch_opt (hv : ValidUpTo env ctx hi) (he : Even ctx) (hls : env.lsEnabled = true) {ω : Oracle}
    {fuel : ℕ} {factor : ℚ} {g g' : GA ℚ} (hg : Edu env ctx hi g) (ht : Table env ctx g)
    (h : localSearch env ctx ω fuel factor g = some g') :
    Table env ctx g' ∧ g'.pop = g.pop ∧ g'.rr = g.rr ∧
      Optimum env ctx (g.rr.pen * factor) g'.child.phenotype := by
  unfold localSearch at h
  rw [if_pos hls] at h
  obtain ⟨⟨l, y⟩, h1, rfl⟩ := Option.map_eq_some_iff.mp h
  obtain ⟨R, k, hr, hperm, -, hc, hnb, hfin, hsf, ha⟩ := run_done (ctx := RR.ctxAt ctx g.rr.pen) hv.dist he.depot
    he.sym hg.base.ready (nbrOK_at hg.base.nbr) hg.child.good.part (hg.child.len.trans hg.base.lsLen.symm) h1
  refine ⟨⟨fun u h1 h2 => hc.mem_iff.mpr (ht.cust u h1 h2), fun u v hu => (hnb u v hu).trans (ht.nbr u v hu),
    ha.trans ht.angle⟩, rfl, rfl, fun u v h1 h2 h3 => ?_, fun hsw htri r1 r2 l1 l2 hne g1 g2 n1 n2 hov R' heff => ?_⟩
  · exact NoGain.perm hr.part hperm ((hfin u (ht.cust u h1 h2)).1 v ((ht.nbr u v h2).mpr h3))
  · rw [← ht.angle] at hov
    exact SwapNoGain.perm (ctx := RR.ctxAt ctx g.rr.pen) hr.part hperm (hsf hsw) hne
      ⟨l1, l2, g1, g2, n1, n2, hov⟩ htri R' heff

theorem mutate_cost (hv : ValidUpTo env ctx hi) {ch : GAChoice ℚ} (hch : ChOK ch) {w : ℕ} {g g' : GA ℚ}
    (hg : Edu env ctx hi g) (h : mutate env ctx ch w g = some g') :
    g'.ls = g.ls ∧ g'.pop = g.pop ∧ (env.rrMutation = false → g'.child = g.child) ∧
      solCost ctx.dist ctx.demand ctx.cap g.rr.pen g'.child.phenotype ≤
        solCost ctx.dist ctx.demand ctx.cap g.rr.pen g.child.phenotype := by
  unfold mutate at h
  split at h
  · rename_i hc
    obtain ⟨r1, h1, h⟩ := Option.bind_eq_some_iff.mp h
    obtain ⟨r2, h2, h⟩ := Option.bind_eq_some_iff.mp h
    obtain ⟨x, h3, rfl⟩ := Option.map_eq_some_iff.mp h
    have hi := hg.mu.idle
    obtain ⟨r1', e1, i1, p1, hh1, u1, a1, s1, b1, -⟩ := RR.load_inv (now := ch.clock 0) (st := g.rr)
      hg.child.good hg.child.len hi.routes hi.locs hi.unassigned hi.ruined
    rw [h1, Option.some.injEq] at e1
    subst e1
    obtain ⟨s2, n2, -⟩ := RR.runToEnd_inv hv.vehicles hch _ _ i1 (u1.trans hg.mu.upd)
      (P := (0 < ·)) (by rw [p1]; linarith [hg.mu.pen.1]) h2
    obtain ⟨b, hb, hle⟩ := n2.2 _ b1
    obtain ⟨v, l, k⟩ := s2.inv.best b hb
    unfold RR.getBest at h3
    rw [hb] at h3
    obtain ⟨-, y2, -, -⟩ := RR.updateIndividual_some v.at (l.trans hg.child.len.symm) h3
    have hpen : r2.pen = g.rr.pen := n2.1.trans p1
    refine ⟨rfl, rfl, fun e => by simp [e] at hc, ?_⟩
    dsimp only
    rw [Spec.solCost_perm _ _ _ _ y2]
    have e : b.cost = solCost ctx.dist ctx.demand ctx.cap g.rr.pen b.stops := by
      rw [k, ← hpen]
      rfl
    have e' : r1.solution.cost = solCost ctx.dist ctx.demand ctx.cap g.rr.pen g.child.phenotype := by
      rw [i1.solCost, RRSol.trueCost, s1, p1]
    rw [← e, ← e']
    exact hle
  · rw [Option.some.injEq] at h
    subst h
    exact ⟨rfl, rfl, fun _ => rfl, le_refl _⟩

theorem addToPop_educated (hv : ValidUpTo env ctx hi) {x : Individual ℚ} {u : Bool} {g g' : GA ℚ}
    (hb : Base env ctx g) (ha : AllEducated env ctx hi g) (hx : Educated env ctx hi x.phenotype)
    (h : addToPop env x u g = some g') : AllEducated env ctx hi g' ∧ g'.ls = g.ls := by
  unfold addToPop at h
  obtain ⟨q, hq, rfl⟩ := Option.map_eq_some_iff.mp h
  obtain ⟨hs, hr⟩ := hb.pop
  exact ⟨add_members hv.bs (hr.inv hv.bs hv.sort) (P := Educated env ctx hi) ha hx hq, rfl⟩

theorem Table.congr {g g' : GA ℚ} (h : Table env ctx g) (e : g'.ls = g.ls) : Table env ctx g' :=
  ⟨by rw [e]; exact h.cust, by rw [e]; exact h.nbr, by rw [e]; exact h.angle⟩

theorem repair_educated (hv : ValidUpTo env ctx hi) (he : Even ctx) (hls : env.lsEnabled = true) {ω : Oracle}
    {fuel w : ℕ} {g g' : GA ℚ} (hg : Edu env ctx hi g) (ht : Table env ctx g) (ha : AllEducated env ctx hi g)
    (h : repair env ctx ω fuel w g = some g') :
    Table env ctx g' ∧ AllEducated env ctx hi g' ∧ g'.child = g.child := by
  unfold repair at h
  split at h
  · obtain ⟨g1, h1, h⟩ := Option.bind_eq_some_iff.mp h
    obtain ⟨g2, h2, rfl⟩ := Option.map_eq_some_iff.mp h
    obtain ⟨i1, r1⟩ := localSearch_edu hv hg h1
    obtain ⟨t1, p1, -, o1⟩ := localSearch_opt hv he hls hg ht h1
    have a1 : AllEducated env ctx hi g1 := by unfold AllEducated; rw [p1]; exact ha
    have key : AllEducated env ctx hi g2 ∧ g2.ls = g1.ls := by
      split at h2
      · obtain ⟨i2, r2⟩ := updateBest_edu i1
        obtain ⟨e1, e2, -⟩ := updateBest_other g1
        have o1' : Optimum env ctx (g.rr.pen * 10)
            g1.updateBest.child.phenotype := by
          rw [updateBest_child]
          simpa using o1
        obtain ⟨b1, b2⟩ := addToPop_educated hv i2.base (by unfold AllEducated; rw [e2]; exact a1)
          ⟨_, by linarith [hg.mu.pen.1], by linarith [hg.mu.pen.2], ⟨_, i2.child.good.part, o1', le_refl _⟩,
            fun _ => o1'⟩ h2
        exact ⟨b1, b2.trans e1⟩
      · rw [Option.some.injEq] at h2
        subst h2
        exact ⟨a1, rfl⟩
    exact ⟨t1.congr key.2, key.1, rfl⟩
  · rw [Option.some.injEq] at h
    subst h
    exact ⟨ht, ha, rfl⟩

theorem educate_educated (hv : ValidUpTo env ctx hi) (he : Even ctx) (hls : env.lsEnabled = true)
    {ch : GAChoice ℚ} (hch : ChOK ch) {ω : Oracle} {g g' : GA ℚ} (hg : Edu env ctx hi g)
    (ht : Table env ctx g) (ha : AllEducated env ctx hi g) (h : educate env ctx ch ω g = some g') :
    Table env ctx g' ∧ AllEducated env ctx hi g' ∧ Educated env ctx hi g'.child.phenotype := by
  unfold educate at h
  obtain ⟨g1, h1, h⟩ := Option.bind_eq_some_iff.mp h
  obtain ⟨g2, h2, h⟩ := Option.bind_eq_some_iff.mp h
  obtain ⟨g3, h3, rfl⟩ := Option.map_eq_some_iff.mp h
  obtain ⟨i1, r1⟩ := localSearch_edu hv hg h1
  obtain ⟨t1, p1, e1, o1⟩ := localSearch_opt hv he hls hg ht h1
  obtain ⟨i2, r2⟩ := mutate_edu hv hch i1 h2
  obtain ⟨l2, p2, c2, d2⟩ := mutate_cost hv hch i1 h2
  obtain ⟨t3, a3, c3⟩ := repair_educated hv he hls i2 (t1.congr l2)
    (by unfold AllEducated; rw [p2, p1]; exact ha) h3
  obtain ⟨f1, f2, -⟩ := updateBest_other g3
  refine ⟨t3.congr f1, by unfold AllEducated; rw [f2]; exact a3, ?_⟩
  rw [updateBest_child, c3]
  have o1' : Optimum env ctx g.rr.pen g1.child.phenotype := by simpa using o1
  have hpen := hg.mu.pen
  refine ⟨g.rr.pen, hpen.1, by linarith [hpen.1, hpen.2], ⟨_, i1.child.good.part, o1', ?_⟩, fun e => ?_⟩
  · rw [e1] at d2
    exact d2
  · rw [c2 e]
    exact o1'

theorem runSplit_same {k : ℕ} {g g' : GA ℚ} (h : runSplit env ctx k g = some g') :
    g'.ls = g.ls ∧ g'.pop = g.pop := by
  unfold runSplit at h
  obtain ⟨p, -, rfl⟩ := Option.map_eq_some_iff.mp h
  exact ⟨rfl, rfl⟩

theorem breed_educated (hv : ValidUpTo env ctx hi) (he : Even ctx) (hls : env.lsEnabled = true)
    {ch : GAChoice ℚ} (hch : ChOK ch) {g g' : GA ℚ} (hb : Base env ctx g) (hm : Mut env ctx hi g.rr)
    (ht : Table env ctx g) (ha : AllEducated env ctx hi g) (h : breed env ctx ch g = some g') :
    Table env ctx g' ∧ AllEducated env ctx hi g' ∧ Educated env ctx hi g'.child.phenotype := by
  unfold breed at h
  obtain ⟨p1, e1, h⟩ := Option.bind_eq_some_iff.mp h
  obtain ⟨p2, e2, h⟩ := Option.bind_eq_some_iff.mp h
  obtain ⟨c, e3, h⟩ := Option.bind_eq_some_iff.mp h
  obtain ⟨g1, h1, h⟩ := Option.bind_eq_some_iff.mp h
  obtain ⟨⟨q1, k1⟩, l1⟩ := member_good hv hb (parent_mem e1)
  obtain ⟨⟨q2, k2⟩, l2⟩ := member_good hv hb (parent_mem e2)
  have hc := crossover_perm ((good_perm k1).nodup_iff.mpr (Spec.nodup_customers _))
    ((good_perm k2).trans (good_perm k1).symm) e3
  obtain ⟨b1, b2⟩ := nonempty_bounds hv.n k1
  obtain ⟨i1, r1⟩ := runSplit_edu hv (g := { g with child := Individual.new c g.pop.total })
    l1 b1 ⟨hb.pop, hb.len, hb.ready, hb.nbr, hb.lsLen, hb.split⟩ hm
    (hc.trans (good_perm k1)) h1
  obtain ⟨x1, x2⟩ := runSplit_same h1
  exact educate_educated hv he hls hch i1 (ht.congr x1) (by unfold AllEducated; rw [x2]; exact ha) h

theorem createInitial_educated (hv : ValidUpTo env ctx hi) (he : Even ctx) (hls : env.lsEnabled = true)
    {ch : GAChoice ℚ} (hch : ChOK ch) {g g' : GA ℚ} {x : Individual ℚ} (hb : Base env ctx g)
    (hm : Mut env ctx hi g.rr) (ht : Table env ctx g) (ha : AllEducated env ctx hi g)
    (h : createInitial env ctx ch g = some (x, g')) :
    Table env ctx g' ∧ AllEducated env ctx hi g' ∧ Educated env ctx hi x.phenotype := by
  unfold createInitial at h
  obtain ⟨g1, h1, h⟩ := Option.bind_eq_some_iff.mp h
  obtain ⟨g2, h2, e⟩ := Option.map_eq_some_iff.mp h
  simp only [Prod.mk.injEq] at e
  obtain ⟨rfl, rfl⟩ := e
  generalize hc : Individual.newRandom ctx env.split.numVehicles (ch.ω.sub 0) g.numInitialized = c at h1
  have hp : c.genotype.Perm (Spec.customers ctx.n) := hc ▸ newRandom_geno _ _ _ _
  obtain ⟨i1, r1⟩ := runSplit_edu hv (g := { g with child := c }) (le_refl _) hv.fleet
    ⟨hb.pop, hb.len, hb.ready, hb.nbr, hb.lsLen, hb.split⟩ hm hp h1
  obtain ⟨x1, x2⟩ := runSplit_same h1
  obtain ⟨t, a, d⟩ := educate_educated hv he hls hch i1 (ht.congr x1) (by unfold AllEducated; rw [x2]; exact ha) h2
  exact ⟨t.congr rfl, a, d⟩

theorem updatePenalty_educated (hv : ValidUpTo env ctx hi) {g g' : GA ℚ} (hb : Base env ctx g)
    (ha : AllEducated env ctx hi g) (h : updatePenalty env ctx g = some g') :
    AllEducated env ctx hi g' ∧ g'.ls = g.ls := by
  unfold updatePenalty at h
  obtain ⟨q, hq, rfl⟩ := Option.map_eq_some_iff.mp h
  obtain ⟨hs, hr⟩ := hb.pop
  obtain ⟨-, -, hf, l, h1, h2⟩ := (hr.inv hv.bs hv.sort).reprice hv.sort hq
  refine ⟨?_, rfl⟩
  intro x hx
  dsimp only at hx
  rw [List.mem_append] at hx
  rcases hx with hx | hx
  · exact ha x (by rw [hf] at hx; exact List.mem_append_left _ hx)
  · have hx' := (hv.sort _ _ h2).mem_iff.mp hx
    have key : ∀ {a b : List (Individual ℚ)},
        List.Forall₂ (fun x y => x.evaluate (RR.ctxAt ctx (nextPenalty env (feasibleFraction g.pop) g.rr.pen))
          = some y) a b → ∀ y ∈ b, ∃ x ∈ a, y.phenotype = x.phenotype := by
      intro a b hab
      induction hab with
      | nil => simp
      | @cons u v _ _ e _ ih =>
        intro y hy
        rw [List.mem_cons] at hy
        rcases hy with rfl | hy
        · unfold Individual.evaluate at e
          obtain ⟨ev, -, rfl⟩ := Option.map_eq_some_iff.mp e
          exact ⟨u, by simp, rfl⟩
        · obtain ⟨z, hz, e⟩ := ih y hy
          exact ⟨z, by simp [hz], e⟩
    obtain ⟨z, hz, e⟩ := key h1 x hx'
    rw [e]
    exact ha z (List.mem_append_right _ hz)

theorem finishCycle_educated (hv : ValidUpTo env ctx hi) {g g' : GA ℚ} (hb : Base env ctx g)
    (ht : Table env ctx g) (ha : AllEducated env ctx hi g) (h : finishCycle env ctx g = some g') :
    Table env ctx g' ∧ AllEducated env ctx hi g' := by
  obtain ⟨g1, g2, u, v, -, -, rfl⟩ := finishCycle_some h
  have k1 : AllEducated env ctx hi g1 ∧ g1.ls = g.ls := by
    rcases u with rfl | u
    · exact ⟨ha, rfl⟩
    · exact updatePenalty_educated hv hb ha u
  have k2 : AllEducated env ctx hi g2 ∧ g2.ls = g.ls := by
    rcases v with rfl | v
    · exact k1
    · obtain ⟨-, rfl⟩ := log_some v
      exact k1
  split
  · refine ⟨ht.congr k2.2, ?_⟩
    intro x hx
    simp [reset, Population.new, SubPop.new] at hx
  · exact ⟨ht.congr k2.2, k2.1⟩

theorem iterate_educated (hv : ValidUpTo env ctx hi) (he : Even ctx) (hls : env.lsEnabled = true)
    (hel : env.eliteEducation = false) {ch : GAChoice ℚ} (hch : ChOK ch) {g g' : GA ℚ}
    (hg : Inv env ctx hi g) (hne : g.state ≠ .elite) (ht : Table env ctx g) (ha : AllEducated env ctx hi g)
    (h : iterate env ctx ch g = some g') :
    Table env ctx g' ∧ AllEducated env ctx hi g' ∧ g'.state ≠ .elite := by
  unfold iterate at h
  split at h
  · rw [Option.some.injEq] at h
    subst h
    exact ⟨ht.congr rfl, ha, by simp⟩
  · split at h
    · unfold stepCreated at h
      rw [if_neg (by simp [hel]), Option.some.injEq] at h
      subst h
      exact ⟨ht.congr rfl, ha, by simp⟩
    · rename_i hs
      exact absurd hs hne
    · rename_i hs
      have hm := hg.mu (Or.inr (Or.inl hs))
      unfold stepInit at h
      split at h
      · obtain ⟨⟨x, g1⟩, h1, h⟩ := Option.bind_eq_some_iff.mp h
        obtain ⟨g2, h2, rfl⟩ := Option.map_eq_some_iff.mp h
        obtain ⟨i1, r1, gx, lx⟩ := createInitial_inv hv hch hg.base hm h1
        obtain ⟨t1, a1, d1⟩ := createInitial_educated hv he hls hch hg.base hm ht ha h1
        obtain ⟨a2, e2⟩ := addToPop_educated hv i1.1 a1 d1 h2
        refine ⟨t1.congr e2, a2, ?_⟩
        have := (addToPop_frame h2).state.trans ((createInitial_frame h1).state.trans hs)
        show g2.state ≠ .elite
        rw [this]
        simp
      · rw [Option.some.injEq] at h
        subst h
        exact ⟨ht.congr rfl, ha, by simp⟩
    · rename_i hs
      have hm := hg.mu (Or.inr (Or.inr hs))
      have hs' := (stepCycle_counts hs h).2.1
      unfold stepCycle at h
      obtain ⟨g1, h1, h⟩ := Option.bind_eq_some_iff.mp h
      obtain ⟨g2, h2, h⟩ := Option.bind_eq_some_iff.mp h
      have b0 : Base env ctx { g with ctxIteration := g.ctxIteration + 1 } :=
        ⟨hg.base.pop, hg.base.len, hg.base.ready, hg.base.nbr, hg.base.lsLen, hg.base.split⟩
      obtain ⟨i1, r1⟩ := breed_edu hv hch b0 hm h1
      obtain ⟨t1, a1, d1⟩ := breed_educated hv he hls hch b0 hm (ht.congr rfl) ha h1
      obtain ⟨i2, r2⟩ := addToPop_edu hv i1 i1.child.good i1.child.len h2
      obtain ⟨a2, e2⟩ := addToPop_educated hv i1.base a1 d1 h2
      obtain ⟨t3, a3⟩ := finishCycle_educated hv i2.base (t1.congr e2) a2 h
      refine ⟨t3, a3, ?_⟩
      rcases hs' with e | e <;> rw [e] <;> simp
    · rw [Option.some.injEq] at h
      subst h
      exact ⟨ht, ha, hne⟩

theorem new_table (ω : Oracle) : Table env ctx (new env ctx ω) where
  cust u h1 h2 := by
    simp [new, LS.new, RR.ctxAt]
    omega
  nbr u v _ := Iff.rfl
  angle := rfl

end GA
end Verif
