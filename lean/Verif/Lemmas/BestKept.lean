import Verif.Props.GeneticRun

/-!
# The recorded best against the population

Exact arithmetic.
-/

namespace Verif
open F64 Spec

namespace GA

variable {env : GAEnv ℚ} {ctx : Ctx ℚ} {hi : ℚ}

/-- If the routes are within the capacity then they are no shorter than `c`, up to twice the tolerance. -/
def Beaten (ctx : Ctx ℚ) (c : ℚ) (R : List (List ℕ)) : Prop :=
  CapFeasible ctx.demand ctx.cap 0 R → c ≤ (R.map (routeDist ctx.dist)).sum + 2 / 1000000

/-- The recorded best is as good as the best since the last restart and as every member of the
population, up to the tolerance of the comparisons. -/
structure Seen (ctx : Ctx ℚ) (g : GA ℚ) : Prop where
  cur : g.rr.hist.bestCost ≤ g.currentBest + 1 / 1000000
  all : ∀ x ∈ g.pop.feasible.pop ++ g.pop.infeasible.pop, Beaten ctx g.rr.hist.bestCost x.phenotype

theorem Beaten.mono {c c' : ℚ} {R : List (List ℕ)} (h : Beaten ctx c R) (hc : c' ≤ c) : Beaten ctx c' R :=
  fun hf => hc.trans (h hf)

theorem Seen.mono {g g' : GA ℚ} (h : Seen ctx g) (hp : g'.pop = g.pop) (hc : g'.currentBest = g.currentBest)
    (hb : g'.rr.hist.bestCost ≤ g.rr.hist.bestCost) : Seen ctx g' :=
  ⟨by rw [hc]; exact hb.trans h.cur, by rw [hp]; exact fun x hx => (h.all x hx).mono hb⟩

theorem updateBest_seen {g : GA ℚ} {p : ℚ} (hg : g.child.Good (RR.ctxAt ctx p)) (h : Seen ctx g) :
    Seen ctx g.updateBest ∧ Beaten ctx g.updateBest.rr.hist.bestCost g.updateBest.child.phenotype := by
  have hcost : CapFeasible ctx.demand ctx.cap 0 g.child.phenotype → g.child.isFeasible = true ∧
      g.child.cost = (g.child.phenotype.map (routeDist ctx.dist)).sum := by
    intro hf
    refine ⟨hg.feasible.mpr fun r hr => ?_, ?_⟩
    · have := hf r hr
      show routeLoad ctx.demand r ≤ ctx.cap + _
      linarith
    · rw [hg.cost]
      unfold Spec.solCost
      congr 1
      refine List.map_congr_left fun r hr => ?_
      have := hf r hr
      unfold Spec.routeCost
      rw [max_eq_left (by rw [add_zero] at this; show Spec.routeLoad ctx.demand r - ctx.cap ≤ 0; linarith)]
      show Spec.routeDist ctx.dist r + p * 0 = _
      ring
  unfold updateBest
  split
  · rename_i hc
    rw [Bool.and_eq_true, rat_approxLt, decide_eq_true_eq] at hc
    dsimp only
    split
    · rename_i hc2
      rw [rat_approxLt, decide_eq_true_eq] at hc2
      refine ⟨⟨?_, fun x hx => (h.all x hx).mono ?_⟩, fun hf => ?_⟩
      · show g.child.cost ≤ g.child.cost + _
        linarith
      · show g.child.cost ≤ _
        linarith
      · show g.child.cost ≤ _
        linarith [(hcost hf).2]
    · rename_i hc2
      rw [rat_approxLt, decide_eq_true_eq, not_lt] at hc2
      refine ⟨⟨?_, h.all⟩, fun hf => ?_⟩
      · dsimp only
        linarith
      · dsimp only
        linarith [(hcost hf).2]
  · rename_i hc
    refine ⟨h, fun hf => ?_⟩
    rw [Bool.and_eq_true, rat_approxLt, decide_eq_true_eq] at hc
    have h1 := not_lt.mp fun hlt => hc ⟨(hcost hf).1, hlt⟩
    linarith [(hcost hf).2, h.cur]

theorem addToPop_seen (hv : ValidUpTo env ctx hi) {x : Individual ℚ} {u : Bool} {g g' : GA ℚ}
    (hb : Base env ctx g) (ha : Seen ctx g) (hx : Beaten ctx g.rr.hist.bestCost x.phenotype)
    (h : addToPop env x u g = some g') : Seen ctx g' := by
  unfold addToPop at h
  obtain ⟨q, hq, rfl⟩ := Option.map_eq_some_iff.mp h
  obtain ⟨hs, hr⟩ := hb.pop
  exact ⟨ha.cur, add_members hv.bs (hr.inv hv.bs hv.sort) (P := Beaten ctx g.rr.hist.bestCost) ha.all hx hq⟩

theorem localSearch_same {ω : Oracle} {fuel : ℕ} {factor : ℚ} {g g' : GA ℚ}
    (h : localSearch env ctx ω fuel factor g = some g') :
    g'.pop = g.pop ∧ g'.currentBest = g.currentBest ∧ g'.rr = g.rr := by
  unfold localSearch at h
  split at h
  · obtain ⟨p, -, rfl⟩ := Option.map_eq_some_iff.mp h
    exact ⟨rfl, rfl, rfl⟩
  · rw [Option.some.injEq] at h
    subst h
    exact ⟨rfl, rfl, rfl⟩

theorem mutate_same {ch : GAChoice ℚ} {w : ℕ} {g g' : GA ℚ} (h : mutate env ctx ch w g = some g') :
    g'.pop = g.pop ∧ g'.currentBest = g.currentBest := by
  unfold mutate at h
  split at h
  · obtain ⟨r1, -, h⟩ := Option.bind_eq_some_iff.mp h
    obtain ⟨r2, -, h⟩ := Option.bind_eq_some_iff.mp h
    obtain ⟨x, -, rfl⟩ := Option.map_eq_some_iff.mp h
    exact ⟨rfl, rfl⟩
  · rw [Option.some.injEq] at h
    subst h
    exact ⟨rfl, rfl⟩

theorem repair_seen (hv : ValidUpTo env ctx hi) {ω : Oracle} {fuel w : ℕ} {g g' : GA ℚ}
    (hg : Edu env ctx hi g) (hs : Seen ctx g) (h : repair env ctx ω fuel w g = some g') : Seen ctx g' := by
  unfold repair at h
  split at h
  · obtain ⟨g1, h1, h⟩ := Option.bind_eq_some_iff.mp h
    obtain ⟨g2, h2, rfl⟩ := Option.map_eq_some_iff.mp h
    obtain ⟨i1, -⟩ := localSearch_edu hv hg h1
    obtain ⟨e1, e2, e3⟩ := localSearch_same h1
    have s1 : Seen ctx g1 := hs.mono e1 e2 (by rw [e3])
    have key : Seen ctx g2 := by
      split at h2
      · obtain ⟨s2, b2⟩ := updateBest_seen i1.child.good s1
        exact addToPop_seen hv (updateBest_edu i1).1.base s2 b2 h2
      · rw [Option.some.injEq] at h2
        subst h2
        exact s1
    exact ⟨key.cur, key.all⟩
  · rw [Option.some.injEq] at h
    subst h
    exact hs

theorem educate_seen (hv : ValidUpTo env ctx hi) {ch : GAChoice ℚ} (hch : ChOK ch) {ω : Oracle} {g g' : GA ℚ}
    (hg : Edu env ctx hi g) (hs : Seen ctx g) (h : educate env ctx ch ω g = some g') :
    Seen ctx g' ∧ Beaten ctx g'.rr.hist.bestCost g'.child.phenotype := by
  unfold educate at h
  obtain ⟨g1, h1, h⟩ := Option.bind_eq_some_iff.mp h
  obtain ⟨g2, h2, h⟩ := Option.bind_eq_some_iff.mp h
  obtain ⟨g3, h3, rfl⟩ := Option.map_eq_some_iff.mp h
  obtain ⟨i1, -⟩ := localSearch_edu hv hg h1
  obtain ⟨e1, e2, e3⟩ := localSearch_same h1
  obtain ⟨i2, r2⟩ := mutate_edu hv hch i1 h2
  obtain ⟨f1, f2⟩ := mutate_same h2
  have s2 : Seen ctx g2 := (hs.mono e1 e2 (by rw [e3])).mono f1 f2 r2.hist.log.2
  exact updateBest_seen (repair_edu hv i2 h3).1.child.good (repair_seen hv i2 s2 h3)

theorem runSplit_same' {k : ℕ} {g g' : GA ℚ} (h : runSplit env ctx k g = some g') :
    g'.pop = g.pop ∧ g'.currentBest = g.currentBest ∧ g'.rr = g.rr := by
  unfold runSplit at h
  obtain ⟨p, -, rfl⟩ := Option.map_eq_some_iff.mp h
  exact ⟨rfl, rfl, rfl⟩

theorem breed_seen (hv : ValidUpTo env ctx hi) {ch : GAChoice ℚ} (hch : ChOK ch) {g g' : GA ℚ}
    (hb : Base env ctx g) (hm : Mut env ctx hi g.rr) (hs : Seen ctx g) (h : breed env ctx ch g = some g') :
    Seen ctx g' ∧ Beaten ctx g'.rr.hist.bestCost g'.child.phenotype := by
  unfold breed at h
  obtain ⟨p1, e1, h⟩ := Option.bind_eq_some_iff.mp h
  obtain ⟨p2, e2, h⟩ := Option.bind_eq_some_iff.mp h
  obtain ⟨c, e3, h⟩ := Option.bind_eq_some_iff.mp h
  obtain ⟨g1, h1, h⟩ := Option.bind_eq_some_iff.mp h
  obtain ⟨⟨q1, k1⟩, l1⟩ := member_good hv hb (parent_mem e1)
  obtain ⟨⟨q2, k2⟩, -⟩ := member_good hv hb (parent_mem e2)
  have hc := crossover_perm ((good_perm k1).nodup_iff.mpr (Spec.nodup_customers _))
    ((good_perm k2).trans (good_perm k1).symm) e3
  obtain ⟨i1, -⟩ := runSplit_edu hv (g := { g with child := Individual.new c g.pop.total })
    l1 (nonempty_bounds hv.n k1).1 ⟨hb.pop, hb.len, hb.ready, hb.nbr, hb.lsLen, hb.split⟩ hm
    (hc.trans (good_perm k1)) h1
  obtain ⟨x1, x2, x3⟩ := runSplit_same' h1
  exact educate_seen hv hch i1 (hs.mono x1 x2 (by rw [x3])) h

theorem createInitial_seen (hv : ValidUpTo env ctx hi) {ch : GAChoice ℚ} (hch : ChOK ch) {g g' : GA ℚ}
    {x : Individual ℚ} (hb : Base env ctx g) (hm : Mut env ctx hi g.rr) (hs : Seen ctx g)
    (h : createInitial env ctx ch g = some (x, g')) :
    Seen ctx g' ∧ Beaten ctx g'.rr.hist.bestCost x.phenotype := by
  unfold createInitial at h
  obtain ⟨g1, h1, h⟩ := Option.bind_eq_some_iff.mp h
  obtain ⟨g2, h2, e⟩ := Option.map_eq_some_iff.mp h
  simp only [Prod.mk.injEq] at e
  obtain ⟨rfl, rfl⟩ := e
  generalize hc : Individual.newRandom ctx env.split.numVehicles (ch.ω.sub 0) g.numInitialized = c at h1
  have hp : c.genotype.Perm (Spec.customers ctx.n) := hc ▸ newRandom_geno _ _ _ _
  obtain ⟨i1, -⟩ := runSplit_edu hv (g := { g with child := c }) (le_refl _) hv.fleet
    ⟨hb.pop, hb.len, hb.ready, hb.nbr, hb.lsLen, hb.split⟩ hm hp h1
  obtain ⟨x1, x2, x3⟩ := runSplit_same' h1
  obtain ⟨s, b⟩ := educate_seen hv hch i1 (hs.mono x1 x2 (by rw [x3])) h2
  exact ⟨⟨s.cur, s.all⟩, b⟩

theorem updatePenalty_seen (hv : ValidUpTo env ctx hi) {g g' : GA ℚ} (hb : Base env ctx g)
    (hs : Seen ctx g) (h : updatePenalty env ctx g = some g') : Seen ctx g' := by
  unfold updatePenalty at h
  obtain ⟨q, hq, rfl⟩ := Option.map_eq_some_iff.mp h
  obtain ⟨_, hr⟩ := hb.pop
  obtain ⟨-, -, hf, l, h1, h2⟩ := (hr.inv hv.bs hv.sort).reprice hv.sort hq
  refine ⟨hs.cur, ?_⟩
  intro x hx
  dsimp only at hx
  rw [List.mem_append] at hx
  rcases hx with hx | hx
  · exact hs.all x (by rw [hf] at hx; exact List.mem_append_left _ hx)
  · have hx' := (hv.sort _ _ h2).mem_iff.mp hx
    have key : ∀ {a b : List (Individual ℚ)},
        List.Forall₂ (fun x y => x.evaluate (RR.ctxAt ctx (nextPenalty env (feasibleFraction g.pop) g.rr.pen))
          = some y) a b → ∀ y ∈ b, ∃ x ∈ a, y.phenotype = x.phenotype := by
      intro a b hab
      induction hab with
      | nil => simp
      | @cons u v _ _ e _ ih =>
        intro y hy
        rw [List.mem_cons] at hy
        rcases hy with rfl | hy
        · unfold Individual.evaluate at e
          obtain ⟨ev, -, rfl⟩ := Option.map_eq_some_iff.mp e
          exact ⟨u, by simp, rfl⟩
        · obtain ⟨z, hz, e⟩ := ih y hy
          exact ⟨z, by simp [hz], e⟩
    obtain ⟨z, hz, e⟩ := key h1 x hx'
    rw [e]
    exact hs.all z (List.mem_append_right _ hz)

theorem finishCycle_seen (hv : ValidUpTo env ctx hi) {g g' : GA ℚ} (hb : Base env ctx g) (hs : Seen ctx g)
    (hinf : g.rr.hist.bestCost ≤ inf) (h : finishCycle env ctx g = some g') : Seen ctx g' := by
  obtain ⟨g1, g2, u, v, w, -, rfl⟩ := finishCycle_some h
  have k1 : Seen ctx g1 := by
    rcases u with rfl | u
    · exact hs
    · exact updatePenalty_seen hv hb hs u
  have k2 : Seen ctx g2 := by
    rcases v with rfl | v
    · exact k1
    · obtain ⟨-, rfl⟩ := log_some v
      exact ⟨k1.cur, k1.all⟩
  split
  · refine ⟨?_, ?_⟩
    · show g2.rr.hist.bestCost ≤ (inf : ℚ) + _
      rw [w.hist]
      have : (0 : ℚ) ≤ 1 / 1000000 := by norm_num
      exact hinf.trans (le_add_of_nonneg_right this)
    · intro x hx
      simp [reset, Population.new, SubPop.new] at hx
  · exact ⟨k2.cur, k2.all⟩

theorem iterate_seen (hv : ValidUpTo env ctx hi) {ch : GAChoice ℚ} (hch : ChOK ch) {g g' : GA ℚ}
    (hg : Inv env ctx hi g) (hs : Seen ctx g) (hinf : g.rr.hist.bestCost ≤ inf)
    (h : iterate env ctx ch g = some g') : Seen ctx g' := by
  obtain ⟨-, hist, -⟩ := iterate_inv hv hch hg h
  have hle := hist.log.2
  unfold iterate at h
  split at h
  · rw [Option.some.injEq] at h
    subst h
    exact ⟨hs.cur, hs.all⟩
  · split at h
    · rename_i hst
      have hm := hg.mu (Or.inl hst)
      unfold stepCreated at h
      split at h
      · obtain ⟨g1, h1, h⟩ := Option.bind_eq_some_iff.mp h
        obtain ⟨g2, h2, h⟩ := Option.bind_eq_some_iff.mp h
        obtain ⟨r, h3, rfl⟩ := Option.map_eq_some_iff.mp h
        obtain ⟨i1, -⟩ := runSplit_edu hv (g := { g with state := .elite }) (le_refl _) hv.fleet
          ⟨hg.base.pop, hg.base.len, hg.base.ready, hg.base.nbr, hg.base.lsLen, hg.base.split⟩ hm hg.geno h1
        obtain ⟨x1, x2, x3⟩ := runSplit_same' h1
        obtain ⟨s2, -⟩ := educate_seen hv hch i1 (hs.mono x1 x2 (by rw [x3])) h2
        obtain ⟨i2, -⟩ := educate_edu hv hch i1 h2
        have hid := i2.mu.idle
        obtain ⟨r', e1, -, -, hh1, -⟩ := RR.load_inv (now := ch.clock 2)
          (st := setupElite env (ch.clock 1) g2.rr) i2.child.good i2.child.len
          hid.routes hid.locs hid.unassigned hid.ruined
        rw [h3, Option.some.injEq] at e1
        subst e1
        exact s2.mono rfl rfl (le_of_eq (by show r.hist.bestCost = _; rw [hh1]; rfl))
      · rw [Option.some.injEq] at h
        subst h
        exact ⟨hs.cur, hs.all⟩
    · rename_i hst
      obtain ⟨hri, hgd, hpos, hup, hl⟩ := hg.elite hst
      unfold stepElite at h
      split at h
      · obtain ⟨x, h1, h⟩ := Option.bind_eq_some_iff.mp h
        obtain ⟨g2, h2, h⟩ := Option.bind_eq_some_iff.mp h
        obtain ⟨-, rfl⟩ := log_some h
        have hx : ∃ p, x.Good (RR.ctxAt ctx p) := by
          unfold RR.getBest at h1
          split at h1
          · rename_i b hb
            obtain ⟨v, l, -⟩ := hri.best b hb
            obtain ⟨y1, -⟩ := RR.updateIndividual_some v.at (l.trans hl.symm) h1
            exact ⟨_, y1⟩
          · rw [Option.some.injEq] at h1
            subst h1
            obtain ⟨p, -, h⟩ := hgd
            exact ⟨p, h⟩
        obtain ⟨p, hxg⟩ := hx
        have b0 : Base env ctx { g with state := .init, child := x } :=
          ⟨hg.base.pop, hg.base.len, hg.base.ready, hg.base.nbr, hg.base.lsLen, hg.base.split⟩
        obtain ⟨s1, c1⟩ := updateBest_seen (g := { g with state := .init, child := x }) hxg ⟨hs.cur, hs.all⟩
        rw [updateBest_child] at c1
        have s2 := addToPop_seen hv (updateBest_base b0) s1 c1 h2
        exact ⟨s2.cur, s2.all⟩
      · obtain ⟨r, -, rfl⟩ := Option.map_eq_some_iff.mp h
        exact hs.mono rfl rfl hle
    · rename_i hst
      have hm := hg.mu (Or.inr (Or.inl hst))
      unfold stepInit at h
      split at h
      · obtain ⟨⟨x, g1⟩, h1, h⟩ := Option.bind_eq_some_iff.mp h
        obtain ⟨g2, h2, rfl⟩ := Option.map_eq_some_iff.mp h
        obtain ⟨i1, -⟩ := createInitial_inv hv hch hg.base hm h1
        obtain ⟨s1, b1⟩ := createInitial_seen hv hch hg.base hm hs h1
        have s2 := addToPop_seen hv i1.1 s1 b1 h2
        exact ⟨s2.cur, s2.all⟩
      · rw [Option.some.injEq] at h
        subst h
        exact ⟨hs.cur, hs.all⟩
    · rename_i hst
      have hm := hg.mu (Or.inr (Or.inr hst))
      unfold stepCycle at h
      obtain ⟨g1, h1, h⟩ := Option.bind_eq_some_iff.mp h
      obtain ⟨g2, h2, h⟩ := Option.bind_eq_some_iff.mp h
      have b0 : Base env ctx { g with ctxIteration := g.ctxIteration + 1 } :=
        ⟨hg.base.pop, hg.base.len, hg.base.ready, hg.base.nbr, hg.base.lsLen, hg.base.split⟩
      obtain ⟨i1, r1⟩ := breed_edu hv hch b0 hm h1
      obtain ⟨s1, c1⟩ := breed_seen hv hch b0 hm ⟨hs.cur, hs.all⟩ h1
      obtain ⟨i2, r2⟩ := addToPop_edu hv i1 i1.child.good i1.child.len h2
      have s2 := addToPop_seen hv i1.base s1 c1 h2
      exact finishCycle_seen hv i2.base s2 ((r1.trans r2).hist.log.2.trans hinf) h
    · rw [Option.some.injEq] at h
      subst h
      exact hs

end GA
end Verif
