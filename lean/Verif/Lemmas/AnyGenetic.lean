import Verif.Lemmas.AnyRR
import Verif.Lemmas.AnySplit
import Verif.Lemmas.GeneticInv

/-! # The genetic loop in any arithmetic (runs that return)

What the arithmetic has to satisfy is listed in `GA.Laws`; nothing else is used of it. -/

namespace Verif
open F64

variable {α : Type} [F64 α]

/-- What is asked of instance, configuration and arithmetic: `P` holds of the penalties outside elite
education, `E` of the recorded values of a route in ruin and recreate. -/
structure GA.Laws (env : GAEnv α) (ctx : Ctx α) (P : α → Prop) (E : RRoute α → Prop) : Prop where
  n : 2 ≤ ctx.n
  fleet : 1 ≤ env.split.numVehicles
  bound : env.lowerBound ≤ env.split.numVehicles
  vehicles : env.rr.numVehicles = env.split.numVehicles
  bs : BSearchOK env.bs
  sort : Population.SortPerm env.sort
  nbr : NbrOK ctx (LS.new ctx env.split.numVehicles env.granularity env.angle env.corr env.corrCols (lit 1))
  arith : ∀ p, Arith (RR.ctxAt ctx p)
  init : P env.initialPen
  next : ∀ f p, P (GA.nextPenalty env f p)
  split : ∀ p, P p → SplitOK env.split (RR.ctxAt ctx p)
  route : RouteLaws ctx E

theorem RR.runToEnd_any {env : RREnv α} {ctx : Ctx α} {E : RRoute α → Prop} {nv : ℕ} (hE : RouteLaws ctx E)
    (hn : 0 < ctx.n) (hnv : env.numVehicles = nv) {ch : ℕ → ℕ → RRChoice α}
    (hch : ∀ i k, ChoiceOK (ch i k)) : ∀ (fuel i : ℕ) {st st' : RR α},
    AnyInv ctx E nv st → st.updatePenalty = false → runToEnd env ctx ch fuel i st = some st' →
      AnyInv ctx E nv st' ∧ KeepsBest st st' ∧ st'.updatePenalty = false ∧ st'.pen = st.pen
  | 0, _, _, _, _, _, h => by simp [runToEnd] at h
  | fuel + 1, i, st, st', hi, hu, h => by
    unfold runToEnd at h
    split at h
    · rw [Option.some.injEq] at h
      subst h
      exact ⟨hi, fun h => h, hu, rfl⟩
    · obtain ⟨st1, h1, h⟩ := Option.bind_eq_some_iff.mp h
      obtain ⟨a1, a2, a3, a4⟩ := searchLoop_any hE hn (hch i) hnv 1000 hi h1
      obtain ⟨b1, b2, b3, b4⟩ := runToEnd_any hE hn hnv hch fuel (i + 1) a1 (a3.trans hu) h
      exact ⟨b1, fun e => b2 (a2 e), b3, b4.trans (a4 hu)⟩

/-- The best solution of ruin and recreate, written to an individual of `nv` routes. -/
theorem RR.getBest_any {env : RREnv α} {ctx : Ctx α} {E : RRoute α → Prop} {nv : ℕ} {st : RR α}
    (hi : AnyInv ctx E nv st) (hb : st.best.isSome = true) {x y : Individual α} (hx : x.phenotype.length = nv)
    (h : getBest env ctx st x = some y) : y.Good (ctxAt ctx st.pen) ∧ y.phenotype.length = nv := by
  obtain ⟨b, hb⟩ := Option.isSome_iff_exists.mp hb
  have v := hi.best b hb
  unfold getBest at h
  rw [hb] at h
  obtain ⟨y1, y2⟩ := updateIndividual_any (ctx := ctxAt ctx st.pen) v.unassigned v.part (v.count.trans hx.symm) h
  exact ⟨y1, by rw [y2.length_eq, RRSol.length_stops, v.count]⟩

namespace GA

/-- What holds of the ruin-and-recreate object and the penalty outside elite education. -/
structure AnyMut (env : GAEnv α) (ctx : Ctx α) (P : α → Prop) (E : RRoute α → Prop) (r : RR α) : Prop where
  idle : r.Idle ctx env.split.numVehicles
  upd : r.updatePenalty = false
  pen : P r.pen
  hist : HistOK ctx E env.split.numVehicles r.hist

/-- The individual kept as best is complete. -/
def BestPart (ctx : Ctx α) (g : GA α) : Prop := ∀ b, g.bestSolution = some b → Spec.IsPartition ctx.n b.phenotype

/-- The situation during education. -/
structure AnyEdu (env : GAEnv α) (ctx : Ctx α) (P : α → Prop) (E : RRoute α → Prop) (g : GA α) : Prop where
  base : Base env ctx g
  best : BestPart ctx g
  mu : AnyMut env ctx P E g.rr
  good : g.child.Good (RR.ctxAt ctx g.rr.pen)
  len : g.child.phenotype.length = env.split.numVehicles

variable {env : GAEnv α} {ctx : Ctx α} {P : α → Prop} {E : RRoute α → Prop}

theorem Laws.npos (hv : Laws env ctx P E) : 0 < ctx.n := by have := hv.n; omega

theorem localSearch_any (hv : Laws env ctx P E) {ω : Oracle} {fuel : ℕ} {factor : α} {g g' : GA α}
    (hg : AnyEdu env ctx P E g) (h : localSearch env ctx ω fuel factor g = some g') :
    AnyEdu env ctx P E g' ∧ g'.rr.pen = g.rr.pen := by
  unfold localSearch at h
  split at h
  · obtain ⟨⟨l, y⟩, h1, rfl⟩ := Option.map_eq_some_iff.mp h
    obtain ⟨r1, r2, r3, r4, r5, r6, r7⟩ := C10_run_structure env.rr.atan2 (RR.ctxAt ctx g.rr.pen)
      env.moves ω fuel factor g.ls g.child (hv.arith _) hg.base.ready (nbrOK_at hg.base.nbr)
      hg.good.part (hg.len.trans hg.base.lsLen.symm) l y h1
    exact ⟨⟨⟨hg.base.pop, hg.base.len, r5, nbrOK_of_at r6, r7.trans hg.base.lsLen, hg.base.split⟩,
      hg.best, hg.mu, ⟨r1, r3, _, r4⟩, r2.trans hg.len⟩, rfl⟩
  · rw [Option.some.injEq] at h
    subst h
    exact ⟨hg, rfl⟩

theorem mutate_any (hv : Laws env ctx P E) {ch : GAChoice α} (hch : ChOK ch) {w : ℕ} {g g' : GA α}
    (hg : AnyEdu env ctx P E g) (h : mutate env ctx ch w g = some g') :
    AnyEdu env ctx P E g' ∧ g'.rr.pen = g.rr.pen := by
  unfold mutate at h
  split at h
  · obtain ⟨r1, h1, h⟩ := Option.bind_eq_some_iff.mp h
    obtain ⟨r2, h2, h⟩ := Option.bind_eq_some_iff.mp h
    obtain ⟨x, h3, rfl⟩ := Option.map_eq_some_iff.mp h
    obtain ⟨i1, -, b1, p1, -, u1⟩ := RR.load_any hv.route hg.good hg.mu.idle hg.mu.hist h1
    obtain ⟨i2, k2, u2, p2⟩ := RR.runToEnd_any hv.route hv.npos hv.vehicles hch _ _ i1 (u1.trans hg.mu.upd) h2
    obtain ⟨y1, y2⟩ := RR.getBest_any i2 (k2 b1) hg.len h3
    have hpen : r2.pen = g.rr.pen := p2.trans p1
    exact ⟨⟨⟨hg.base.pop, hg.base.len, hg.base.ready, hg.base.nbr, hg.base.lsLen, hg.base.split⟩, hg.best,
      ⟨i2.idle, u2, by rw [hpen]; exact hg.mu.pen, i2.hist⟩, y1, y2⟩, hpen⟩
  · rw [Option.some.injEq] at h
    subst h
    exact ⟨hg, rfl⟩

/-- Recording the child. -/
theorem updateBest_hist {g : GA α} {p : α} (hg : g.child.Good (RR.ctxAt ctx p))
    (hl : g.child.numNonemptyRoutes ≤ env.split.numVehicles) (hb : BestPart ctx g)
    (hh : HistOK ctx E env.split.numVehicles g.rr.hist) :
    BestPart ctx g.updateBest ∧ HistOK ctx E env.split.numVehicles g.updateBest.rr.hist := by
  unfold updateBest
  split
  · rename_i hc
    rw [Bool.and_eq_true] at hc
    dsimp only
    split
    · rename_i hc'
      refine ⟨fun b e => ?_, hh.add hg hl (Or.inl ⟨hc.1, hc'⟩)⟩
      simp only [Option.some.injEq] at e
      subst e
      exact hg.part
    · exact ⟨hb, hh⟩
  · exact ⟨hb, hh⟩

theorem updateBest_any {g : GA α} (hg : AnyEdu env ctx P E g) :
    AnyEdu env ctx P E g.updateBest ∧ g.updateBest.rr.pen = g.rr.pen := by
  obtain ⟨-, -, -, h, e4⟩ := updateBest_other g
  obtain ⟨b1, b2⟩ := updateBest_hist hg.good (nonempty_le hg.len) hg.best hg.mu.hist
  have ep : g.updateBest.rr.pen = g.rr.pen := by rw [e4]
  have e := updateBest_child g
  refine ⟨⟨updateBest_base hg.base, b1, ⟨?_, ?_, by rw [ep]; exact hg.mu.pen, b2⟩, ?_, ?_⟩, ep⟩
  · rw [e4]
    exact ⟨hg.mu.idle.routes, hg.mu.idle.locs, hg.mu.idle.unassigned, hg.mu.idle.ruined⟩
  · rw [e4]; exact hg.mu.upd
  · rw [e, ep]; exact hg.good
  · rw [e]; exact hg.len

theorem addToPop_anyBase (hv : Laws env ctx P E) {x : Individual α} {u : Bool} {g g' : GA α} {p : α}
    (hg : Base env ctx g) (hx : x.Good (RR.ctxAt ctx p))
    (hl : x.numNonemptyRoutes ≤ env.split.numVehicles) (h : addToPop env x u g = some g') :
    Base env ctx g' ∧ ∃ q, g' = { g with pop := q } := by
  unfold addToPop at h
  obtain ⟨q, hq, rfl⟩ := Option.map_eq_some_iff.mp h
  obtain ⟨hs, hr⟩ := hg.pop
  exact ⟨⟨⟨_, hr.add hx trivial hq⟩,
    add_members hv.bs (hr.inv hv.bs hv.sort) (P := fun l => (l.filter (fun r => decide (0 < r.length))).length ≤ env.split.numVehicles) hg.len hl hq,
    hg.ready, hg.nbr, hg.lsLen, hg.split⟩, q, rfl⟩

theorem addToPop_any (hv : Laws env ctx P E) {x : Individual α} {u : Bool} {g g' : GA α} {p : α}
    (hg : AnyEdu env ctx P E g) (hx : x.Good (RR.ctxAt ctx p))
    (hl : x.phenotype.length = env.split.numVehicles) (h : addToPop env x u g = some g') :
    AnyEdu env ctx P E g' ∧ g'.rr.pen = g.rr.pen := by
  obtain ⟨h1, q, rfl⟩ := addToPop_anyBase hv hg.base hx (nonempty_le hl) h
  exact ⟨⟨h1, hg.best, hg.mu, hg.good, hg.len⟩, rfl⟩

theorem repair_any (hv : Laws env ctx P E) {ω : Oracle} {fuel w : ℕ} {g g' : GA α}
    (hg : AnyEdu env ctx P E g) (h : repair env ctx ω fuel w g = some g') :
    AnyEdu env ctx P E g' ∧ g'.rr.pen = g.rr.pen := by
  unfold repair at h
  split at h
  · obtain ⟨g1, h1, h⟩ := Option.bind_eq_some_iff.mp h
    obtain ⟨g2, h2, rfl⟩ := Option.map_eq_some_iff.mp h
    obtain ⟨i1, r1⟩ := localSearch_any hv hg h1
    have key : AnyEdu env ctx P E g2 ∧ g2.rr.pen = g.rr.pen := by
      split at h2
      · obtain ⟨i2, r2⟩ := updateBest_any i1
        obtain ⟨i3, r3⟩ := addToPop_any hv i2 i2.good i2.len h2
        exact ⟨i3, r3.trans (r2.trans r1)⟩
      · rw [Option.some.injEq] at h2
        subst h2
        exact ⟨i1, r1⟩
    obtain ⟨i2, r2⟩ := key
    refine ⟨⟨⟨i2.base.pop, i2.base.len, i2.base.ready, i2.base.nbr, i2.base.lsLen, i2.base.split⟩, i2.best,
      i2.mu, ?_, hg.len⟩, r2⟩
    show g.child.Good (RR.ctxAt ctx g2.rr.pen)
    rw [r2]
    exact hg.good
  · rw [Option.some.injEq] at h
    subst h
    exact ⟨hg, rfl⟩

theorem educate_any (hv : Laws env ctx P E) {ch : GAChoice α} (hch : ChOK ch) {ω : Oracle} {g g' : GA α}
    (hg : AnyEdu env ctx P E g) (h : educate env ctx ch ω g = some g') :
    AnyEdu env ctx P E g' ∧ g'.rr.pen = g.rr.pen := by
  unfold educate at h
  obtain ⟨g1, h1, h⟩ := Option.bind_eq_some_iff.mp h
  obtain ⟨g2, h2, h⟩ := Option.bind_eq_some_iff.mp h
  obtain ⟨g3, h3, rfl⟩ := Option.map_eq_some_iff.mp h
  obtain ⟨i1, r1⟩ := localSearch_any hv hg h1
  obtain ⟨i2, r2⟩ := mutate_any hv hch i1 h2
  obtain ⟨i3, r3⟩ := repair_any hv i2 h3
  obtain ⟨i4, r4⟩ := updateBest_any i3
  exact ⟨i4, r4.trans (r3.trans (r2.trans r1))⟩

theorem runSplit_any (hv : Laws env ctx P E) {k : ℕ} (hk : k ≤ env.split.numVehicles) (h1 : 1 ≤ k)
    {g g' : GA α} (hb : Base env ctx g) (hp : BestPart ctx g) (hm : AnyMut env ctx P E g.rr)
    (hc : g.child.genotype.Perm (Spec.customers ctx.n)) (h : runSplit env ctx k g = some g') :
    AnyEdu env ctx P E g' ∧ g'.rr.pen = g.rr.pen := by
  unfold runSplit at h
  obtain ⟨⟨s', y⟩, e, rfl⟩ := Option.map_eq_some_iff.mp h
  obtain ⟨r1, r2, r3, -⟩ := splitRun_any (ctx := RR.ctxAt ctx g.rr.pen) hb.split hc
    (le_trans h1 (le_max_left _ _)) (max_le hk hv.bound) (hv.split _ hm.pen) e
  exact ⟨⟨⟨hb.pop, hb.len, hb.ready, hb.nbr, hb.lsLen, r1⟩, hp, hm, r2, r3⟩, rfl⟩

/-- The invariant of the loop. -/
structure AnyInv (env : GAEnv α) (ctx : Ctx α) (P : α → Prop) (E : RRoute α → Prop) (g : GA α) : Prop where
  base : Base env ctx g
  best : BestPart ctx g
  hist : HistOK ctx E env.split.numVehicles g.rr.hist
  mu : g.state = .created ∨ g.state = .init ∨ g.state = .cycle → AnyMut env ctx P E g.rr
  geno : g.child.genotype.Perm (Spec.customers ctx.n)
  elite : g.state = .elite → RR.AnyInv ctx E env.split.numVehicles g.rr ∧ g.rr.best.isSome = true ∧
    g.child.phenotype.length = env.split.numVehicles

theorem AnyEdu.geno {g : GA α} (h : AnyEdu env ctx P E g) : g.child.genotype.Perm (Spec.customers ctx.n) :=
  good_perm h.good

theorem new_any (hv : Laws env ctx P E) (ω : Oracle) : AnyInv env ctx P E (new env ctx ω) := by
  refine ⟨⟨⟨[], .new⟩, ?_, C10_new_ready _ _ _ _ _ _ _, ?_, rfl, .new _ rfl rfl⟩, fun b e => by simp [new] at e,
    HistOK.new _ _ _, fun _ => ?_, newRandom_geno _ _ _ _, fun h => by simp [new] at h⟩
  · intro x hx
    simp [new, Population.new, SubPop.new] at hx
  · exact ⟨hv.nbr.gran, hv.nbr.cols, hv.nbr.len, hv.nbr.nbr, hv.nbr.cust⟩
  · exact ⟨RR.new_idle _ _ _ _ _ _, rfl, hv.init, HistOK.new _ _ _⟩

theorem member_any (hv : Laws env ctx P E) {g : GA α} (hb : Base env ctx g) {x : Individual α}
    (hx : x ∈ g.pop.feasible.pop ++ g.pop.infeasible.pop) :
    (∃ p, x.Good (RR.ctxAt ctx p)) ∧ x.numNonemptyRoutes ≤ env.split.numVehicles := by
  obtain ⟨hs, hr⟩ := hb.pop
  have hI := hr.inv hv.bs hv.sort
  refine ⟨?_, hb.len x hx⟩
  rw [List.mem_append] at hx
  rcases hx with hx | hx
  · exact hI.feasible.good x hx
  · exact hI.infeasible.good x hx

theorem breed_any (hv : Laws env ctx P E) {ch : GAChoice α} (hch : ChOK ch) {g g' : GA α}
    (hb : Base env ctx g) (hp : BestPart ctx g) (hm : AnyMut env ctx P E g.rr) (h : breed env ctx ch g = some g') :
    AnyEdu env ctx P E g' := by
  unfold breed at h
  obtain ⟨p1, e1, h⟩ := Option.bind_eq_some_iff.mp h
  obtain ⟨p2, e2, h⟩ := Option.bind_eq_some_iff.mp h
  obtain ⟨c, e3, h⟩ := Option.bind_eq_some_iff.mp h
  obtain ⟨g1, h1, h⟩ := Option.bind_eq_some_iff.mp h
  obtain ⟨⟨q1, k1⟩, l1⟩ := member_any hv hb (parent_mem e1)
  obtain ⟨⟨q2, k2⟩, l2⟩ := member_any hv hb (parent_mem e2)
  have hc := crossover_perm ((good_perm k1).nodup_iff.mpr (Spec.nodup_customers _))
    ((good_perm k2).trans (good_perm k1).symm) e3
  obtain ⟨b1, b2⟩ := nonempty_bounds hv.n k1
  obtain ⟨i1, -⟩ := runSplit_any hv (g := { g with child := Individual.new c g.pop.total })
    l1 b1 ⟨hb.pop, hb.len, hb.ready, hb.nbr, hb.lsLen, hb.split⟩ hp hm
    (hc.trans (good_perm k1)) h1
  exact (educate_any hv hch i1 h).1

theorem createInitial_any (hv : Laws env ctx P E) {ch : GAChoice α} (hch : ChOK ch) {g g' : GA α}
    {x : Individual α} (hb : Base env ctx g) (hp : BestPart ctx g) (hm : AnyMut env ctx P E g.rr)
    (h : createInitial env ctx ch g = some (x, g')) :
    (Base env ctx g' ∧ BestPart ctx g' ∧ AnyMut env ctx P E g'.rr ∧ g'.child = g.child) ∧
      x.Good (RR.ctxAt ctx g'.rr.pen) ∧ x.phenotype.length = env.split.numVehicles := by
  unfold createInitial at h
  obtain ⟨g1, h1, h⟩ := Option.bind_eq_some_iff.mp h
  obtain ⟨g2, h2, e⟩ := Option.map_eq_some_iff.mp h
  simp only [Prod.mk.injEq] at e
  obtain ⟨rfl, rfl⟩ := e
  generalize hc : Individual.newRandom ctx env.split.numVehicles (ch.ω.sub 0) g.numInitialized = c at h1
  have hpm : c.genotype.Perm (Spec.customers ctx.n) := hc ▸ newRandom_geno _ _ _ _
  obtain ⟨i1, -⟩ := runSplit_any hv (g := { g with child := c }) (le_refl _) hv.fleet
    ⟨hb.pop, hb.len, hb.ready, hb.nbr, hb.lsLen, hb.split⟩ hp hm hpm h1
  obtain ⟨i2, -⟩ := educate_any hv hch i1 h2
  exact ⟨⟨⟨i2.base.pop, i2.base.len, i2.base.ready, i2.base.nbr, i2.base.lsLen, i2.base.split⟩, i2.best, i2.mu, rfl⟩,
    i2.good, i2.len⟩

theorem updatePenalty_any (hv : Laws env ctx P E) {g g' : GA α} (hb : Base env ctx g)
    (hm : AnyMut env ctx P E g.rr) (h : updatePenalty env ctx g = some g') :
    Base env ctx g' ∧ AnyMut env ctx P E g'.rr ∧ g'.child = g.child ∧ g'.bestSolution = g.bestSolution := by
  unfold updatePenalty at h
  obtain ⟨q, hq, rfl⟩ := Option.map_eq_some_iff.mp h
  obtain ⟨hs, hr⟩ := hb.pop
  obtain ⟨-, -, hf, l, h1, h2⟩ := (hr.inv hv.bs hv.sort).reprice hv.sort hq
  refine ⟨⟨⟨_, hr.reprice hq fun _ _ => trivial⟩, ?_, hb.ready, hb.nbr, hb.lsLen, hb.split⟩,
    ⟨⟨hm.idle.routes, hm.idle.locs, hm.idle.unassigned, hm.idle.ruined⟩, hm.upd,
      hv.next _ _, hm.hist⟩, rfl, rfl⟩
  intro x hx
  dsimp only at hx
  rw [List.mem_append] at hx
  rcases hx with hx | hx
  · exact hb.len x (by rw [hf] at hx; exact List.mem_append_left _ hx)
  · have hx' := (hv.sort _ _ h2).mem_iff.mp hx
    have key : ∀ {a b : List (Individual α)},
        List.Forall₂ (fun x y => x.evaluate (RR.ctxAt ctx (nextPenalty env (feasibleFraction g.pop) g.rr.pen))
          = some y) a b → ∀ y ∈ b, ∃ x ∈ a, y.phenotype = x.phenotype := by
      intro a b hab
      induction hab with
      | nil => simp
      | @cons u v _ _ e _ ih =>
        intro y hy
        rw [List.mem_cons] at hy
        rcases hy with rfl | hy
        · unfold Individual.evaluate at e
          obtain ⟨ev, -, rfl⟩ := Option.map_eq_some_iff.mp e
          exact ⟨u, by simp, rfl⟩
        · obtain ⟨z, hz, e⟩ := ih y hy
          exact ⟨z, by simp [hz], e⟩
    obtain ⟨z, hz, e⟩ := key h1 x hx'
    unfold Individual.numNonemptyRoutes
    rw [e]
    exact hb.len z (List.mem_append_right _ hz)

theorem finishCycle_any (hv : Laws env ctx P E) {g g' : GA α} (hb : Base env ctx g) (hp : BestPart ctx g)
    (hm : AnyMut env ctx P E g.rr)
    (hc : g.child.genotype.Perm (Spec.customers ctx.n)) (hs : g.state = .cycle)
    (h : finishCycle env ctx g = some g') : AnyInv env ctx P E g' := by
  obtain ⟨g1, g2, u, v, w, -, rfl⟩ := finishCycle_some h
  have k1 : Base env ctx g1 ∧ AnyMut env ctx P E g1.rr ∧ g1.child = g.child := by
    rcases u with rfl | u
    · exact ⟨hb, hm, rfl⟩
    · obtain ⟨a, b, c, -⟩ := updatePenalty_any hv hb hm u
      exact ⟨a, b, c⟩
  have k2 : Base env ctx g2 ∧ AnyMut env ctx P E g2.rr ∧ g2.child = g.child := by
    rcases v with rfl | v
    · exact k1
    · obtain ⟨-, rfl⟩ := log_some v
      exact ⟨⟨k1.1.pop, k1.1.len, k1.1.ready, k1.1.nbr, k1.1.lsLen, k1.1.split⟩, k1.2.1, k1.2.2⟩
  obtain ⟨b2, m2, c2⟩ := k2
  have hst : g2.state = .cycle := w.state.trans hs
  have hp2 : BestPart ctx g2 := fun b e => hp b (w.sol ▸ e)
  split
  · refine ⟨⟨⟨[], .new⟩, ?_, b2.ready, b2.nbr, b2.lsLen, b2.split⟩, hp2, m2.hist, fun _ => m2, ?_,
      fun e => by simp [reset] at e⟩
    · intro x hx
      simp [reset, Population.new, SubPop.new] at hx
    · show g2.child.genotype.Perm _
      rw [c2]; exact hc
  · refine ⟨⟨b2.pop, b2.len, b2.ready, b2.nbr, b2.lsLen, b2.split⟩, hp2, m2.hist, fun _ => m2, ?_,
      fun e => ?_⟩
    · show g2.child.genotype.Perm _
      rw [c2]; exact hc
    · rw [show g2.state = .elite from e] at hst
      simp at hst

/-- One call of `iterate` keeps the invariant. -/
theorem iterate_any (hv : Laws env ctx P E) {ch : GAChoice α} (hch : ChOK ch) {g g' : GA α}
    (hg : AnyInv env ctx P E g) (h : iterate env ctx ch g = some g') : AnyInv env ctx P E g' := by
  unfold iterate at h
  split at h
  · rw [Option.some.injEq] at h
    subst h
    exact ⟨⟨hg.base.pop, hg.base.len, hg.base.ready, hg.base.nbr, hg.base.lsLen, hg.base.split⟩, hg.best, hg.hist,
      fun e => by simp at e, hg.geno, fun e => by simp at e⟩
  · split at h
    · rename_i hs
      have hm := hg.mu (Or.inl hs)
      unfold stepCreated at h
      split at h
      · obtain ⟨g1, h1, h⟩ := Option.bind_eq_some_iff.mp h
        obtain ⟨g2, h2, h⟩ := Option.bind_eq_some_iff.mp h
        obtain ⟨r, h3, rfl⟩ := Option.map_eq_some_iff.mp h
        obtain ⟨i1, -⟩ := runSplit_any hv (g := { g with state := .elite }) (le_refl _) hv.fleet
          ⟨hg.base.pop, hg.base.len, hg.base.ready, hg.base.nbr, hg.base.lsLen, hg.base.split⟩ hg.best hm hg.geno h1
        obtain ⟨i2, -⟩ := educate_any hv hch i1 h2
        have fs : g2.state = .elite := (educate_frame h2).state.trans (runSplit_frame h1).state
        have hi := i2.mu.idle
        obtain ⟨j1, -, jb, -⟩ := RR.load_any hv.route (st := setupElite env (ch.clock 1) g2.rr) i2.good
          ⟨hi.routes, hi.locs, hi.unassigned, hi.ruined⟩ i2.mu.hist h3
        refine ⟨⟨i2.base.pop, i2.base.len, i2.base.ready, i2.base.nbr, i2.base.lsLen, i2.base.split⟩, i2.best,
          j1.hist, fun e => ?_, i2.geno, fun _ => ⟨j1, jb, i2.len⟩⟩
        simp [fs] at e
      · rw [Option.some.injEq] at h
        subst h
        exact ⟨⟨hg.base.pop, hg.base.len, hg.base.ready, hg.base.nbr, hg.base.lsLen, hg.base.split⟩, hg.best, hg.hist,
          fun _ => hm, hg.geno, fun e => by simp at e⟩
    · rename_i hs
      obtain ⟨hi, hbs, hl⟩ := hg.elite hs
      unfold stepElite at h
      split at h
      · obtain ⟨x, h1, h⟩ := Option.bind_eq_some_iff.mp h
        obtain ⟨g2, h2, h⟩ := Option.bind_eq_some_iff.mp h
        obtain ⟨-, rfl⟩ := log_some h
        obtain ⟨hxg, hxl⟩ := RR.getBest_any hi hbs hl h1
        have b0 : Base env ctx { g with state := .init, child := x } :=
          ⟨hg.base.pop, hg.base.len, hg.base.ready, hg.base.nbr, hg.base.lsLen, hg.base.split⟩
        obtain ⟨r1, r2⟩ := updateBest_hist (env := env) (E := E) (g := { g with state := .init, child := x })
          hxg (nonempty_le hxl) hg.best hg.hist
        obtain ⟨b2, q, rfl⟩ := addToPop_anyBase hv (updateBest_base b0) hxg (nonempty_le hxl) h2
        obtain ⟨-, -, -, hist, e4⟩ := updateBest_other { g with state := .init, child := x }
        have ec := updateBest_child { g with state := .init, child := x }
        have es := (updateBest_frame { g with state := .init, child := x }).state
        refine ⟨⟨b2.pop, b2.len, b2.ready, b2.nbr, b2.lsLen, b2.split⟩, r1, r2, fun _ => ⟨?_, rfl, hv.init, r2⟩, ?_, fun e => ?_⟩
        · dsimp only
          rw [e4]
          have hid := hi.idle
          exact ⟨hid.routes, hid.locs, hid.unassigned, hid.ruined⟩
        · dsimp only
          rw [ec]
          exact good_perm hxg
        · dsimp only at e
          rw [es] at e
          simp at e
      · obtain ⟨r, h1, rfl⟩ := Option.map_eq_some_iff.mp h
        obtain ⟨i1, kb, -, -⟩ := RR.searchLoop_any hv.route hv.npos (hch 0) hv.vehicles 1000 hi h1
        exact ⟨⟨hg.base.pop, hg.base.len, hg.base.ready, hg.base.nbr, hg.base.lsLen, hg.base.split⟩, hg.best, i1.hist,
          fun e => by simp [hs] at e, hg.geno, fun _ => ⟨i1, kb hbs, hl⟩⟩
    · rename_i hs
      have hm := hg.mu (Or.inr (Or.inl hs))
      unfold stepInit at h
      split at h
      · obtain ⟨⟨x, g1⟩, h1, h⟩ := Option.bind_eq_some_iff.mp h
        obtain ⟨g2, h2, rfl⟩ := Option.map_eq_some_iff.mp h
        obtain ⟨⟨i1, i2, i3, i4⟩, gx, lx⟩ := createInitial_any hv hch hg.base hg.best hm h1
        have f1 := createInitial_frame h1
        obtain ⟨b2, q, rfl⟩ := addToPop_anyBase hv i1 gx (nonempty_le lx) h2
        refine ⟨⟨b2.pop, b2.len, b2.ready, b2.nbr, b2.lsLen, b2.split⟩, i2, i3.hist, fun _ => i3, ?_, fun e => ?_⟩
        · show g1.child.genotype.Perm _
          rw [i4]; exact hg.geno
        · have := f1.state.trans hs
          rw [show g1.state = .elite from e] at this
          simp at this
      · rw [Option.some.injEq] at h
        subst h
        exact ⟨⟨hg.base.pop, hg.base.len, hg.base.ready, hg.base.nbr, hg.base.lsLen, hg.base.split⟩, hg.best, hg.hist,
          fun _ => hm, hg.geno, fun e => by simp at e⟩
    · rename_i hs
      have hm := hg.mu (Or.inr (Or.inr hs))
      unfold stepCycle at h
      obtain ⟨g1, h1, h⟩ := Option.bind_eq_some_iff.mp h
      obtain ⟨g2, h2, h⟩ := Option.bind_eq_some_iff.mp h
      have i1 := breed_any hv hch (g := { g with ctxIteration := g.ctxIteration + 1 })
        ⟨hg.base.pop, hg.base.len, hg.base.ready, hg.base.nbr, hg.base.lsLen, hg.base.split⟩ hg.best hm h1
      obtain ⟨i2, -⟩ := addToPop_any hv i1 i1.good i1.len h2
      have fs : g2.state = .cycle := (addToPop_frame h2).state.trans ((breed_frame h1).state.trans hs)
      exact finishCycle_any hv i2.base i2.best i2.mu i2.geno fs h
    · rw [Option.some.injEq] at h
      subst h
      exact hg

theorem steps_any (hv : Laws env ctx P E) : ∀ (chs : List (GAChoice α)) {g g' : GA α},
    (∀ ch ∈ chs, ChOK ch) → AnyInv env ctx P E g → steps env ctx chs g = some g' → AnyInv env ctx P E g'
  | [], g, g', _, hg, h => by
    rw [steps, Option.some.injEq] at h
    exact h ▸ hg
  | ch :: chs, g, g', hch, hg, h => by
    rw [steps] at h
    split at h
    · rw [Option.some.injEq] at h
      exact h ▸ hg
    · obtain ⟨g1, h1, h⟩ := Option.bind_eq_some_iff.mp h
      exact steps_any hv chs (fun c hc => hch c (by simp [hc])) (iterate_any hv (hch ch (by simp)) hg h1) h

end GA
end Verif
