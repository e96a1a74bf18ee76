import Verif.Lemmas.AnyTotal

/-! # A step of the genetic loop ends without a panic, in any arithmetic, if the local search ends

Elite education has to count its rounds. What is asked of the arithmetic is listed in `GA.Laws` and `GA.Calm`. -/

namespace Verif
open F64 RRSol

variable {α : Type} [F64 α]

/-- In a non-empty population a tournament has a winner. -/
theorem Population.contest_total (p : Population α) : ∀ (l : List ℕ) (w : Option (Individual α)),
    (∀ i ∈ l, i < p.size) → (l ≠ [] ∨ w ≠ none) → ∃ x, p.contest l w = some (some x)
  | [], none, _, h => by simp at h
  | [], some y, _, _ => ⟨y, rfl⟩
  | i :: l, w, hl, _ => by
    have hi : i < (p.feasible.pop ++ p.infeasible.pop).length := by
      rw [List.length_append]; exact hl i (by simp)
    unfold contest
    rw [member_get, List.getElem?_eq_getElem hi]
    dsimp only
    cases w with
    | none => exact contest_total p l _ (fun j hj => hl j (by simp [hj])) (by simp)
    | some y =>
      dsimp only
      split
      · exact contest_total p l _ (fun j hj => hl j (by simp [hj])) (by simp)
      · exact contest_total p l _ (fun j hj => hl j (by simp [hj])) (by simp)

theorem Population.parent_total (cfg : PopCfg) (p : Population α) (ω : Oracle) (hp : p.Nonempty)
    (hk : 1 ≤ cfg.tournamentSize) : ∃ x, p.parent cfg ω = some x := by
  have hs : 0 < p.size := by
    unfold Population.size
    rcases hp with hp | hp
    · have := List.length_pos_iff.mpr hp; omega
    · have := List.length_pos_iff.mpr hp; omega
  obtain ⟨l, h1, hl⟩ := p.draws_some ω hs cfg.tournamentSize
  have hlt : ∀ i ∈ l, i < p.size := by
    intro i hi
    rw [hl, List.mem_reverse, List.mem_map] at hi
    obtain ⟨j, -, rfl⟩ := hi
    exact Nat.mod_lt _ hs
  have hne : l ≠ [] := by
    rw [hl]
    simp
    omega
  obtain ⟨x, h2⟩ := p.contest_total l none hlt (Or.inl hne)
  refine ⟨x, ?_⟩
  unfold parent
  rw [h1, Option.bind_some, h2]
  rfl

/-- Whatever holds of the members and the new individual, holds of the members afterwards. -/
theorem GA.add_individuals {ctx : Ctx α} {cfg : PopCfg} {bs : BSearch} (hbs : BSearchOK bs)
    {p p' : Population α} (hI : Population.Inv ctx cfg p) {x : Individual α} {u : Bool} {Q : Individual α → Prop}
    (hQ : ∀ y z, SubPop.strip y = SubPop.strip z → Q z → Q y)
    (hp : ∀ y ∈ p.feasible.pop ++ p.infeasible.pop, Q y) (hx : Q { x with number := p.total })
    (h : p.add cfg bs x u = some p') : ∀ y ∈ p'.feasible.pop ++ p'.infeasible.pop, Q y := by
  have key : ∀ (s s' : SubPop α) (f : Bool), SubPop.Inv ctx cfg p.total f s →
      s.add cfg bs { x with number := p.total } = some s' → (∀ y ∈ s.pop, Q y) →
      ∀ y ∈ s'.pop, Q y := by
    intro s s' f hs ha hps y hy
    obtain ⟨-, -, -, h4, -⟩ := SubPop.add_summary hbs ha hs.table hs.fresh
    obtain ⟨z, hz, e⟩ := h4 y hy
    refine hQ y z e ?_
    rw [List.mem_cons] at hz
    rcases hz with rfl | hz
    · exact hx
    · exact hps z hz
  unfold Population.add at h
  dsimp only at h
  split at h
  · obtain ⟨s, hs, rfl⟩ := Option.map_eq_some_iff.mp h
    have := key _ _ _ hI.feasible hs fun y hy => hp y (by simp [hy])
    intro y hy
    rw [List.mem_append] at hy
    rcases hy with hy | hy
    · exact this y hy
    · exact hp y (List.mem_append_right _ hy)
  · obtain ⟨s, hs, rfl⟩ := Option.map_eq_some_iff.mp h
    have := key _ _ _ hI.infeasible hs fun y hy => hp y (by simp [hy])
    intro y hy
    rw [List.mem_append] at hy
    rcases hy with hy | hy
    · exact hp y (List.mem_append_left _ hy)
    · exact this y hy

theorem RR.runToEnd_acceptance {env : RREnv α} {ctx : Ctx α} {ch : ℕ → ℕ → RRChoice α} :
    ∀ (fuel i : ℕ) {st st' : RR α} {s : IterSchedule α}, st.acceptance = .iteration s →
      runToEnd env ctx ch fuel i st = some st' → ∃ s', st'.acceptance = .iteration s'
  | 0, _, _, _, _, _, h => by simp [runToEnd] at h
  | fuel + 1, i, st, st', s, hs, h => by
    unfold runToEnd at h
    split at h
    · rw [Option.some.injEq] at h
      subst h
      exact ⟨s, hs⟩
    · obtain ⟨st1, h1, h⟩ := Option.bind_eq_some_iff.mp h
      obtain ⟨s1, a1, -⟩ := search_acceptance hs h1
      exact runToEnd_acceptance fuel (i + 1) a1 h

namespace GA

/-- The penalties individuals are priced with: `W k` holds of those that elite education can reach from a penalty
of the main loop with `k` updates, one every 1000 rounds. -/
def Priced (env : GAEnv α) (W : ℕ → α → Prop) (p : α) : Prop := ∃ k ≤ env.eliteIterations / 1000, W k p

/-- What is asked of instance, configuration and arithmetic beyond `Laws` for a call not to panic. Elite education,
if there is any, has to count its rounds. -/
structure Calm (env : GAEnv α) (ctx : Ctx α) (P : α → Prop) (W : ℕ → α → Prop) (E : RRoute α → Prop) : Prop where
  n : 3 ≤ ctx.n
  rr : RR.Calm env.rr ctx (Priced env W) E
  closest : 1 ≤ env.pop.numClosest
  minSize : 1 ≤ env.pop.minSize
  tournament : 1 ≤ env.pop.tournamentSize
  initial : 1 ≤ env.initialIndividuals
  avg : SubPop.AvgOK α env.pop.numClosest
  cmp : ∀ p q x y, Priced env W p → Priced env W q → x.Good (RR.ctxAt ctx p) → y.Good (RR.ctxAt ctx q) →
    (Individual.cmp y x).isSome = true
  sort : ∀ l, (∀ x ∈ l, ∃ p, Priced env W p ∧ Individual.Good (RR.ctxAt ctx p) x) → ∃ l', env.sort l = some l'
  first : ∀ p, P p → W 0 p
  elite : (env.eliteEducation && decide (env.eliteLimit < ctx.n - 1)) = true → env.eliteTimeBased = false ∧
    ∀ k p, k < env.eliteIterations / 1000 → W k p → W (k + 1) (p *. env.rr.incMultiplier) ∧ W (k + 1) (p *. env.rr.decMultiplier)

/-- Every local search that a call of the algorithm can start ends. -/
def SearchesEnd (env : GAEnv α) (ctx : Ctx α) (P : α → Prop) : Prop :=
  ∀ (ω : Oracle) (p factor : α) (s : LS α) (x : Individual α), P p → (factor = lit 1 ∨ factor = lit 10) →
    Ready s → NbrOK ctx s → s.numRoutes = env.split.numVehicles → x.Good (RR.ctxAt ctx p) →
    x.phenotype.length = env.split.numVehicles →
    ∃ r, EndsIn (fun f => LS.run env.rr.atan2 (RR.ctxAt ctx p) env.moves ω f factor s x) r

/-- What else is needed of a state: the members were priced with admissible penalties, and the schedule of
ruin and recreate counts iterations. -/
structure Tidy (ctx : Ctx α) (P : α → Prop) (g : GA α) : Prop where
  members : ∀ x ∈ g.pop.feasible.pop ++ g.pop.infeasible.pop, ∃ p, P p ∧ x.Good (RR.ctxAt ctx p)
  sched : ∃ s, g.rr.acceptance = .iteration s

variable {env : GAEnv α} {ctx : Ctx α} {P B : α → Prop} {W : ℕ → α → Prop} {E : RRoute α → Prop}

theorem Calm.priced (hc : Calm env ctx P W E) {p : α} (hp : P p) : Priced env W p := ⟨0, Nat.zero_le _, hc.first p hp⟩

theorem Calm.mutation (hc : Calm env ctx P W E) : RR.Calm env.rr ctx P E := hc.rr.mono fun _ => hc.priced

theorem localSearch_tidy {ω : Oracle} {fuel : ℕ} {factor : α} {g g' : GA α} (ht : Tidy ctx B g)
    (h : localSearch env ctx ω fuel factor g = some g') : Tidy ctx B g' := by
  unfold localSearch at h
  split at h
  · obtain ⟨r, -, rfl⟩ := Option.map_eq_some_iff.mp h
    exact ⟨ht.members, ht.sched⟩
  · rw [Option.some.injEq] at h
    exact h ▸ ht

theorem mutate_tidy {ch : GAChoice α} {w : ℕ} {g g' : GA α} (ht : Tidy ctx B g)
    (h : mutate env ctx ch w g = some g') : Tidy ctx B g' := by
  unfold mutate at h
  split at h
  · obtain ⟨r1, h1, h⟩ := Option.bind_eq_some_iff.mp h
    obtain ⟨r2, h2, h⟩ := Option.bind_eq_some_iff.mp h
    obtain ⟨x, h3, rfl⟩ := Option.map_eq_some_iff.mp h
    obtain ⟨s, hs⟩ := ht.sched
    have a1 := RR.load_acceptance h1
    rw [hs] at a1
    exact ⟨ht.members, RR.runToEnd_acceptance _ _ (a1.trans rfl) h2⟩
  · rw [Option.some.injEq] at h
    exact h ▸ ht

theorem updateBest_tidy {g : GA α} (ht : Tidy ctx B g) : Tidy ctx B g.updateBest := by
  obtain ⟨-, e2, -, h, e4⟩ := updateBest_other g
  exact ⟨by rw [e2]; exact ht.members, by rw [e4]; exact ht.sched⟩

theorem addToPop_tidy (hv : Laws env ctx P E) {x : Individual α} {u : Bool} {g g' : GA α} {p : α}
    (hg : Base env ctx g) (ht : Tidy ctx B g) (hp : B p) (hx : x.Good (RR.ctxAt ctx p))
    (h : addToPop env x u g = some g') : Tidy ctx B g' := by
  unfold addToPop at h
  obtain ⟨q, hq, rfl⟩ := Option.map_eq_some_iff.mp h
  obtain ⟨hs, hr⟩ := hg.pop
  refine ⟨add_individuals hv.bs (hr.inv hv.bs hv.sort)
    (Q := fun x => ∃ p, B p ∧ x.Good (RR.ctxAt ctx p)) ?_ ht.members ?_ hq, ht.sched⟩
  · rintro y z e ⟨p, hp, hz⟩
    exact ⟨p, hp, Individual.good_strip e hz⟩
  · exact ⟨p, hp, Individual.good_number _ hx⟩

theorem repair_tidy (hv : Laws env ctx P E) (hB : ∀ p, P p → B p) {ω : Oracle} {fuel w : ℕ} {g g' : GA α}
    (hg : AnyEdu env ctx P E g) (ht : Tidy ctx B g) (h : repair env ctx ω fuel w g = some g') :
    Tidy ctx B g' := by
  unfold repair at h
  split at h
  · obtain ⟨g1, h1, h⟩ := Option.bind_eq_some_iff.mp h
    obtain ⟨g2, h2, rfl⟩ := Option.map_eq_some_iff.mp h
    obtain ⟨i1, r1⟩ := localSearch_any hv hg h1
    have t1 := localSearch_tidy ht h1
    have t2 : Tidy ctx B g2 := by
      split at h2
      · obtain ⟨i2, r2⟩ := updateBest_any i1
        exact addToPop_tidy hv i2.base (updateBest_tidy t1) (hB _ i2.mu.pen) i2.good h2
      · rw [Option.some.injEq] at h2
        exact h2 ▸ t1
    exact ⟨t2.members, t2.sched⟩
  · rw [Option.some.injEq] at h
    exact h ▸ ht

theorem educate_tidy (hv : Laws env ctx P E) (hB : ∀ p, P p → B p) {ch : GAChoice α} (hch : ChOK ch) {ω : Oracle} {g g' : GA α}
    (hg : AnyEdu env ctx P E g) (ht : Tidy ctx B g) (h : educate env ctx ch ω g = some g') :
    Tidy ctx B g' := by
  unfold educate at h
  obtain ⟨g1, h1, h⟩ := Option.bind_eq_some_iff.mp h
  obtain ⟨g2, h2, h⟩ := Option.bind_eq_some_iff.mp h
  obtain ⟨g3, h3, rfl⟩ := Option.map_eq_some_iff.mp h
  obtain ⟨i1, r1⟩ := localSearch_any hv hg h1
  obtain ⟨i2, r2⟩ := mutate_any hv hch i1 h2
  exact updateBest_tidy (repair_tidy hv hB i2 (mutate_tidy (localSearch_tidy ht h1) h2) h3)

theorem runSplit_tidy {k : ℕ} {g g' : GA α} (ht : Tidy ctx B g) (h : runSplit env ctx k g = some g') :
    Tidy ctx B g' := by
  unfold runSplit at h
  obtain ⟨r, -, rfl⟩ := Option.map_eq_some_iff.mp h
  exact ⟨ht.members, ht.sched⟩

theorem breed_tidy (hv : Laws env ctx P E) (hB : ∀ p, P p → B p) {ch : GAChoice α} (hch : ChOK ch) {g g' : GA α}
    (hb : Base env ctx g) (hp : BestPart ctx g) (hm : AnyMut env ctx P E g.rr) (ht : Tidy ctx B g)
    (h : breed env ctx ch g = some g') : Tidy ctx B g' := by
  unfold breed at h
  obtain ⟨p1, e1, h⟩ := Option.bind_eq_some_iff.mp h
  obtain ⟨p2, e2, h⟩ := Option.bind_eq_some_iff.mp h
  obtain ⟨c, e3, h⟩ := Option.bind_eq_some_iff.mp h
  obtain ⟨g1, h1, h⟩ := Option.bind_eq_some_iff.mp h
  obtain ⟨⟨q1, k1⟩, l1⟩ := member_any hv hb (parent_mem e1)
  obtain ⟨⟨q2, k2⟩, l2⟩ := member_any hv hb (parent_mem e2)
  have hc := crossover_perm ((good_perm k1).nodup_iff.mpr (Spec.nodup_customers _))
    ((good_perm k2).trans (good_perm k1).symm) e3
  obtain ⟨b1, b2⟩ := nonempty_bounds hv.n k1
  obtain ⟨i1, -⟩ := runSplit_any hv (g := { g with child := Individual.new c g.pop.total })
    l1 b1 ⟨hb.pop, hb.len, hb.ready, hb.nbr, hb.lsLen, hb.split⟩ hp hm
    (hc.trans (good_perm k1)) h1
  exact educate_tidy hv hB hch i1 (runSplit_tidy (g := { g with child := Individual.new c g.pop.total })
    ⟨ht.members, ht.sched⟩ h1) h

theorem createInitial_tidy (hv : Laws env ctx P E) (hB : ∀ p, P p → B p) {ch : GAChoice α} (hch : ChOK ch) {g g' : GA α}
    {x : Individual α} (hb : Base env ctx g) (hp : BestPart ctx g) (hm : AnyMut env ctx P E g.rr)
    (ht : Tidy ctx B g) (h : createInitial env ctx ch g = some (x, g')) : Tidy ctx B g' := by
  unfold createInitial at h
  obtain ⟨g1, h1, h⟩ := Option.bind_eq_some_iff.mp h
  obtain ⟨g2, h2, e⟩ := Option.map_eq_some_iff.mp h
  simp only [Prod.mk.injEq] at e
  obtain ⟨rfl, rfl⟩ := e
  generalize hc : Individual.newRandom ctx env.split.numVehicles (ch.ω.sub 0) g.numInitialized = c at h1
  have hpm : c.genotype.Perm (Spec.customers ctx.n) := hc ▸ newRandom_geno _ _ _ _
  obtain ⟨i1, -⟩ := runSplit_any hv (g := { g with child := c }) (le_refl _) hv.fleet
    ⟨hb.pop, hb.len, hb.ready, hb.nbr, hb.lsLen, hb.split⟩ hp hm hpm h1
  have t1 := runSplit_tidy (g := { g with child := c }) ⟨ht.members, ht.sched⟩ h1
  have t2 := educate_tidy hv hB hch i1 t1 h2
  exact ⟨t2.members, t2.sched⟩

theorem updatePenalty_tidy (hv : Laws env ctx P E) (hB : ∀ p, P p → B p) {g g' : GA α} (hb : Base env ctx g) (ht : Tidy ctx B g)
    (h : updatePenalty env ctx g = some g') : Tidy ctx B g' := by
  unfold updatePenalty at h
  obtain ⟨q, hq, rfl⟩ := Option.map_eq_some_iff.mp h
  obtain ⟨hs, hr⟩ := hb.pop
  obtain ⟨-, -, hf, l, h1, h2⟩ := (hr.inv hv.bs hv.sort).reprice hv.sort hq
  refine ⟨?_, ht.sched⟩
  intro x hx
  dsimp only at hx
  rw [List.mem_append] at hx
  rcases hx with hx | hx
  · exact ht.members x (by rw [hf] at hx; exact List.mem_append_left _ hx)
  · have hx' := (hv.sort _ _ h2).mem_iff.mp hx
    obtain ⟨i, hi⟩ := List.getElem?_of_mem hx'
    have hlt : i < l.length := (List.getElem?_eq_some_iff.mp hi).1
    have hlt' : i < g.pop.infeasible.pop.length := by rw [h1.length_eq]; exact hlt
    have e := (List.forall₂_iff_get.mp h1).2 i hlt' hlt
    obtain ⟨r, -, hr'⟩ := ht.members _ (List.mem_append_right _ (List.getElem_mem hlt'))
    obtain ⟨k1, -⟩ := Population.evaluate_good hr' e
    refine ⟨_, hB _ (hv.next (feasibleFraction g.pop) g.rr.pen), ?_⟩
    rw [List.getElem?_eq_getElem hlt, Option.some.injEq] at hi
    rw [← hi]
    exact k1

theorem finishCycle_tidy (hv : Laws env ctx P E) (hB : ∀ p, P p → B p) {g g' : GA α} (hb : Base env ctx g) (ht : Tidy ctx B g)
    (h : finishCycle env ctx g = some g') : Tidy ctx B g' := by
  obtain ⟨g1, g2, u, v, w, -, rfl⟩ := finishCycle_some h
  have t1 : Tidy ctx B g1 := by
    rcases u with rfl | u
    · exact ht
    · exact updatePenalty_tidy hv hB hb ht u
  have t2 : Tidy ctx B g2 := by
    rcases v with rfl | v
    · exact t1
    · obtain ⟨-, rfl⟩ := log_some v
      exact ⟨t1.members, t1.sched⟩
  split
  · refine ⟨?_, t2.sched⟩
    intro x hx
    simp [reset, Population.new, SubPop.new] at hx
  · exact ⟨t2.members, t2.sched⟩

/-! ### Each part ends -/

theorem localSearch_ends_any (hls : env.lsEnabled = true → SearchesEnd env ctx P) (ω : Oracle) {factor : α}
    (hf : factor = lit 1 ∨ factor = lit 10) {g : GA α} (hg : AnyEdu env ctx P E g) :
    ∃ g', EndsIn (fun f => localSearch env ctx ω f factor g) g' := by
  unfold localSearch
  split
  · rename_i hl
    obtain ⟨r, hr⟩ := hls hl ω g.rr.pen factor g.ls g.child hg.mu.pen hf hg.base.ready hg.base.nbr
      hg.base.lsLen hg.good hg.len
    exact ⟨_, EndsIn.map (G := fun p : LS α × Individual α => { g with ls := p.1, child := p.2 }) hr⟩
  · exact ⟨g, .const rfl⟩

theorem mutate_ends_any (hv : Laws env ctx P E) (hc : Calm env ctx P W E) {ch : GAChoice α} (hch : ChOK ch)
    (w : ℕ) {g : GA α} (hg : AnyEdu env ctx P E g) (ht : Tidy ctx (Priced env W) g) :
    ∃ g', EndsIn (fun f => mutate env ctx { ch with fuel := f } w g) g' := by
  unfold mutate
  split
  · obtain ⟨r1, e1⟩ := RR.load_total (now := ch.clock 0) hv.npos hg.good hg.mu.idle hg.len
    obtain ⟨i1, -, b1, p1, -, u1⟩ := RR.load_any hv.route hg.good hg.mu.idle hg.mu.hist e1
    obtain ⟨s, hs⟩ := ht.sched
    have a1 := RR.load_acceptance e1
    rw [hs] at a1
    obtain ⟨r2, e2⟩ := RR.runToEnd_ends_any hc.mutation hv.route hch hv.vehicles _ 0 i1 (u1.trans hg.mu.upd)
      (by rw [p1]; exact hg.mu.pen) (a1.trans rfl) (le_refl _)
    obtain ⟨f, hf⟩ := e2.some_of
    obtain ⟨i2, k2, -, -⟩ := RR.runToEnd_any hv.route hv.npos hv.vehicles hch _ _ i1 (u1.trans hg.mu.upd) hf
    obtain ⟨b, hb⟩ := Option.isSome_iff_exists.mp (k2 b1)
    obtain ⟨y, hy⟩ := RR.updateIndividual_calm hc.rr (p := r2.pen) (x := g.child) (i2.best b hb) hg.len
    refine ⟨{ g with rr := r2, child := y }, ?_⟩
    refine EndsIn.bind (.const e1) (EndsIn.bind e2 (.const ?_))
    unfold RR.getBest
    rw [hb]
    dsimp only
    rw [hy]
    rfl
  · exact ⟨g, .const rfl⟩

theorem addToPop_total_any (hv : Laws env ctx P E) (hc : Calm env ctx P W E) {x : Individual α} (u : Bool)
    {g : GA α} {p : α} (hg : Base env ctx g) (ht : Tidy ctx (Priced env W) g) (hp : Priced env W p)
    (hx : x.Good (RR.ctxAt ctx p)) : ∃ g', addToPop env x u g = some g' := by
  obtain ⟨hs, hrun⟩ := hg.pop
  obtain ⟨q, hq⟩ := Population.add_total hv.bs hc.avg hc.closest hc.minSize
    (hrun.inv hv.bs hv.sort) hx (fun y hy => by
      obtain ⟨q, hq, hy⟩ := ht.members y hy
      exact hc.cmp p q x y hp hq hx hy) u
  exact ⟨_, by unfold addToPop; rw [hq]; rfl⟩

theorem repair_ends_any (hv : Laws env ctx P E) (hc : Calm env ctx P W E)
    (hls : env.lsEnabled = true → SearchesEnd env ctx P) (ω : Oracle) (w : ℕ)
    {g : GA α} (hg : AnyEdu env ctx P E g) (ht : Tidy ctx (Priced env W) g) :
    ∃ g', EndsIn (fun f => repair env ctx ω f w g) g' := by
  unfold repair
  split
  · obtain ⟨g1, e1⟩ := localSearch_ends_any hls ω (Or.inr rfl) hg
    obtain ⟨f, hf⟩ := e1.some_of
    obtain ⟨i1, -⟩ := localSearch_any hv hg hf
    have t1 := localSearch_tidy ht hf
    have : ∃ g2, (if g1.child.isFeasible then addToPop env g1.updateBest.child false g1.updateBest
        else some g1) = some g2 := by
      split
      · obtain ⟨i2, -⟩ := updateBest_any i1
        exact addToPop_total_any hv hc false i2.base (updateBest_tidy t1) (hc.priced i2.mu.pen) i2.good
      · exact ⟨_, rfl⟩
    obtain ⟨g2, h2⟩ := this
    exact ⟨_, EndsIn.bind e1 (.const (by rw [h2]; rfl))⟩
  · exact ⟨g, .const rfl⟩

theorem educate_ends_any (hv : Laws env ctx P E) (hc : Calm env ctx P W E)
    (hls : env.lsEnabled = true → SearchesEnd env ctx P) {ch : GAChoice α} (hch : ChOK ch)
    (ω : Oracle) {g : GA α} (hg : AnyEdu env ctx P E g) (ht : Tidy ctx (Priced env W) g) :
    ∃ g', EndsIn (fun f => educate env ctx { ch with fuel := f } ω g) g' := by
  unfold educate
  obtain ⟨g1, e1⟩ := localSearch_ends_any hls (ω.sub 0) (Or.inl rfl) hg
  obtain ⟨f, hf⟩ := e1.some_of
  obtain ⟨i1, -⟩ := localSearch_any hv hg hf
  have t1 := localSearch_tidy ht hf
  obtain ⟨g2, e2⟩ := mutate_ends_any hv hc hch (ω.sub 1 0) i1 t1
  obtain ⟨f, hf⟩ := e2.some_of
  obtain ⟨i2, -⟩ := mutate_any hv (ch := { ch with fuel := f }) hch i1 hf
  obtain ⟨g3, e3⟩ := repair_ends_any hv hc hls (ω.sub 3) (ω.sub 2 0) i2 (mutate_tidy t1 hf)
  exact ⟨_, EndsIn.bind e1 (EndsIn.bind e2 (EndsIn.map e3))⟩

theorem runSplit_total_any (hv : Laws env ctx P E) (hc : Calm env ctx P W E) {k : ℕ} (h1 : 1 ≤ k)
    {g : GA α} (hb : Base env ctx g) (hm : AnyMut env ctx P E g.rr)
    (hg : g.child.genotype.Perm (Spec.customers ctx.n)) : ∃ g', runSplit env ctx k g = some g' := by
  obtain ⟨r, hr⟩ := splitRun_total (atan2 := env.rr.atan2) (ctx := RR.ctxAt ctx g.rr.pen)
    (lowerBound := env.lowerBound) (maxVehicles := k) hb.split hv.npos hg
    (le_trans h1 (le_max_left _ _)) (hv.split _ hm.pen) hc.rr.angle
  exact ⟨_, by unfold runSplit; rw [hr]; rfl⟩

theorem breed_ends_any (hv : Laws env ctx P E) (hc : Calm env ctx P W E)
    (hls : env.lsEnabled = true → SearchesEnd env ctx P) {ch : GAChoice α} (hch : ChOK ch)
    (hfair : Fair ctx.n ch) {g : GA α} (hb : Base env ctx g) (hp : BestPart ctx g)
    (hm : AnyMut env ctx P E g.rr) (ht : Tidy ctx (Priced env W) g)
    (hne : g.pop.Nonempty) : ∃ g', EndsIn (fun f => breed env ctx { ch with fuel := f } g) g' := by
  obtain ⟨p1, e1⟩ := g.pop.parent_total env.pop (ch.ω.sub 0) hne hc.tournament
  obtain ⟨p2, e2⟩ := g.pop.parent_total env.pop (ch.ω.sub 1) hne hc.tournament
  obtain ⟨⟨q1, k1⟩, l1⟩ := member_any hv hb (parent_mem e1)
  obtain ⟨⟨q2, k2⟩, l2⟩ := member_any hv hb (parent_mem e2)
  have hnd := (good_perm k1).nodup_iff.mpr (Spec.nodup_customers _)
  have hpp := (good_perm k2).trans (good_perm k1).symm
  have hlen : p1.genotype.length = ctx.n - 1 := by
    rw [(good_perm k1).length_eq]
    simp [Spec.customers]
  obtain ⟨k, hk, hd⟩ := hfair
  have hn := hc.n
  obtain ⟨c, e3, hcp⟩ := C43_crossover_terminates (ch.ω.sub 2) p1.genotype p2.genotype hnd hpp
    (by omega) k hk (by rw [hlen]; exact hd)
  obtain ⟨b1, b2⟩ := nonempty_bounds hv.n k1
  have hb' : Base env ctx { g with child := Individual.new c g.pop.total } :=
    ⟨hb.pop, hb.len, hb.ready, hb.nbr, hb.lsLen, hb.split⟩
  obtain ⟨g1, e4⟩ := runSplit_total_any hv hc (g := { g with child := Individual.new c g.pop.total }) b1 hb' hm
    (hcp.trans (good_perm k1))
  obtain ⟨i1, -⟩ := runSplit_any hv (g := { g with child := Individual.new c g.pop.total })
    l1 b1 hb' hp hm (hcp.trans (good_perm k1)) e4
  have t1 := runSplit_tidy (g := { g with child := Individual.new c g.pop.total }) ⟨ht.members, ht.sched⟩ e4
  obtain ⟨g2, e5⟩ := educate_ends_any hv hc hls hch (ch.ω.sub 3) i1 t1
  refine ⟨g2, ?_⟩
  unfold breed
  exact EndsIn.bind (.const e1) (EndsIn.bind (.const e2) (EndsIn.bind
    ⟨k, fun f hf => crossover_mono e3 hf⟩ (EndsIn.bind (.const e4) e5)))

theorem createInitial_ends_any (hv : Laws env ctx P E) (hc : Calm env ctx P W E)
    (hls : env.lsEnabled = true → SearchesEnd env ctx P) {ch : GAChoice α}
    (hch : ChOK ch) {g : GA α} (hb : Base env ctx g) (hp : BestPart ctx g) (hm : AnyMut env ctx P E g.rr)
    (ht : Tidy ctx (Priced env W) g) : ∃ r, EndsIn (fun f => createInitial env ctx { ch with fuel := f } g) r := by
  unfold createInitial
  dsimp only
  have hb' : Base env ctx { g with
      child := Individual.newRandom ctx env.split.numVehicles (ch.ω.sub 0) g.numInitialized } :=
    ⟨hb.pop, hb.len, hb.ready, hb.nbr, hb.lsLen, hb.split⟩
  obtain ⟨g1, e1⟩ := runSplit_total_any hv hc (g := { g with
    child := Individual.newRandom ctx env.split.numVehicles (ch.ω.sub 0) g.numInitialized })
    hv.fleet hb' hm (newRandom_geno _ _ _ _)
  obtain ⟨i1, -⟩ := runSplit_any hv (g := { g with
    child := Individual.newRandom ctx env.split.numVehicles (ch.ω.sub 0) g.numInitialized }) (le_refl _)
    hv.fleet hb' hp hm (newRandom_geno _ _ _ _) e1
  have t1 := runSplit_tidy (g := { g with
    child := Individual.newRandom ctx env.split.numVehicles (ch.ω.sub 0) g.numInitialized })
    ⟨ht.members, ht.sched⟩ e1
  obtain ⟨g2, e2⟩ := educate_ends_any hv hc hls hch (ch.ω.sub 1) i1 t1
  exact ⟨_, EndsIn.bind (.const e1) (EndsIn.map e2)⟩

theorem log_total_any (hv : Laws env ctx P E) {g : GA α} (hb : Base env ctx g) (hk : Booked g) :
    ∃ g', log env g = some g' := by
  obtain ⟨hs, hrun⟩ := hb.pop
  have hI := hrun.inv hv.bs hv.sort
  obtain ⟨a, ha⟩ := SubPop.getDiversity_total hI.feasible.table env.pop
  obtain ⟨b, hb⟩ := SubPop.getDiversity_total hI.infeasible.table env.pop
  unfold log
  rw [if_pos (show g.bestIteration ≤ g.iterations from hk), ha, Option.bind_some, hb]
  exact ⟨_, rfl⟩

theorem updatePenalty_total_any (hv : Laws env ctx P E) (hc : Calm env ctx P W E) {g : GA α}
    (hb : Base env ctx g) (ht : Tidy ctx (Priced env W) g) : ∃ g', updatePenalty env ctx g = some g' := by
  unfold updatePenalty
  dsimp only
  have hp := hv.next (feasibleFraction g.pop) g.rr.pen
  generalize nextPenalty env (feasibleFraction g.pop) g.rr.pen = p at hp
  obtain ⟨l, hl⟩ := Population.evaluateAll_total (ctx := RR.ctxAt ctx p) g.pop.infeasible.pop (by
    intro x hx
    obtain ⟨q, -, hq⟩ := ht.members x (List.mem_append_right _ hx)
    exact evaluate_total (ctx := RR.ctxAt ctx p) hv.npos hq.part)
  obtain ⟨l', hl'⟩ := hc.sort l (by
    intro x hx
    have h1 := Population.evaluateAll_some hl
    obtain ⟨i, hi⟩ := List.getElem?_of_mem hx
    have hlt : i < l.length := (List.getElem?_eq_some_iff.mp hi).1
    have hlt' : i < g.pop.infeasible.pop.length := by rw [h1.length_eq]; exact hlt
    have e := (List.forall₂_iff_get.mp h1).2 i hlt' hlt
    obtain ⟨r, -, hr'⟩ := ht.members _ (List.mem_append_right _ (List.getElem_mem hlt'))
    obtain ⟨k1, -⟩ := Population.evaluate_good hr' e
    refine ⟨p, hc.priced hp, ?_⟩
    rw [List.getElem?_eq_getElem hlt, Option.some.injEq] at hi
    rw [← hi]
    exact k1)
  unfold Population.reprice
  rw [hl, Option.bind_some, hl']
  exact ⟨_, rfl⟩

theorem finishCycle_total_any (hv : Laws env ctx P E) (hc : Calm env ctx P W E) {g : GA α}
    (hb : Base env ctx g) (hm : AnyMut env ctx P E g.rr) (ht : Tidy ctx (Priced env W) g) (hk : Booked g) :
    ∃ g', finishCycle env ctx g = some g' := by
  have k1 : ∃ g1, (if g.nextPenaltyUpdate ≤ g.iterations then updatePenalty env ctx g else some g) = some g1 ∧
      Base env ctx g1 ∧ Booked g1 := by
    split
    · obtain ⟨g1, h1⟩ := updatePenalty_total_any hv hc hb ht
      refine ⟨g1, h1, (updatePenalty_any hv hb hm h1).1, ?_⟩
      unfold updatePenalty at h1
      obtain ⟨q, -, rfl⟩ := Option.map_eq_some_iff.mp h1
      exact hk
    · exact ⟨g, rfl, hb, hk⟩
  obtain ⟨g1, e1, b1, k1⟩ := k1
  have k2 : ∃ g2, (if g1.nextLog ≤ g1.iterations then log env g1 else some g1) = some g2 ∧ Booked g2 := by
    split
    · obtain ⟨g2, h2⟩ := log_total_any hv b1 k1
      obtain ⟨-, rfl⟩ := log_some h2
      exact ⟨_, h2, k1⟩
    · exact ⟨g1, rfl, k1⟩
  obtain ⟨g2, e2, k2⟩ := k2
  unfold finishCycle
  rw [e1, Option.bind_some, e2, Option.bind_some,
    if_pos (show g2.bestIteration ≤ g2.iterations from k2)]
  exact ⟨_, rfl⟩

/-! ### The whole call -/

/-- Counters, the population before the cycle, and `Tidy`; the schedule and the penalty during elite education. -/
structure AnyExtra (env : GAEnv α) (ctx : Ctx α) (W : ℕ → α → Prop) (g : GA α) : Prop where
  booked : Booked g
  tidy : Tidy ctx (Priced env W) g
  start : g.state = .created ∨ g.state = .elite → g.numInitialized = 0
  init : g.state = .init → 0 < g.numInitialized → g.pop.Nonempty
  cycle : g.state = .cycle → g.pop.Nonempty
  elite : g.state = .elite → (env.eliteEducation && decide (env.eliteLimit < ctx.n - 1)) = true ∧
    g.rr.updatePenalty = true ∧ ∃ s q, g.rr.acceptance = .iteration s ∧
    s.total = env.eliteIterations ∧ W q g.rr.pen ∧ q ≤ env.eliteIterations / 1000 ∧
    (s.iteration < s.total → 1000 * q ≤ s.iteration)

theorem new_anyExtra (ω : Oracle) : AnyExtra env ctx W (new env ctx ω) :=
  ⟨Nat.le_refl _, ⟨fun x hx => by simp [new, Population.new, SubPop.new] at hx, _, rfl⟩, fun _ => rfl,
    fun e => by simp [new] at e, fun e => by simp [new] at e, fun e => by simp [new] at e⟩

theorem finishCycle_nonempty_any (hs : Population.SortPerm env.sort) {g g' : GA α} (hne : g.pop.Nonempty)
    (h : finishCycle env ctx g = some g') (hc : g'.state = .cycle) : g'.pop.Nonempty := by
  obtain ⟨g1, g2, u, v, -, -, rfl⟩ := finishCycle_some h
  have n1 : g1.pop.Nonempty := by
    rcases u with rfl | u
    · exact hne
    · unfold updatePenalty at u
      obtain ⟨q, hq, rfl⟩ := Option.map_eq_some_iff.mp u
      unfold Population.reprice at hq
      obtain ⟨l, hl, hq⟩ := Option.bind_eq_some_iff.mp hq
      obtain ⟨l', hl', rfl⟩ := Option.map_eq_some_iff.mp hq
      rcases hne with hne | hne
      · exact Or.inl hne
      · refine Or.inr fun e => hne ?_
        have e : l' = [] := e
        have h1 := (hs l l' hl').length_eq
        have h2 := (Population.evaluateAll_some hl).length_eq
        rw [e] at h1
        exact List.length_eq_zero_iff.mp (by rw [h2, ← h1]; rfl)
  have n2 : g2.pop.Nonempty := by
    rcases v with rfl | v
    · exact n1
    · obtain ⟨-, rfl⟩ := log_some v
      exact n1
  split at hc
  · simp [reset] at hc
  · rename_i hn
    rw [if_neg hn]
    exact n2

theorem addToPop_nonempty_any (hv : Laws env ctx P E) {x : Individual α} {u : Bool} {g g' : GA α}
    (hg : Base env ctx g) (h : addToPop env x u g = some g') : g'.pop.Nonempty := by
  obtain ⟨hs, hrun⟩ := hg.pop
  unfold addToPop at h
  obtain ⟨p, hp, rfl⟩ := Option.map_eq_some_iff.mp h
  exact Population.add_nonempty hv.bs (hrun.inv hv.bs hv.sort) hp

theorem elite_search_any (hv : Laws env ctx P E) (hc : Calm env ctx P W E) {ch : GAChoice α} (hch : ChOK ch)
    {g : GA α} (hg : AnyInv env ctx P E g) (hx : AnyExtra env ctx W g) (hs : g.state = .elite)
    (hcm : ¬ g.rr.acceptance.completed = true) :
    ∃ r s q, RR.search env.rr ctx (ch.rr 0) g.rr = some r ∧ r.updatePenalty = true ∧ r.acceptance = .iteration s ∧
      s.total = env.eliteIterations ∧ W q r.pen ∧ q ≤ env.eliteIterations / 1000 ∧
      (s.iteration < s.total → 1000 * q ≤ s.iteration) := by
  obtain ⟨i0, -, -⟩ := hg.elite hs
  obtain ⟨a1, hu, s, q, e1, e2, e3, e4, e5⟩ := hx.elite hs
  obtain ⟨-, hW⟩ := hc.elite a1
  have hlt : s.iteration < s.total := by
    rw [e1] at hcm
    have hcm : ¬ decide (s.total ≤ s.iteration) = true := hcm
    rw [decide_eq_true_eq] at hcm
    omega
  obtain ⟨r, s', q', k1, k2, k3, k4, k5, k6⟩ := RR.searchLoop_elite_any hc.rr hv.route (hch 0) hv.vehicles hW
    1000 (le_refl _) i0 hu e1 e2 (fun _ => by rw [← e2]; exact hlt) e3 e4 (by have := e5 hlt; simp; omega)
  obtain ⟨-, -, u1, -⟩ := RR.searchLoop_any hv.route hv.npos (hch 0) hv.vehicles 1000 i0 k1
  exact ⟨r, s', q', k1, u1.trans hu, k2, k3, k4, k5, by rw [k3]; exact k6⟩

theorem iterate_anyExtra (hv : Laws env ctx P E) (hc : Calm env ctx P W E) {ch : GAChoice α} (hch : ChOK ch)
    {g g' : GA α} (hg : AnyInv env ctx P E g) (hx : AnyExtra env ctx W g) (h : iterate env ctx ch g = some g') :
    AnyExtra env ctx W g' := by
  have hbk := iterate_booked hx.booked h
  have ht := hx.tidy
  unfold iterate at h
  split at h
  · rw [Option.some.injEq] at h
    subst h
    exact ⟨hbk, ⟨ht.members, ht.sched⟩, fun e => by simp at e, fun e => by simp at e, fun e => by simp at e,
      fun e => by simp at e⟩
  · split at h
    · rename_i hs
      have hm := hg.mu (Or.inl hs)
      have h0 := hx.start (Or.inl hs)
      unfold stepCreated at h
      split at h
      · rename_i hel
        obtain ⟨g1, h1, h⟩ := Option.bind_eq_some_iff.mp h
        obtain ⟨g2, h2, h⟩ := Option.bind_eq_some_iff.mp h
        obtain ⟨r, h3, rfl⟩ := Option.map_eq_some_iff.mp h
        obtain ⟨i1, -⟩ := runSplit_any hv (g := { g with state := .elite }) (le_refl _) hv.fleet
          ⟨hg.base.pop, hg.base.len, hg.base.ready, hg.base.nbr, hg.base.lsLen, hg.base.split⟩ hg.best hm hg.geno h1
        obtain ⟨i2, -⟩ := educate_any hv hch i1 h2
        have t1 := runSplit_tidy (g := { g with state := .elite }) ⟨ht.members, ht.sched⟩ h1
        have t2 := educate_tidy hv (fun _ => hc.priced) hch i1 t1 h2
        have fr := (runSplit_frame h1).trans (educate_frame h2)
        have fs : g2.state = .elite := fr.state
        have hi := i2.mu.idle
        obtain ⟨-, -, -, p1, -, u1⟩ := RR.load_any hv.route (st := setupElite env (ch.clock 1) g2.rr) i2.good
          ⟨hi.routes, hi.locs, hi.unassigned, hi.ruined⟩ i2.mu.hist h3
        have a1 := RR.load_acceptance h3
        have ha : (setupElite env (ch.clock 1) g2.rr).acceptance =
            .iteration (IterSchedule.new env.eliteTemp env.eliteIterations) := by
          unfold setupElite
          rw [(hc.elite hel).1]
          rfl
        rw [ha] at a1
        refine ⟨hbk, ⟨t2.members, _, a1⟩, fun _ => fr.numInitialized.trans h0, fun e => ?_, fun e => ?_,
          fun _ => ⟨hel, u1, _, 0, a1, rfl, ?_, Nat.zero_le _, fun _ => Nat.zero_le _⟩⟩
        · simp [fs] at e
        · simp [fs] at e
        · rw [p1]
          exact hc.first _ i2.mu.pen
      · rw [Option.some.injEq] at h
        subst h
        exact ⟨hbk, ⟨ht.members, ht.sched⟩, fun e => by simp at e, fun _ e => by
          have e : 0 < g.numInitialized := e
          omega, fun e => by simp at e, fun e => by simp at e⟩
    · rename_i hs
      have h0 := hx.start (Or.inr hs)
      obtain ⟨hi, hbs, hl⟩ := hg.elite hs
      unfold stepElite at h
      split at h
      · obtain ⟨x, h1, h⟩ := Option.bind_eq_some_iff.mp h
        obtain ⟨g2, h2, h⟩ := Option.bind_eq_some_iff.mp h
        obtain ⟨-, rfl⟩ := log_some h
        obtain ⟨-, -, s, q, -, -, w1, w2, -⟩ := hx.elite hs
        obtain ⟨hxg, hxl⟩ := RR.getBest_any hi hbs hl h1
        have b0 : Base env ctx { g with state := .init, child := x } :=
          ⟨hg.base.pop, hg.base.len, hg.base.ready, hg.base.nbr, hg.base.lsLen, hg.base.split⟩
        have t0 : Tidy ctx (Priced env W) { g with state := .init, child := x } := ⟨ht.members, ht.sched⟩
        have t2 := addToPop_tidy hv (updateBest_base b0) (updateBest_tidy t0) ⟨q, w2, w1⟩ hxg h2
        have fr := (updateBest_frame { g with state := .init, child := x }).trans (addToPop_frame h2)
        have fs : g2.state = .init := fr.state
        refine ⟨hbk, ⟨t2.members, _, rfl⟩, fun e => ?_, fun _ e => ?_, fun e => ?_, fun e => ?_⟩
        · simp [fs] at e
        · have e : 0 < g2.numInitialized := e
          rw [fr.numInitialized] at e
          have e : 0 < g.numInitialized := e
          omega
        · simp [fs] at e
        · simp [fs] at e
      · rename_i hcm
        obtain ⟨r, h1, rfl⟩ := Option.map_eq_some_iff.mp h
        obtain ⟨r', s, q, k1, k2, k3, k4⟩ := elite_search_any hv hc hch hg hx hs hcm
        rw [h1, Option.some.injEq] at k1
        subst k1
        exact ⟨hbk, ⟨ht.members, s, k3⟩, fun _ => h0, fun e => by simp [hs] at e, fun e => by simp [hs] at e,
          fun _ => ⟨(hx.elite hs).1, k2, s, q, k3, k4⟩⟩
    · rename_i hs
      have hm := hg.mu (Or.inr (Or.inl hs))
      unfold stepInit at h
      split at h
      · obtain ⟨⟨x, g1⟩, h1, h⟩ := Option.bind_eq_some_iff.mp h
        obtain ⟨g2, h2, rfl⟩ := Option.map_eq_some_iff.mp h
        obtain ⟨⟨i1, -, i3, -⟩, gx, lx⟩ := createInitial_any hv hch hg.base hg.best hm h1
        have t1 := createInitial_tidy hv (fun _ => hc.priced) hch hg.base hg.best hm ht h1
        have t2 := addToPop_tidy hv i1 t1 (hc.priced i3.pen) gx h2
        have fs : g2.state = .init := (addToPop_frame h2).state.trans ((createInitial_frame h1).state.trans hs)
        have hn := addToPop_nonempty_any hv i1 h2
        exact ⟨hbk, ⟨t2.members, t2.sched⟩, fun e => by simp [fs] at e, fun _ _ => hn, fun e => by simp [fs] at e,
          fun e => by simp [fs] at e⟩
      · rename_i hlt
        rw [Option.some.injEq] at h
        subst h
        have := hc.initial
        exact ⟨hbk, ⟨ht.members, ht.sched⟩, fun e => by simp at e, fun e => by simp at e,
          fun _ => hx.init hs (by omega), fun e => by simp at e⟩
    · rename_i hs
      have hm := hg.mu (Or.inr (Or.inr hs))
      unfold stepCycle at h
      obtain ⟨g1, h1, h⟩ := Option.bind_eq_some_iff.mp h
      obtain ⟨g2, h2, h⟩ := Option.bind_eq_some_iff.mp h
      have hb' : Base env ctx { g with ctxIteration := g.ctxIteration + 1 } :=
        ⟨hg.base.pop, hg.base.len, hg.base.ready, hg.base.nbr, hg.base.lsLen, hg.base.split⟩
      have i1 := breed_any hv hch (g := { g with ctxIteration := g.ctxIteration + 1 }) hb' hg.best hm h1
      have t1 := breed_tidy hv (fun _ => hc.priced) hch (g := { g with ctxIteration := g.ctxIteration + 1 }) hb' hg.best hm
        ⟨ht.members, ht.sched⟩ h1
      have t2 := addToPop_tidy hv i1.base t1 (hc.priced i1.mu.pen) i1.good h2
      obtain ⟨i2, -⟩ := addToPop_any hv i1 i1.good i1.len h2
      have t3 := finishCycle_tidy hv (fun _ => hc.priced) i2.base t2 h
      have hn := addToPop_nonempty_any hv i1.base h2
      have fs : g2.state = .cycle := (addToPop_frame h2).state.trans ((breed_frame h1).state.trans hs)
      have hne := finishCycle_nonempty_any (ctx := ctx) hv.sort hn h
      obtain ⟨g3, g4, -, -, w, -, rfl⟩ := finishCycle_some h
      have fs4 : g4.state = .cycle := w.state.trans fs
      refine ⟨hbk, t3, fun e => ?_, fun e => ?_, hne, fun e => ?_⟩
      · by_cases hc : env.maxStagnation < g4.iterations - g4.bestIteration
        · dsimp only
          rw [if_pos hc]
          rfl
        · dsimp only at e
          rw [if_neg hc] at e
          simp [fs4] at e
      · by_cases hc : env.maxStagnation < g4.iterations - g4.bestIteration
        · dsimp only at e
          rw [if_pos hc] at e
          simp [reset] at e
        · dsimp only at e
          rw [if_neg hc] at e
          simp [fs4] at e
      · by_cases hc : env.maxStagnation < g4.iterations - g4.bestIteration
        · dsimp only at e
          rw [if_pos hc] at e
          simp [reset] at e
        · dsimp only at e
          rw [if_neg hc] at e
          simp [fs4] at e
    · rw [Option.some.injEq] at h
      subst h
      exact hx

theorem iterate_ends_any (hv : Laws env ctx P E) (hc : Calm env ctx P W E)
    (hls : env.lsEnabled = true → SearchesEnd env ctx P) {ch : GAChoice α} (hch : ChOK ch)
    (hfair : Fair ctx.n ch) {g : GA α} (hg : AnyInv env ctx P E g) (hx : AnyExtra env ctx W g) :
    ∃ r, EndsIn (fun f => iterate env ctx { ch with fuel := f } g) r := by
  have ht := hx.tidy
  by_cases htm : terminateNow env.timeLimit env.maxIterations ch.elapsed g.ctxIteration = true
  · exact ⟨_, 0, fun f _ => by dsimp only; unfold iterate; rw [if_pos htm]⟩
  have hit : (fun f => iterate env ctx { ch with fuel := f } g) = fun f => match g.state with
      | .created => stepCreated env ctx { ch with fuel := f } g
      | .elite => stepElite env ctx { ch with fuel := f } g
      | .init => stepInit env ctx { ch with fuel := f } g
      | .cycle => stepCycle env ctx { ch with fuel := f } g
      | .terminated => some g := by
    funext f
    unfold iterate
    rw [if_neg htm]
    cases g.state <;> rfl
  rw [hit]
  cases hs : g.state with
  | created =>
    dsimp only
    have hm := hg.mu (Or.inl hs)
    unfold stepCreated
    by_cases hel : (env.eliteEducation && decide (env.eliteLimit < ctx.n - 1)) = true
    · simp only [if_pos hel]
      have hb : Base env ctx { g with state := .elite } :=
        ⟨hg.base.pop, hg.base.len, hg.base.ready, hg.base.nbr, hg.base.lsLen, hg.base.split⟩
      obtain ⟨g1, e1⟩ := runSplit_total_any hv hc (g := { g with state := .elite }) hv.fleet hb hm hg.geno
      obtain ⟨i1, -⟩ := runSplit_any hv (g := { g with state := .elite }) (le_refl _) hv.fleet hb hg.best hm hg.geno e1
      have t1 := runSplit_tidy (g := { g with state := .elite }) ⟨ht.members, ht.sched⟩ e1
      obtain ⟨g2, e2⟩ := educate_ends_any hv hc hls hch ch.ω i1 t1
      obtain ⟨f, hf⟩ := e2.some_of
      obtain ⟨i2, -⟩ := educate_any hv (ch := { ch with fuel := f }) hch i1 hf
      have hi := i2.mu.idle
      obtain ⟨r, e3⟩ := RR.load_total (now := ch.clock 2) (st := setupElite env (ch.clock 1) g2.rr) hv.npos i2.good
        ⟨hi.routes, hi.locs, hi.unassigned, hi.ruined⟩ i2.len
      exact ⟨_, EndsIn.bind (.const e1) (EndsIn.bind e2 (.const (by rw [e3]; rfl)))⟩
    · simp only [if_neg hel]
      exact ⟨_, .const rfl⟩
  | elite =>
    dsimp only
    obtain ⟨hi, hbs, hl⟩ := hg.elite hs
    unfold stepElite
    by_cases hcm : g.rr.acceptance.completed = true
    · simp only [if_pos hcm]
      obtain ⟨-, -, s, q, -, -, w1, w2, -⟩ := hx.elite hs
      obtain ⟨b, hb⟩ := Option.isSome_iff_exists.mp hbs
      obtain ⟨x, hx1⟩ := RR.updateIndividual_calm hc.rr (p := g.rr.pen) (x := g.child) (hi.best b hb) hl
      have e1 : RR.getBest env.rr ctx g.rr g.child = some x := by
        unfold RR.getBest
        rw [hb]
        exact hx1
      obtain ⟨hxg, hxl⟩ := RR.getBest_any hi hbs hl e1
      have b0 : Base env ctx { g with state := .init, child := x } :=
        ⟨hg.base.pop, hg.base.len, hg.base.ready, hg.base.nbr, hg.base.lsLen, hg.base.split⟩
      have t0 : Tidy ctx (Priced env W) { g with state := .init, child := x } := ⟨ht.members, ht.sched⟩
      obtain ⟨g2, e2⟩ := addToPop_total_any hv hc false (updateBest_base b0) (updateBest_tidy t0) ⟨q, w2, w1⟩ hxg
      obtain ⟨b2, -⟩ := addToPop_anyBase hv (updateBest_base b0) hxg (nonempty_le hxl) e2
      have k2 : Booked g2 := (addToPop_frame e2).booked
        ((updateBest_frame { g with state := .init, child := x }).booked hx.booked)
      obtain ⟨g3, e3⟩ := log_total_any hv
        (g := { g2 with rr := { setupMutation env g2.rr with pen := env.initialPen } })
        ⟨b2.pop, b2.len, b2.ready, b2.nbr, b2.lsLen, b2.split⟩ k2
      exact ⟨g3, .const (by rw [e1, Option.bind_some, e2, Option.bind_some]; exact e3)⟩
    · simp only [if_neg hcm]
      obtain ⟨r, s, q, e1, -⟩ := elite_search_any hv hc hch hg hx hs hcm
      exact ⟨_, .const (by rw [e1]; rfl)⟩
  | init =>
    dsimp only
    have hm := hg.mu (Or.inr (Or.inl hs))
    unfold stepInit
    by_cases hlt : g.numInitialized < env.initialIndividuals
    · simp only [if_pos hlt]
      obtain ⟨⟨x, g1⟩, e1⟩ := createInitial_ends_any hv hc hls hch hg.base hg.best hm ht
      obtain ⟨f, hf⟩ := e1.some_of
      obtain ⟨⟨i1, -, i3, -⟩, gx, -⟩ := createInitial_any hv (ch := { ch with fuel := f }) hch hg.base hg.best hm hf
      have t1 := createInitial_tidy hv (fun _ => hc.priced) (ch := { ch with fuel := f }) hch hg.base hg.best hm ht hf
      obtain ⟨g2, e2⟩ := addToPop_total_any hv hc true i1 t1 (hc.priced i3.pen) gx
      exact ⟨_, EndsIn.bind e1 (.const (by dsimp only; rw [e2]; rfl))⟩
    · simp only [if_neg hlt]
      exact ⟨_, .const rfl⟩
  | cycle =>
    dsimp only
    have hm := hg.mu (Or.inr (Or.inr hs))
    have hb : Base env ctx { g with ctxIteration := g.ctxIteration + 1 } :=
      ⟨hg.base.pop, hg.base.len, hg.base.ready, hg.base.nbr, hg.base.lsLen, hg.base.split⟩
    unfold stepCycle
    have ht' : Tidy ctx (Priced env W) { g with ctxIteration := g.ctxIteration + 1 } := ⟨ht.members, ht.sched⟩
    obtain ⟨g1, e1⟩ := breed_ends_any hv hc hls hch hfair hb hg.best hm ht' (hx.cycle hs)
    obtain ⟨f, hf⟩ := e1.some_of
    have i1 := breed_any hv (ch := { ch with fuel := f }) hch hb hg.best hm hf
    have t1 := breed_tidy hv (fun _ => hc.priced) (ch := { ch with fuel := f }) hch hb hg.best hm ht' hf
    obtain ⟨g2, e2⟩ := addToPop_total_any hv hc true i1.base t1 (hc.priced i1.mu.pen) i1.good
    obtain ⟨i2, -⟩ := addToPop_any hv i1 i1.good i1.len e2
    have t2 := addToPop_tidy hv i1.base t1 (hc.priced i1.mu.pen) i1.good e2
    have k2 : Booked g2 := ((breed_frame hf).trans (addToPop_frame e2)).booked
      (g := { g with ctxIteration := g.ctxIteration + 1 }) hx.booked
    obtain ⟨g3, e3⟩ := finishCycle_total_any hv hc i2.base i2.mu t2 k2
    exact ⟨g3, EndsIn.bind e1 (.const (by rw [e2, Option.bind_some]; exact e3))⟩
  | terminated => exact ⟨_, .const rfl⟩

end GA
end Verif
