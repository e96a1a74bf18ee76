import Verif.Lemmas.Ends
import Verif.Props.PopOrder

/-! # A step of the genetic loop ends without a panic (exact arithmetic) -/

namespace Verif
open F64 RRSol

namespace GA

/-- The largest factor of a penalty update. -/
def growth (env : GAEnv ℚ) : ℚ := max 1 (max env.rr.incMultiplier env.rr.decMultiplier)

/-- What is asked of instance and configuration beyond `Valid` for the solver not to panic: at least two
customers, symmetric distances, no demand at the depot, magnitudes far below `f64::MAX` (also after all
penalty updates of elite education, if that is enabled, which must then end after a number of rounds),
neighbour lists of customers, a sort that does not panic, and settings that are not zero. -/
structure Robust (env : GAEnv ℚ) (ctx : Ctx ℚ) (hi : ℚ) : Prop where
  n : 3 ≤ ctx.n
  sym : ∀ a b, ctx.dist a b = ctx.dist b a
  depot : ctx.demand 0 = 0
  tame : Tame (RR.ctxAt ctx hi)
  nbrs : RR.NbrsOK ctx.n env.rr.nbrs
  sort : ∀ l, ∃ l', env.sort l = some l'
  closest : 1 ≤ env.pop.numClosest
  minSize : 1 ≤ env.pop.minSize
  tournament : 1 ≤ env.pop.tournamentSize
  initial : 1 ≤ env.initialIndividuals
  elite : env.eliteEducation = true → env.eliteLimit < ctx.n - 1 → env.eliteTimeBased = false ∧
    Tame (RR.ctxAt ctx (hi * growth env ^ (env.eliteIterations / 1000)))

/-- The draws for the crossover zone hit some position different from the first one at some time. -/
def Fair {α : Type} (n : ℕ) (ch : GAChoice α) : Prop :=
  ∃ k, 1 ≤ k ∧ ch.ω.sub 2 k % (n - 1) ≠ ch.ω.sub 2 0 % (n - 1)

variable {env : GAEnv ℚ} {ctx : Ctx ℚ} {hi : ℚ}

theorem localSearch_ends (hv : ValidUpTo env ctx hi) (hr : Robust env ctx hi) (ω : Oracle) {factor : ℚ}
    (hf : 0 ≤ factor) {g : GA ℚ} (hg : Edu env ctx hi g) :
    ∃ g', EndsIn (fun f => localSearch env ctx ω f factor g) g' := by
  unfold localSearch
  split
  · obtain ⟨s', y, h, -⟩ := C10_C11_run env.rr.atan2 (RR.ctxAt ctx g.rr.pen) env.moves ω factor g.ls g.child
      hv.dist hr.depot hr.sym (mul_nonneg (by show 0 ≤ g.rr.pen; linarith [hg.mu.pen.1]) hf)
      (by show 0 < ctx.n; have := hr.n; omega) hg.base.ready (nbrOK_at hg.base.nbr) hg.child.good.part
      (hg.child.len.trans hg.base.lsLen.symm) _ (Nat.lt_succ_self _)
    exact ⟨_, EndsIn.map (G := fun p : LS ℚ × Individual ℚ => { g with ls := p.1, child := p.2 })
      ⟨_, fun f hf => LS.run_mono h hf⟩⟩
  · exact ⟨g, .const rfl⟩

theorem mutate_ends (hv : ValidUpTo env ctx hi) (hr : Robust env ctx hi) {ch : GAChoice ℚ} (hch : ChOK ch)
    (w : ℕ) {g : GA ℚ} (hg : Edu env ctx hi g) :
    ∃ g', EndsIn (fun f => mutate env ctx { ch with fuel := f } w g) g' := by
  unfold mutate
  split
  · have hid := hg.mu.idle
    obtain ⟨r1, e1, i1, p1, -, u1, a1, -, b1, -⟩ := RR.load_inv (now := ch.clock 0) (st := g.rr)
      hg.child.good hg.child.len hid.routes hid.locs hid.unassigned hid.ruined
    obtain ⟨s, hs1, hs2⟩ := hg.mu.sched
    have ht : Tame (RR.ctxAt ctx r1.pen) := by
      rw [p1]
      exact hr.tame.at_le (by linarith [hg.mu.pen.1]) hg.mu.pen.2
    obtain ⟨r2, e2⟩ := RR.searchLoop_runs hch hv.vehicles hv.n hr.nbrs _ 0 i1 (u1.trans hg.mu.upd) ht
      (a1.trans (by rw [hs1]; rfl)) (le_refl (s.reset.total - s.reset.iteration))
    obtain ⟨f, hf⟩ := e2.some_of
    obtain ⟨s2, n2, -⟩ := RR.runToEnd_inv (P := (0 < ·)) hv.vehicles hch _ _ i1 (u1.trans hg.mu.upd)
      (by rw [p1]; linarith [hg.mu.pen.1]) hf
    obtain ⟨b, hb, -⟩ := n2.2 _ b1
    obtain ⟨v, l, -⟩ := s2.inv.best b hb
    obtain ⟨y, hy⟩ := RR.updateIndividual_total (atan2 := env.rr.atan2) (x := g.child)
      (ctx := RR.ctxAt ctx r2.pen) (by show 0 < ctx.n; have := hr.n; omega) v.at (l.trans hg.child.len.symm)
    refine ⟨{ g with rr := r2, child := y }, ?_⟩
    refine EndsIn.bind (.const e1) (EndsIn.bind e2 (.const ?_))
    unfold RR.getBest
    rw [hb]
    dsimp only
    rw [hy]
    rfl
  · exact ⟨g, .const rfl⟩

theorem addToPop_total (hv : ValidUpTo env ctx hi) (hr : Robust env ctx hi) {x : Individual ℚ} (u : Bool)
    {g : GA ℚ} {p : ℚ} (hg : Base env ctx g) (hx : x.Good (RR.ctxAt ctx p)) :
    ∃ g', addToPop env x u g = some g' := by
  obtain ⟨hs, hrun⟩ := hg.pop
  obtain ⟨q, hq⟩ := Population.add_total hv.bs SubPop.avgOK_rat hr.closest hr.minSize
    (hrun.inv hv.bs hv.sort) hx (fun y _ => PopEx.cmp_rat y x) u
  exact ⟨_, by unfold addToPop; rw [hq]; rfl⟩

theorem repair_ends (hv : ValidUpTo env ctx hi) (hr : Robust env ctx hi) (ω : Oracle) (w : ℕ)
    {g : GA ℚ} (hg : Edu env ctx hi g) : ∃ g', EndsIn (fun f => repair env ctx ω f w g) g' := by
  unfold repair
  split
  · obtain ⟨g1, e1⟩ := localSearch_ends hv hr ω (factor := lit 10) (by simp) hg
    obtain ⟨f, hf⟩ := e1.some_of
    obtain ⟨i1, -⟩ := localSearch_edu hv hg hf
    have : ∃ g2, (if g1.child.isFeasible then addToPop env g1.updateBest.child false g1.updateBest
        else some g1) = some g2 := by
      split
      · obtain ⟨i2, -⟩ := updateBest_edu i1
        exact addToPop_total hv hr false i2.base i2.child.good
      · exact ⟨_, rfl⟩
    obtain ⟨g2, h2⟩ := this
    exact ⟨_, EndsIn.bind e1 (.const (by rw [h2]; rfl))⟩
  · exact ⟨g, .const rfl⟩

theorem educate_ends (hv : ValidUpTo env ctx hi) (hr : Robust env ctx hi) {ch : GAChoice ℚ} (hch : ChOK ch)
    (ω : Oracle) {g : GA ℚ} (hg : Edu env ctx hi g) :
    ∃ g', EndsIn (fun f => educate env ctx { ch with fuel := f } ω g) g' := by
  unfold educate
  obtain ⟨g1, e1⟩ := localSearch_ends hv hr (ω.sub 0) (factor := lit 1) (by simp) hg
  obtain ⟨f, hf⟩ := e1.some_of
  obtain ⟨i1, -⟩ := localSearch_edu hv hg hf
  obtain ⟨g2, e2⟩ := mutate_ends hv hr hch (ω.sub 1 0) i1
  obtain ⟨f, hf⟩ := e2.some_of
  obtain ⟨i2, -⟩ := mutate_edu hv (ch := { ch with fuel := f }) hch i1 hf
  obtain ⟨g3, e3⟩ := repair_ends hv hr (ω.sub 3) (ω.sub 2 0) i2
  exact ⟨_, EndsIn.bind e1 (EndsIn.bind e2 (EndsIn.map e3))⟩

theorem breed_ends (hv : ValidUpTo env ctx hi) (hr : Robust env ctx hi) {ch : GAChoice ℚ} (hch : ChOK ch)
    (hfair : Fair ctx.n ch) {g : GA ℚ} (hb : Base env ctx g) (hm : Mut env ctx hi g.rr)
    (hne : g.pop.Nonempty) : ∃ g', EndsIn (fun f => breed env ctx { ch with fuel := f } g) g' := by
  obtain ⟨p1, e1, -⟩ := C35_tournament env.pop g.pop (ch.ω.sub 0) hne hr.tournament
  obtain ⟨p2, e2, -⟩ := C35_tournament env.pop g.pop (ch.ω.sub 1) hne hr.tournament
  obtain ⟨⟨q1, k1⟩, l1⟩ := member_good hv hb (parent_mem e1)
  obtain ⟨⟨q2, k2⟩, l2⟩ := member_good hv hb (parent_mem e2)
  have hnd := (good_perm k1).nodup_iff.mpr (Spec.nodup_customers _)
  have hpp := (good_perm k2).trans (good_perm k1).symm
  have hlen : p1.genotype.length = ctx.n - 1 := by
    rw [(good_perm k1).length_eq]
    simp [Spec.customers]
  obtain ⟨k, hk, hd⟩ := hfair
  have hn := hr.n
  obtain ⟨c, e3, hc⟩ := C43_crossover_terminates (ch.ω.sub 2) p1.genotype p2.genotype hnd hpp
    (by omega) k hk (by rw [hlen]; exact hd)
  obtain ⟨b1, b2⟩ := nonempty_bounds hv.n k1
  obtain ⟨g1, e4, i1, -⟩ := runSplit_ok hv (g := { g with child := Individual.new c g.pop.total })
    l1 b1 ⟨hb.pop, hb.len, hb.ready, hb.nbr, hb.lsLen, hb.split⟩ hm (hc.trans (good_perm k1))
  obtain ⟨g2, e5⟩ := educate_ends hv hr hch (ch.ω.sub 3) i1
  refine ⟨g2, ?_⟩
  unfold breed
  exact EndsIn.bind (.const e1) (EndsIn.bind (.const e2) (EndsIn.bind
    ⟨k, fun f hf => crossover_mono e3 hf⟩ (EndsIn.bind (.const e4) e5)))

theorem createInitial_ends (hv : ValidUpTo env ctx hi) (hr : Robust env ctx hi) {ch : GAChoice ℚ}
    (hch : ChOK ch) {g : GA ℚ} (hb : Base env ctx g) (hm : Mut env ctx hi g.rr) :
    ∃ r, EndsIn (fun f => createInitial env ctx { ch with fuel := f } g) r := by
  unfold createInitial
  dsimp only
  obtain ⟨g1, e1, i1, -⟩ := runSplit_ok hv (g := { g with
    child := Individual.newRandom ctx env.split.numVehicles (ch.ω.sub 0) g.numInitialized }) (le_refl _)
    hv.fleet ⟨hb.pop, hb.len, hb.ready, hb.nbr, hb.lsLen, hb.split⟩ hm (newRandom_geno _ _ _ _)
  obtain ⟨g2, e2⟩ := educate_ends hv hr hch (ch.ω.sub 1) i1
  exact ⟨_, EndsIn.bind (.const e1) (EndsIn.map e2)⟩

theorem log_total (hv : ValidUpTo env ctx hi) {g : GA ℚ} (hb : Base env ctx g) (hk : Booked g) :
    ∃ g', log env g = some g' := by
  obtain ⟨hs, hrun⟩ := hb.pop
  have hI := hrun.inv hv.bs hv.sort
  obtain ⟨a, ha⟩ := SubPop.getDiversity_total hI.feasible.table env.pop
  obtain ⟨b, hb⟩ := SubPop.getDiversity_total hI.infeasible.table env.pop
  unfold log
  rw [if_pos (show g.bestIteration ≤ g.iterations from hk), ha, Option.bind_some, hb]
  exact ⟨_, rfl⟩

theorem updatePenalty_total (hv : ValidUpTo env ctx hi) (hr : Robust env ctx hi) {g : GA ℚ}
    (hb : Base env ctx g) : ∃ g', updatePenalty env ctx g = some g' := by
  obtain ⟨hs, hrun⟩ := hb.pop
  have hI := hrun.inv hv.bs hv.sort
  unfold updatePenalty
  dsimp only
  generalize nextPenalty env (feasibleFraction g.pop) g.rr.pen = p
  have hn := hr.n
  obtain ⟨l, hl⟩ := Population.evaluateAll_total (ctx := RR.ctxAt ctx p) g.pop.infeasible.pop (by
    intro x hx
    obtain ⟨q, hq⟩ := hI.infeasible.good x hx
    obtain ⟨e, he, -⟩ := C01_evaluate_exact (RR.ctxAt ctx p) x.evaluation x.phenotype
      (by show 0 < ctx.n; omega)
      (fun r hr c hc => (hq.part.mem_iff.mp (List.mem_flatten.mpr ⟨r, hr, hc⟩)).2)
    exact ⟨_, by unfold Individual.evaluate; rw [he]; rfl⟩)
  obtain ⟨l', hl'⟩ := hr.sort l
  unfold Population.reprice
  rw [hl, Option.bind_some, hl']
  exact ⟨_, rfl⟩

theorem finishCycle_total (hv : ValidUpTo env ctx hi) (hr : Robust env ctx hi) {g : GA ℚ}
    (hb : Base env ctx g) (hm : Mut env ctx hi g.rr) (hk : Booked g) :
    ∃ g', finishCycle env ctx g = some g' := by
  have k1 : ∃ g1, (if g.nextPenaltyUpdate ≤ g.iterations then updatePenalty env ctx g else some g) = some g1 ∧
      Base env ctx g1 ∧ Booked g1 := by
    split
    · obtain ⟨g1, h1⟩ := updatePenalty_total hv hr hb
      refine ⟨g1, h1, (updatePenalty_base hv hb hm h1).1, ?_⟩
      unfold updatePenalty at h1
      obtain ⟨q, -, rfl⟩ := Option.map_eq_some_iff.mp h1
      exact hk
    · exact ⟨g, rfl, hb, hk⟩
  obtain ⟨g1, e1, b1, k1⟩ := k1
  have k2 : ∃ g2, (if g1.nextLog ≤ g1.iterations then log env g1 else some g1) = some g2 ∧ Booked g2 := by
    split
    · obtain ⟨g2, h2⟩ := log_total hv b1 k1
      obtain ⟨-, rfl⟩ := log_some h2
      exact ⟨_, h2, k1⟩
    · exact ⟨g1, rfl, k1⟩
  obtain ⟨g2, e2, k2⟩ := k2
  unfold finishCycle
  rw [e1, Option.bind_some, e2, Option.bind_some,
    if_pos (show g2.bestIteration ≤ g2.iterations from k2)]
  exact ⟨_, rfl⟩

/-! ### What else holds in every state -/

/-- Counters and the population before the cycle; the schedule and the penalty during elite education. -/
structure Extra (env : GAEnv ℚ) (ctx : Ctx ℚ) (hi : ℚ) (g : GA ℚ) : Prop where
  booked : Booked g
  start : g.state = .created ∨ g.state = .elite → g.numInitialized = 0
  init : g.state = .init → 0 < g.numInitialized → g.pop.Nonempty
  cycle : g.state = .cycle → g.pop.Nonempty
  elite : g.state = .elite → (env.eliteEducation = true ∧ env.eliteLimit < ctx.n - 1) ∧ ∃ s q, g.rr.acceptance = .iteration s ∧
    s.total = env.eliteIterations ∧ g.rr.pen ≤ hi * growth env ^ q ∧
    (s.iteration < s.total → 1000 * q ≤ s.iteration)

theorem new_extra (ω : Oracle) : Extra env ctx hi (new env ctx ω) :=
  ⟨Nat.le_refl _, fun _ => rfl, fun e => by simp [new] at e, fun e => by simp [new] at e,
    fun e => by simp [new] at e⟩

theorem finishCycle_nonempty (hs : Population.SortPerm env.sort) {g g' : GA ℚ} (hne : g.pop.Nonempty)
    (h : finishCycle env ctx g = some g') (hc : g'.state = .cycle) : g'.pop.Nonempty := by
  obtain ⟨g1, g2, u, v, -, -, rfl⟩ := finishCycle_some h
  have n1 : g1.pop.Nonempty := by
    rcases u with rfl | u
    · exact hne
    · unfold updatePenalty at u
      obtain ⟨q, hq, rfl⟩ := Option.map_eq_some_iff.mp u
      unfold Population.reprice at hq
      obtain ⟨l, hl, hq⟩ := Option.bind_eq_some_iff.mp hq
      obtain ⟨l', hl', rfl⟩ := Option.map_eq_some_iff.mp hq
      rcases hne with hne | hne
      · exact Or.inl hne
      · refine Or.inr fun e => hne ?_
        have e : l' = [] := e
        have h1 := (hs l l' hl').length_eq
        have h2 := (Population.evaluateAll_some hl).length_eq
        rw [e] at h1
        exact List.length_eq_zero_iff.mp (by rw [h2, ← h1]; rfl)
  have n2 : g2.pop.Nonempty := by
    rcases v with rfl | v
    · exact n1
    · obtain ⟨-, rfl⟩ := log_some v
      exact n1
  split at hc
  · simp [reset] at hc
  · rename_i hn
    rw [if_neg hn]
    exact n2

theorem elite_search (hv : ValidUpTo env ctx hi) (hr : Robust env ctx hi) {ch : GAChoice ℚ} (hch : ChOK ch)
    {g : GA ℚ} (hg : Inv env ctx hi g) (hx : Extra env ctx hi g) (hs : g.state = .elite)
    (hc : ¬ g.rr.acceptance.completed = true) :
    ∃ r s q, RR.search env.rr ctx (ch.rr 0) g.rr = some r ∧ r.acceptance = .iteration s ∧
      s.total = env.eliteIterations ∧ r.pen ≤ hi * growth env ^ q ∧
      (s.iteration < s.total → 1000 * q ≤ s.iteration) := by
  obtain ⟨i0, -, hpos, -, -⟩ := hg.elite hs
  obtain ⟨⟨a1, a2⟩, s, q, e1, e2, e3, e4⟩ := hx.elite hs
  obtain ⟨-, ht⟩ := hr.elite a1 a2
  have hlt : s.iteration < s.total := by
    rw [e1] at hc
    have hc : ¬ decide (s.total ≤ s.iteration) = true := hc
    rw [decide_eq_true_eq] at hc
    omega
  have hhi : (0 : ℚ) < hi := lt_of_lt_of_le (by norm_num) hv.lim
  obtain ⟨r, s', q', k1, k2, k3, k4, k5⟩ := RR.searchLoop_elite (hch 0) hv.vehicles hv.n hr.nbrs hhi
    (le_max_left _ _ : 1 ≤ growth env)
    ⟨hv.mult.1, (le_max_left _ _).trans (le_max_right _ _)⟩
    ⟨hv.mult.2, (le_max_right _ _).trans (le_max_right _ _)⟩ ht 1000 (le_refl _) i0 hpos e1 e2
    (fun _ => by rw [← e2]; exact hlt) e3 (by have := e4 hlt; omega)
  exact ⟨r, s', q', k1, k2, k3, k4, by rw [k3]; exact k5⟩

theorem addToPop_nonempty (hv : ValidUpTo env ctx hi) {x : Individual ℚ} {u : Bool} {g g' : GA ℚ}
    (hg : Base env ctx g) (h : addToPop env x u g = some g') : g'.pop.Nonempty := by
  obtain ⟨hs, hrun⟩ := hg.pop
  unfold addToPop at h
  obtain ⟨p, hp, rfl⟩ := Option.map_eq_some_iff.mp h
  exact Population.add_nonempty hv.bs (hrun.inv hv.bs hv.sort) hp

theorem iterate_extra (hv : ValidUpTo env ctx hi) (hr : Robust env ctx hi) {ch : GAChoice ℚ} (hch : ChOK ch)
    {g g' : GA ℚ} (hg : Inv env ctx hi g) (hx : Extra env ctx hi g) (h : iterate env ctx ch g = some g') :
    Extra env ctx hi g' := by
  have hbk := iterate_booked hx.booked h
  unfold iterate at h
  split at h
  · rw [Option.some.injEq] at h
    subst h
    exact ⟨hbk, fun e => by simp at e, fun e => by simp at e, fun e => by simp at e, fun e => by simp at e⟩
  · split at h
    · rename_i hs
      have hm := hg.mu (Or.inl hs)
      have h0 := hx.start (Or.inl hs)
      unfold stepCreated at h
      split at h
      · rename_i hel
        rw [Bool.and_eq_true, decide_eq_true_eq] at hel
        obtain ⟨g1, h1, h⟩ := Option.bind_eq_some_iff.mp h
        obtain ⟨g2, h2, h⟩ := Option.bind_eq_some_iff.mp h
        obtain ⟨r, h3, rfl⟩ := Option.map_eq_some_iff.mp h
        obtain ⟨i1, r1⟩ := runSplit_edu hv (g := { g with state := .elite }) (le_refl _) hv.fleet
          ⟨hg.base.pop, hg.base.len, hg.base.ready, hg.base.nbr, hg.base.lsLen, hg.base.split⟩ hm hg.geno h1
        obtain ⟨i2, r2⟩ := educate_edu hv hch i1 h2
        have fr := (runSplit_frame h1).trans (educate_frame h2)
        have fs : g2.state = .elite := fr.state
        have hi' := i2.mu.idle
        obtain ⟨r', e1, j1, p1, hh1, u1, a1, -⟩ := RR.load_inv (now := ch.clock 2)
          (st := setupElite env (ch.clock 1) g2.rr) i2.child.good i2.child.len
          hi'.routes hi'.locs hi'.unassigned hi'.ruined
        rw [h3, Option.some.injEq] at e1
        subst e1
        obtain ⟨htb, -⟩ := hr.elite hel.1 hel.2
        refine ⟨hbk, fun _ => fr.numInitialized.trans h0, fun e => ?_, fun e => ?_, fun _ => ⟨hel, ?_⟩⟩
        · simp [fs] at e
        · simp [fs] at e
        · refine ⟨_, 0, a1.trans (by unfold setupElite; rw [htb]; rfl), rfl, ?_, fun _ => Nat.zero_le _⟩
          rw [p1, pow_zero, mul_one]
          exact i2.mu.pen.2
      · rw [Option.some.injEq] at h
        subst h
        exact ⟨hbk, fun e => by simp at e, fun _ e => by
          have e : 0 < g.numInitialized := e
          omega, fun e => by simp at e, fun e => by simp at e⟩
    · rename_i hs
      have h0 := hx.start (Or.inr hs)
      obtain ⟨hi', hgd, hpos, hup, hl⟩ := hg.elite hs
      unfold stepElite at h
      split at h
      · obtain ⟨x, h1, h⟩ := Option.bind_eq_some_iff.mp h
        obtain ⟨g2, h2, h⟩ := Option.bind_eq_some_iff.mp h
        obtain ⟨-, rfl⟩ := log_some h
        have fr := (updateBest_frame { g with state := .init, child := x }).trans (addToPop_frame h2)
        have fs : g2.state = .init := fr.state
        refine ⟨hbk, fun e => ?_, fun _ e => ?_, fun e => ?_, fun e => ?_⟩
        · simp [fs] at e
        · have e : 0 < g2.numInitialized := e
          rw [fr.numInitialized] at e
          have e : 0 < g.numInitialized := e
          omega
        · simp [fs] at e
        · simp [fs] at e
      · rename_i hc
        obtain ⟨r, h1, rfl⟩ := Option.map_eq_some_iff.mp h
        obtain ⟨r', s, q, k1, k2⟩ := elite_search hv hr hch hg hx hs hc
        rw [h1, Option.some.injEq] at k1
        subst k1
        exact ⟨hbk, fun _ => h0, fun e => by simp [hs] at e, fun e => by simp [hs] at e,
          fun _ => ⟨(hx.elite hs).1, s, q, k2⟩⟩
    · rename_i hs
      have hm := hg.mu (Or.inr (Or.inl hs))
      unfold stepInit at h
      split at h
      · obtain ⟨⟨x, g1⟩, h1, h⟩ := Option.bind_eq_some_iff.mp h
        obtain ⟨g2, h2, rfl⟩ := Option.map_eq_some_iff.mp h
        obtain ⟨i1, -, -, -⟩ := createInitial_inv hv hch hg.base hm h1
        have fs : g2.state = .init := (addToPop_frame h2).state.trans ((createInitial_frame h1).state.trans hs)
        have hn := addToPop_nonempty hv i1.1 h2
        exact ⟨hbk, fun e => by simp [fs] at e, fun _ _ => hn, fun e => by simp [fs] at e,
          fun e => by simp [fs] at e⟩
      · rename_i hlt
        rw [Option.some.injEq] at h
        subst h
        have := hr.initial
        exact ⟨hbk, fun e => by simp at e, fun e => by simp at e,
          fun _ => hx.init hs (by omega), fun e => by simp at e⟩
    · rename_i hs
      have hm := hg.mu (Or.inr (Or.inr hs))
      unfold stepCycle at h
      obtain ⟨g1, h1, h⟩ := Option.bind_eq_some_iff.mp h
      obtain ⟨g2, h2, h⟩ := Option.bind_eq_some_iff.mp h
      obtain ⟨i1, -⟩ := breed_edu hv hch (g := { g with ctxIteration := g.ctxIteration + 1 })
        ⟨hg.base.pop, hg.base.len, hg.base.ready, hg.base.nbr, hg.base.lsLen, hg.base.split⟩ hm h1
      have hn := addToPop_nonempty hv i1.base h2
      have fs : g2.state = .cycle := (addToPop_frame h2).state.trans ((breed_frame h1).state.trans hs)
      have hne := finishCycle_nonempty (ctx := ctx) hv.sort hn h
      obtain ⟨g3, g4, -, -, w, -, rfl⟩ := finishCycle_some h
      have fs4 : g4.state = .cycle := w.state.trans fs
      refine ⟨hbk, fun e => ?_, fun e => ?_, hne, fun e => ?_⟩
      · by_cases hc : env.maxStagnation < g4.iterations - g4.bestIteration
        · dsimp only
          rw [if_pos hc]
          rfl
        · dsimp only at e
          rw [if_neg hc] at e
          simp [fs4] at e
      · by_cases hc : env.maxStagnation < g4.iterations - g4.bestIteration
        · dsimp only at e
          rw [if_pos hc] at e
          simp [reset] at e
        · dsimp only at e
          rw [if_neg hc] at e
          simp [fs4] at e
      · by_cases hc : env.maxStagnation < g4.iterations - g4.bestIteration
        · dsimp only at e
          rw [if_pos hc] at e
          simp [reset] at e
        · dsimp only at e
          rw [if_neg hc] at e
          simp [fs4] at e
    · rw [Option.some.injEq] at h
      subst h
      exact hx

theorem iterate_ends (hv : ValidUpTo env ctx hi) (hr : Robust env ctx hi) {ch : GAChoice ℚ} (hch : ChOK ch)
    (hfair : Fair ctx.n ch) {g : GA ℚ} (hg : Inv env ctx hi g) (hx : Extra env ctx hi g) :
    ∃ r, EndsIn (fun f => iterate env ctx { ch with fuel := f } g) r := by
  have hn := hr.n
  by_cases ht : terminateNow env.timeLimit env.maxIterations ch.elapsed g.ctxIteration = true
  · exact ⟨_, 0, fun f _ => by dsimp only; unfold iterate; rw [if_pos ht]⟩
  have hit : (fun f => iterate env ctx { ch with fuel := f } g) = fun f => match g.state with
      | .created => stepCreated env ctx { ch with fuel := f } g
      | .elite => stepElite env ctx { ch with fuel := f } g
      | .init => stepInit env ctx { ch with fuel := f } g
      | .cycle => stepCycle env ctx { ch with fuel := f } g
      | .terminated => some g := by
    funext f
    unfold iterate
    rw [if_neg ht]
    cases g.state <;> rfl
  rw [hit]
  cases hs : g.state with
  | created =>
    dsimp only
    have hm := hg.mu (Or.inl hs)
    unfold stepCreated
    by_cases hel : (env.eliteEducation && decide (env.eliteLimit < ctx.n - 1)) = true
    · simp only [if_pos hel]
      obtain ⟨g1, e1, i1, -⟩ := runSplit_ok hv (g := { g with state := .elite }) (le_refl _) hv.fleet
        ⟨hg.base.pop, hg.base.len, hg.base.ready, hg.base.nbr, hg.base.lsLen, hg.base.split⟩ hm hg.geno
      obtain ⟨g2, e2⟩ := educate_ends hv hr hch ch.ω i1
      obtain ⟨f, hf⟩ := e2.some_of
      obtain ⟨i2, -⟩ := educate_edu hv (ch := { ch with fuel := f }) hch i1 hf
      have hi' := i2.mu.idle
      obtain ⟨r, e3, -⟩ := RR.load_inv (now := ch.clock 2)
        (st := setupElite env (ch.clock 1) g2.rr) i2.child.good i2.child.len
        hi'.routes hi'.locs hi'.unassigned hi'.ruined
      exact ⟨_, EndsIn.bind (.const e1) (EndsIn.bind e2 (.const (by rw [e3]; rfl)))⟩
    · simp only [if_neg hel]
      exact ⟨_, .const rfl⟩
  | elite =>
    dsimp only
    obtain ⟨hi', hgd, hpos, hup, hl⟩ := hg.elite hs
    unfold stepElite
    by_cases hc : g.rr.acceptance.completed = true
    · simp only [if_pos hc]
      have k1 : ∃ x, RR.getBest env.rr ctx g.rr g.child = some x ∧ ∃ p, x.Good (RR.ctxAt ctx p) := by
        unfold RR.getBest
        split
        · rename_i b hb
          obtain ⟨v, l, -⟩ := hi'.best b hb
          obtain ⟨y, hy⟩ := RR.updateIndividual_total (atan2 := env.rr.atan2) (x := g.child)
            (ctx := RR.ctxAt ctx g.rr.pen) (by show 0 < ctx.n; omega) v.at (l.trans hl.symm)
          obtain ⟨y1, -⟩ := RR.updateIndividual_some v.at (l.trans hl.symm) hy
          exact ⟨y, hy, _, y1⟩
        · obtain ⟨p, -, hp⟩ := hgd
          exact ⟨_, rfl, p, hp⟩
      obtain ⟨x, e1, p, hx1⟩ := k1
      have hxl : x.phenotype.length = env.split.numVehicles := by
        unfold RR.getBest at e1
        split at e1
        · rename_i b hb
          obtain ⟨v, l, -⟩ := hi'.best b hb
          obtain ⟨-, y2, -, -⟩ := RR.updateIndividual_some v.at (l.trans hl.symm) e1
          rw [y2.length_eq, RRSol.length_stops, l]
        · rw [Option.some.injEq] at e1
          subst e1
          exact hl
      have b0 : Base env ctx { g with state := .init, child := x } :=
        ⟨hg.base.pop, hg.base.len, hg.base.ready, hg.base.nbr, hg.base.lsLen, hg.base.split⟩
      obtain ⟨g2, e2⟩ := addToPop_total hv hr false (updateBest_base b0) hx1
      obtain ⟨b2, -⟩ := addToPop_base hv (updateBest_base b0) hx1 (nonempty_le hxl) e2
      have k2 : Booked g2 := (addToPop_frame e2).booked
        ((updateBest_frame { g with state := .init, child := x }).booked hx.booked)
      obtain ⟨g3, e3⟩ := log_total hv
        (g := { g2 with rr := { setupMutation env g2.rr with pen := env.initialPen } })
        ⟨b2.pop, b2.len, b2.ready, b2.nbr, b2.lsLen, b2.split⟩ k2
      exact ⟨g3, .const (by rw [e1, Option.bind_some, e2, Option.bind_some]; exact e3)⟩
    · simp only [if_neg hc]
      obtain ⟨r, s, q, e1, -⟩ := elite_search hv hr hch hg hx hs hc
      exact ⟨_, .const (by rw [e1]; rfl)⟩
  | init =>
    dsimp only
    have hm := hg.mu (Or.inr (Or.inl hs))
    unfold stepInit
    by_cases hlt : g.numInitialized < env.initialIndividuals
    · simp only [if_pos hlt]
      obtain ⟨⟨x, g1⟩, e1⟩ := createInitial_ends hv hr hch hg.base hm
      obtain ⟨f, hf⟩ := e1.some_of
      obtain ⟨i1, -, gx, -⟩ := createInitial_inv hv (ch := { ch with fuel := f }) hch hg.base hm hf
      obtain ⟨g2, e2⟩ := addToPop_total hv hr true i1.1 gx
      exact ⟨_, EndsIn.bind e1 (.const (by dsimp only; rw [e2]; rfl))⟩
    · simp only [if_neg hlt]
      exact ⟨_, .const rfl⟩
  | cycle =>
    dsimp only
    have hm := hg.mu (Or.inr (Or.inr hs))
    have hb : Base env ctx { g with ctxIteration := g.ctxIteration + 1 } :=
      ⟨hg.base.pop, hg.base.len, hg.base.ready, hg.base.nbr, hg.base.lsLen, hg.base.split⟩
    unfold stepCycle
    obtain ⟨g1, e1⟩ := breed_ends hv hr hch hfair hb hm (hx.cycle hs)
    obtain ⟨f, hf⟩ := e1.some_of
    obtain ⟨i1, -⟩ := breed_edu hv (ch := { ch with fuel := f }) hch hb hm hf
    obtain ⟨g2, e2⟩ := addToPop_total hv hr true i1.base i1.child.good
    obtain ⟨i2, -⟩ := addToPop_edu hv i1 i1.child.good i1.child.len e2
    have k2 : Booked g2 := ((breed_frame hf).trans (addToPop_frame e2)).booked
      (g := { g with ctxIteration := g.ctxIteration + 1 }) hx.booked
    obtain ⟨g3, e3⟩ := finishCycle_total hv hr i2.base i2.mu k2
    exact ⟨g3, EndsIn.bind e1 (.const (by rw [e2, Option.bind_some]; exact e3))⟩
  | terminated => exact ⟨_, .const rfl⟩

end GA
end Verif
