import Verif.Props.Crossover
import Verif.Props.Genetic
import Verif.Props.LocalSearch
import Verif.Props.Population
import Verif.Props.RuinRecreate
import Verif.Props.SplitFleet

/-! # Invariant of the genetic loop (exact arithmetic) -/

namespace Verif
open F64

/-! ### The schedule advances -/

namespace RR

variable {α : Type} [F64 α] {env : RREnv α} {ctx : Ctx α}

theorem updateBest_acceptance {ω : Oracle} {st st' : RR α} (h : updateBest env ctx ω st = some st') :
    st'.acceptance = st.acceptance := by
  unfold updateBest at h
  dsimp only at h
  split at h
  · obtain ⟨x, -, rfl⟩ := Option.map_eq_some_iff.mp h
    rfl
  · rw [Option.some.injEq] at h
    subst h
    rfl

theorem round_acceptance {ch : RRChoice α} {st st' : RR α} (h : round env ctx ch st = some st') :
    st'.acceptance = st.acceptance.update env.exp ch.now := by
  unfold round at h
  dsimp only at h
  obtain ⟨c1, -, h⟩ := Option.bind_eq_some_iff.mp h
  obtain ⟨c2, -, h⟩ := Option.bind_eq_some_iff.mp h
  obtain ⟨st2, h3, h⟩ := Option.bind_eq_some_iff.mp h
  obtain ⟨cur, -, rfl⟩ := Option.map_eq_some_iff.mp h
  have : st2.acceptance = st.acceptance := by
    split at h3
    · obtain ⟨st3, h4, h3⟩ := Option.bind_eq_some_iff.mp h3
      obtain ⟨sol, -, rfl⟩ := Option.map_eq_some_iff.mp h3
      split at h4
      · have := updateBest_acceptance h4
        exact this
      · rw [Option.some.injEq] at h4
        subst h4
        rfl
    · rw [Option.some.injEq] at h3
      subst h3
      rfl
  rw [← this]

theorem penaltyUpdate_acceptance (st : RR α) : (penaltyUpdate env ctx st).acceptance = st.acceptance := by
  unfold penaltyUpdate
  split <;> rfl

theorem searchLoop_acceptance {ch : ℕ → RRChoice α} : ∀ (k : ℕ) {st st' : RR α} {s : IterSchedule α},
    st.acceptance = .iteration s → searchLoop env ctx ch k st = some st' →
    ∃ s', st'.acceptance = .iteration s' ∧ s'.total = s.total ∧ s.iteration ≤ s'.iteration ∧
      (k ≠ 0 → s.iteration < s'.iteration)
  | 0, st, st', s, hs, h => by
    simp only [searchLoop, Option.some.injEq] at h
    subst h
    exact ⟨s, hs, rfl, le_refl _, fun h => absurd rfl h⟩
  | k + 1, st, st', s, hs, h => by
    unfold searchLoop at h
    obtain ⟨st1, h1, h⟩ := Option.bind_eq_some_iff.mp h
    have e1 := round_acceptance h1
    have e0 : (if k = 0 then penaltyUpdate env ctx st else st).acceptance = st.acceptance := by
      split
      · exact penaltyUpdate_acceptance st
      · rfl
    rw [e0, hs] at e1
    split at h
    · rw [Option.some.injEq] at h
      subst h
      exact ⟨_, e1, rfl, Nat.le_succ _, fun _ => Nat.lt_succ_self _⟩
    · obtain ⟨s', a1, a2, a3, -⟩ := searchLoop_acceptance k e1 h
      have a3' : s.iteration + 1 ≤ s'.iteration := a3
      exact ⟨s', a1, a2, by omega, fun _ => by omega⟩

theorem search_acceptance {ch : ℕ → RRChoice α} {st st' : RR α} {s : IterSchedule α}
    (hs : st.acceptance = .iteration s) (h : search env ctx ch st = some st') :
    ∃ s', st'.acceptance = .iteration s' ∧ s'.total = s.total ∧ s.iteration < s'.iteration := by
  obtain ⟨s', a1, a2, -, a3⟩ := searchLoop_acceptance 1000 hs h
  exact ⟨s', a1, a2, a3 (by decide)⟩

theorem load_acceptance {now : α} {x : Individual α} {st st' : RR α} (h : load ctx now x st = some st') :
    st'.acceptance = st.acceptance.reset now := by
  unfold load at h
  obtain ⟨s1, -, h⟩ := Option.bind_eq_some_iff.mp h
  obtain ⟨s2, -, rfl⟩ := Option.map_eq_some_iff.mp h
  rfl

theorem runToEnd_inv {env : RREnv ℚ} {ctx : Ctx ℚ} {nv : ℕ} {P : ℚ → Prop} (hnv : env.numVehicles = nv)
    {ch : ℕ → ℕ → RRChoice ℚ} (hch : ∀ i k, ChoiceOK (ch i k)) : ∀ (fuel i : ℕ) {st st' : RR ℚ},
    Inv ctx nv st → st.updatePenalty = false → P st.pen → runToEnd env ctx ch fuel i st = some st' →
      Step P ctx nv st st' ∧ NoWorse st st' ∧
      ∀ s, st.acceptance = .iteration s → ∃ s', st'.acceptance = .iteration s' ∧ s'.total = s.total
  | 0, _, _, _, _, _, _, h => by simp [runToEnd] at h
  | fuel + 1, i, st, st', hi, hu, hP, h => by
    unfold runToEnd at h
    split at h
    · rw [Option.some.injEq] at h
      subst h
      exact ⟨⟨hi, .refl _, rfl, hP⟩, ⟨rfl, fun b hb => ⟨b, hb, le_refl _⟩⟩, fun s hs => ⟨s, hs, rfl⟩⟩
    · obtain ⟨st1, h1, h⟩ := Option.bind_eq_some_iff.mp h
      obtain ⟨s1, n1⟩ := searchLoop_inv (hch i) hnv 1000 hi
        ⟨hP, fun e => by rw [hu] at e; simp at e⟩ h1
      have a := n1 hu
      obtain ⟨s2, b, c⟩ := runToEnd_inv hnv hch fuel (i + 1) s1.inv (s1.upd.trans hu) s1.pen h
      refine ⟨⟨s2.inv, s1.hist.trans s2.hist, s2.upd.trans s1.upd, s2.pen⟩, ⟨b.1.trans a.1, fun x hx => ?_⟩, ?_⟩
      · obtain ⟨y, hy, hle⟩ := a.2 x hx
        obtain ⟨z, hz, hle'⟩ := b.2 y hy
        exact ⟨z, hz, hle'.trans hle⟩
      · intro s hs
        obtain ⟨s', e1, e2, -⟩ := search_acceptance hs h1
        obtain ⟨s'', e3, e4⟩ := c s' e1
        exact ⟨s'', e3, e4.trans e2⟩

end RR

/-! ### Recording -/

/-- Recording never raises the best cost and never forgets an entry. -/
theorem HistRun.log {P : ℚ → Prop} {ctx : Ctx ℚ} {nv : ℕ} {h h' : History ℚ} (r : HistRun P ctx nv h h') :
    (∀ e ∈ h.log, e ∈ h'.log) ∧ h'.bestCost ≤ h.bestCost := by
  induction r with
  | refl => exact ⟨fun _ h => h, le_refl _⟩
  | step _ _ _ _ _ hc ih =>
    rw [rat_approxLt, decide_eq_true_eq] at hc
    refine ⟨fun e he => by simp [History.add, ih.1 e he], ?_⟩
    simp only [History.add]
    linarith [ih.2]

namespace GA

/-- The hypotheses on instance and configuration for the search to be sound: at least one customer,
sensible distances, a fleet of at least one vehicle and at least the bin-packing bound, an initial penalty
within the limits of the penalty update, positive factors of the update, a usable neighbour table, library routines that keep their
contracts and, for the linear split only, magnitudes below its sentinel. -/
structure ValidUpTo (env : GAEnv ℚ) (ctx : Ctx ℚ) (hi : ℚ) : Prop where
  n : 2 ≤ ctx.n
  dist : ∀ a b, 0 ≤ ctx.dist a b ∧ ctx.dist a b ≤ (maxv : ℚ)
  fleet : 1 ≤ env.split.numVehicles
  bound : env.lowerBound ≤ env.split.numVehicles
  vehicles : env.rr.numVehicles = env.split.numVehicles
  bs : BSearchOK env.bs
  sort : Population.SortPerm env.sort
  pen : 1 / 10000 ≤ env.initialPen ∧ env.initialPen ≤ 10000000
  mult : 0 < env.rr.incMultiplier ∧ 0 < env.rr.decMultiplier
  lim : 10000000 ≤ hi
  mag : env.split.linear = true → BelowSentinel (RR.ctxAt ctx hi)
  nbr : NbrOK ctx (LS.new ctx env.split.numVehicles env.granularity env.angle env.corr env.corrCols (lit 1))

/-- The same with the limit of the penalty update as largest penalty. -/
abbrev Valid (env : GAEnv ℚ) (ctx : Ctx ℚ) : Prop := ValidUpTo env ctx 10000000

/-- Hash sets are iterated in some order. -/
def ChOK {α : Type} (ch : GAChoice α) : Prop := ∀ i k, RR.ChoiceOK (ch.rr i k)

variable {env : GAEnv ℚ} {ctx : Ctx ℚ} {hi : ℚ}

/-- What holds in every state. -/
structure Base {α : Type} [F64 α] (env : GAEnv α) (ctx : Ctx α) (g : GA α) : Prop where
  pop : ∃ hs, g.pop.Run ctx env.pop env.bs env.sort (fun _ => True) hs
  len : ∀ x ∈ g.pop.feasible.pop ++ g.pop.infeasible.pop, x.numNonemptyRoutes ≤ env.split.numVehicles
  ready : Ready g.ls
  nbr : NbrOK ctx g.ls
  lsLen : g.ls.numRoutes = env.split.numVehicles
  split : SplitReachable env.split ctx.n ctx.cap g.split

/-- What holds of the ruin-and-recreate object and the penalty outside elite education. -/
structure Mut (env : GAEnv ℚ) (ctx : Ctx ℚ) (hi : ℚ) (r : RR ℚ) : Prop where
  idle : r.Idle ctx env.split.numVehicles
  upd : r.updatePenalty = false
  sched : ∃ s, r.acceptance = .iteration s ∧ s.total = env.rrIterations
  pen : 1 / 10000 ≤ r.pen ∧ r.pen ≤ hi

/-- The child is complete and evaluated under the present penalty. -/
structure ChildOK (env : GAEnv ℚ) (ctx : Ctx ℚ) (g : GA ℚ) : Prop where
  good : g.child.Good (RR.ctxAt ctx g.rr.pen)
  len : g.child.phenotype.length = env.split.numVehicles

/-- The situation during education. -/
structure Edu (env : GAEnv ℚ) (ctx : Ctx ℚ) (hi : ℚ) (g : GA ℚ) : Prop where
  base : Base env ctx g
  mu : Mut env ctx hi g.rr
  child : ChildOK env ctx g

/-- The individual kept as best is recorded, and the recorded best is no worse; and for the bound `M`, if
any, there is one that costs no more. -/
def BestIn (M : Option ℚ) (g : GA ℚ) : Prop := (∀ b, g.bestSolution = some b →
  ⟨b.phenotype, b.cost⟩ ∈ g.rr.hist.log ∧ g.rr.hist.bestCost ≤ b.cost) ∧
  ∀ c, M = some c → ∃ b, g.bestSolution = some b ∧ b.cost ≤ c

/-- What a step does to the penalty, the history and the individual kept as best. -/
structure Rec (env : GAEnv ℚ) (ctx : Ctx ℚ) (g g' : GA ℚ) : Prop where
  pen : g'.rr.pen = g.rr.pen
  hist : HistRun (0 < ·) ctx env.split.numVehicles g.rr.hist g'.rr.hist
  best : ∀ M, BestIn M g → BestIn M g'

theorem Rec.refl (g : GA ℚ) : Rec env ctx g g := ⟨rfl, .refl _, fun _ => id⟩

theorem Rec.trans {a b c : GA ℚ} (h : Rec env ctx a b) (k : Rec env ctx b c) : Rec env ctx a c :=
  ⟨k.pen.trans h.pen, h.hist.trans k.hist, fun M x => k.best M (h.best M x)⟩

theorem bestIn_of_hist {g g' : GA ℚ} {nv : ℕ} (hb : g'.bestSolution = g.bestSolution)
    (hr : HistRun (0 < ·) ctx nv g.rr.hist g'.rr.hist) (M : Option ℚ) (h : BestIn M g) : BestIn M g' := by
  refine ⟨fun b e => ?_, by rw [hb]; exact h.2⟩
  rw [hb] at e
  obtain ⟨h1, h2⟩ := h.1 b e
  exact ⟨hr.log.1 _ h1, hr.log.2.trans h2⟩

theorem nbrOK_at {α : Type} [F64 α] {ctx : Ctx α} {p : α} {s : LS α} (h : NbrOK ctx s) : NbrOK (RR.ctxAt ctx p) s :=
  ⟨h.gran, h.cols, h.len, h.nbr, h.cust⟩

theorem nbrOK_of_at {α : Type} [F64 α] {ctx : Ctx α} {p : α} {s : LS α} (h : NbrOK (RR.ctxAt ctx p) s) : NbrOK ctx s :=
  ⟨h.gran, h.cols, h.len, h.nbr, h.cust⟩

theorem BelowSentinel.at_le {p q : ℚ} (h : BelowSentinel (RR.ctxAt ctx q)) (h0 : 0 ≤ p) (h1 : p ≤ q) :
    BelowSentinel (RR.ctxAt ctx p) := by
  obtain ⟨D, Q, hD, hQ, hp, hb⟩ := h
  refine ⟨D, Q, hD, hQ, h0, lt_of_le_of_lt ?_ hb⟩
  have hQ0 : 0 ≤ Q := le_trans (hQ 0).1 (hQ 0).2
  have : (0 : ℚ) ≤ ctx.n * Q := mul_nonneg (Nat.cast_nonneg _) hQ0
  have h2 := mul_le_mul_of_nonneg_right h1 this
  show (ctx.n : ℚ) * D + p * (ctx.n * Q) ≤ ctx.n * D + q * (ctx.n * Q)
  linarith

theorem localSearch_edu (hv : ValidUpTo env ctx hi) {ω : Oracle} {fuel : ℕ} {factor : ℚ} {g g' : GA ℚ}
    (hg : Edu env ctx hi g) (h : localSearch env ctx ω fuel factor g = some g') :
    Edu env ctx hi g' ∧ Rec env ctx g g' := by
  unfold localSearch at h
  split at h
  · obtain ⟨⟨l, y⟩, h1, rfl⟩ := Option.map_eq_some_iff.mp h
    obtain ⟨r1, r2, r3, r4, r5, r6, r7⟩ := C10_run_structure env.rr.atan2 (RR.ctxAt ctx g.rr.pen)
      env.moves ω fuel factor g.ls g.child (arith_rat hv.dist) hg.base.ready (nbrOK_at hg.base.nbr)
      hg.child.good.part (hg.child.len.trans hg.base.lsLen.symm) l y h1
    exact ⟨⟨⟨hg.base.pop, hg.base.len, r5, nbrOK_of_at r6, r7.trans hg.base.lsLen, hg.base.split⟩,
      hg.mu, ⟨r1, r3, _, r4⟩, r2.trans hg.child.len⟩, rfl, .refl _, fun _ => id⟩
  · rw [Option.some.injEq] at h
    subst h
    exact ⟨hg, .refl _⟩

theorem mutate_edu (hv : ValidUpTo env ctx hi) {ch : GAChoice ℚ} (hch : ChOK ch) {w : ℕ} {g g' : GA ℚ}
    (hg : Edu env ctx hi g) (h : mutate env ctx ch w g = some g') : Edu env ctx hi g' ∧ Rec env ctx g g' := by
  unfold mutate at h
  split at h
  · obtain ⟨r1, h1, h⟩ := Option.bind_eq_some_iff.mp h
    obtain ⟨r2, h2, h⟩ := Option.bind_eq_some_iff.mp h
    obtain ⟨x, h3, rfl⟩ := Option.map_eq_some_iff.mp h
    have hi := hg.mu.idle
    obtain ⟨r1', e1, i1, p1, hh1, u1, a1, -, b1, -⟩ := RR.load_inv (now := ch.clock 0) (st := g.rr)
      hg.child.good hg.child.len hi.routes hi.locs hi.unassigned hi.ruined
    rw [h1, Option.some.injEq] at e1
    subst e1
    obtain ⟨s2, n2, c2⟩ := RR.runToEnd_inv hv.vehicles hch _ _ i1 (u1.trans hg.mu.upd)
      (P := (0 < ·)) (by rw [p1]; linarith [hg.mu.pen.1]) h2
    obtain ⟨s, hs1, hs2⟩ := hg.mu.sched
    obtain ⟨s', hs3, hs4⟩ := c2 s.reset (by rw [a1, hs1]; rfl)
    obtain ⟨b, hb, -⟩ := n2.2 _ b1
    obtain ⟨v, l, -⟩ := s2.inv.best b hb
    unfold RR.getBest at h3
    rw [hb] at h3
    obtain ⟨y1, y2, -, -⟩ := RR.updateIndividual_some v.at (l.trans hg.child.len.symm) h3
    have hpen : r2.pen = g.rr.pen := n2.1.trans p1
    have hr : HistRun (0 < ·) ctx env.split.numVehicles g.rr.hist r2.hist := hh1 ▸ s2.hist
    refine ⟨⟨⟨hg.base.pop, hg.base.len, hg.base.ready, hg.base.nbr, hg.base.lsLen, hg.base.split⟩,
      ⟨s2.inv.idle, s2.upd.trans (u1.trans hg.mu.upd), ⟨s', hs3, hs4.trans hs2⟩,
        by rw [hpen]; exact hg.mu.pen⟩, y1, ?_⟩, hpen, hr, bestIn_of_hist (ctx := ctx) rfl hr⟩
    dsimp only
    rw [y2.length_eq, RRSol.length_stops, l]
  · rw [Option.some.injEq] at h
    subst h
    exact ⟨hg, .refl _⟩

/-- Recording the child. -/
theorem updateBest_rec {g : GA ℚ} {p : ℚ} (hp : 0 < p) (hg : g.child.Good (RR.ctxAt ctx p))
    (hl : g.child.phenotype.length = env.split.numVehicles) : Rec env ctx g g.updateBest := by
  unfold updateBest
  split
  · rename_i hc
    dsimp only
    split
    · rename_i hc2
      rw [Bool.and_eq_true] at hc
      refine ⟨rfl, .step (.refl _) hp hg hc.1 hl hc2, fun M hM => ⟨fun b e => ?_, fun c e => ⟨_, rfl, ?_⟩⟩⟩
      · simp only [Option.some.injEq] at e
        subst e
        exact ⟨by simp [History.add], le_refl _⟩
      · obtain ⟨b, hb, hc⟩ := hM.2 c e
        have := (hM.1 b hb).2
        rw [rat_approxLt, decide_eq_true_eq] at hc2
        linarith
    · exact ⟨rfl, .refl _, fun _ => id⟩
  · exact .refl _

theorem updateBest_base {α : Type} [F64 α] {env : GAEnv α} {ctx : Ctx α} {g : GA α} (hg : Base env ctx g) : Base env ctx g.updateBest := by
  obtain ⟨e1, e2, e3, -⟩ := updateBest_other g
  exact ⟨by rw [e2]; exact hg.pop, by rw [e2]; exact hg.len, by rw [e1]; exact hg.ready,
    by rw [e1]; exact hg.nbr, by rw [e1]; exact hg.lsLen, by rw [e3]; exact hg.split⟩

theorem updateBest_edu {g : GA ℚ} (hg : Edu env ctx hi g) :
    Edu env ctx hi g.updateBest ∧ Rec env ctx g g.updateBest := by
  obtain ⟨-, -, -, h, e4⟩ := updateBest_other g
  refine ⟨⟨updateBest_base hg.base, ?_, ?_⟩, updateBest_rec (by linarith [hg.mu.pen.1]) hg.child.good hg.child.len⟩
  · rw [e4]
    exact ⟨⟨hg.mu.idle.routes, hg.mu.idle.locs, hg.mu.idle.unassigned, hg.mu.idle.ruined⟩,
      hg.mu.upd, hg.mu.sched, hg.mu.pen⟩
  · have e := updateBest_child g
    have ep : g.updateBest.rr.pen = g.rr.pen := by rw [e4]
    exact ⟨by rw [e, ep]; exact hg.child.good, by rw [e]; exact hg.child.len⟩

theorem add_members {α : Type} [F64 α] {ctx : Ctx α} {cfg : PopCfg} {bs : BSearch} (hbs : BSearchOK bs)
    {p p' : Population α} (hI : Population.Inv ctx cfg p) {x : Individual α} {u : Bool} {P : List (List ℕ) → Prop}
    (hp : ∀ y ∈ p.feasible.pop ++ p.infeasible.pop, P y.phenotype) (hx : P x.phenotype)
    (h : p.add cfg bs x u = some p') : ∀ y ∈ p'.feasible.pop ++ p'.infeasible.pop, P y.phenotype := by
  have key : ∀ (s s' : SubPop α) (f : Bool), SubPop.Inv ctx cfg p.total f s →
      s.add cfg bs { x with number := p.total } = some s' → (∀ y ∈ s.pop, P y.phenotype) →
      ∀ y ∈ s'.pop, P y.phenotype := by
    intro s s' f hs ha hps y hy
    obtain ⟨-, -, -, h4, -⟩ := SubPop.add_summary hbs ha hs.table hs.fresh
    obtain ⟨z, hz, e⟩ := h4 y hy
    have ep : y.phenotype = z.phenotype :=
      congrArg (f := Individual.phenotype) (a₁ := SubPop.strip y) (a₂ := SubPop.strip z) e
    rw [ep]
    rw [List.mem_cons] at hz
    rcases hz with rfl | hz
    · exact hx
    · exact hps z hz
  unfold Population.add at h
  dsimp only at h
  split at h
  · obtain ⟨s, hs, rfl⟩ := Option.map_eq_some_iff.mp h
    have := key _ _ _ hI.feasible hs fun y hy => hp y (by simp [hy])
    intro y hy
    rw [List.mem_append] at hy
    rcases hy with hy | hy
    · exact this y hy
    · exact hp y (List.mem_append_right _ hy)
  · obtain ⟨s, hs, rfl⟩ := Option.map_eq_some_iff.mp h
    have := key _ _ _ hI.infeasible hs fun y hy => hp y (by simp [hy])
    intro y hy
    rw [List.mem_append] at hy
    rcases hy with hy | hy
    · exact hp y (List.mem_append_left _ hy)
    · exact this y hy

theorem nonempty_le {α : Type} {x : Individual α} {k : ℕ} (h : x.phenotype.length = k) : x.numNonemptyRoutes ≤ k :=
  h ▸ List.length_filter_le _ _

theorem addToPop_base (hv : ValidUpTo env ctx hi) {x : Individual ℚ} {u : Bool} {g g' : GA ℚ} {p : ℚ}
    (hg : Base env ctx g) (hx : x.Good (RR.ctxAt ctx p))
    (hl : x.numNonemptyRoutes ≤ env.split.numVehicles) (h : addToPop env x u g = some g') :
    Base env ctx g' ∧ ∃ q, g' = { g with pop := q } := by
  unfold addToPop at h
  obtain ⟨q, hq, rfl⟩ := Option.map_eq_some_iff.mp h
  obtain ⟨hs, hr⟩ := hg.pop
  exact ⟨⟨⟨_, hr.add hx trivial hq⟩,
    add_members hv.bs (hr.inv hv.bs hv.sort) (P := fun l => (l.filter (fun r => decide (0 < r.length))).length ≤ env.split.numVehicles) hg.len hl hq,
    hg.ready, hg.nbr, hg.lsLen, hg.split⟩, q, rfl⟩

theorem addToPop_edu (hv : ValidUpTo env ctx hi) {x : Individual ℚ} {u : Bool} {g g' : GA ℚ} {p : ℚ}
    (hg : Edu env ctx hi g) (hx : x.Good (RR.ctxAt ctx p))
    (hl : x.phenotype.length = env.split.numVehicles) (h : addToPop env x u g = some g') :
    Edu env ctx hi g' ∧ Rec env ctx g g' := by
  obtain ⟨h1, q, rfl⟩ := addToPop_base hv hg.base hx (nonempty_le hl) h
  exact ⟨⟨h1, hg.mu, hg.child.good, hg.child.len⟩, rfl, .refl _, fun _ => id⟩

theorem repair_edu (hv : ValidUpTo env ctx hi) {ω : Oracle} {fuel w : ℕ} {g g' : GA ℚ}
    (hg : Edu env ctx hi g) (h : repair env ctx ω fuel w g = some g') :
    Edu env ctx hi g' ∧ Rec env ctx g g' := by
  unfold repair at h
  split at h
  · obtain ⟨g1, h1, h⟩ := Option.bind_eq_some_iff.mp h
    obtain ⟨g2, h2, rfl⟩ := Option.map_eq_some_iff.mp h
    obtain ⟨i1, r1⟩ := localSearch_edu hv hg h1
    have key : Edu env ctx hi g2 ∧ Rec env ctx g g2 := by
      split at h2
      · obtain ⟨i2, r2⟩ := updateBest_edu i1
        obtain ⟨i3, r3⟩ := addToPop_edu hv i2 i2.child.good i2.child.len h2
        exact ⟨i3, (r1.trans r2).trans r3⟩
      · rw [Option.some.injEq] at h2
        subst h2
        exact ⟨i1, r1⟩
    obtain ⟨i2, r2⟩ := key
    refine ⟨⟨⟨i2.base.pop, i2.base.len, i2.base.ready, i2.base.nbr, i2.base.lsLen, i2.base.split⟩,
      i2.mu, ?_, hg.child.len⟩, r2.pen, r2.hist, r2.best⟩
    show g.child.Good (RR.ctxAt ctx g2.rr.pen)
    rw [r2.pen]
    exact hg.child.good
  · rw [Option.some.injEq] at h
    subst h
    exact ⟨hg, .refl _⟩

theorem educate_edu (hv : ValidUpTo env ctx hi) {ch : GAChoice ℚ} (hch : ChOK ch) {ω : Oracle} {g g' : GA ℚ}
    (hg : Edu env ctx hi g) (h : educate env ctx ch ω g = some g') :
    Edu env ctx hi g' ∧ Rec env ctx g g' := by
  unfold educate at h
  obtain ⟨g1, h1, h⟩ := Option.bind_eq_some_iff.mp h
  obtain ⟨g2, h2, h⟩ := Option.bind_eq_some_iff.mp h
  obtain ⟨g3, h3, rfl⟩ := Option.map_eq_some_iff.mp h
  obtain ⟨i1, r1⟩ := localSearch_edu hv hg h1
  obtain ⟨i2, r2⟩ := mutate_edu hv hch i1 h2
  obtain ⟨i3, r3⟩ := repair_edu hv i2 h3
  obtain ⟨i4, r4⟩ := updateBest_edu i3
  exact ⟨i4, ((r1.trans r2).trans r3).trans r4⟩

theorem runSplit_ok (hv : ValidUpTo env ctx hi) {k : ℕ} (hk : k ≤ env.split.numVehicles) (h1 : 1 ≤ k)
    {g : GA ℚ} (hb : Base env ctx g) (hm : Mut env ctx hi g.rr)
    (hc : g.child.genotype.Perm (Spec.customers ctx.n)) :
    ∃ g', runSplit env ctx k g = some g' ∧ Edu env ctx hi g' ∧ Rec env ctx g g' := by
  have hp0 : (0 : ℚ) ≤ g.rr.pen := by linarith [hm.pen.1]
  obtain ⟨s', y, e, r1, r2, r3, r4, -, -, r5⟩ := C06_split_run env.rr.atan2 env.split
    (RR.ctxAt ctx g.rr.pen) env.lowerBound g.split hb.split g.child k hc (by have := hv.n; exact (by omega : 0 < ctx.n))
    (le_trans h1 (le_max_left _ _)) (max_le hk hv.bound)
    (fun hl => BelowSentinel.at_le (hv.mag hl) hp0 hm.pen.2)
  refine ⟨{ g with split := s', child := y }, by unfold runSplit; rw [e]; rfl,
    ⟨⟨hb.pop, hb.len, hb.ready, hb.nbr, hb.lsLen, r1⟩, hm, ⟨r2, r3, _, r5⟩, r4⟩, rfl, .refl _, fun _ => id⟩

theorem runSplit_edu (hv : ValidUpTo env ctx hi) {k : ℕ} (hk : k ≤ env.split.numVehicles) (h1 : 1 ≤ k)
    {g g' : GA ℚ} (hb : Base env ctx g) (hm : Mut env ctx hi g.rr)
    (hc : g.child.genotype.Perm (Spec.customers ctx.n)) (h : runSplit env ctx k g = some g') :
    Edu env ctx hi g' ∧ Rec env ctx g g' := by
  obtain ⟨g1, e, h2⟩ := runSplit_ok hv hk h1 hb hm hc
  rw [h, Option.some.injEq] at e
  subst e
  exact h2

/-! ### The invariant -/

/-- The invariant of the loop. -/
structure Inv (env : GAEnv ℚ) (ctx : Ctx ℚ) (hi : ℚ) (g : GA ℚ) : Prop where
  base : Base env ctx g
  mu : g.state = .created ∨ g.state = .init ∨ g.state = .cycle → Mut env ctx hi g.rr
  geno : g.child.genotype.Perm (Spec.customers ctx.n)
  elite : g.state = .elite → RR.Inv ctx env.split.numVehicles g.rr ∧
    (∃ p, 0 < p ∧ g.child.Good (RR.ctxAt ctx p)) ∧ 0 < g.rr.pen ∧ g.rr.updatePenalty = true ∧
    g.child.phenotype.length = env.split.numVehicles

theorem Edu.geno {g : GA ℚ} (h : Edu env ctx hi g) : g.child.genotype.Perm (Spec.customers ctx.n) := by
  rw [h.child.good.geno]
  exact h.child.good.part

theorem newRandom_geno {α : Type} [F64 α] (ctx : Ctx α) (nv : ℕ) (ω : Oracle) (k : ℕ) :
    (Individual.newRandom ctx nv ω k).genotype.Perm (Spec.customers ctx.n) := shuffle_perm _ _

theorem new_inv (hv : ValidUpTo env ctx hi) (ω : Oracle) : Inv env ctx hi (new env ctx ω) := by
  refine ⟨⟨⟨[], .new⟩, ?_, C10_new_ready _ _ _ _ _ _ _, ?_, rfl, .new _ rfl rfl⟩, fun _ => ?_,
    newRandom_geno _ _ _ _, fun h => by simp [new] at h⟩
  · intro x hx
    simp [new, Population.new, SubPop.new] at hx
  · exact ⟨hv.nbr.gran, hv.nbr.cols, hv.nbr.len, hv.nbr.nbr, hv.nbr.cust⟩
  · exact ⟨RR.new_idle _ _ _ _ _ _, rfl, ⟨_, rfl, rfl⟩, hv.pen.1, hv.pen.2.trans hv.lim⟩

theorem parent_mem {α : Type} [F64 α] {cfg : PopCfg} {p : Population α} {ω : Oracle} {x : Individual α}
    (h : p.parent cfg ω = some x) : x ∈ p.feasible.pop ++ p.infeasible.pop := by
  unfold Population.parent at h
  obtain ⟨l, -, h⟩ := Option.bind_eq_some_iff.mp h
  obtain ⟨w, hw, e⟩ := Option.bind_eq_some_iff.mp h
  have e : w = some x := e
  subst e
  have key : ∀ (l : List ℕ) (w : Option (Individual α)) (x : Individual α),
      (∀ y, w = some y → y ∈ p.feasible.pop ++ p.infeasible.pop) → p.contest l w = some (some x) →
      x ∈ p.feasible.pop ++ p.infeasible.pop := by
    intro l
    induction l with
    | nil =>
      intro w x hw h
      simp only [Population.contest, Option.some.injEq] at h
      exact hw x h
    | cons i l ih =>
      intro w x hw h
      unfold Population.contest at h
      split at h
      · simp at h
      · rename_i y hy
        have hy' : y ∈ p.feasible.pop ++ p.infeasible.pop := by
          unfold Population.member at hy
          split at hy
          · exact List.mem_append_left _ (List.mem_of_getElem? hy)
          · exact List.mem_append_right _ (List.mem_of_getElem? hy)
        split at h
        · exact ih _ _ (fun z hz => by rw [Option.some.injEq] at hz; exact hz ▸ hy') h
        · rename_i z
          refine ih _ _ (fun u hu => ?_) h
          split at hu
          · rw [Option.some.injEq] at hu; exact hu ▸ hy'
          · rw [Option.some.injEq] at hu; exact hu ▸ hw _ rfl
  exact key l none x (fun y hy => by simp at hy) hw

theorem crossover_perm {ω : Oracle} {fuel : ℕ} {p1 p2 c : List ℕ} (hnd : p1.Nodup) (hp : p2.Perm p1)
    (h : crossover ω fuel p1 p2 = some c) : c.Perm p1 := by
  unfold crossover at h
  split at h
  · simp at h
  · rename_i start hs
    split at h
    · simp at h
    · rename_i stop he
      have hstart : start < p1.length := by
        unfold rangeUsize at hs
        split at hs
        · rename_i hl
          rw [Option.some.injEq] at hs
          subst hs
          simpa using Nat.mod_lt _ hl
        · simp at hs
      have hstop : ∀ f k, drawEnd ω p1.length start f k = some stop → stop < p1.length := by
        intro f
        induction f with
        | zero => intro k h; simp [drawEnd] at h
        | succ f ih =>
          intro k h
          unfold drawEnd at h
          split at h
          · simp at h
          · rename_i e he2
            split at h
            · exact ih _ h
            · rw [Option.some.injEq] at h
              subst h
              unfold rangeUsize at he2
              split at he2
              · rename_i hl
                rw [Option.some.injEq] at he2
                subst he2
                simpa using Nat.mod_lt _ hl
              · simp at he2
      obtain ⟨c', e, hc, -⟩ := C07_crossover_ox p1 p2 hnd hp start stop hstart (hstop _ _ he)
      rw [h, Option.some.injEq] at e
      subst e
      exact hc

theorem nonempty_bounds {α : Type} [F64 α] {ctx : Ctx α} {x : Individual α} {p : α} (hn : 2 ≤ ctx.n) (hx : x.Good (RR.ctxAt ctx p)) :
    1 ≤ x.numNonemptyRoutes ∧ x.numNonemptyRoutes ≤ x.phenotype.length := by
  refine ⟨?_, List.length_filter_le _ _⟩
  have h1 : 1 ∈ x.phenotype.flatten := (hx.part.mem_iff (x := 1)).mpr ⟨le_refl _, hn⟩
  obtain ⟨r, hr, h2⟩ := List.mem_flatten.mp h1
  unfold Individual.numNonemptyRoutes
  apply List.length_pos_of_mem (a := r)
  rw [List.mem_filter]
  exact ⟨hr, by simpa using List.length_pos_of_mem h2⟩

theorem member_good (hv : ValidUpTo env ctx hi) {g : GA ℚ} (hb : Base env ctx g) {x : Individual ℚ}
    (hx : x ∈ g.pop.feasible.pop ++ g.pop.infeasible.pop) :
    (∃ p, x.Good (RR.ctxAt ctx p)) ∧ x.numNonemptyRoutes ≤ env.split.numVehicles := by
  obtain ⟨hs, hr⟩ := hb.pop
  have hI := hr.inv hv.bs hv.sort
  refine ⟨?_, hb.len x hx⟩
  rw [List.mem_append] at hx
  rcases hx with hx | hx
  · exact hI.feasible.good x hx
  · exact hI.infeasible.good x hx

theorem good_perm {α : Type} [F64 α] {ctx : Ctx α} {x : Individual α} {p : α} (h : x.Good (RR.ctxAt ctx p)) :
    x.genotype.Perm (Spec.customers ctx.n) := by
  rw [h.geno]
  exact h.part

theorem breed_edu (hv : ValidUpTo env ctx hi) {ch : GAChoice ℚ} (hch : ChOK ch) {g g' : GA ℚ}
    (hb : Base env ctx g) (hm : Mut env ctx hi g.rr) (h : breed env ctx ch g = some g') :
    Edu env ctx hi g' ∧ Rec env ctx g g' := by
  unfold breed at h
  obtain ⟨p1, e1, h⟩ := Option.bind_eq_some_iff.mp h
  obtain ⟨p2, e2, h⟩ := Option.bind_eq_some_iff.mp h
  obtain ⟨c, e3, h⟩ := Option.bind_eq_some_iff.mp h
  obtain ⟨g1, h1, h⟩ := Option.bind_eq_some_iff.mp h
  obtain ⟨⟨q1, k1⟩, l1⟩ := member_good hv hb (parent_mem e1)
  obtain ⟨⟨q2, k2⟩, l2⟩ := member_good hv hb (parent_mem e2)
  have hc := crossover_perm ((good_perm k1).nodup_iff.mpr (Spec.nodup_customers _))
    ((good_perm k2).trans (good_perm k1).symm) e3
  obtain ⟨b1, b2⟩ := nonempty_bounds hv.n k1
  obtain ⟨i1, r1⟩ := runSplit_edu hv (g := { g with child := Individual.new c g.pop.total })
    l1 b1 ⟨hb.pop, hb.len, hb.ready, hb.nbr, hb.lsLen, hb.split⟩ hm
    (hc.trans (good_perm k1)) h1
  obtain ⟨i2, r2⟩ := educate_edu hv hch i1 h
  have r0 : Rec env ctx g { g with child := Individual.new c g.pop.total } := ⟨rfl, .refl _, fun _ => id⟩
  exact ⟨i2, (r0.trans r1).trans r2⟩

theorem createInitial_inv (hv : ValidUpTo env ctx hi) {ch : GAChoice ℚ} (hch : ChOK ch) {g g' : GA ℚ}
    {x : Individual ℚ} (hb : Base env ctx g) (hm : Mut env ctx hi g.rr)
    (h : createInitial env ctx ch g = some (x, g')) :
    (Base env ctx g' ∧ Mut env ctx hi g'.rr ∧ g'.child = g.child) ∧ Rec env ctx g g' ∧
      x.Good (RR.ctxAt ctx g'.rr.pen) ∧ x.phenotype.length = env.split.numVehicles := by
  unfold createInitial at h
  obtain ⟨g1, h1, h⟩ := Option.bind_eq_some_iff.mp h
  obtain ⟨g2, h2, e⟩ := Option.map_eq_some_iff.mp h
  simp only [Prod.mk.injEq] at e
  obtain ⟨rfl, rfl⟩ := e
  generalize hc : Individual.newRandom ctx env.split.numVehicles (ch.ω.sub 0) g.numInitialized = c at h1
  have hp : c.genotype.Perm (Spec.customers ctx.n) := hc ▸ newRandom_geno _ _ _ _
  have r0 : Rec env ctx g { g with child := c } := ⟨rfl, .refl _, fun _ => id⟩
  obtain ⟨i1, r1⟩ := runSplit_edu hv (g := { g with child := c }) (le_refl _) hv.fleet
    ⟨hb.pop, hb.len, hb.ready, hb.nbr, hb.lsLen, hb.split⟩ hm hp h1
  obtain ⟨i2, r2⟩ := educate_edu hv hch i1 h2
  have r := (r0.trans r1).trans r2
  exact ⟨⟨⟨i2.base.pop, i2.base.len, i2.base.ready, i2.base.nbr, i2.base.lsLen, i2.base.split⟩, i2.mu, rfl⟩,
    ⟨r.pen, r.hist, r.best⟩, i2.child.good, i2.child.len⟩

theorem nextPenalty_range (env : GAEnv ℚ) (f p : ℚ) :
    1 / 10000 ≤ nextPenalty env f p ∧ nextPenalty env f p ≤ 10000000 := by
  unfold nextPenalty
  simp only [rat_max, rat_min, rat_lit]
  constructor
  · exact le_trans (by norm_num) (le_max_left _ _)
  · refine max_le (by norm_num) (le_trans (min_le_left _ _) (by norm_num))

theorem updatePenalty_base (hv : ValidUpTo env ctx hi) {g g' : GA ℚ} (hb : Base env ctx g)
    (hm : Mut env ctx hi g.rr) (h : updatePenalty env ctx g = some g') :
    Base env ctx g' ∧ Mut env ctx hi g'.rr ∧ g'.child = g.child ∧
      g'.rr.pen = nextPenalty env (feasibleFraction g.pop) g.rr.pen := by
  unfold updatePenalty at h
  obtain ⟨q, hq, rfl⟩ := Option.map_eq_some_iff.mp h
  obtain ⟨hs, hr⟩ := hb.pop
  obtain ⟨-, -, hf, l, h1, h2⟩ := (hr.inv hv.bs hv.sort).reprice hv.sort hq
  refine ⟨⟨⟨_, hr.reprice hq fun _ _ => trivial⟩, ?_, hb.ready, hb.nbr, hb.lsLen, hb.split⟩,
    ⟨⟨hm.idle.routes, hm.idle.locs, hm.idle.unassigned, hm.idle.ruined⟩, hm.upd, hm.sched,
      ⟨(nextPenalty_range _ _ _).1, (nextPenalty_range _ _ _).2.trans hv.lim⟩⟩, rfl, rfl⟩
  intro x hx
  dsimp only at hx
  rw [List.mem_append] at hx
  rcases hx with hx | hx
  · exact hb.len x (by rw [hf] at hx; exact List.mem_append_left _ hx)
  · have hx' := (hv.sort _ _ h2).mem_iff.mp hx
    have key : ∀ {a b : List (Individual ℚ)},
        List.Forall₂ (fun x y => x.evaluate (RR.ctxAt ctx (nextPenalty env (feasibleFraction g.pop) g.rr.pen))
          = some y) a b → ∀ y ∈ b, ∃ x ∈ a, y.phenotype = x.phenotype := by
      intro a b hab
      induction hab with
      | nil => simp
      | @cons u v _ _ e _ ih =>
        intro y hy
        rw [List.mem_cons] at hy
        rcases hy with rfl | hy
        · unfold Individual.evaluate at e
          obtain ⟨ev, -, rfl⟩ := Option.map_eq_some_iff.mp e
          exact ⟨u, by simp, rfl⟩
        · obtain ⟨z, hz, e⟩ := ih y hy
          exact ⟨z, by simp [hz], e⟩
    obtain ⟨z, hz, e⟩ := key h1 x hx'
    unfold Individual.numNonemptyRoutes
    rw [e]
    exact hb.len z (List.mem_append_right _ hz)

/-- How the penalty may change in a cycle. -/
def PenStep (env : GAEnv ℚ) (p p' : ℚ) : Prop := p' = p ∨ ∃ f, p' = nextPenalty env f p

theorem finishCycle_inv (hv : ValidUpTo env ctx hi) {g g' : GA ℚ} (hb : Base env ctx g) (hm : Mut env ctx hi g.rr)
    (hc : g.child.genotype.Perm (Spec.customers ctx.n)) (hs : g.state = .cycle)
    (h : finishCycle env ctx g = some g') :
    Inv env ctx hi g' ∧ HistRun (0 < ·) ctx env.split.numVehicles g.rr.hist g'.rr.hist ∧ (∀ M, BestIn M g → BestIn M g') := by
  obtain ⟨g1, g2, u, v, w, -, rfl⟩ := finishCycle_some h
  have k1 : Base env ctx g1 ∧ Mut env ctx hi g1.rr ∧ g1.child = g.child := by
    rcases u with rfl | u
    · exact ⟨hb, hm, rfl⟩
    · obtain ⟨a, b, c, -⟩ := updatePenalty_base hv hb hm u
      exact ⟨a, b, c⟩
  have k2 : Base env ctx g2 ∧ Mut env ctx hi g2.rr ∧ g2.child = g.child := by
    rcases v with rfl | v
    · exact k1
    · obtain ⟨-, rfl⟩ := log_some v
      exact ⟨⟨k1.1.pop, k1.1.len, k1.1.ready, k1.1.nbr, k1.1.lsLen, k1.1.split⟩, k1.2.1, k1.2.2⟩
  obtain ⟨b2, m2, c2⟩ := k2
  have hst : g2.state = .cycle := w.state.trans hs
  have hist : HistRun (0 < ·) ctx env.split.numVehicles g.rr.hist g2.rr.hist := w.hist ▸ .refl _
  have hbi : ∀ M, BestIn M g → BestIn M g2 := bestIn_of_hist w.sol hist
  split
  · refine ⟨⟨⟨⟨[], .new⟩, ?_, b2.ready, b2.nbr, b2.lsLen, b2.split⟩, fun _ => m2, ?_,
      fun e => by simp [reset] at e⟩, hist, hbi⟩
    · intro x hx
      simp [reset, Population.new, SubPop.new] at hx
    · show g2.child.genotype.Perm _
      rw [c2]; exact hc
  · refine ⟨⟨⟨b2.pop, b2.len, b2.ready, b2.nbr, b2.lsLen, b2.split⟩, fun _ => m2, ?_,
      fun e => ?_⟩, hist, hbi⟩
    · show g2.child.genotype.Perm _
      rw [c2]; exact hc
    · rw [show g2.state = .elite from e] at hst
      simp at hst

/-- One call of `iterate` keeps the invariant, and writes the history properly. -/
theorem iterate_inv (hv : ValidUpTo env ctx hi) {ch : GAChoice ℚ} (hch : ChOK ch) {g g' : GA ℚ}
    (hg : Inv env ctx hi g) (h : iterate env ctx ch g = some g') :
    Inv env ctx hi g' ∧ HistRun (0 < ·) ctx env.split.numVehicles g.rr.hist g'.rr.hist ∧ (∀ M, BestIn M g → BestIn M g') := by
  unfold iterate at h
  split at h
  · rw [Option.some.injEq] at h
    subst h
    exact ⟨⟨⟨hg.base.pop, hg.base.len, hg.base.ready, hg.base.nbr, hg.base.lsLen, hg.base.split⟩,
      fun e => by simp at e, hg.geno, fun e => by simp at e⟩, .refl _, fun _ => id⟩
  · split at h
    · rename_i hs
      have hm := hg.mu (Or.inl hs)
      unfold stepCreated at h
      split at h
      · obtain ⟨g1, h1, h⟩ := Option.bind_eq_some_iff.mp h
        obtain ⟨g2, h2, h⟩ := Option.bind_eq_some_iff.mp h
        obtain ⟨r, h3, rfl⟩ := Option.map_eq_some_iff.mp h
        obtain ⟨i1, r1⟩ := runSplit_edu hv (g := { g with state := .elite }) (le_refl _) hv.fleet
          ⟨hg.base.pop, hg.base.len, hg.base.ready, hg.base.nbr, hg.base.lsLen, hg.base.split⟩ hm hg.geno h1
        obtain ⟨i2, r2⟩ := educate_edu hv hch i1 h2
        have fs : g2.state = .elite := (educate_frame h2).state.trans (runSplit_frame h1).state
        have hi := i2.mu.idle
        have hpos : 0 < g2.rr.pen := by linarith [i2.mu.pen.1]
        obtain ⟨r', e1, j1, p1, hh1, u1, -⟩ := RR.load_inv (now := ch.clock 2)
          (st := setupElite env (ch.clock 1) g2.rr) i2.child.good i2.child.len
          hi.routes hi.locs hi.unassigned hi.ruined
        rw [h3, Option.some.injEq] at e1
        subst e1
        have hist : HistRun (0 < ·) ctx env.split.numVehicles g2.rr.hist r.hist := by
          rw [hh1]; exact .refl _
        have hall := (r1.trans r2).hist.trans hist
        refine ⟨⟨⟨i2.base.pop, i2.base.len, i2.base.ready, i2.base.nbr, i2.base.lsLen, i2.base.split⟩,
          fun e => ?_, i2.geno, fun _ => ⟨j1, ⟨_, hpos, i2.child.good⟩, by rw [p1]; exact hpos, u1, i2.child.len⟩⟩, hall, fun M hb => ?_⟩
        · simp [fs] at e
        · exact bestIn_of_hist (g := g2) (g' := { g2 with rr := r }) rfl hist M ((r1.trans r2).best M hb)
      · rw [Option.some.injEq] at h
        subst h
        exact ⟨⟨⟨hg.base.pop, hg.base.len, hg.base.ready, hg.base.nbr, hg.base.lsLen, hg.base.split⟩,
          fun _ => hm, hg.geno, fun e => by simp at e⟩, .refl _, fun _ => id⟩
    · rename_i hs
      obtain ⟨hi, hgd, hpos, hup, hl⟩ := hg.elite hs
      unfold stepElite at h
      split at h
      · obtain ⟨x, h1, h⟩ := Option.bind_eq_some_iff.mp h
        obtain ⟨g2, h2, h⟩ := Option.bind_eq_some_iff.mp h
        obtain ⟨-, rfl⟩ := log_some h
        have hx : (∃ p, 0 < p ∧ x.Good (RR.ctxAt ctx p)) ∧ x.phenotype.length = env.split.numVehicles := by
          unfold RR.getBest at h1
          split at h1
          · rename_i b hb
            obtain ⟨v, l, -⟩ := hi.best b hb
            obtain ⟨y1, y2, -, -⟩ := RR.updateIndividual_some v.at (l.trans hl.symm) h1
            exact ⟨⟨_, hpos, y1⟩, by rw [y2.length_eq, RRSol.length_stops, l]⟩
          · rw [Option.some.injEq] at h1
            subst h1
            exact ⟨hgd, hl⟩
        obtain ⟨⟨p, hp0, hxg⟩, hxl⟩ := hx
        have r0 : Rec env ctx g { g with state := .init, child := x } := ⟨rfl, .refl _, fun _ => id⟩
        have b0 : Base env ctx { g with state := .init, child := x } :=
          ⟨hg.base.pop, hg.base.len, hg.base.ready, hg.base.nbr, hg.base.lsLen, hg.base.split⟩
        have r1 := updateBest_rec (env := env) (g := { g with state := .init, child := x }) hp0 hxg hxl
        obtain ⟨b2, q, rfl⟩ := addToPop_base hv (updateBest_base b0) hxg (nonempty_le hxl) h2
        obtain ⟨-, -, -, hist, e4⟩ := updateBest_other { g with state := .init, child := x }
        have ec := updateBest_child { g with state := .init, child := x }
        have es := (updateBest_frame { g with state := .init, child := x }).state
        have r2 := (r0.trans r1)
        refine ⟨⟨⟨b2.pop, b2.len, b2.ready, b2.nbr, b2.lsLen, b2.split⟩, fun _ => ?_, ?_, fun e => ?_⟩,
          r2.hist, r2.best⟩
        · dsimp only
          rw [e4]
          have hid := hi.idle
          exact ⟨⟨hid.routes, hid.locs, hid.unassigned, hid.ruined⟩, rfl, ⟨_, rfl, rfl⟩, hv.pen.1, hv.pen.2.trans hv.lim⟩
        · dsimp only
          rw [ec]
          exact good_perm hxg
        · dsimp only at e
          rw [es] at e
          simp at e
      · obtain ⟨r, h1, rfl⟩ := Option.map_eq_some_iff.mp h
        obtain ⟨⟨i1, hh, u1, pp⟩, -⟩ := RR.searchLoop_inv (P := (0 < ·)) (hch 0) hv.vehicles 1000 hi
          ⟨hpos, fun _ p hp => ⟨mul_pos hp hv.mult.1, mul_pos hp hv.mult.2⟩⟩ h1
        exact ⟨⟨⟨hg.base.pop, hg.base.len, hg.base.ready, hg.base.nbr, hg.base.lsLen, hg.base.split⟩,
          fun e => by simp [hs] at e, hg.geno, fun _ => ⟨i1, hgd, pp, u1.trans hup, hl⟩⟩, hh,
          bestIn_of_hist (g' := { g with rr := r }) rfl hh⟩
    · rename_i hs
      have hm := hg.mu (Or.inr (Or.inl hs))
      unfold stepInit at h
      split at h
      · obtain ⟨⟨x, g1⟩, h1, h⟩ := Option.bind_eq_some_iff.mp h
        obtain ⟨g2, h2, rfl⟩ := Option.map_eq_some_iff.mp h
        obtain ⟨i1, r1, gx, lx⟩ := createInitial_inv hv hch hg.base hm h1
        have f1 := createInitial_frame h1
        obtain ⟨b2, q, rfl⟩ := addToPop_base hv i1.1 gx (nonempty_le lx) h2
        refine ⟨⟨⟨b2.pop, b2.len, b2.ready, b2.nbr, b2.lsLen, b2.split⟩, fun _ => i1.2.1, ?_, fun e => ?_⟩,
          r1.hist, r1.best⟩
        · show g1.child.genotype.Perm _
          rw [i1.2.2]; exact hg.geno
        · have := f1.state.trans hs
          rw [show g1.state = .elite from e] at this
          simp at this
      · rw [Option.some.injEq] at h
        subst h
        exact ⟨⟨⟨hg.base.pop, hg.base.len, hg.base.ready, hg.base.nbr, hg.base.lsLen, hg.base.split⟩,
          fun _ => hm, hg.geno, fun e => by simp at e⟩, .refl _, fun _ => id⟩
    · rename_i hs
      have hm := hg.mu (Or.inr (Or.inr hs))
      unfold stepCycle at h
      obtain ⟨g1, h1, h⟩ := Option.bind_eq_some_iff.mp h
      obtain ⟨g2, h2, h⟩ := Option.bind_eq_some_iff.mp h
      obtain ⟨i1, r1⟩ := breed_edu hv hch (g := { g with ctxIteration := g.ctxIteration + 1 })
        ⟨hg.base.pop, hg.base.len, hg.base.ready, hg.base.nbr, hg.base.lsLen, hg.base.split⟩ hm h1
      obtain ⟨i2, r2⟩ := addToPop_edu hv i1 i1.child.good i1.child.len h2
      have fs : g2.state = .cycle := (addToPop_frame h2).state.trans ((breed_frame h1).state.trans hs)
      obtain ⟨i3, hh, hb⟩ := finishCycle_inv hv i2.base i2.mu i2.geno fs h
      exact ⟨i3, (r1.trans r2).hist.trans hh, fun M b => hb M ((r1.trans r2).best M b)⟩
    · rw [Option.some.injEq] at h
      subst h
      exact ⟨hg, .refl _, fun _ => id⟩

end GA
end Verif
