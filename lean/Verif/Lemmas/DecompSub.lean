import Verif.Lemmas.DecompRun

/-! # One cycle of a run with decomposition (exact arithmetic) -/

namespace Verif
open F64

namespace DGA

/-- A subproblem has more customers than the granularity. -/
theorem mapping_large {env : DecompEnv ℚ} {ctx : Ctx ℚ} (hv : Valid env ctx) {w : ℕ} {mapping : List ℕ}
    {chosen : List (List ℕ)} (hm : mapping = 0 :: chosen.flatten)
    (h : env.size ≤ chosen.flatten.length ∨ ∀ vs, env.ga.rr.nbrs (w % (ctx.n - 1)) = some vs →
      ∀ v ∈ vs, 1 ≤ v → v ∈ mapping) : env.ga.granularity + 2 ≤ mapping.length := by
  have hl : mapping.length = chosen.flatten.length + 1 := by rw [hm]; rfl
  have hn := hv.ga.n
  rcases h with h | h
  · have := hv.size
    omega
  · have hw : w % (ctx.n - 1) < ctx.n := by
      have := Nat.mod_lt w (show 0 < ctx.n - 1 by omega)
      omega
    obtain ⟨vs, e, h1, h2, h3⟩ := hv.nbrs _ hw
    have hsub : vs ⊆ chosen.flatten := by
      intro v hvv
      have := h vs e v hvv (h3 v hvv).1
      rw [hm, List.mem_cons] at this
      rcases this with h0 | h0
      · have := (h3 v hvv).1
        omega
      · exact h0
    have := (List.subperm_of_subset h2 hsub).length_le
    have := hv.width
    omega

theorem capFeasible_rename {ctx : Ctx ℚ} {mapping : List ℕ} {tol : ℚ} {sol : List (List ℕ)} :
    Spec.CapFeasible (subCtx ctx mapping).demand ctx.cap tol sol ↔
      Spec.CapFeasible ctx.demand ctx.cap tol (Spec.rename (fun c => mapping.getD c 0) sol) := by
  unfold Spec.CapFeasible Spec.rename
  simp only [List.mem_map, forall_exists_index, and_imp, forall_apply_eq_imp_iff₂]
  have : ∀ r : List ℕ, Spec.routeLoad ctx.demand (r.map fun c => mapping.getD c 0) =
      Spec.routeLoad (subCtx ctx mapping).demand r := by
    intro r
    unfold Spec.routeLoad
    rw [List.map_map]
    rfl
  simp only [this]

theorem capFeasible_perm {q : ℕ → ℚ} {cap tol : ℚ} {a b : List (List ℕ)} (h : a.Perm b) :
    Spec.CapFeasible q cap tol a ↔ Spec.CapFeasible q cap tol b := by
  unfold Spec.CapFeasible
  simp only [h.mem_iff]

/-- What solving a subproblem does to the global solution. -/
theorem solveSub_good {env : DecompEnv ℚ} {ctx : Ctx ℚ} (hv : Valid env ctx) {ch : DGAChoice ℚ}
    (hord : ∀ l, (ch.order l).Perm l) (hch : ∀ c ∈ ch.sub, GA.ChOK c) {s : DGA ℚ}
    (hp : 1 / 10000 ≤ s.ga.rr.pen ∧ s.ga.rr.pen ≤ 10000000)
    (hg : s.global.Good (RR.ctxAt ctx s.ga.rr.pen))
    (hl : s.global.numNonemptyRoutes ≤ env.ga.split.numVehicles) {z : Individual ℚ}
    (h : solveSub env ctx ch s = some z) :
    z.Good (RR.ctxAt ctx s.ga.rr.pen) ∧
    (s.global.isFeasible = true → s.global.cost < inf - 1 / 1000000 → z.isFeasible = true ∧
      Spec.solCost ctx.dist ctx.demand ctx.cap 0 z.phenotype ≤ s.global.cost) := by
  unfold solveSub at h
  obtain ⟨d, h1, h⟩ := Option.bind_eq_some_iff.mp h
  obtain ⟨e, h2, h⟩ := Option.bind_eq_some_iff.mp h
  obtain ⟨y, h3, h⟩ := Option.bind_eq_some_iff.mp h
  have hn := hv.ga.n
  obtain ⟨sub, mapping, rest, chosen, e1, c1, c2, c3, c4, -, c5, c6, c7, c8⟩ :=
    C46_decomposition env.ga.rr.atan2 (RR.ctxAt ctx s.ga.rr.pen) env.ga.rr.nbrs env.size (ch.ga.ω.sub 2 0)
      ch.order s.global hn hg hord (fun v hvn => by
        obtain ⟨vs, a, -, -, b⟩ := hv.nbrs v hvn
        exact ⟨vs, a, fun u hu => (b u hu).2⟩)
  rw [h1, Option.some.injEq] at e1
  subst e1
  dsimp only at h2 h3 h
  obtain ⟨e', e2, v2, v3, -, -, -, v4⟩ := Decomp.subEnv_valid hv hp c3 c4 (mapping_large hv c2 c5)
  rw [h2, Option.some.injEq] at e2
  subst e2
  have hnonempty : ∀ l : List (List ℕ), ((Spec.rename (fun c => mapping.getD c 0) l).filter
      fun r => decide (0 < r.length)).length = (l.filter fun r => decide (0 < r.length)).length := by
    intro l
    unfold Spec.rename
    rw [List.filter_map, List.length_map]
    simp [Function.comp_def]
  have hsubl : sub.numNonemptyRoutes ≤ env.ga.split.numVehicles := by
    refine le_trans ?_ hl
    unfold Individual.numNonemptyRoutes
    rw [← hnonempty, (c7.filter _).length_eq, ← (c1.filter _).length_eq]
    simp
  obtain ⟨y1, y2, y3, -⟩ := Decomp.run_good v2 hch (by rw [v4]; exact c6) (by rw [v3]; exact hsubl) h3
  obtain ⟨z', e3, z1, z2, z3⟩ := c8 y y1
  rw [h, Option.some.injEq] at e3
  subst e3
  refine ⟨z1, fun hf hc => ?_⟩
  obtain ⟨x', -, x1, x2, x3⟩ := c8 sub c6.part
  have hxf : Spec.CapFeasible ctx.demand ctx.cap (1 / 1000000) s.global.phenotype := hg.feasible.mp hf
  have hcap0 := hv.cap
  have hrc : Spec.CapFeasible ctx.demand ctx.cap (1 / 1000000) (rest.phenotype ++ chosen) :=
    (capFeasible_perm c1).mpr hxf
  have hsubf : sub.isFeasible = true := by
    refine c6.feasible.mpr ?_
    refine capFeasible_rename.mpr ((capFeasible_perm c7).mpr ?_)
    intro r hr
    rw [List.mem_append] at hr
    rcases hr with hr | hr
    · exact hrc r (List.mem_append_right _ hr)
    · rw [List.eq_of_mem_replicate hr]
      simp only [Spec.routeLoad, List.map_nil, List.sum_nil, RR.ctxAt]
      linarith
  have hget0 : mapping.getD 0 0 = 0 := by rw [c2]; rfl
  -- the cost of the whole is the cost of the rest and of the part
  have hsum : s.global.cost = Spec.solCost ctx.dist ctx.demand ctx.cap s.ga.rr.pen rest.phenotype + sub.cost := by
    have hx3 := x3 hv.depot hcap0.le
    have hself : x'.cost = s.global.cost := by
      have := c6.cost
      have e : Spec.solCost (subCtx (RR.ctxAt ctx s.ga.rr.pen) mapping).dist
        (subCtx (RR.ctxAt ctx s.ga.rr.pen) mapping).demand (RR.ctxAt ctx s.ga.rr.pen).cap
        (RR.ctxAt ctx s.ga.rr.pen).pen sub.phenotype = sub.cost := this.symm
      rw [e] at hx3
      linarith
    rw [← hself, x1.cost, Spec.solCost_perm _ _ _ _ x2, Decomp.solCost_append,
      Decomp.solCost_filter (RR.ctxAt ctx s.ga.rr.pen).dist _ (RR.ctxAt ctx s.ga.rr.pen).cap _ hv.depot hcap0.le,
      Decomp.solCost_rename _ hget0]
    have := c6.cost
    show _ + Spec.solCost (subCtx (RR.ctxAt ctx s.ga.rr.pen) mapping).dist
        (subCtx (RR.ctxAt ctx s.ga.rr.pen) mapping).demand (subCtx (RR.ctxAt ctx s.ga.rr.pen) mapping).cap
        (subCtx (RR.ctxAt ctx s.ga.rr.pen) mapping).pen sub.phenotype = _
    rw [← this]
    rfl
  have hrest0 : 0 ≤ Spec.solCost ctx.dist ctx.demand ctx.cap s.ga.rr.pen rest.phenotype := by
    apply List.sum_nonneg
    intro c hc
    obtain ⟨r, -, rfl⟩ := List.mem_map.mp hc
    unfold Spec.routeCost
    have h0 : 0 ≤ Spec.routeDist ctx.dist r := Spec.pathDist_nonneg _ (fun a b => (hv.ga.dist a b).1) _
    have := mul_nonneg (show (0 : ℚ) ≤ s.ga.rr.pen by linarith [hp.1]) (le_max_left 0 (Spec.routeLoad ctx.demand r - ctx.cap))
    linarith
  have hyc := y3 hsubf (by linarith)
  refine ⟨z1.feasible.mpr ((capFeasible_perm z2).mpr ?_), ?_⟩
  · intro r hr
    rw [List.mem_append] at hr
    rcases hr with hr | hr
    · exact hrc r (List.mem_append_left _ hr)
    · exact capFeasible_rename.mp y2 r (List.mem_of_mem_filter hr)
  · rw [Spec.solCost_perm _ _ _ _ z2, Decomp.solCost_append, Decomp.solCost_filter _ _ _ _ hv.depot hcap0.le,
      Decomp.solCost_rename _ hget0, hsum]
    have := Spec.solCost_mono ctx.dist ctx.demand ctx.cap (show (0 : ℚ) ≤ s.ga.rr.pen by linarith [hp.1]) rest.phenotype
    linarith

/-- The choices keep the contracts of hash sets. -/
structure ChOK {α : Type} (ch : DGAChoice α) : Prop where
  ga : GA.ChOK ch.ga
  rounds : ∀ k, GA.ChOK (ch.rounds k)
  order : ∀ l, (ch.order l).Perm l
  sub : ∀ c ∈ ch.sub, GA.ChOK c

/-- Ruin and recreate to the end of the schedule, from a state in which it holds a solution. -/
theorem refine_inv {env : GAEnv ℚ} {ctx : Ctx ℚ} {hi : ℚ} (hv : GA.ValidUpTo env ctx hi)
    {ch : GAChoice ℚ} (hch : GA.ChOK ch) {r r' : RR ℚ} {x y : Individual ℚ}
    (hr : RR.Inv ctx env.split.numVehicles r) (hu : r.updatePenalty = false) (hp : 0 < r.pen)
    (ha : ∃ s, r.acceptance = .iteration s) {b : RRSol ℚ} (hb : r.best = some b)
    (hx : x.phenotype.length = env.split.numVehicles)
    (h : RR.runToEnd env.rr ctx ch.rr ch.fuel 0 r = some r') (hy : RR.getBest env.rr ctx r' x = some y) :
    RR.Inv ctx env.split.numVehicles r' ∧ r'.updatePenalty = false ∧ r'.pen = r.pen ∧
    (∃ s, r'.acceptance = .iteration s) ∧ HistRun (0 < ·) ctx env.split.numVehicles r.hist r'.hist ∧
    (∃ b', r'.best = some b') ∧ y.Good (RR.ctxAt ctx r.pen) ∧
    y.phenotype.length = env.split.numVehicles ∧ y.cost ≤ b.cost := by
  obtain ⟨s2, n2, c2⟩ := RR.runToEnd_inv hv.vehicles hch _ _ hr hu (P := (0 < ·)) hp h
  obtain ⟨s, hs⟩ := ha
  obtain ⟨s', hs', -⟩ := c2 s hs
  obtain ⟨b', hb', hle⟩ := n2.2 b hb
  obtain ⟨v, l, hc⟩ := s2.inv.best b' hb'
  unfold RR.getBest at hy
  rw [hb'] at hy
  obtain ⟨y1, y2, -, -⟩ := RR.updateIndividual_some v.at (l.trans hx.symm) hy
  have hpen := n2.1
  refine ⟨s2.inv, s2.upd.trans hu, hpen, ⟨s', hs'⟩, s2.hist, ⟨b', hb'⟩, hpen ▸ y1, ?_, ?_⟩
  · rw [y2.length_eq, RRSol.length_stops, l]
  · refine le_trans (le_of_eq ?_) hle
    rw [y1.cost, hc, Spec.solCost_perm _ _ _ _ y2]
    rfl

theorem inv_acceptance {ctx : Ctx ℚ} {nv : ℕ} {r : RR ℚ} (h : RR.Inv ctx nv r) (a : Acceptance ℚ) :
    RR.Inv ctx nv { r with acceptance := a } := ⟨h.sol, h.cur, h.solLen, h.curLen, h.solCost, h.best⟩

theorem polish_inv {env : DecompEnv ℚ} {ctx : Ctx ℚ} {hi : ℚ} (hv : GA.ValidUpTo env.ga ctx hi)
    {ch : ℕ → GAChoice ℚ} (hch : ∀ k, GA.ChOK (ch k)) : ∀ (fuel k : ℕ) {g g' : GA ℚ},
    RR.Inv ctx env.ga.split.numVehicles g.rr → g.rr.updatePenalty = false → 0 < g.rr.pen →
    (∃ s, g.rr.acceptance = .iteration s) → (∃ b, g.rr.best = some b) →
    g.child.phenotype.length = env.ga.split.numVehicles → polish env ctx ch fuel k g = some g' →
    RR.Inv ctx env.ga.split.numVehicles g'.rr ∧ g'.rr.updatePenalty = false ∧ g'.rr.pen = g.rr.pen ∧
    (∃ s, g'.rr.acceptance = .iteration s) ∧
    HistRun (0 < ·) ctx env.ga.split.numVehicles g.rr.hist g'.rr.hist ∧
    g'.child.Good (RR.ctxAt ctx g.rr.pen) ∧ g'.child.phenotype.length = env.ga.split.numVehicles ∧
    ∃ r x, g' = { g with rr := r, child := x }
  | 0, _, _, _, _, _, _, _, _, _, h => by simp [polish] at h
  | fuel + 1, k, g, g', hr, hu, hp, ⟨s, hs⟩, ⟨b, hb⟩, hx, h => by
    unfold polish at h
    obtain ⟨r, h1, h⟩ := Option.bind_eq_some_iff.mp h
    obtain ⟨x, h2, h⟩ := Option.bind_eq_some_iff.mp h
    obtain ⟨a1, a2, a3, a4, a5, a6, a7, a8, -⟩ := refine_inv hv (hch k)
      (inv_acceptance hr (g.rr.acceptance.reset ((ch k).clock 0))) hu hp
      ⟨s.reset, by dsimp only; rw [hs]; rfl⟩ hb hx h1 h2
    dsimp only at a3 a5 a7
    split at h
    · rw [Option.some.injEq] at h
      subst h
      exact ⟨a1, a2, a3, a4, a5, a7, a8, _, _, rfl⟩
    · obtain ⟨b1, b2, b3, b4, b5, b6, b7, r', x', b8⟩ := polish_inv hv hch fuel (k + 1)
        (g := { g with rr := r, child := x }) a1 a2 (by dsimp only; rw [a3]; exact hp) a4 a6 a8 h
      dsimp only at b3 b5 b6
      rw [a3] at b3 b6
      exact ⟨b1, b2, b3, b4, a5.trans b5, b6, b7, r', x', by rw [b8]⟩

/-- The invariant of runs with decomposition. -/
structure Inv (env : DecompEnv ℚ) (ctx : Ctx ℚ) (s : DGA ℚ) : Prop where
  base : GA.Base env.ga ctx s.ga
  idle : s.ga.rr.Idle ctx env.ga.split.numVehicles
  upd : s.ga.rr.updatePenalty = false
  pen : s.ga.rr.pen = env.ga.initialPen
  sched : ∃ t, s.ga.rr.acceptance = .iteration t ∧ (s.state = .notInitialized → t.total = env.ga.rrIterations)
  global : s.state = .cycle → s.global.Good (RR.ctxAt ctx env.ga.initialPen) ∧
    s.global.phenotype.length = env.ga.split.numVehicles

theorem new_inv {env : DecompEnv ℚ} {ctx : Ctx ℚ} (hv : Valid env ctx) (ω : Oracle) :
    Inv env ctx (new env ctx ω) := by
  have h := GA.new_inv hv.ga (ω.sub 1)
  have hm := h.mu (Or.inl rfl)
  obtain ⟨t, h1, h2⟩ := hm.sched
  exact ⟨h.base, hm.idle, hm.upd, rfl, ⟨t, h1, fun _ => h2⟩, fun e => by simp [new] at e⟩

theorem createGlobal_inv {env : DecompEnv ℚ} {ctx : Ctx ℚ} (hv : Valid env ctx) {ch : DGAChoice ℚ}
    (hch : ChOK ch) {s : DGA ℚ} (hs : Inv env ctx s) (hst : s.state = .notInitialized)
    {p : Individual ℚ × GA ℚ} (h : createGlobal env ctx ch s = some p) :
    Inv env ctx { s with state := .cycle, global := p.1, ga := p.2 } ∧
    HistRun (0 < ·) ctx env.ga.split.numVehicles s.ga.rr.hist p.2.rr.hist ∧
    (∀ M, GA.BestIn M s.ga → GA.BestIn M p.2) := by
  unfold createGlobal at h
  obtain ⟨g1, h1, h⟩ := Option.bind_eq_some_iff.mp h
  obtain ⟨g2, h2, h⟩ := Option.bind_eq_some_iff.mp h
  obtain ⟨r, h3, h⟩ := Option.bind_eq_some_iff.mp h
  obtain ⟨g3, h4, h⟩ := Option.bind_eq_some_iff.mp h
  obtain ⟨x, h5, rfl⟩ := Option.map_eq_some_iff.mp h
  have hpen := hv.ga.pen
  obtain ⟨t, ht1, ht2⟩ := hs.sched
  have hP : s.ga.rr.pen *. lit 1000000 = env.ga.initialPen * 1000000 := by
    rw [hs.pen, rat_mul, rat_lit]
  obtain ⟨i1, r1⟩ := GA.runSplit_edu hv.ga (le_refl _) hv.ga.fleet
    (g := { s.ga with
      rr := { s.ga.rr with pen := s.ga.rr.pen *. lit 1000000 }
      child := Individual.newRandom ctx env.ga.split.numVehicles (ch.ga.ω.sub 0) 0 })
    ⟨hs.base.pop, hs.base.len, hs.base.ready, hs.base.nbr, hs.base.lsLen, hs.base.split⟩
    ⟨⟨hs.idle.routes, hs.idle.locs, hs.idle.unassigned, hs.idle.ruined⟩, hs.upd, ⟨t, ht1, ht2 hst⟩, by
      dsimp only
      rw [hP]
      constructor <;> linarith [hpen.1, hpen.2]⟩ (GA.newRandom_geno _ _ _ _) h1
  obtain ⟨i2, r2⟩ := GA.educate_edu hv.ga hch.ga i1 h2
  have hp2 : g2.rr.pen = env.ga.initialPen * 1000000 := by
    rw [(r1.trans r2).pen]; exact hP
  have hpos : 0 < g2.rr.pen := by rw [hp2]; linarith [hpen.1]
  obtain ⟨r', e3, j1, j2, j3, j4, j5, -, j6, -⟩ := RR.load_inv (now := ch.ga.clock 1)
    (st := { g2.rr with acceptance := .iteration (IterSchedule.new (lit 10) 100000) })
    i2.child.good i2.child.len i2.mu.idle.routes i2.mu.idle.locs i2.mu.idle.unassigned i2.mu.idle.ruined
  rw [h3, Option.some.injEq] at e3
  subst e3
  dsimp only at j2 j3 j4 j5
  obtain ⟨k1, k2, k3, ⟨t', k4⟩, k5, k6, k7, r'', x', k8⟩ := polish_inv hv.ga hch.rounds _ _
    (g := { g2 with rr := r }) j1 (j4.trans i2.mu.upd) (by dsimp only; rw [j2]; exact hpos)
    ⟨_, by dsimp only; rw [j5]; rfl⟩ ⟨_, j6⟩ i2.child.len h4
  dsimp only at k3 k5 k6
  have hback : g3.rr.pen /. lit 1000000 = env.ga.initialPen := by
    rw [k3, j2, hp2, rat_div, rat_lit]
    field_simp
  rw [hback] at h5
  have hx : x.Good (RR.ctxAt ctx env.ga.initialPen) ∧ x.phenotype.length = env.ga.split.numVehicles := by
    unfold Individual.evaluate at h5
    obtain ⟨e, he, rfl⟩ := Option.map_eq_some_iff.mp h5
    exact ⟨⟨k6.part, k6.geno, _, he⟩, k7⟩
  have hh : HistRun (0 < ·) ctx env.ga.split.numVehicles g2.rr.hist g3.rr.hist := j3 ▸ k5
  have hidle := k1.idle
  refine ⟨⟨⟨?_, ?_, ?_, ?_, ?_, ?_⟩, ⟨hidle.routes, hidle.locs, hidle.unassigned, hidle.ruined⟩, k2, hback,
    ⟨t', k4, fun e => by simp at e⟩, fun _ => hx⟩, (r1.trans r2).hist.trans hh, fun M hM => ?_⟩
  · rw [k8]; exact i2.base.pop
  · rw [k8]; exact i2.base.len
  · rw [k8]; exact i2.base.ready
  · rw [k8]; exact i2.base.nbr
  · rw [k8]; exact i2.base.lsLen
  · rw [k8]; exact i2.base.split
  · have := (r1.trans r2).best M hM
    refine GA.bestIn_of_hist (g := g2) ?_ hh M this
    rw [k8]

theorem improve_inv {env : DecompEnv ℚ} {ctx : Ctx ℚ} (hv : Valid env ctx) {ch : DGAChoice ℚ}
    (hch : ChOK ch) {s s' : DGA ℚ} (hs : Inv env ctx s) (hst : s.state = .cycle) {x : Individual ℚ}
    (hx : x.Good (RR.ctxAt ctx env.ga.initialPen)) (h : improve env ctx ch x s = some s') :
    Inv env ctx s' ∧ s'.state = .cycle ∧
    HistRun (0 < ·) ctx env.ga.split.numVehicles s.ga.rr.hist s'.ga.rr.hist ∧
    (∀ M, GA.BestIn M s.ga → GA.BestIn M s'.ga) ∧ s'.global.cost ≤ x.cost ∧
    x.phenotype.length = env.ga.split.numVehicles := by
  unfold improve at h
  dsimp only at h
  obtain ⟨r, h1, h⟩ := Option.bind_eq_some_iff.mp h
  obtain ⟨r2, h2, h⟩ := Option.bind_eq_some_iff.mp h
  obtain ⟨y, h3, rfl⟩ := Option.map_eq_some_iff.mp h
  have hpen := hv.ga.pen
  generalize hg : ({ s.ga with child := x } : GA ℚ) = g at h1 h2 h3
  have hb : GA.Base env.ga ctx g := by
    rw [← hg]
    exact ⟨hs.base.pop, hs.base.len, hs.base.ready, hs.base.nbr, hs.base.lsLen, hs.base.split⟩
  have hrr : g.rr = s.ga.rr := by rw [← hg]
  have hc : g.child = x := by rw [← hg]
  obtain ⟨-, -, -, hist, hu⟩ := GA.updateBest_other g
  have hcc : g.updateBest.child = x := by rw [GA.updateBest_child, hc]
  have hsol : g.updateBest.rr.solution = s.ga.rr.solution := by rw [hu, hrr]
  have hpu : g.updateBest.rr.pen = env.ga.initialPen := by rw [hu, hrr]; exact hs.pen
  obtain ⟨t, ht, -⟩ := hs.sched
  have hacc : g.updateBest.rr.acceptance = .iteration t := by rw [hu, hrr]; exact ht
  -- loading succeeded, so the number of routes is right
  have hlen : x.phenotype.length = env.ga.split.numVehicles := by
    rw [hcc] at h1
    unfold RR.load at h1
    obtain ⟨sol, h4, -⟩ := Option.bind_eq_some_iff.mp h1
    unfold RRSol.load at h4
    dsimp only at h4
    rw [hsol] at h4
    split at h4
    · rename_i e
      rw [e]
      exact hs.idle.routes
    · simp at h4
  have rec1 := GA.updateBest_rec (env := env.ga) (g := g) (ctx := ctx) (p := env.ga.initialPen)
    (by linarith [hpen.1]) (by rw [hc]; exact hx) (by rw [hc]; exact hlen)
  obtain ⟨r', e3, j1, j2, j3, j4, j5, j7, j6, -⟩ := RR.load_inv (now := ch.ga.clock 1)
    (st := { g.updateBest.rr with acceptance := g.updateBest.rr.acceptance.reset (ch.ga.clock 0) })
    (x := g.updateBest.child) (p := env.ga.initialPen) (nv := env.ga.split.numVehicles)
    (by rw [hcc]; exact hx) (by rw [hcc]; exact hlen) (by dsimp only; rw [hsol]; exact hs.idle.routes)
    (by dsimp only; rw [hsol]; exact hs.idle.locs) (by dsimp only; rw [hsol]; exact hs.idle.unassigned)
    (by dsimp only; rw [hsol]; exact hs.idle.ruined)
  rw [h1, Option.some.injEq] at e3
  subst e3
  dsimp only at j2 j3 j4 j5
  have hupd : r.updatePenalty = false := by rw [j4, hu, hrr]; exact hs.upd
  obtain ⟨a1, a2, a3, ⟨t', a4⟩, a5, -, a7, a8, a9⟩ := refine_inv hv.ga hch.ga j1 hupd
    (by rw [j2, hpu]; linarith [hpen.1]) ⟨_, by rw [j5, hacc]; rfl⟩ j6
    (by rw [hcc]; exact hlen) h2 h3
  rw [j2, hpu] at a3 a7
  have hb1 := GA.updateBest_base hb
  have hb2 : GA.Base env.ga ctx { g.updateBest with rr := r2, child := y } :=
    ⟨hb1.pop, hb1.len, hb1.ready, hb1.nbr, hb1.lsLen, hb1.split⟩
  have hh2 : HistRun (0 < ·) ctx env.ga.split.numVehicles g.updateBest.rr.hist r2.hist := j3 ▸ a5
  have rec2 := GA.updateBest_rec (env := env.ga) (g := { g.updateBest with rr := r2, child := y }) (ctx := ctx)
    (p := env.ga.initialPen) (by linarith [hpen.1]) a7 a8
  obtain ⟨-, -, -, hist2, hu2⟩ := GA.updateBest_other { g.updateBest with rr := r2, child := y }
  have hchild2 := GA.updateBest_child { g.updateBest with rr := r2, child := y }
  have hidle := a1.idle
  refine ⟨⟨GA.updateBest_base hb2, ?_, ?_, ?_, ⟨t', ?_, ?_⟩, fun _ => ?_⟩, hst, ?_, fun M hM => ?_, ?_, hlen⟩
  · dsimp only
    rw [hu2]
    exact ⟨hidle.routes, hidle.locs, hidle.unassigned, hidle.ruined⟩
  · dsimp only
    rw [hu2]
    exact a2
  · dsimp only
    rw [hu2]
    exact a3
  · dsimp only
    rw [hu2]
    exact a4
  · intro e
    dsimp only at e
    rw [hst] at e
    simp at e
  · dsimp only
    rw [hchild2]
    exact ⟨a7, a8⟩
  · have := rec1.hist
    rw [hrr] at this
    exact (this.trans hh2).trans rec2.hist
  · refine rec2.best M (GA.bestIn_of_hist (g := g.updateBest)
      (g' := { g.updateBest with rr := r2, child := y }) rfl hh2 M (rec1.best M ?_))
    rw [← hg]
    exact hM
  · dsimp only
    rw [hchild2]
    refine a9.trans (le_of_eq ?_)
    rw [j1.solCost, RRSol.trueCost, j7, hcc, j2, hpu, hx.cost]
    rfl

end DGA
end Verif
