import Verif.Lemmas.DecompEnds
import Verif.Props.DecompRun

/-!
# C75: the calls of the decomposed algorithm return, or stop for one of two reasons
-/

namespace Verif
open F64 RRSol

namespace GA

variable {env : GAEnv ℚ} {ctx : Ctx ℚ}

/-- The start of a sub-run. -/
theorem addInitial_start (hv : Valid env ctx) (hr : Robust env ctx 10000000) (ω : Oracle) {x : Individual ℚ}
    (hx : x.Good (RR.ctxAt ctx env.initialPen)) (hl : x.numNonemptyRoutes ≤ env.split.numVehicles) :
    ∃ g, addInitial env x (new env ctx ω) = some g ∧ Inv env ctx 10000000 g ∧ Extra env ctx 10000000 g ∧
      g.state = .created ∧ g.ctxIteration = 0 ∧
      (x.isFeasible = true → x.cost < inf - 1 / 1000000 → BestIn (some x.cost) g) := by
  have i0 := new_inv hv ω
  obtain ⟨g2, h2⟩ := addToPop_total hv hr false i0.base hx
  obtain ⟨b2, q, rfl⟩ := addToPop_base hv i0.base hx hl h2
  have b3 : Base env ctx { (new env ctx ω) with pop := q, child := x } :=
    ⟨b2.pop, b2.len, b2.ready, b2.nbr, b2.lsLen, b2.split⟩
  refine ⟨updateBest { (new env ctx ω) with pop := q, child := x }, by unfold addInitial; rw [h2]; rfl, ?_⟩
  generalize hgg : ({ (new env ctx ω) with pop := q, child := x } : GA ℚ) = g3 at b3
  have hstate : g3.state = .created := by rw [← hgg]; rfl
  have hrr : g3.rr = (new env ctx ω).rr := by rw [← hgg]
  have hchild : g3.child = x := by rw [← hgg]
  have hnone : g3.bestSolution = none := by rw [← hgg]; rfl
  have hcur : g3.currentBest = inf := by rw [← hgg]; rfl
  have hit : g3.ctxIteration = 0 := by rw [← hgg]; rfl
  have hini : g3.numInitialized = 0 := by rw [← hgg]; rfl
  have hbk : Booked g3 := by rw [← hgg]; exact Nat.le_refl _
  have hlog : g3.rr.hist = History.new := by rw [hrr]; rfl
  obtain ⟨e1, e2, e3, hist, e4⟩ := updateBest_other g3
  have fr := updateBest_frame g3
  have hm := i0.mu (Or.inl rfl)
  have hs : g3.updateBest.state = .created := by rw [fr.state, hstate]
  refine ⟨⟨updateBest_base b3, fun _ => ?_, ?_, fun e => ?_⟩, ⟨fr.booked hbk, fun _ => ?_, fun e => ?_, fun e => ?_,
    fun e => ?_⟩, hs, by rw [fr.ctxIteration, hit], fun hf hc => ?_⟩
  · rw [e4, hrr]
    exact ⟨⟨hm.idle.routes, hm.idle.locs, hm.idle.unassigned, hm.idle.ruined⟩, hm.upd, hm.sched, hm.pen⟩
  · rw [updateBest_child, hchild]
    exact good_perm hx
  · rw [hs] at e; simp at e
  · rw [fr.numInitialized, hini]
  · rw [hs] at e; simp at e
  · rw [hs] at e; simp at e
  · rw [hs] at e; simp at e
  · have h1 : (g3.child.isFeasible && approxLt g3.child.cost g3.currentBest) = true := by
      rw [hchild, hcur, Bool.and_eq_true, rat_approxLt, decide_eq_true_eq]
      exact ⟨hf, hc⟩
    have h2 : approxLt g3.child.cost g3.rr.hist.bestCost = true := by
      rw [hchild, hlog, rat_approxLt, decide_eq_true_eq]
      exact hc
    unfold updateBest
    rw [if_pos h1]
    dsimp only
    rw [if_pos h2]
    refine ⟨fun b e => ?_, fun c e => ⟨_, rfl, ?_⟩⟩
    · simp only [Option.some.injEq] at e
      subst e
      exact ⟨by simp [History.add], le_refl _⟩
    · rw [hchild, ← Option.some.inj e]

end GA

namespace DGA

/-- A subproblem meets what progress needs. -/
theorem sub_robust {env : DecompEnv ℚ} {ctx : Ctx ℚ} (hv : Valid env ctx) (hr : GA.Sturdy env.ga ctx (10 ^ 13))
    {pen : ℚ} {mapping : List ℕ} {chosen other : List (List ℕ)} (hm : mapping = 0 :: chosen.flatten)
    (hnd : mapping.Nodup) (hlt : ∀ c ∈ mapping, c < ctx.n) (hlen : env.ga.granularity + 2 ≤ mapping.length)
    (hpart : Spec.IsPartition ctx.n (other ++ chosen)) {e : GAEnv ℚ}
    (he : Decomp.subEnv env ctx pen mapping = some e) : GA.Robust e (subCtx ctx mapping) 10000000 := by
  have hne : mapping ≠ [] := by rw [hm]; simp
  have hg := hv.ga.nbr.gran
  simp only [LS.new] at hg
  obtain ⟨d, ed, hd, hrows⟩ := C46_sub_matrix env.sqrt env.matrix ctx hv.matrix mapping hlt hne
  have hdl : d.locations.length = mapping.length := hd.len
  obtain ⟨c, ec, -, -, -, hcl⟩ := C17_nearest env.sqrt env.corrSort d (by omega)
    (fun i => (List.range mapping.length).map ((subCtx ctx mapping).dist i))
    (fun i hi => by rw [hdl] at hi ⊢; exact ⟨hrows i hi, by simp⟩) hv.perm hv.sorted
  unfold Decomp.subEnv at he
  rw [ed, Option.bind_some, ec, Option.map_some, Option.some.injEq] at he
  subst he
  refine ⟨by show 3 ≤ mapping.length; omega, fun a b => hr.sym _ _, ?_, ?_, ?_, hr.sort, hr.closest, hr.minSize,
    hr.tournament, hr.initial, fun h => by simp at h⟩
  · show ctx.demand (mapping.getD 0 0) = 0
    rw [hm]
    exact hr.depot
  · refine ⟨fun a b => hr.tame.dist _ _, fun a => hr.tame.demand _, hr.tame.cap, by show (0 : ℚ) ≤ 10000000; norm_num, ?_⟩
    refine le_trans ?_ hr.tame.bound
    show Spec.routeLoad (subCtx ctx mapping).demand (Spec.customers mapping.length) * 10000000 ≤
      Spec.routeLoad ctx.demand (Spec.customers ctx.n) * 10 ^ 13
    have h1 : Spec.routeLoad (subCtx ctx mapping).demand (Spec.customers mapping.length) =
        Spec.routeLoad ctx.demand chosen.flatten := by
      unfold Spec.routeLoad Spec.customers
      subst hm
      generalize chosen.flatten = l
      congr 1
      apply List.ext_getElem
      · simp
      · intro i h1 h2
        simp only [List.length_map] at h2
        simp only [List.getElem_map, List.getElem_range', subCtx]
        rw [show 1 + 1 * i = i + 1 by omega]
        simp [h2]
    have h2 : Spec.routeLoad ctx.demand (Spec.customers ctx.n) =
        Spec.routeLoad ctx.demand other.flatten + Spec.routeLoad ctx.demand chosen.flatten := by
      rw [← Spec.routeLoad_perm _ hpart, List.flatten_append, Spec.routeLoad_append]
    have h3 := Spec.routeLoad_nonneg ctx.demand hv.demand other.flatten
    have h4 := Spec.routeLoad_nonneg ctx.demand hv.demand chosen.flatten
    rw [h1, h2]
    nlinarith
  · intro i h1 h2
    obtain ⟨l, a1, -, -, a2, -⟩ := hcl i (by rw [hdl]; exact h2)
    exact ⟨l, a1, fun v hvl => by
      obtain ⟨b1, b2, -⟩ := a2 v hvl
      rw [hdl] at b2
      exact ⟨b1, b2⟩⟩

/-- The sub-run on a part split off comes to an end; its best solution is missing only if the part was not
feasible. -/
theorem run_ends {env : GAEnv ℚ} {ctx : Ctx ℚ} (hv : GA.Valid env ctx) (hr : GA.Robust env ctx 10000000)
    (hm : env.maxIterations = some 2000) (ω : Oracle) {chs : List (GAChoice ℚ)}
    (hok : ∀ c ∈ chs, GA.ChOK c ∧ GA.Fair ctx.n c)
    (hen : (2000 + 1) * (env.eliteIterations + env.initialIndividuals + 4) ≤ chs.length ∨
      ∃ c ∈ chs, env.timeLimit ≤ c.elapsed) {x : Individual ℚ}
    (hx : x.Good (RR.ctxAt ctx env.initialPen)) (hl : x.numNonemptyRoutes ≤ env.split.numVehicles) :
    ∃ (best : Option (Individual ℚ)) (N : ℕ),
      (∀ f, N ≤ f → Decomp.run env ctx ω (chs.map (GA.refuel f)) x = best) ∧
      (x.isFeasible = true → x.cost < inf - 1 / 1000000 → best.isSome = true) := by
  obtain ⟨g, e1, i1, x1, hst, hit, hb⟩ := GA.addInitial_start hv hr ω hx hl
  obtain ⟨g', ⟨N, e2⟩, -, a1, a2⟩ := GA.steps_end hv hr chs hok i1 x1
  have hterm : g'.state = .terminated := by
    rcases hen with h | h
    · refine a1 2000 hm ?_
      rw [hit]
      unfold GA.phase
      rw [hst]
      show (2000 - 0) * GA.perCycle env + GA.perCycle env ≤ _
      rw [Nat.sub_zero, ← Nat.succ_mul]
      exact h
    · exact a2 h
  refine ⟨g'.bestSolution, N, fun f hf => ?_, fun h1 h2 => ?_⟩
  · have := e2 f hf
    dsimp only at this
    unfold Decomp.run
    rw [e1, Option.bind_some, this, Option.bind_some, if_pos hterm]
  · have hN := e2 N (le_refl _)
    dsimp only at hN
    obtain ⟨-, -, bb⟩ := GA.steps_inv hv _ (fun c hc => by
      obtain ⟨c', hc', rfl⟩ := List.mem_map.mp hc
      exact (hok c' hc').1) i1 hN
    obtain ⟨b, hb', -⟩ := (bb _ (hb h1 h2)).2 _ rfl
    rw [hb']
    rfl

/-- Ruin and recreate after the sub-run returns if the solution has the right number of routes. -/
theorem improve_ends {env : DecompEnv ℚ} {ctx : Ctx ℚ} (hv : Valid env ctx)
    (hr : GA.Sturdy env.ga ctx (10 ^ 13)) {ch : DGAChoice ℚ} (hch : ChOK ch) {s : DGA ℚ} (hs : Inv env ctx s)
    {x : Individual ℚ} (hx : x.Good (RR.ctxAt ctx env.ga.initialPen))
    (hlen : x.phenotype.length = env.ga.split.numVehicles) :
    ∃ s', EndsIn (fun f => improve env ctx (ch.refuel f) x s) s' := by
  have hpen := hv.ga.pen
  generalize hg : ({ s.ga with child := x } : GA ℚ) = g
  have hrr : g.rr = s.ga.rr := by rw [← hg]
  have hc : g.child = x := by rw [← hg]
  obtain ⟨-, -, -, hist, hu⟩ := GA.updateBest_other g
  have hcc : g.updateBest.child = x := by rw [GA.updateBest_child, hc]
  have hsol : g.updateBest.rr.solution = s.ga.rr.solution := by rw [hu, hrr]
  have hpu : g.updateBest.rr.pen = env.ga.initialPen := by rw [hu, hrr]; exact hs.pen
  obtain ⟨t, ht, -⟩ := hs.sched
  have hacc : g.updateBest.rr.acceptance = .iteration t := by rw [hu, hrr]; exact ht
  obtain ⟨r, e1, j1, j2, -, j4, j5, -, j6, -⟩ := RR.load_inv (now := ch.ga.clock 1)
    (st := { g.updateBest.rr with acceptance := g.updateBest.rr.acceptance.reset (ch.ga.clock 0) })
    (x := g.updateBest.child) (p := env.ga.initialPen) (nv := env.ga.split.numVehicles)
    (by rw [hcc]; exact hx) (by rw [hcc]; exact hlen) (by dsimp only; rw [hsol]; exact hs.idle.routes)
    (by dsimp only; rw [hsol]; exact hs.idle.locs) (by dsimp only; rw [hsol]; exact hs.idle.unassigned)
    (by dsimp only; rw [hsol]; exact hs.idle.ruined)
  dsimp only at j2 j4 j5
  have hupd : r.updatePenalty = false := by rw [j4, hu, hrr]; exact hs.upd
  obtain ⟨r2, y, ⟨N, e2⟩, e3⟩ := refine_ends hv.ga hr hch.ga (x := g.updateBest.child) j1 hupd
    (by rw [j2, hpu]; linarith [hpen.1]) (by rw [j2, hpu]; linarith [hpen.2])
    (s := t.reset) (by rw [j5, hacc]; rfl) j6 (by rw [hcc]; exact hlen)
  refine ⟨{ s with
      ga := GA.updateBest { g.updateBest with rr := r2, child := y }
      global := (GA.updateBest { g.updateBest with rr := r2, child := y }).child }, N, fun f hf => ?_⟩
  have h2 := e2 f hf
  dsimp only at h2 ⊢
  unfold improve
  rw [hg]
  dsimp only [DGAChoice.refuel, GA.refuel]
  rw [e1, Option.bind_some, h2, Option.bind_some, e3, Option.map_some]

/-- The part split off a feasible solution is feasible and costs at most as much as the whole. -/
theorem part_feasible {env : DecompEnv ℚ} {ctx : Ctx ℚ} (hv : Valid env ctx) {pen : ℚ} (hp : 0 ≤ pen)
    {x sub : Individual ℚ} {mapping : List ℕ} {rest chosen : List (List ℕ)} (hx : x.Good (RR.ctxAt ctx pen))
    (c1 : (rest ++ chosen).Perm x.phenotype) (c2 : mapping = 0 :: chosen.flatten)
    (c6 : sub.Good (subCtx (RR.ctxAt ctx pen) mapping)) {k : ℕ}
    (c7 : (Spec.rename (fun c => mapping.getD c 0) sub.phenotype).Perm (chosen ++ List.replicate k []))
    (hf : Spec.CapFeasible ctx.demand ctx.cap (1 / 1000000) x.phenotype) :
    sub.isFeasible = true ∧ sub.cost ≤ x.cost := by
  have hcap0 := hv.cap
  have hrc : Spec.CapFeasible ctx.demand ctx.cap (1 / 1000000) (rest ++ chosen) := (capFeasible_perm c1).mpr hf
  have hget0 : mapping.getD 0 0 = 0 := by rw [c2]; rfl
  constructor
  · refine c6.feasible.mpr (capFeasible_rename.mpr ((capFeasible_perm c7).mpr ?_))
    intro r hr
    rw [List.mem_append] at hr
    rcases hr with hr | hr
    · exact hrc r (List.mem_append_right _ hr)
    · rw [List.eq_of_mem_replicate hr]
      simp only [Spec.routeLoad, List.map_nil, List.sum_nil, RR.ctxAt]
      linarith
  · have h1 : sub.cost = Spec.solCost ctx.dist ctx.demand ctx.cap pen chosen := by
      rw [c6.cost]
      show Spec.solCost (subCtx ctx mapping).dist (subCtx ctx mapping).demand ctx.cap pen sub.phenotype = _
      have h0 : Spec.solCost ctx.dist ctx.demand ctx.cap pen (List.replicate k []) = 0 := by
        rw [← Decomp.solCost_filter _ _ _ _ hv.depot hcap0.le, List.filter_replicate]
        rfl
      rw [← add_zero (Spec.solCost ctx.dist ctx.demand ctx.cap pen chosen), ← h0, ← Decomp.solCost_append,
        ← Spec.solCost_perm _ _ _ _ c7]
      exact (Decomp.solCost_rename ctx hget0 pen sub.phenotype).symm
    have h2 : x.cost = Spec.solCost ctx.dist ctx.demand ctx.cap pen rest +
        Spec.solCost ctx.dist ctx.demand ctx.cap pen chosen := by
      rw [hx.cost, ← Decomp.solCost_append]
      exact (Spec.solCost_perm _ _ _ _ c1).symm
    have h3 := Spec.solCost_nonneg ctx.dist ctx.demand (fun a b => (hv.ga.dist a b).1) ctx.cap hp rest
    linarith

end DGA

/-- **C75**, first call. The call that makes the global solution returns, whatever is drawn, in whatever order
hash sets are iterated and whatever the clock shows: the rounds of ruin and recreate come to an end and
nothing panics. -/
theorem C75_first_call (env : DecompEnv ℚ) (ctx : Ctx ℚ) (hv : DGA.Valid env ctx)
    (hr : GA.Sturdy env.ga ctx (10 ^ 13)) (s : DGA ℚ) (h : DGA.Reach env ctx DGA.ChOK s)
    (hst : s.state = .notInitialized) (ch : DGAChoice ℚ) (hch : DGA.ChOK ch) :
    ∃ s' N, (ch.ga.elapsed < env.ga.timeLimit → env.ga.maxIterations ≠ some 0 → s'.state = .cycle) ∧
      ∀ f, N ≤ f → DGA.iterate env ctx (ch.refuel f) s = some s' := by
  by_cases ht : terminateNow env.ga.timeLimit env.ga.maxIterations ch.ga.elapsed s.ga.ctxIteration = true
  · refine ⟨{ s with state := .terminated }, 0, fun h1 h2 => ?_, fun f _ => ?_⟩
    · exfalso
      rw [(C58_limit_ignored env ctx _ s h).1] at ht
      unfold terminateNow at ht
      rw [Bool.or_eq_true, decide_eq_true_eq] at ht
      rcases ht with ht | ht
      · omega
      · cases hm : env.ga.maxIterations with
        | none => rw [hm] at ht; simp at ht
        | some m => rw [hm] at ht h2; simp at ht h2; exact h2 ht
    · unfold DGA.iterate
      exact if_pos ht
  · obtain ⟨p, N, e⟩ := DGA.createGlobal_ends hv hr hch (h.inv hv).1 hst
    refine ⟨{ s with state := .cycle, global := p.1, ga := p.2 }, N, fun _ _ => rfl, fun f hf => ?_⟩
    have := e f hf
    dsimp only at this
    unfold DGA.iterate
    rw [if_neg (show ¬ terminateNow env.ga.timeLimit env.ga.maxIterations (ch.refuel f).ga.elapsed
      s.ga.ctxIteration = true from ht), hst]
    dsimp only
    rw [this]
    rfl

/-- **C75**, later calls. No loop of a cycle runs forever, and there are exactly two ways to panic: the
sub-run ends without a best solution, or its best solution does not use as many routes as were split off.
The first does not happen when the global solution is feasible. The demands on the choices: the crossover
zones of the sub-run are drawn fairly, and choices are listed for as many calls as the sub-run can take, or
up to the time limit. -/
theorem C75_cycle_call (env : DecompEnv ℚ) (ctx : Ctx ℚ) (hv : DGA.Valid env ctx)
    (hr : GA.Sturdy env.ga ctx (10 ^ 13)) (s : DGA ℚ) (h : DGA.Reach env ctx DGA.ChOK s)
    (hst : s.state = .cycle) (ch : DGAChoice ℚ) (hch : DGA.ChOK ch)
    (hf : ∀ c ∈ ch.sub, ∀ n, 3 ≤ n → GA.Fair n c)
    (hen : (2000 + 1) * (env.ga.eliteIterations + env.ga.initialIndividuals + 4) ≤ ch.sub.length ∨
      ∃ c ∈ ch.sub, env.ga.timeLimit ≤ c.elapsed)
    (ht : ch.ga.elapsed < env.ga.timeLimit) (hm : env.ga.maxIterations ≠ some 0) :
    ∃ (sub : Individual ℚ) (mapping : List ℕ) (rest : Individual ℚ) (chosen : List (List ℕ)) (e : GAEnv ℚ)
      (best : Option (Individual ℚ)) (N : ℕ),
      Decomp.new env.ga.rr.atan2 (RR.ctxAt ctx s.ga.rr.pen) env.ga.rr.nbrs env.size (ch.ga.ω.sub 2 0) ch.order
        s.global = some (sub, mapping, rest) ∧
      (rest.phenotype ++ chosen).Perm s.global.phenotype ∧ mapping = 0 :: chosen.flatten ∧
      Decomp.subEnv env ctx s.ga.rr.pen mapping = some e ∧ 3 ≤ mapping.length ∧
      (∀ f, N ≤ f → Decomp.run e (subCtx ctx mapping) (ch.ga.ω.sub 3) (ch.refuel f).sub sub = best) ∧
      (∀ y, best = some y → Spec.IsPartition mapping.length y.phenotype ∧
        (y.phenotype.filter fun r => decide (r ≠ [])).length ≤ env.ga.split.numVehicles) ∧
      ((∃ y, best = some y ∧ (y.phenotype.filter fun r => decide (r ≠ [])).length = chosen.length) →
        ∃ s', s'.state = .cycle ∧ ∀ f, N ≤ f → DGA.iterate env ctx (ch.refuel f) s = some s') ∧
      ((¬ ∃ y, best = some y ∧ (y.phenotype.filter fun r => decide (r ≠ [])).length = chosen.length) →
        ∀ f, N ≤ f → DGA.iterate env ctx (ch.refuel f) s = none) ∧
      (Spec.CapFeasible ctx.demand ctx.cap (1 / 1000000) s.global.phenotype →
        s.global.cost < inf - 1 / 1000000 → best.isSome = true) := by
  obtain ⟨i, -, -⟩ := h.inv hv
  obtain ⟨g1, g2⟩ := i.global hst
  have hn := hv.ga.n
  have hpen := hv.ga.pen
  have h0 := (C58_limit_ignored env ctx _ s h).1
  have hterm : ¬ terminateNow env.ga.timeLimit env.ga.maxIterations ch.ga.elapsed s.ga.ctxIteration = true := by
    rw [h0]
    unfold terminateNow
    rw [Bool.or_eq_true, decide_eq_true_eq]
    rintro (hc | hc)
    · omega
    · cases hm' : env.ga.maxIterations with
      | none => rw [hm'] at hc; simp at hc
      | some m => rw [hm'] at hc hm; simp at hc hm; exact hm hc
  rw [i.pen]
  obtain ⟨sub, mapping, rest, chosen, e1, c1, c2, c3, c4, -, c5, c6, c7, c8⟩ :=
    C46_decomposition env.ga.rr.atan2 (RR.ctxAt ctx env.ga.initialPen) env.ga.rr.nbrs env.size (ch.ga.ω.sub 2 0)
      ch.order s.global hn g1 hch.order (fun v hvn => by
        obtain ⟨vs, a, -, -, b⟩ := hv.nbrs v hvn
        exact ⟨vs, a, fun u hu => (b u hu).2⟩)
  have hlarge := DGA.mapping_large hv c2 c5
  obtain ⟨e, e2, v2, v3, v4, -, v5, v6⟩ := Decomp.subEnv_valid hv hpen c3 c4 hlarge
  have hrob := DGA.sub_robust hv hr (other := rest.phenotype) c2 c3 c4 hlarge
    ((Spec.isPartition_perm c1).mpr g1.part) e2
  have hsame : e.eliteIterations = env.ga.eliteIterations ∧ e.initialIndividuals = env.ga.initialIndividuals := by
    unfold Decomp.subEnv at e2
    obtain ⟨d, -, e2⟩ := Option.bind_eq_some_iff.mp e2
    obtain ⟨c, -, rfl⟩ := Option.map_eq_some_iff.mp e2
    exact ⟨rfl, rfl⟩
  have hfilter : ∀ l : List (List ℕ), (l.filter fun r => decide (r ≠ [])) =
      l.filter fun r => decide (0 < r.length) := by
    intro l
    apply List.filter_congr
    intro r _
    cases r <;> simp
  have hnonempty : ∀ l : List (List ℕ), ((Spec.rename (fun c => mapping.getD c 0) l).filter
      fun r => decide (r ≠ [])).length = (l.filter fun r => decide (r ≠ [])).length := by
    intro l
    unfold Spec.rename
    rw [List.filter_map, List.length_map]
    congr 1
    apply List.filter_congr
    intro r _
    simp
  have hsubl : sub.numNonemptyRoutes ≤ e.split.numVehicles := by
    rw [v3]
    refine le_trans ?_ (GA.nonempty_le g2)
    unfold Individual.numNonemptyRoutes
    rw [← hfilter, ← hfilter, ← hnonempty, (c7.filter _).length_eq, ← (c1.filter _).length_eq]
    simp
  have hsub : sub.Good (RR.ctxAt (subCtx ctx mapping) e.initialPen) := by rw [v6]; exact c6
  obtain ⟨best, N, r1, r2⟩ := DGA.run_ends v2 hrob v4 (ch.ga.ω.sub 3)
    (fun c hc => ⟨hch.sub c hc, hf c hc _ hrob.n⟩) (by rw [hsame.1, hsame.2, v5]; exact hen) hsub hsubl
  have hgood : ∀ y, best = some y → Spec.IsPartition mapping.length y.phenotype ∧
      (y.phenotype.filter fun r => decide (r ≠ [])).length ≤ env.ga.split.numVehicles := by
    intro y hy
    obtain ⟨y1, -, -, y4⟩ := Decomp.run_good v2 (DGA.refuel_ok hch N).sub hsub hsubl ((r1 N (le_refl _)).trans hy)
    rw [v3] at y4
    refine ⟨y1, ?_⟩
    rw [hfilter]
    exact y4
  have hxl : rest.phenotype.length + chosen.length = env.ga.split.numVehicles := by
    rw [← List.length_append, c1.length_eq, g2]
  -- the call, once the sub-run is over
  have hiter : ∀ f, N ≤ f → DGA.iterate env ctx (ch.refuel f) s = best.bind fun y =>
      (Decomp.finish env.ga.rr.atan2 (RR.ctxAt ctx env.ga.initialPen) mapping y rest).bind fun x =>
        DGA.improve env ctx (ch.refuel f) x s := by
    intro f hf'
    unfold DGA.iterate
    rw [if_neg (show ¬ terminateNow env.ga.timeLimit env.ga.maxIterations (ch.refuel f).ga.elapsed
      s.ga.ctxIteration = true from hterm), hst]
    dsimp only
    unfold DGA.solveSub
    rw [i.pen]
    have e1' : Decomp.new env.ga.rr.atan2 (RR.ctxAt ctx env.ga.initialPen) env.ga.rr.nbrs env.size
      ((ch.refuel f).ga.ω.sub 2 0) (ch.refuel f).order s.global = some (sub, mapping, rest) := e1
    have r1' : Decomp.run e (subCtx ctx mapping) ((ch.refuel f).ga.ω.sub 3) (ch.refuel f).sub sub = best := r1 f hf'
    rw [e1', Option.bind_some]
    dsimp only
    rw [e2, Option.bind_some, r1', Option.bind_assoc]
  have hzl : ∀ (y z : Individual ℚ), z.phenotype.Perm (rest.phenotype ++
      (Spec.rename (fun c => mapping.getD c 0) y.phenotype).filter fun r => decide (r ≠ [])) →
      z.phenotype.length = rest.phenotype.length + (y.phenotype.filter fun r => decide (r ≠ [])).length := by
    intro y z hz
    rw [hz.length_eq, List.length_append, hnonempty]
  by_cases hgo : ∃ y, best = some y ∧ (y.phenotype.filter fun r => decide (r ≠ [])).length = chosen.length
  · obtain ⟨y, hy, hyl⟩ := hgo
    obtain ⟨z, z1, z2, z3, -⟩ := c8 y (hgood y hy).1
    obtain ⟨s', N', e3⟩ := DGA.improve_ends hv hr hch i z2 (by rw [hzl y z z3, hyl, hxl])
    refine ⟨sub, mapping, rest, chosen, e, best, max N N', e1, c1, c2, e2, hrob.n,
      fun f hf' => r1 f (by omega), hgood, fun _ => ⟨s', ?_, fun f hf' => ?_⟩, fun hno => absurd ⟨y, hy, hyl⟩ hno,
      fun h1 h2 => ?_⟩
    · exact (DGA.improve_inv hv (DGA.refuel_ok hch N') i hst z2 (e3 N' (le_refl _))).2.1
    · rw [hiter f (by omega), hy, Option.bind_some, z1, Option.bind_some]
      exact e3 f (by omega)
    · rw [hy]; rfl
  · refine ⟨sub, mapping, rest, chosen, e, best, N, e1, c1, c2, e2, hrob.n, r1, hgood, fun hyes => absurd hyes hgo,
      fun _ f hf' => ?_, fun h1 h2 => ?_⟩
    · rw [hiter f hf']
      cases hb : best with
      | none => rfl
      | some y =>
        obtain ⟨z, z1, z2, z3, -⟩ := c8 y (hgood y hb).1
        rw [Option.bind_some, z1, Option.bind_some]
        cases hi : DGA.improve env ctx (ch.refuel f) z s with
        | none => rfl
        | some s' =>
          exfalso
          have := (DGA.improve_inv hv (DGA.refuel_ok hch f) i hst z2 hi).2.2.2.2.2
          rw [hzl y z z3] at this
          exact hgo ⟨y, hb, by omega⟩
    · obtain ⟨p1, p2⟩ := DGA.part_feasible hv (by linarith [hpen.1]) g1 c1 c2 c6 c7 h1
      exact r2 p1 (by linarith)

namespace DGA

/-- The choices of a call let the sub-run end. -/
def Ample (env : DecompEnv ℚ) (ch : DGAChoice ℚ) : Prop :=
  ChOK ch ∧ (∀ c ∈ ch.sub, ∀ n, 3 ≤ n → GA.Fair n c) ∧
    ((2000 + 1) * (env.ga.eliteIterations + env.ga.initialIndividuals + 4) ≤ ch.sub.length ∨
      ∃ c ∈ ch.sub, env.ga.timeLimit ≤ c.elapsed)

end DGA

/-- **C75** for a fleet of one vehicle that can carry everything: every call of every run returns. -/
theorem C75_one_vehicle (env : DecompEnv ℚ) (ctx : Ctx ℚ) (hv : DGA.Valid env ctx)
    (hr : GA.Sturdy env.ga ctx (10 ^ 13)) (h1 : env.ga.split.numVehicles = 1)
    (hl : Spec.routeLoad ctx.demand (Spec.customers ctx.n) ≤ ctx.cap) (hn : ctx.n ≤ 2 ^ 20) (s : DGA ℚ)
    (h : DGA.Reach env ctx DGA.ChOK s) (ch : DGAChoice ℚ) (ha : DGA.Ample env ch) :
    ∃ s' N, ∀ f, N ≤ f → DGA.iterate env ctx (ch.refuel f) s = some s' := by
  obtain ⟨hch, hf, hen⟩ := ha
  by_cases hlim : env.ga.timeLimit ≤ ch.ga.elapsed ∨ env.ga.maxIterations = some 0
  · have ht : terminateNow env.ga.timeLimit env.ga.maxIterations ch.ga.elapsed s.ga.ctxIteration = true := by
      rw [(C58_limit_ignored env ctx _ s h).1]
      unfold terminateNow
      rw [Bool.or_eq_true, decide_eq_true_eq]
      rcases hlim with h | h
      · exact Or.inl h
      · rw [h]; exact Or.inr rfl
    exact ⟨{ s with state := .terminated }, 0, fun f _ => if_pos ht⟩
  · rw [not_or, not_le] at hlim
    cases hst : s.state with
    | notInitialized =>
      obtain ⟨s', N, -, e⟩ := C75_first_call env ctx hv hr s h hst ch hch
      exact ⟨s', N, e⟩
    | terminated => exact ⟨s, 0, fun f _ => C58_terminated_stays env ctx _ s hst⟩
    | cycle =>
      obtain ⟨i, -, -⟩ := h.inv hv
      obtain ⟨g1, g2⟩ := i.global hst
      rw [h1] at g2
      obtain ⟨r, hr1⟩ := List.length_eq_one_iff.mp g2
      have hp : r.Perm (Spec.customers ctx.n) := by
        have := g1.part
        unfold Spec.IsPartition at this
        rw [hr1] at this
        simp only [List.flatten_cons, List.flatten_nil, List.append_nil] at this
        exact this
      have hload : Spec.routeLoad ctx.demand r ≤ ctx.cap := by rw [Spec.routeLoad_perm _ hp]; exact hl
      have hfeas : Spec.CapFeasible ctx.demand ctx.cap (1 / 1000000) s.global.phenotype := by
        intro r' hr'
        rw [hr1, List.mem_singleton] at hr'
        subst hr'
        linarith
      have hcost : s.global.cost < inf - 1 / 1000000 := by
        have hrl : r.length + 1 ≤ 2 ^ 20 := by
          have h3 := hp.length_eq
          have h4 := hv.ga.n
          simp only [Spec.customers, List.length_range'] at h3
          omega
        have hd := Spec.pathDist_le ctx.dist (2 ^ 1000) (by positivity) (fun a b => (hr.tame.dist a b).2)
          (0 :: (r ++ [0]))
        rw [g1.cost, hr1]
        have hz : Spec.solCost ctx.dist ctx.demand ctx.cap env.ga.initialPen [r] = Spec.routeDist ctx.dist r := by
          simp only [Spec.solCost, Spec.routeCost, List.map_cons, List.map_nil, List.sum_cons, List.sum_nil]
          rw [max_eq_left (by linarith)]
          ring
        show Spec.solCost ctx.dist ctx.demand ctx.cap env.ga.initialPen [r] < 2 ^ 1024 - 1 / 1000000
        rw [hz]
        have hrl' : ((r.length : ℚ) + 1) ≤ 2 ^ 20 := by exact_mod_cast hrl
        have h5 : Spec.routeDist ctx.dist r ≤ (2 ^ 20 + 1) * 2 ^ 1000 := by
          refine le_trans hd ?_
          apply mul_le_mul_of_nonneg_right _ (by positivity)
          simp only [List.length_cons, List.length_append, List.length_nil]
          push_cast
          linarith
        have hB : (1 : ℚ) ≤ 2 ^ 1000 := one_le_pow₀ (by norm_num)
        have hE : (2 : ℚ) ^ 1024 = 2 ^ 24 * 2 ^ 1000 := by rw [← pow_add]
        rw [hE]
        generalize (2 : ℚ) ^ 1000 = B at h5 hB
        norm_num at h5 ⊢
        linarith
      obtain ⟨sub, mapping, rest, chosen, e, best, N, -, c1, c2, -, c3, -, c4, c5, -, c6⟩ :=
        C75_cycle_call env ctx hv hr s h hst ch hch hf hen hlim.1 hlim.2
      obtain ⟨y, hy⟩ := Option.isSome_iff_exists.mp (c6 hfeas hcost)
      obtain ⟨y1, y2⟩ := c4 y hy
      rw [h1] at y2
      have hc : chosen.length = 1 := by
        have h7 : rest.phenotype.length + chosen.length = 1 := by
          rw [← List.length_append, c1.length_eq, g2]
        cases hcc : chosen with
        | nil => rw [c2, hcc] at c3; simp at c3
        | cons a l => rw [hcc, List.length_cons] at h7; rw [List.length_cons]; omega
      have hy0 : (y.phenotype.filter fun r => decide (r ≠ [])).length ≠ 0 := by
        intro h0
        have hnil := List.length_eq_zero_iff.mp h0
        have hflat := Decomp.filter_flatten y.phenotype
        rw [hnil] at hflat
        have h8 := y1.length_eq
        rw [← hflat] at h8
        simp only [List.flatten_nil, List.length_nil, Spec.customers, List.length_range'] at h8
        omega
      obtain ⟨s', -, e⟩ := c5 ⟨y, hy, by omega⟩
      exact ⟨s', N, e⟩

/-- **C75** for whole runs with such a fleet: no call panics or hangs, and the run is over with the first call
at or after the time limit. -/
theorem C75_one_vehicle_run (env : DecompEnv ℚ) (ctx : Ctx ℚ) (hv : DGA.Valid env ctx)
    (hr : GA.Sturdy env.ga ctx (10 ^ 13)) (h1 : env.ga.split.numVehicles = 1)
    (hl : Spec.routeLoad ctx.demand (Spec.customers ctx.n) ≤ ctx.cap) (hn : ctx.n ≤ 2 ^ 20) :
    ∀ (chs : List (DGAChoice ℚ)) (s : DGA ℚ), DGA.Reach env ctx DGA.ChOK s →
    (∀ ch ∈ chs, DGA.Ample env ch) → ∃ s' N, DGA.Reach env ctx DGA.ChOK s' ∧
      (∀ f, N ≤ f → DGA.steps env ctx (chs.map (DGAChoice.refuel f)) s = some s') ∧
      ((∃ ch ∈ chs, env.ga.timeLimit ≤ ch.ga.elapsed) → s'.state = .terminated)
  | [], s, h, _ => ⟨s, 0, h, fun _ _ => rfl, fun ⟨ch, hch, _⟩ => by simp at hch⟩
  | ch :: chs, s, h, ha => by
    by_cases hst : s.state = .terminated
    · refine ⟨s, 0, h, fun f _ => ?_, fun _ => hst⟩
      rw [List.map_cons, DGA.steps, if_pos hst]
    · obtain ⟨s1, N1, e1⟩ := C75_one_vehicle env ctx hv hr h1 hl hn s h ch (ha ch (by simp))
      have r1 : DGA.Reach env ctx DGA.ChOK s1 := .step h (DGA.refuel_ok (ha ch (by simp)).1 N1) (e1 N1 (le_refl _))
      obtain ⟨s2, N2, r2, e2, t2⟩ := C75_one_vehicle_run env ctx hv hr h1 hl hn chs s1 r1
        fun c hc => ha c (by simp [hc])
      refine ⟨s2, max N1 N2, r2, fun f hf => ?_, fun ⟨c, hc, hcl⟩ => ?_⟩
      · rw [List.map_cons, DGA.steps, if_neg hst, e1 f (by omega), Option.bind_some]
        exact e2 f (by omega)
      · rcases List.mem_cons.mp hc with rfl | hc
        · have hs1 : s1.state = .terminated :=
            ((C58_limit_ignored env ctx _ s h).2 _ s1 hst (e1 N1 (le_refl _))).mpr (Or.inl hcl)
          have := e2 N2 (le_refl _)
          cases hc : chs.map (DGAChoice.refuel N2) with
          | nil =>
            rw [hc, DGA.steps, Option.some.injEq] at this
            exact this ▸ hs1
          | cons a l =>
            rw [hc, DGA.steps, if_pos hs1, Option.some.injEq] at this
            exact this ▸ hs1
        · exact t2 ⟨c, hc, hcl⟩

end Verif
