import Verif.Props.Context
import Verif.Props.Correlation
import Verif.Props.Decomposition
import Verif.Props.GeneticRun

/-! # Runs with decomposition (exact arithmetic) -/

namespace Verif
open F64

/-- The matrix of the context holds its distances. -/
structure DistMatrix.Holds {α : Type} [F64 α] (sqrt : α → α) (d : DistMatrix α) (ctx : Ctx α) : Prop where
  len : d.locations.length = ctx.n
  get : ∀ a < ctx.n, ∀ b < ctx.n, d.get sqrt a b = some (ctx.dist a b)

/-- The matrix made for a subproblem holds the distances of the subproblem, and its rows can be read;
this is what `subCtx` assumes. -/
theorem C46_sub_matrix {α : Type} [F64 α] (sqrt : α → α) (d : DistMatrix α) (ctx : Ctx α) (h : d.Holds sqrt ctx)
    (mapping : List ℕ) (hm : ∀ c ∈ mapping, c < ctx.n) (hne : mapping ≠ []) :
    ∃ d', d.fromMapping sqrt mapping = some d' ∧ d'.Holds sqrt (subCtx ctx mapping) ∧
      ∀ i < mapping.length, d'.getVec sqrt i 0 mapping.length =
        some ((List.range mapping.length).map ((subCtx ctx mapping).dist i)) := by
  obtain ⟨m', e', h'⟩ := RawMatrix.fill_shows
    (RawMatrix.new_shows (lit 0 : α) mapping.length mapping.length)
    (f := fun i j => (mapping[i]?).bind fun a => (mapping[j]?).bind fun b => d.get sqrt a b)
    (g := (subCtx ctx mapping).dist) (by
      intro i hi j hj
      have h1 : mapping[i]? = some mapping[i] := List.getElem?_eq_getElem hi
      have h2 : mapping[j]? = some mapping[j] := List.getElem?_eq_getElem hj
      simp only [h1, h2, Option.bind_some, subCtx, List.getD_eq_getElem?_getD, Option.getD_some]
      exact h.get _ (hm _ (List.getElem_mem hi)) _ (hm _ (List.getElem_mem hj)))
  have hlocs : ∀ l : List ℕ, (∀ c ∈ l, c < ctx.n) →
      ∃ ls, (l.mapM fun i => d.locations[i]?) = some ls ∧ ls.length = l.length := by
    intro l
    induction l with
    | nil => intro _; exact ⟨[], rfl, rfl⟩
    | cons a l ih =>
      intro hl
      obtain ⟨ls, e, hlen⟩ := ih fun c hc => hl c (by simp [hc])
      have ha : a < d.locations.length := by rw [h.len]; exact hl a (by simp)
      refine ⟨d.locations[a] :: ls, ?_, by simp [hlen]⟩
      rw [List.mapM_cons, e]
      simp [ha]
  obtain ⟨ls, els, hls⟩ := hlocs mapping hm
  have hmax : ∃ mx, m'.getMax = some mx := by
    unfold RawMatrix.getMax
    rw [h'.rows_eq, h'.cols_eq, h'.slice (by omega), Option.bind_some]
    have hpos : 0 < mapping.length := List.length_pos_iff.mpr hne
    have hpos2 : 0 < mapping.length * mapping.length := Nat.mul_pos hpos hpos
    obtain ⟨k, hk⟩ : ∃ k, mapping.length * mapping.length = k + 1 := ⟨mapping.length * mapping.length - 1, by omega⟩
    rw [hk, List.range_succ_eq_map]
    exact ⟨_, rfl⟩
  obtain ⟨mx, hmx⟩ := hmax
  have key : ∃ mm, d.fromMapping sqrt mapping = some ⟨ls, m', true, d.rounded, mm⟩ := by
    unfold DistMatrix.fromMapping
    rw [els, Option.bind_some, e', Option.bind_some]
    split
    · rw [hmx]; exact ⟨_, rfl⟩
    · exact ⟨_, rfl⟩
  obtain ⟨mm, key⟩ := key
  refine ⟨_, key, ⟨hls, fun a ha b hb => ?_⟩, fun i hi => ?_⟩
  · unfold DistMatrix.get
    rw [if_pos rfl]
    exact h'.get ha hb
  · unfold DistMatrix.getVec
    rw [if_pos rfl]
    exact h'.row hi (le_refl _)

/-- What is asked of instance and configuration for runs with decomposition: the hypotheses of the genetic
algorithm with the largest penalty `10⁷ · 10⁶`, the neighbour lists built from a matrix that holds the
distances, non-negative demands, a positive capacity, a fleet of at least the bin-packing bound, and a
granularity below the size of the subproblems and the length of the neighbour lists. -/
structure DGA.Valid (env : DecompEnv ℚ) (ctx : Ctx ℚ) : Prop where
  ga : GA.ValidUpTo env.ga ctx (10 ^ 13)
  matrix : env.matrix.Holds env.sqrt ctx
  rows : ∀ i < ctx.n, env.matrix.getVec env.sqrt i 0 ctx.n = some ((List.range ctx.n).map (ctx.dist i))
  perm : ∀ L, (env.corrSort L).Perm L
  sorted : ∀ L, (env.corrSort L).Pairwise fun a b => (b.1 <. a.1) = false
  table : ∃ c, buildCorr env.sqrt env.corrSort env.matrix = some c ∧ env.ga.rr.nbrs = c.get
  demand : ∀ c, 0 ≤ ctx.demand c
  cap : 0 < ctx.cap
  depot : ctx.dist 0 0 = 0
  bound : vehicleLowerBound ctx ≤ env.ga.split.numVehicles
  size : env.ga.granularity < env.size
  width : env.ga.granularity < min 200 (ctx.n - 2)

theorem DGA.Valid.nbrs {env : DecompEnv ℚ} {ctx : Ctx ℚ} (hv : DGA.Valid env ctx) :
    ∀ v < ctx.n, ∃ vs, env.ga.rr.nbrs v = some vs ∧ vs.length = min 200 (ctx.n - 2) ∧ vs.Nodup ∧
      ∀ u ∈ vs, 0 < u ∧ u < ctx.n := by
  obtain ⟨c, ec, hc⟩ := hv.table
  obtain ⟨c', ec', -, -, -, h⟩ := C17_nearest env.sqrt env.corrSort env.matrix
    (by rw [hv.matrix.len]; exact hv.ga.n) (fun i => (List.range ctx.n).map (ctx.dist i))
    (fun i hi => by rw [hv.matrix.len] at hi ⊢; exact ⟨hv.rows i hi, by simp⟩) hv.perm hv.sorted
  rw [ec, Option.some.injEq] at ec'
  subst ec'
  intro v hvn
  obtain ⟨l, h1, h2, h3, h4, -⟩ := h v (by rw [hv.matrix.len]; exact hvn)
  rw [hv.matrix.len] at h2 h4
  exact ⟨l, by rw [hc]; exact h1, h2, h3, fun u hu => ⟨(h4 u hu).1, (h4 u hu).2.1⟩⟩

theorem demand_sum_le {ctx : Ctx ℚ} (h0 : ∀ c, 0 ≤ ctx.demand c) {mapping : List ℕ} (hnd : mapping.Nodup)
    (hlt : ∀ c ∈ mapping, c < ctx.n) : totalDemand (subCtx ctx mapping) ≤ totalDemand ctx := by
  have hf : ∀ l : List ℚ, l.foldl (· +. ·) (lit 0 : ℚ) = l.sum := by
    intro l
    rw [List.sum_eq_foldl]
    simp only [rat_lit, rat_add, Rat.cast_zero]
  have h1 : (List.range (subCtx ctx mapping).n).map (subCtx ctx mapping).demand = mapping.map ctx.demand := by
    apply List.ext_getElem
    · simp [subCtx]
    · intro i h _
      simp only [List.length_map, List.length_range] at h
      have h : i < mapping.length := h
      simp [subCtx, h]
  unfold totalDemand
  rw [hf, hf, h1]
  have hsp : mapping.Subperm (List.range ctx.n) := List.subperm_of_subset hnd fun c hc => by
    simpa using hlt c hc
  obtain ⟨l, hl, hs⟩ := hsp
  rw [← (hl.map ctx.demand).sum_eq]
  exact (hs.map ctx.demand).sum_le_sum (by
    intro x hx
    obtain ⟨c, -, rfl⟩ := List.mem_map.mp hx
    exact h0 c)

theorem vehicleLowerBound_sub {ctx : Ctx ℚ} (h0 : ∀ c, 0 ≤ ctx.demand c) (hc : 0 < ctx.cap)
    {mapping : List ℕ} (hnd : mapping.Nodup) (hlt : ∀ c ∈ mapping, c < ctx.n) :
    vehicleLowerBound (subCtx ctx mapping) ≤ vehicleLowerBound ctx := by
  unfold vehicleLowerBound
  simp only [rat_ceilNat, rat_div]
  apply Int.toNat_le_toNat
  apply Int.ceil_le_ceil
  exact div_le_div_of_nonneg_right (demand_sum_le h0 hnd hlt) hc.le

namespace Decomp

/-- The settings of the sub-run are valid for the subproblem. -/
theorem subEnv_valid {env : DecompEnv ℚ} {ctx : Ctx ℚ} (hv : DGA.Valid env ctx) {pen : ℚ}
    (hp : 1 / 10000 ≤ pen ∧ pen ≤ 10000000) {mapping : List ℕ} (hnd : mapping.Nodup)
    (hlt : ∀ c ∈ mapping, c < ctx.n) (hlen : env.ga.granularity + 2 ≤ mapping.length) :
    ∃ e, subEnv env ctx pen mapping = some e ∧ GA.Valid e (subCtx ctx mapping) ∧
      e.split = env.ga.split ∧ e.maxIterations = some 2000 ∧ e.eliteEducation = false ∧
      e.timeLimit = env.ga.timeLimit ∧ e.initialPen = pen := by
  have hne : mapping ≠ [] := by
    intro e; rw [e] at hlen; simp at hlen
  obtain ⟨d, ed, hd, hrows⟩ := C46_sub_matrix env.sqrt env.matrix ctx hv.matrix mapping hlt hne
  have hdl : d.locations.length = mapping.length := hd.len
  have hmn : mapping.length ≤ ctx.n := by
    have := (List.subperm_of_subset hnd (l₂ := List.range ctx.n) fun c hc => by simpa using hlt c hc).length_le
    simpa using this
  have hw := hv.width
  have hg := hv.ga.nbr.gran
  simp only [LS.new] at hg
  obtain ⟨c, ec, hnb⟩ := C16_in_bounds_partial env.sqrt env.corrSort d (subCtx ctx mapping) hd.len.symm
    (fun i => (List.range mapping.length).map ((subCtx ctx mapping).dist i))
    (fun i hi => by rw [hdl] at hi ⊢; exact ⟨hrows i hi, by simp⟩) hv.perm hv.sorted
    env.ga.split.numVehicles env.ga.granularity (fun i => env.ga.angle (mapping.getD i 0)) (lit 1) hg (by omega)
  obtain ⟨c', ec', -, hcw, -⟩ := C17_nearest env.sqrt env.corrSort d (by omega)
    (fun i => (List.range mapping.length).map ((subCtx ctx mapping).dist i))
    (fun i hi => by rw [hdl] at hi ⊢; exact ⟨hrows i hi, by simp⟩) hv.perm hv.sorted
  rw [ec, Option.some.injEq] at ec'
  subst ec'
  refine ⟨{ env.ga with
      rr := { env.ga.rr with nbrs := c.get }
      lowerBound := vehicleLowerBound (subCtx ctx mapping)
      angle := fun i => env.ga.angle (mapping.getD i 0)
      corr := c.storage.cells
      corrCols := c.width
      rrIterations := toNat (F64.round (env.gamma *. lit (mapping.length - 1 : ℕ)))
      initialPen := pen
      maxIterations := some 2000
      eliteEducation := false }, by unfold subEnv; rw [ed, Option.bind_some, ec, Option.map_some], ?_,
    rfl, rfl, rfl, rfl, rfl⟩
  refine ⟨by show 2 ≤ mapping.length; omega, fun a b => hv.ga.dist _ _, hv.ga.fleet,
    (vehicleLowerBound_sub hv.demand hv.cap hnd hlt).trans hv.bound, hv.ga.vehicles, hv.ga.bs, hv.ga.sort,
    hp, hv.ga.mult, le_refl _, fun hl => ?_, ?_⟩
  · obtain ⟨D, Q, h1, h2, h3, h4⟩ := hv.ga.mag hl
    refine ⟨D, Q, fun a b => h1 _ _, fun a => h2 _, by show (0 : ℚ) ≤ 10000000; norm_num, lt_of_le_of_lt ?_ h4⟩
    have hD : 0 ≤ D := le_trans (h1 0 0).1 (h1 0 0).2
    have hQ : 0 ≤ Q := le_trans (h2 0).1 (h2 0).2
    have hmn' : (mapping.length : ℚ) ≤ ctx.n := by exact_mod_cast hmn
    show (mapping.length : ℚ) * D + 10000000 * (mapping.length * Q) ≤ ctx.n * D + 10 ^ 13 * (ctx.n * Q)
    have a1 := mul_le_mul_of_nonneg_right hmn' hD
    have a2 := mul_le_mul_of_nonneg_right hmn' hQ
    have a3 : 0 ≤ (ctx.n : ℚ) * Q := mul_nonneg (Nat.cast_nonneg _) hQ
    nlinarith
  · rw [hcw]
    exact hnb

end Decomp

/-- Everything recorded was there before or recorded properly. -/
theorem HistRun.entries {P : ℚ → Prop} {ctx : Ctx ℚ} {nv : ℕ} {h h' : History ℚ} (r : HistRun P ctx nv h h') :
    ∀ e ∈ h'.log, e ∈ h.log ∨ ∃ pen, P pen ∧ ∃ x : Individual ℚ, x.Good (RR.ctxAt ctx pen) ∧
      x.isFeasible = true ∧ x.phenotype.length = nv ∧ e = ⟨x.phenotype, x.cost⟩ := by
  induction r with
  | refl => exact fun e he => Or.inl he
  | @step h' pen x r hp hx hf hl hc ih =>
    intro e he
    simp only [History.add, List.mem_append, List.mem_singleton] at he
    rcases he with he | rfl
    · exact ih e he
    · exact Or.inr ⟨pen, hp, x, hx, hf, hl, rfl⟩

theorem GA.steps_inv {env : GAEnv ℚ} {ctx : Ctx ℚ} {hi : ℚ} (hv : ValidUpTo env ctx hi) :
    ∀ (chs : List (GAChoice ℚ)) {g g' : GA ℚ}, (∀ ch ∈ chs, ChOK ch) → Inv env ctx hi g →
      steps env ctx chs g = some g' →
      Inv env ctx hi g' ∧ HistRun (0 < ·) ctx env.split.numVehicles g.rr.hist g'.rr.hist ∧ (∀ M, BestIn M g → BestIn M g')
  | [], g, g', _, hg, h => by
    rw [steps, Option.some.injEq] at h
    subst h
    exact ⟨hg, .refl _, fun _ => id⟩
  | ch :: chs, g, g', hch, hg, h => by
    rw [steps] at h
    split at h
    · rw [Option.some.injEq] at h
      subst h
      exact ⟨hg, .refl _, fun _ => id⟩
    · obtain ⟨g1, h1, h⟩ := Option.bind_eq_some_iff.mp h
      obtain ⟨i1, r1, b1⟩ := iterate_inv hv (hch ch (by simp)) hg h1
      obtain ⟨i2, r2, b2⟩ := steps_inv hv chs (fun c hc => hch c (by simp [hc])) i1 h
      exact ⟨i2, r1.trans r2, fun M b => b2 M (b1 M b)⟩

theorem Spec.solCost_mono (d : ℕ → ℕ → ℚ) (q : ℕ → ℚ) (cap : ℚ) {p p' : ℚ} (h : p ≤ p') (sol : List (List ℕ)) :
    Spec.solCost d q cap p sol ≤ Spec.solCost d q cap p' sol := by
  unfold Spec.solCost
  apply List.sum_le_sum
  intro r _
  unfold Spec.routeCost
  have := mul_le_mul_of_nonneg_right h (le_max_left 0 (Spec.routeLoad q r - cap))
  linarith

namespace Decomp

/-- The best solution of a sub-run is complete, within the capacity and within the fleet, and no dearer than
a feasible initial one. -/
theorem run_good {env : GAEnv ℚ} {ctx : Ctx ℚ} (hv : GA.Valid env ctx) {ω : Oracle}
    {chs : List (GAChoice ℚ)} (hch : ∀ ch ∈ chs, GA.ChOK ch) {x y : Individual ℚ}
    (hx : x.Good (RR.ctxAt ctx env.initialPen)) (hl : x.numNonemptyRoutes ≤ env.split.numVehicles)
    (h : run env ctx ω chs x = some y) :
    Spec.IsPartition ctx.n y.phenotype ∧ Spec.CapFeasible ctx.demand ctx.cap (1 / 1000000) y.phenotype ∧
      (x.isFeasible = true → x.cost < inf - 1 / 1000000 →
        Spec.solCost ctx.dist ctx.demand ctx.cap 0 y.phenotype ≤ x.cost) ∧
      y.numNonemptyRoutes ≤ env.split.numVehicles := by
  unfold run at h
  obtain ⟨g0, h0, h⟩ := Option.bind_eq_some_iff.mp h
  obtain ⟨g1, h1, hend⟩ := Option.bind_eq_some_iff.mp h
  have hb : g1.bestSolution = some y := by
    split at hend
    · exact hend
    · simp at hend
  unfold GA.addInitial at h0
  obtain ⟨g2, h2, rfl⟩ := Option.map_eq_some_iff.mp h0
  have i0 := GA.new_inv hv ω
  obtain ⟨b2, q, rfl⟩ := GA.addToPop_base hv i0.base hx hl h2
  have b3 : GA.Base env ctx { (GA.new env ctx ω) with pop := q, child := x } :=
    ⟨b2.pop, b2.len, b2.ready, b2.nbr, b2.lsLen, b2.split⟩
  generalize hgg : ({ (GA.new env ctx ω) with pop := q, child := x } : GA ℚ) = g3 at b3 h1
  have hstate : g3.state = .created := by rw [← hgg]; rfl
  have hrr : g3.rr = (GA.new env ctx ω).rr := by rw [← hgg]
  have hchild : g3.child = x := by rw [← hgg]
  have hnone : g3.bestSolution = none := by rw [← hgg]; rfl
  have hcur : g3.currentBest = inf := by rw [← hgg]; rfl
  have hlog : g3.rr.hist = History.new := by rw [hrr]; rfl
  obtain ⟨e1, e2, e3, hist, e4⟩ := GA.updateBest_other g3
  have hm := i0.mu (Or.inl rfl)
  have hinv : GA.Inv env ctx 10000000 g3.updateBest := by
    refine ⟨GA.updateBest_base b3, fun _ => ?_, ?_, fun e => ?_⟩
    · rw [e4, hrr]
      exact ⟨⟨hm.idle.routes, hm.idle.locs, hm.idle.unassigned, hm.idle.ruined⟩, hm.upd, hm.sched, hm.pen⟩
    · rw [GA.updateBest_child, hchild]
      exact GA.good_perm hx
    · rw [(GA.updateBest_frame g3).state, hstate] at e
      simp at e
  -- what is recorded before the run
  obtain ⟨M, hM1, hM2⟩ : ∃ M : Option ℚ, (∀ c, M = some c → c = x.cost ∧ x.isFeasible = true ∧
      x.cost < inf - 1 / 1000000) ∧ (x.isFeasible = true → x.cost < inf - 1 / 1000000 → M = some x.cost) := by
    by_cases hx2 : x.isFeasible = true ∧ x.cost < inf - 1 / 1000000
    · exact ⟨some x.cost, fun c e => ⟨(Option.some.inj e).symm, hx2⟩, fun _ _ => rfl⟩
    · exact ⟨none, fun c e => by simp at e, fun a b => absurd ⟨a, b⟩ hx2⟩
  have hstart : GA.BestIn M g3.updateBest ∧
      ∀ e ∈ g3.updateBest.rr.hist.log, e = ⟨x.phenotype, x.cost⟩ ∧ x.isFeasible = true := by
    unfold GA.updateBest
    split
    · rename_i hc
      rw [hchild, Bool.and_eq_true] at hc
      dsimp only
      split
      · refine ⟨⟨fun b e => ?_, fun c e => ⟨_, rfl, ?_⟩⟩, fun e he => ?_⟩
        · simp only [Option.some.injEq] at e
          subst e
          exact ⟨by simp [History.add], le_refl _⟩
        · rw [hchild, (hM1 c e).1]
        · rw [hchild] at he
          simp only [hlog, History.add, History.new, List.nil_append, List.mem_singleton] at he
          exact ⟨he, hc.1⟩
      · rename_i hc2
        refine ⟨⟨fun b e => by simp [hnone] at e, fun c e => ?_⟩, fun e he => ?_⟩
        · exfalso
          apply hc2
          simp only [hlog, History.new, hchild, rat_approxLt, decide_eq_true_eq]
          exact (hM1 c e).2.2
        · simp [hlog, History.new] at he
    · rename_i hc
      refine ⟨⟨fun b e => by simp [hnone] at e, fun c e => ?_⟩, fun e he => ?_⟩
      · exfalso
        apply hc
        rw [hchild, hcur, Bool.and_eq_true, rat_approxLt, decide_eq_true_eq]
        exact (hM1 c e).2
      · simp [hlog, History.new] at he
  obtain ⟨s1, s2⟩ := hstart
  obtain ⟨i1, r1, bb⟩ := GA.steps_inv hv chs hch hinv h1
  obtain ⟨m0, m3⟩ := bb _ s1
  obtain ⟨m1, m2⟩ := m0 y hb
  have hrec : ∃ pen, 0 < pen ∧ ∃ z : Individual ℚ, z.Good (RR.ctxAt ctx pen) ∧ z.isFeasible = true ∧
      z.phenotype = y.phenotype ∧ z.cost = y.cost ∧ z.numNonemptyRoutes ≤ env.split.numVehicles := by
    rcases r1.entries _ m1 with he | ⟨pen, hp, z, hz, hf, hzl, he⟩
    · obtain ⟨e, hf⟩ := s2 _ he
      simp only [HistEntry.mk.injEq] at e
      exact ⟨_, by linarith [hv.pen.1], x, hx, hf, e.1.symm, e.2.symm, hl⟩
    · simp only [HistEntry.mk.injEq] at he
      exact ⟨pen, hp, z, hz, hf, he.1.symm, he.2.symm, GA.nonempty_le hzl⟩
  obtain ⟨pen, hp, z, hz, hf, ep, ec, hzn⟩ := hrec
  refine ⟨ep ▸ hz.part, ep ▸ hz.feasible.mp hf, fun hf hc => ?_, by
    unfold Individual.numNonemptyRoutes at hzn ⊢; rwa [← ep]⟩
  obtain ⟨b, hb', hle⟩ := m3 x.cost (hM2 hf hc)
  rw [hb, Option.some.injEq] at hb'
  subst hb'
  refine le_trans ?_ hle
  rw [← ec, hz.cost, ← ep]
  exact Spec.solCost_mono _ _ _ hp.le _

end Decomp
end Verif
