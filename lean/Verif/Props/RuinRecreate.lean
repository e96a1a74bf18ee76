import Verif.Lemmas.RuinRecreate

/-!
# C25, C26: the ruin-and-recreate search

Statements use only `Spec` (partitions and route costs) and the entry points `load`, `search` and
`get_best_solution`. Exact arithmetic. The acceptance schedule, its state, the draws, the clock and the
iteration order of the hash set are arbitrary.
-/

namespace Verif
open F64 RRSol

namespace RR

/-- Any number of calls of `search` with arbitrary choices. -/
def searches {α : Type} [F64 α] (env : RREnv α) (ctx : Ctx α) :
    List (ℕ → RRChoice α) → RR α → Option (RR α)
  | [], st => some st
  | ch :: chs, st => (search env ctx ch st).bind (searches env ctx chs)

theorem searches_inv {env : RREnv ℚ} {ctx : Ctx ℚ} {nv : ℕ} {P : ℚ → Prop} (hnv : env.numVehicles = nv) :
    ∀ (chs : List (ℕ → RRChoice ℚ)), (∀ ch ∈ chs, ∀ i, ChoiceOK (ch i)) → ∀ {st st' : RR ℚ},
      Inv ctx nv st → PenOK env P st → searches env ctx chs st = some st' →
      Step P ctx nv st st' ∧ (st.updatePenalty = false → NoWorse st st')
  | [], _, st, st', hi, hP, h => by
    simp only [searches, Option.some.injEq] at h
    subst h
    exact ⟨⟨hi, .refl _, rfl, hP.now⟩, fun _ => ⟨rfl, fun b hb => ⟨b, hb, le_refl _⟩⟩⟩
  | ch :: chs, hch, st, st', hi, hP, h => by
    unfold searches at h
    simp only [Option.bind_eq_some_iff] at h
    obtain ⟨st1, h1, h2⟩ := h
    obtain ⟨s1, n1⟩ := searchLoop_inv (hch ch (by simp)) hnv 1000 hi hP h1
    obtain ⟨s2, n2⟩ := searches_inv hnv chs (fun c hc => hch c (by simp [hc])) s1.inv
      ⟨s1.pen, fun e => hP.upd (s1.upd ▸ e)⟩ h2
    refine ⟨⟨s2.inv, s1.hist.trans s2.hist, s2.upd.trans s1.upd, s2.pen⟩, fun hf => ?_⟩
    have a := n1 hf
    have b := n2 (s1.upd.trans hf)
    refine ⟨b.1.trans a.1, fun x hx => ?_⟩
    obtain ⟨y, hy, hle⟩ := a.2 x hx
    obtain ⟨z, hz, hle'⟩ := b.2 y hy
    exact ⟨z, hz, hle'.trans hle⟩

theorem searches_total {env : RREnv ℚ} {ctx : Ctx ℚ} {nv : ℕ} (hnv : env.numVehicles = nv)
    (hn : 2 ≤ ctx.n) (hnb : NbrsOK ctx.n env.nbrs) :
    ∀ (chs : List (ℕ → RRChoice ℚ)), (∀ ch ∈ chs, ∀ i, ChoiceOK (ch i)) → ∀ {st : RR ℚ},
      Inv ctx nv st → st.updatePenalty = false → Tame (ctxAt ctx st.pen) →
      ∃ st', searches env ctx chs st = some st'
  | [], _, st, _, _, _ => ⟨_, rfl⟩
  | ch :: chs, hch, st, hi, hu, ht => by
    obtain ⟨st1, h1⟩ := searchLoop_total (hch ch (by simp)) hnv hn hnb 1000 hi hu ht
    obtain ⟨s1, n1⟩ := searchLoop_inv (P := fun _ => True) (hch ch (by simp)) hnv 1000 hi
      ⟨trivial, fun _ _ _ => ⟨trivial, trivial⟩⟩ h1
    unfold searches search
    rw [h1, Option.bind_some]
    exact searches_total hnv hn hnb chs (fun c hc => hch c (by simp [hc])) s1.inv (s1.upd.trans hu)
      (by rw [(n1 hu).1]; exact ht)

end RR

/-- An individual as the search expects it: `nv` routes that visit every customer exactly once, evaluated
under some penalty (the search recomputes the cost itself). -/
def Loadable (ctx : Ctx ℚ) (nv : ℕ) (x : Individual ℚ) : Prop :=
  x.phenotype.length = nv ∧ ∃ p, x.Good (RR.ctxAt ctx p)

/-- A search object between two uses: `nv` routes, one location per node, nothing unassigned. -/
structure RR.Idle {α : Type} (ctx : Ctx α) (nv : ℕ) (st : RR α) : Prop where
  routes : st.solution.routes.length = nv
  locs : st.solution.locs.length = ctx.n
  unassigned : st.solution.unassigned = []
  ruined : st.solution.ruined = []

theorem RR.Inv.idle {ctx : Ctx ℚ} {nv : ℕ} {st : RR ℚ} (h : RR.Inv ctx nv st) : st.Idle ctx nv :=
  ⟨h.solLen, h.sol.len, h.sol.unassigned, h.sol.ruined⟩

/-- A new object is idle. -/
theorem RR.new_idle {α : Type} [F64 α] (ctx : Ctx α) (nv : ℕ) (t : α) (it : ℕ) (p : α) (h : History α) :
    (RR.new ctx nv t it p h).Idle ctx nv :=
  ⟨by simp [RR.new, RRSol.new], by simp [RR.new, RRSol.new], rfl, rfl⟩

/-- C25. Load a complete individual into an idle object, run any number of searches at a fixed penalty
and read the best solution back into an individual with the same number of routes: nothing panics, the
result visits every customer exactly once, its recorded cost is its penalized cost, and that is at most
the penalized cost of the individual loaded. Every history write on the way records a complete feasible
solution, evaluated at that penalty. -/
theorem C25_ruin_recreate (env : RREnv ℚ) (ctx : Ctx ℚ) (nv : ℕ) (hnv : env.numVehicles = nv)
    (hn : 2 ≤ ctx.n) (hnb : RR.NbrsOK ctx.n env.nbrs)
    (st : RR ℚ) (hst : st.Idle ctx nv) (hu : st.updatePenalty = false)
    (ht : Tame (RR.ctxAt ctx st.pen)) (now : ℚ)
    (x : Individual ℚ) (hx : Loadable ctx nv x)
    (chs : List (ℕ → RRChoice ℚ)) (hch : ∀ ch ∈ chs, ∀ i, RR.ChoiceOK (ch i))
    (y : Individual ℚ) (hy : y.phenotype.length = nv) :
    ∃ st1 st2 z, RR.load ctx now x st = some st1 ∧ RR.searches env ctx chs st1 = some st2 ∧
      RR.getBest env ctx st2 y = some z ∧
      Spec.IsPartition ctx.n z.phenotype ∧ z.genotype = z.phenotype.flatten ∧
      z.phenotype.length = nv ∧
      z.cost = Spec.solCost ctx.dist ctx.demand ctx.cap st.pen z.phenotype ∧
      z.cost ≤ Spec.solCost ctx.dist ctx.demand ctx.cap st.pen x.phenotype ∧
      st2.Idle ctx nv ∧ HistRun (· = st.pen) ctx nv st.hist st2.hist := by
  obtain ⟨p, hp⟩ := hx.2
  obtain ⟨st1, e1, i1, p1, h1, u1, -, s1, b1, -⟩ := RR.load_inv (now := now) (st := st) hp hx.1
    hst.routes hst.locs hst.unassigned hst.ruined
  obtain ⟨st2, e2⟩ := RR.searches_total hnv hn hnb chs hch i1 (u1.trans hu) (by rw [p1]; exact ht)
  obtain ⟨⟨i2, h2, -, -⟩, n2⟩ := RR.searches_inv (P := (· = st.pen)) hnv chs hch i1
    ⟨p1, fun e => by rw [u1, hu] at e; simp at e⟩ e2
  obtain ⟨p2, n2⟩ := n2 (u1.trans hu)
  obtain ⟨b, hb, hle⟩ := n2 _ b1
  obtain ⟨v, l, k⟩ := i2.best b hb
  obtain ⟨z, hz⟩ := RR.updateIndividual_total (atan2 := env.atan2) (ctx := RR.ctxAt ctx st2.pen)
    (x := y) (show 0 < ctx.n by omega) v.at (l.trans hy.symm)
  obtain ⟨g, gp, -, -⟩ := RR.updateIndividual_some v.at (l.trans hy.symm) hz
  have hpen : st2.pen = st.pen := p2.trans p1
  have hc : z.cost = Spec.solCost ctx.dist ctx.demand ctx.cap st.pen z.phenotype := by
    rw [g.cost, ← hpen]; rfl
  refine ⟨st1, st2, z, e1, e2, ?_, g.part, g.geno, ?_, hc, ?_, i2.idle, h1 ▸ h2⟩
  · unfold RR.getBest
    rw [hb]
    exact hz
  · rw [gp.length_eq, RRSol.length_stops, l]
  · have e : z.cost = b.cost := by
      rw [g.cost, Spec.solCost_perm _ _ _ _ gp, k]
      rfl
    have e' : st1.solution.cost = Spec.solCost ctx.dist ctx.demand ctx.cap st.pen x.phenotype := by
      rw [i1.solCost, RRSol.trueCost, s1, p1]
    rw [e, ← e']
    exact hle

/-- With penalty updates between the rounds (elite education) the result is still complete and carries
its true cost at the final penalty, whatever that is; only the comparison with the start is lost. -/
theorem C25_elite_education (env : RREnv ℚ) (ctx : Ctx ℚ) (nv : ℕ) (hnv : env.numVehicles = nv)
    (st st1 st2 : RR ℚ) (hst : st.Idle ctx nv) (now : ℚ)
    (x : Individual ℚ) (hx : Loadable ctx nv x) (h1 : RR.load ctx now x st = some st1)
    (chs : List (ℕ → RRChoice ℚ)) (hch : ∀ ch ∈ chs, ∀ i, RR.ChoiceOK (ch i))
    (h2 : RR.searches env ctx chs st1 = some st2)
    (y z : Individual ℚ) (hy : y.phenotype.length = nv) (h3 : RR.getBest env ctx st2 y = some z) :
    (st2.best = none ∧ z = y) ∨ (Spec.IsPartition ctx.n z.phenotype ∧ z.phenotype.length = nv ∧
      z.cost = Spec.solCost ctx.dist ctx.demand ctx.cap st2.pen z.phenotype) := by
  obtain ⟨p, hp⟩ := hx.2
  obtain ⟨st1', e1, i1, -⟩ := RR.load_inv (now := now) (st := st) hp hx.1
    hst.routes hst.locs hst.unassigned hst.ruined
  rw [h1, Option.some.injEq] at e1
  subst e1
  obtain ⟨⟨i2, -, -, -⟩, -⟩ := RR.searches_inv (P := fun _ => True) hnv chs hch i1
    ⟨trivial, fun _ _ _ => ⟨trivial, trivial⟩⟩ h2
  unfold RR.getBest at h3
  cases hb : st2.best with
  | none =>
    rw [hb] at h3
    simp only [Option.some.injEq] at h3
    exact Or.inl ⟨rfl, h3.symm⟩
  | some b =>
    rw [hb] at h3
    obtain ⟨v, l, k⟩ := i2.best b hb
    obtain ⟨g, gp, -, -⟩ := RR.updateIndividual_some v.at (l.trans hy.symm) h3
    exact Or.inr ⟨g.part, by rw [gp.length_eq, RRSol.length_stops, l], g.cost⟩

/-! ### C26 -/

/-- The reference cost of the first round after loading, as C26 wants it: the penalized cost of the
loaded individual. -/
def Spec.StartsFromLoaded (ctx : Ctx ℚ) (pen : ℚ) (x : Individual ℚ) (reference : ℚ) : Prop :=
  reference = Spec.solCost ctx.dist ctx.demand ctx.cap pen x.phenotype

/-- C26, the part that holds: the loaded solution itself, and from the second round on the working copy,
carry the true cost. What is missing: the working copy of the *first* round, whose cost
`C26_first_reference` shows to be whatever the object held before loading. -/
theorem C26_reference_partial (env : RREnv ℚ) (ctx : Ctx ℚ) (nv : ℕ) (hnv : env.numVehicles = nv)
    (st st1 st2 : RR ℚ) (hst : st.Idle ctx nv) (now : ℚ)
    (x : Individual ℚ) (hx : Loadable ctx nv x) (h1 : RR.load ctx now x st = some st1)
    (ch : RRChoice ℚ) (hch : RR.ChoiceOK ch) (h2 : RR.round env ctx ch st1 = some st2) :
    Spec.StartsFromLoaded ctx st.pen x st1.solution.cost ∧
    st2.current.cost = st2.solution.cost ∧
    st2.current.cost = Spec.solCost ctx.dist ctx.demand ctx.cap st2.pen st2.current.stops := by
  obtain ⟨p, hp⟩ := hx.2
  obtain ⟨st1', e1, i1, p1, -, -, -, s1, -⟩ := RR.load_inv (now := now) (st := st) hp hx.1
    hst.routes hst.locs hst.unassigned hst.ruined
  rw [h1, Option.some.injEq] at e1
  subst e1
  obtain ⟨⟨i2, -, -, -⟩, -, c2, r2⟩ := RR.round_inv (P := fun _ => True) hch i1 hnv trivial h2
  refine ⟨?_, c2, ?_⟩
  · unfold Spec.StartsFromLoaded
    rw [i1.solCost, RRSol.trueCost, s1, p1]
  · rw [c2, i2.solCost, RRSol.trueCost]
    unfold stops
    rw [r2]

/-- The reference cost of the first round is the cost the object held before the individual was loaded:
`∞` for a new object, the cost of an earlier solution otherwise. It does not depend on the individual. -/
theorem C26_first_reference (ctx : Ctx ℚ) (nv : ℕ) (st : RR ℚ) (hst : st.Idle ctx nv) (now : ℚ)
    (x : Individual ℚ) (hx : Loadable ctx nv x) :
    ∃ st1, RR.load ctx now x st = some st1 ∧ st1.current.cost = st.solution.cost := by
  obtain ⟨p, hp⟩ := hx.2
  obtain ⟨st1, e1, -, -, -, -, -, -, -, c1⟩ := RR.load_inv (now := now) (st := st) hp hx.1
    hst.routes hst.locs hst.unassigned hst.ruined
  exact ⟨st1, e1, c1⟩

/-- Consequence: with a new object the first round accepts *every* candidate of finite cost, however bad,
under every non-negative temperature. -/
theorem C26_first_round_accepts_anything (ctx : Ctx ℚ) (nv : ℕ) (t : ℚ) (ht : 0 ≤ t) (it : ℕ) (p : ℚ)
    (h : History ℚ) (now : ℚ) (x : Individual ℚ) (hx : Loadable ctx nv x) (ln : ℚ → ℚ)
    (hln : ∀ u, 0 ≤ u → u < 1 → ln u ≤ 0) (w : ℕ) (c : ℚ) (hc : c ≤ 2 ^ 1023) :
    ∃ st1, RR.load ctx now x (RR.new ctx nv t it p h) = some st1 ∧
      st1.acceptance.accept ln w c st1.current.cost = true := by
  obtain ⟨q, hq⟩ := hx.2
  have hst := RR.new_idle ctx nv t it p h
  obtain ⟨st1, e1, -, -, -, -, a1, -, -, c1⟩ := RR.load_inv (now := now) hq hx.1
    hst.routes hst.locs hst.unassigned hst.ruined
  refine ⟨st1, e1, ?_⟩
  rw [a1, c1]
  have h1 : ln (realDraw w) ≤ 0 := hln _ (realDraw_nonneg w) (realDraw_lt_one w)
  have h2 : t * ln (realDraw w) ≤ 0 := mul_nonpos_of_nonneg_of_nonpos ht h1
  have h3 : (2 : ℚ) ^ 1024 = 2 ^ 1023 * 2 := pow_succ 2 1023
  have h4 : (1 : ℚ) ≤ 2 ^ 1023 := one_le_pow₀ (by norm_num)
  show approxLt c ((2 : ℚ) ^ 1024 - t * ln (realDraw w)) = true
  rw [rat_approxLt, decide_eq_true_eq, h3]
  generalize (2 : ℚ) ^ 1023 = z at *
  clear h3
  linarith

namespace RuinEx

/-- The individual with the routes of `sol`, evaluated. -/
def ind : Individual ℚ :=
  ⟨0, [1, 2, 3, 5, 4], [[1, 2, 3], [], [5, 4]], 0,
    (evaluate ctx SolEval.new [[1, 2, 3], [], [5, 4]]).getD SolEval.new⟩

theorem ind_good : ind.Good ctx where
  part := by unfold Spec.IsPartition; decide
  geno := rfl
  eval := ⟨SolEval.new, by
    obtain ⟨e', he, -⟩ := C01_evaluate_exact ctx SolEval.new [[1, 2, 3], [], [5, 4]] (by decide)
      (by decide)
    simp only [ind, he, Option.getD_some]⟩

theorem ind_loadable : Loadable ctx 3 ind := ⟨rfl, 10, ind_good⟩

def env : RREnv ℚ := ⟨10, 10, 3, 1.2, 0.85, nbrs, fun _ _ => 0, fun _ => 1, fun _ => -1⟩

theorem nbrs_ok : RR.NbrsOK ctx.n env.nbrs := fun c _ _ => ⟨_, rfl, fun v hv => by
    have := List.mem_of_mem_erase hv
    simp at this
    show 1 ≤ v ∧ v < 6
    omega⟩

def start : RR ℚ := RR.new ctx 3 100 500 10 History.new

/-- The hypotheses of `C25_ruin_recreate`: a new object, three routes, two searches, and a hash set that
is iterated backwards. -/
example : env.numVehicles = 3 ∧ 2 ≤ ctx.n ∧ RR.NbrsOK ctx.n env.nbrs ∧ start.Idle ctx 3 ∧
    start.updatePenalty = false ∧ Tame (RR.ctxAt ctx start.pen) ∧ Loadable ctx 3 ind ∧
    (∀ ch ∈ ([fun _ => ⟨fun i => i, fun _ l => l.reverse, 0⟩,
      fun _ => ⟨fun i => i + 7, fun _ l => l, 1⟩] : List (ℕ → RRChoice ℚ)), ∀ i, RR.ChoiceOK (ch i)) ∧
    ind.phenotype.length = 3 := by
  refine ⟨rfl, by decide, nbrs_ok, RR.new_idle _ _ _ _ _ _, rfl, ctx_tame, ind_loadable, ?_, rfl⟩
  intro ch hch i k l
  simp only [List.mem_cons, List.not_mem_nil, or_false] at hch
  rcases hch with rfl | rfl
  · exact List.reverse_perm l
  · exact List.Perm.refl l

/-- C26 is false: loading this individual (cost 16) into a new object leaves `∞` as the reference of
the first round. -/
theorem C26_reference_refuted : ∃ st1, RR.load ctx 0 ind start = some st1 ∧
    ¬ Spec.StartsFromLoaded ctx start.pen ind st1.current.cost := by
  obtain ⟨st1, h1, h2⟩ := C26_first_reference ctx 3 start (RR.new_idle _ _ _ _ _ _) 0 ind ind_loadable
  refine ⟨st1, h1, ?_⟩
  unfold Spec.StartsFromLoaded
  rw [h2]
  have : Spec.solCost ctx.dist ctx.demand ctx.cap start.pen ind.phenotype = 16 := by decide +kernel
  rw [this]
  show ¬ ((2 : ℚ) ^ 1024 = 16)
  have h3 : (2 : ℚ) ^ 1024 = 2 ^ 1019 * 32 := by rw [show (32 : ℚ) = 2 ^ 5 by norm_num, ← pow_add]
  have h4 : (1 : ℚ) ≤ 2 ^ 1019 := one_le_pow₀ (by norm_num)
  rw [h3]
  generalize (2 : ℚ) ^ 1019 = z at *
  clear h3
  intro h
  linarith

end RuinEx
end Verif
