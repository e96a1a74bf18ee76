import Verif.Props.RuinRecreate

/-! # The ruin-and-recreate search in any arithmetic (runs that return)

`E` stands for whatever is known of the recorded length and overload of a route; `RouteLaws` says that
loading, inserting and removing keep it. -/

namespace Verif
open F64 RRSol

variable {α : Type} [F64 α]

/-- What is known of the recorded values of a route is established by loading an evaluated individual and
kept by inserting and removing a customer, as long as the route has fewer stops than there are nodes. -/
structure RouteLaws (ctx : Ctx α) (E : RRoute α → Prop) : Prop where
  load : ∀ (p : α) (x : Individual α), x.Good (RR.ctxAt ctx p) → ∀ (j : ℕ) (l : List ℕ) (ev : RouteEval α),
    x.phenotype[j]? = some l → x.evaluation.routes[j]? = some ev → E ⟨l, ev.distance, ev.overload⟩
  add : ∀ (rt rt' : RRoute α) (i c : ℕ), rt.nodes.length + 1 < ctx.n → E rt → rt.add ctx i c = some rt' → E rt'
  remove : ∀ (rt : RRoute α) (i : ℕ) (y : RRoute α × ℕ), rt.nodes.length < ctx.n → E rt →
    rt.remove ctx i = some y → E y.1

/-- A sound solution on `nv` routes that all have `E`. -/
structure RRSol.OK (ctx : Ctx α) (E : RRoute α → Prop) (nv : ℕ) (s : RRSol α) : Prop extends Sound ctx s where
  count : s.routes.length = nv
  all : ∀ rt ∈ s.routes, E rt

theorem RRSol.Sound.at {ctx : Ctx α} {p : α} {s : RRSol α} (h : s.Sound ctx) : s.Sound (RR.ctxAt ctx p) :=
  ⟨h.part, h.locs, h.len, h.unassigned, h.ruined⟩

theorem RRSol.Sound.of_at {ctx : Ctx α} {p : α} {s : RRSol α} (h : s.Sound (RR.ctxAt ctx p)) : s.Sound ctx :=
  ⟨h.part, h.locs, h.len, h.unassigned, h.ruined⟩

/-- An individual that may be recorded: complete, evaluated under the penalty `p`, on at most `nv` routes that are
not empty, and found feasible and cheaper than something by its own evaluation or by that of a
ruin-and-recreate solution with the same routes. -/
structure Recorded (ctx : Ctx α) (E : RRoute α → Prop) (nv : ℕ) (p : α) (x : Individual α) : Prop where
  good : x.Good (RR.ctxAt ctx p)
  count : x.numNonemptyRoutes ≤ nv
  fits : (x.isFeasible = true ∧ ∃ b, approxLt x.cost b = true) ∨ ∃ s : RRSol α, (∀ rt ∈ s.routes, E rt) ∧
    s.isFeasible = true ∧ x.phenotype.Perm s.stops ∧ ∃ b, approxLt (costOf (RR.ctxAt ctx p) s.routes) b = true

/-- What was found of `x` when it was recorded and the recorded best cost was `b`: feasible and cheaper, by its own
evaluation or by that of a ruin-and-recreate solution with the same routes. -/
def Beats (ctx : Ctx α) (E : RRoute α → Prop) (p : α) (x : Individual α) (b : α) : Prop :=
  (x.isFeasible = true ∧ approxLt x.cost b = true) ∨ ∃ s : RRSol α, (∀ rt ∈ s.routes, E rt) ∧
    s.isFeasible = true ∧ x.phenotype.Perm s.stops ∧ approxLt (costOf (RR.ctxAt ctx p) s.routes) b = true

theorem Beats.recorded {ctx : Ctx α} {E : RRoute α → Prop} {nv : ℕ} {p b : α} {x : Individual α}
    (h : Beats ctx E p x b) (hg : x.Good (RR.ctxAt ctx p)) (hl : x.numNonemptyRoutes ≤ nv) :
    Recorded ctx E nv p x := by
  refine ⟨hg, hl, ?_⟩
  rcases h with ⟨h1, h2⟩ | ⟨s, h1, h2, h3, h4⟩
  · exact Or.inl ⟨h1, _, h2⟩
  · exact Or.inr ⟨s, h1, h2, h3, _, h4⟩

/-- Everything ever recorded, with the best cost after it: each entry beats the best cost at its time. -/
inductive HistLog (ctx : Ctx α) (E : RRoute α → Prop) (nv : ℕ) : List (HistEntry α) → α → Prop
  | new : HistLog ctx E nv [] inf
  | add {l : List (HistEntry α)} {b p : α} {x : Individual α} : HistLog ctx E nv l b → Recorded ctx E nv p x →
      Beats ctx E p x b → HistLog ctx E nv (l ++ [⟨x.phenotype, x.cost⟩]) x.cost

/-- Everything ever recorded is a recordable individual that beats the recorded best, and the last entry is the
last recorded. -/
def HistOK (ctx : Ctx α) (E : RRoute α → Prop) (nv : ℕ) (h : History α) : Prop :=
  h.entries.getLast? = h.log.getLast? ∧ (∀ e ∈ h.log, ∃ p x, Recorded ctx E nv p x ∧ e = ⟨x.phenotype, x.cost⟩) ∧
    HistLog ctx E nv h.log h.bestCost

theorem HistOK.new (ctx : Ctx α) (E : RRoute α → Prop) (nv : ℕ) : HistOK ctx E nv History.new := by
  refine ⟨rfl, fun e he => ?_, .new⟩
  simp [History.new] at he

theorem HistOK.add {ctx : Ctx α} {E : RRoute α → Prop} {nv : ℕ} {h : History α} (hh : HistOK ctx E nv h)
    {p : α} {x : Individual α} (hg : x.Good (RR.ctxAt ctx p)) (hl : x.numNonemptyRoutes ≤ nv)
    (hb : Beats ctx E p x h.bestCost) : HistOK ctx E nv (h.add x) := by
  refine ⟨by simp [History.add], fun e he => ?_, .add hh.2.2 (hb.recorded hg hl) hb⟩
  simp only [History.add, List.mem_append, List.mem_singleton] at he
  rcases he with he | rfl
  · exact hh.2.1 e he
  · exact ⟨p, x, hb.recorded hg hl, rfl⟩

theorem length_le_flatten {β : Type} {l : List β} : ∀ {ls : List (List β)}, l ∈ ls →
    l.length ≤ ls.flatten.length
  | [], h => by simp at h
  | a :: ls, h => by
    rw [List.flatten_cons, List.length_append]
    rw [List.mem_cons] at h
    rcases h with rfl | h
    · omega
    · have := length_le_flatten h
      omega

namespace RR

variable {env : RREnv α} {ctx : Ctx α} {E : RRoute α → Prop} {nv : ℕ}

theorem updateIndividual_any {atan2 : α → α → α} {s : RRSol α} {x y : Individual α}
    (hu : s.unassigned = []) (hp : Spec.IsPartition ctx.n s.stops)
    (hl : s.routes.length = x.phenotype.length) (h : updateIndividual atan2 ctx s x = some y) :
    y.Good ctx ∧ y.phenotype.Perm s.stops := by
  unfold updateIndividual at h
  rw [if_pos (by simp [hu])] at h
  unfold overwrite at h
  rw [if_pos (by simp [hl]), Option.bind_some, List.drop_eq_nil_of_le (by simp [hl]),
    List.append_nil, Option.bind_eq_some_iff] at h
  obtain ⟨z, hz, hy⟩ := h
  obtain ⟨p1, p2, p3, p4, p5⟩ := sortRoutes_of_some rfl hz
  rw [Individual.evaluate, Option.map_eq_some_iff] at hy
  obtain ⟨e, he, rfl⟩ := hy
  exact ⟨⟨p1.flatten.trans hp, p2, ⟨_, he⟩⟩, p1⟩

theorem copyFrom_any {s t u : RRSol α} (hs : s.Sound ctx) (ht : t.OK ctx E nv)
    (hl : s.routes.length = nv) (h : s.copyFrom t = some u) : u.OK ctx E nv := by
  have hl' : s.locs.length = t.locs.length := by rw [hs.len, ht.len]
  have hl2 : s.routes.length = t.routes.length := by rw [hl, ht.count]
  unfold copyFrom at h
  rw [if_pos ⟨by omega, by omega⟩, Option.some.injEq] at h
  subst h
  rw [hl2, hl']
  simp only [List.take_length]
  exact ⟨⟨ht.part, ht.locs, ht.len, hs.unassigned, hs.ruined⟩, ht.count, ht.all⟩

theorem removeSeq_any (hE : RouteLaws ctx E) : ∀ {is : List ℕ} {r : RRoute α} {p : RRoute α × List ℕ},
    r.nodes.length < ctx.n → E r → removeSeq ctx is r = some p → E p.1
  | [], r, p, _, he, h => by
    simp only [removeSeq, Option.some.injEq] at h
    exact h ▸ he
  | i :: is, r, p, hl, he, h => by
    unfold removeSeq at h
    simp only [Option.bind_eq_some_iff, Option.map_eq_some_iff] at h
    obtain ⟨y, hy, q, hq, rfl⟩ := h
    obtain ⟨a, b, h1, -, h3⟩ := RRoute.remove_some hy
    show E q.1
    refine removeSeq_any hE (p := q) ?_ (hE.remove _ _ _ hl he hy) hq
    rw [h1] at hl
    rw [h3]
    simp only [List.length_append, List.length_cons] at hl ⊢
    omega

theorem ruinLoop_any (hE : RouteLaws ctx E) {ω : Oracle} {lsmax : α} {ks : ℕ} :
    ∀ {vs : List ℕ} {s s' : RRSol α}, (∀ rt ∈ s.routes, E rt ∧ rt.nodes.length < ctx.n) →
      ruinLoop ctx ω lsmax ks vs s = some s' → ∀ rt ∈ s'.routes, E rt ∧ rt.nodes.length < ctx.n
  | [], s, s', h, he => by
    simp only [ruinLoop, Option.some.injEq] at he
    exact he ▸ h
  | v :: vs, s, s', h, he => by
    unfold ruinLoop at he
    simp only [Option.bind_eq_some_iff] at he
    obtain ⟨loc, hloc, he⟩ := he
    split at he
    · exact ruinLoop_any hE h he
    · simp only [Option.bind_eq_some_iff] at he
      obtain ⟨rt, hrt, s1, h1, he⟩ := he
      have h2 : ∀ rt ∈ s1.routes, E rt ∧ rt.nodes.length < ctx.n := by
        unfold ruinRoute at h1
        simp only [Option.bind_eq_some_iff, Option.map_eq_some_iff] at h1
        obtain ⟨loc, -, rt', hrt', is, -, p, hp, rfl⟩ := h1
        intro x hx
        rcases List.mem_or_eq_of_mem_set hx with hx | rfl
        · exact h x hx
        · obtain ⟨k1, k2⟩ := h rt' (List.mem_of_getElem? hrt')
          obtain ⟨-, hs, -⟩ := removeSeq_some hp
          exact ⟨removeSeq_any hE k2 k1 hp, lt_of_le_of_lt hs.length_le k2⟩
      split at he
      · simp only [Option.some.injEq] at he
        exact he ▸ h2
      · exact ruinLoop_any hE h2 he

theorem insertAll_any (hE : RouteLaws ctx E) {order : ℕ → List ℕ → List ℕ} : ∀ {cs : List ℕ}
    {routes : List (RRoute α)} {updated : List ℕ} {p : List (RRoute α) × List ℕ},
    insertAll ctx order cs routes updated = some p →
      (∀ rt ∈ routes, E rt ∧ rt.nodes.length + cs.length < ctx.n) → ∀ rt ∈ p.1, E rt
  | [], routes, updated, p, h, he => by
    simp only [insertAll, Option.some.injEq] at h
    subst h
    exact fun rt hrt => (he rt hrt).1
  | c :: cs, routes, updated, p, h, he => by
    unfold insertAll at h
    simp only [Option.bind_eq_some_iff] at h
    obtain ⟨q, hq, h⟩ := h
    obtain ⟨r, i, hi⟩ := insertCustomer_some hq
    obtain ⟨rt, rt', e1, e2, rfl⟩ := insertAt_some hi
    refine insertAll_any hE h ?_
    intro x hx
    rcases List.mem_or_eq_of_mem_set hx with hx | rfl
    · obtain ⟨k1, k2⟩ := he x hx
      rw [List.length_cons] at k2
      exact ⟨k1, by omega⟩
    · obtain ⟨k1, k2⟩ := he rt (List.mem_of_getElem? e1)
      rw [List.length_cons] at k2
      obtain ⟨a, b, n1, -, n3⟩ := RRoute.add_some e2
      refine ⟨hE.add _ _ _ _ (by omega) k1 e2, ?_⟩
      rw [n1] at k2
      rw [n3]
      simp only [List.length_append, List.length_cons] at k2 ⊢
      omega

theorem RouteLaws.at {p : α} (hE : RouteLaws ctx E) : RouteLaws (ctxAt ctx p) E :=
  ⟨fun q x hx => hE.load q x ⟨hx.part, hx.geno, hx.eval⟩, hE.add, hE.remove⟩

/-- The working copy after ruin and recreate. -/
theorem operators_any (hE : RouteLaws ctx E) {ch : RRChoice α} (hch : ChoiceOK ch) {p : α}
    (hn : 0 < ctx.n) {s s1 s2 : RRSol α} (hs : s.OK ctx E nv)
    (h1 : s.ruin (ctxAt ctx p) env.nbrs env.cavg env.lmax (ch.ω.sub 0) = some s1)
    (h2 : s1.recreate (ctxAt ctx p) ch.order (ch.ω.sub 1) = some s2) :
    s2.OK ctx E nv ∧ s2.cost = costOf (ctxAt ctx p) s2.routes := by
  have r1 := C22_ruin_structure _ _ _ _ _ _ _ hs.ruined h1
  obtain ⟨q1, q2, q3, q4⟩ := r1.ready (ctx := ctxAt ctx p) hs.toSound.at
  obtain ⟨w1, w2, -⟩ := C23_recreate_structure _ ch.order hch _ s1 s2 q1 q2 q3 q4 h2
  have hcost : s2.cost = costOf (ctxAt ctx p) s2.routes := by
    unfold recreate at h2
    simp only [Option.bind_eq_some_iff, Option.map_eq_some_iff] at h2
    obtain ⟨cs, -, q, -, s3, h3, rfl⟩ := h2
    unfold RRSol.evaluate at h3
    simp only [Option.map_eq_some_iff] at h3
    obtain ⟨l, -, rfl⟩ := h3
    rfl
  refine ⟨⟨w1.of_at, w2.trans (r1.count.trans hs.count), ?_⟩, hcost⟩
  have hlen : ∀ rt ∈ s.routes, E rt ∧ rt.nodes.length < ctx.n := by
    intro rt hrt
    refine ⟨hs.all rt hrt, ?_⟩
    have h3 := length_le_flatten (l := rt.nodes) (ls := s.stops) (List.mem_map.mpr ⟨rt, hrt, rfl⟩)
    have h4 := hs.part.length_eq
    rw [Spec.length_customers] at h4
    omega
  have e1 : ∀ rt ∈ s1.routes, E rt ∧ rt.nodes.length < ctx.n := by
    unfold ruin at h1
    simp only [Option.bind_eq_some_iff] at h1
    obtain ⟨seed, -, vs, -, h1⟩ := h1
    exact ruinLoop_any (ctx := ctxAt ctx p) (RouteLaws.at (p := p) hE) hlen h1
  unfold recreate at h2
  simp only [Option.bind_eq_some_iff, Option.map_eq_some_iff] at h2
  obtain ⟨cs, hcs, q, hq, s3, h3, rfl⟩ := h2
  unfold RRSol.evaluate at h3
  simp only [Option.map_eq_some_iff] at h3
  obtain ⟨l, -, rfl⟩ := h3
  refine fun rt hrt => insertAll_any (ctx := ctxAt ctx p) (RouteLaws.at (p := p) hE) hq (fun rt hrt => ⟨(e1 rt hrt).1, ?_⟩) rt hrt
  have h3 := length_le_flatten (l := rt.nodes) (ls := s1.stops) (List.mem_map.mpr ⟨rt, hrt, rfl⟩)
  have h4 := q1.length_eq
  rw [List.length_append, Spec.length_customers] at h4
  have h5 := (sortUnassigned_perm hcs).length_eq
  change s1.stops.flatten.length + s1.unassigned.length = ctx.n - 1 at h4
  show rt.nodes.length + cs.length < ctx.n
  omega

/-- What holds between the rounds of a search. -/
structure AnyInv (ctx : Ctx α) (E : RRoute α → Prop) (nv : ℕ) (st : RR α) : Prop where
  sol : st.solution.OK ctx E nv
  cur : st.current.OK ctx E nv
  best : ∀ b, st.best = some b → b.OK ctx E nv
  hist : HistOK ctx E nv st.hist

theorem AnyInv.idle {st : RR α} (h : AnyInv ctx E nv st) : st.Idle ctx nv :=
  ⟨h.sol.count, h.sol.len, h.sol.unassigned, h.sol.ruined⟩

theorem updateBest_any {ω : Oracle} {st st' : RR α} (hi : AnyInv ctx E nv st)
    (hcost : st.current.cost = costOf (ctxAt ctx st.pen) st.current.routes)
    (hnv : env.numVehicles = nv) (h : updateBest env ctx ω st = some st') :
    AnyInv ctx E nv st' ∧ st'.best = some st.current ∧ st'.updatePenalty = st.updatePenalty ∧ st'.pen = st.pen := by
  unfold updateBest at h
  dsimp only at h
  split at h
  · rename_i hc
    simp only [Option.map_eq_some_iff] at h
    obtain ⟨x, hx, rfl⟩ := h
    rw [Bool.and_eq_true] at hc
    obtain ⟨g1, g2⟩ := updateIndividual_any (ctx := ctxAt ctx st.pen) hi.cur.unassigned hi.cur.part
      (by rw [newRandom_len, hi.cur.count, hnv]) hx
    refine ⟨⟨hi.sol, hi.cur, ?_, hi.hist.add g1 ?_ (Or.inr ⟨st.current, hi.cur.all, hc.1, g2, hcost ▸ hc.2⟩)⟩, rfl, rfl, rfl⟩
    · intro b hb
      rw [Option.some.injEq] at hb
      exact hb ▸ hi.cur
    · refine (List.length_filter_le _ _).trans (le_of_eq ?_)
      rw [g2.length_eq, length_stops, hi.cur.count]
  · simp only [Option.some.injEq] at h
    subst h
    refine ⟨⟨hi.sol, hi.cur, ?_, hi.hist⟩, rfl, rfl, rfl⟩
    intro b hb
    rw [Option.some.injEq] at hb
    exact hb ▸ hi.cur

/-- A best solution, once there, stays there. -/
def KeepsBest (st st' : RR α) : Prop := st.best.isSome = true → st'.best.isSome = true

theorem round_any (hE : RouteLaws ctx E) (hn : 0 < ctx.n) {ch : RRChoice α} (hch : ChoiceOK ch)
    {st st' : RR α} (hi : AnyInv ctx E nv st) (hnv : env.numVehicles = nv)
    (h : round env ctx ch st = some st') :
    AnyInv ctx E nv st' ∧ KeepsBest st st' ∧ st'.updatePenalty = st.updatePenalty ∧ st'.pen = st.pen := by
  unfold round at h
  dsimp only at h
  simp only [Option.bind_eq_some_iff, Option.map_eq_some_iff] at h
  obtain ⟨c1, h1, c2, h2, st2, h3, cur, h4, rfl⟩ := h
  obtain ⟨v2, hc2⟩ := operators_any (env := env) hE hch hn hi.cur h1 h2
  have hi1 : AnyInv ctx E nv { st with current := c2 } := ⟨hi.sol, v2, hi.best, hi.hist⟩
  have key : AnyInv ctx E nv st2 ∧ KeepsBest st st2 ∧ st2.updatePenalty = st.updatePenalty ∧ st2.pen = st.pen := by
    split at h3
    · simp only [Option.bind_eq_some_iff, Option.map_eq_some_iff] at h3
      obtain ⟨st3, h5, sol, h6, rfl⟩ := h3
      have key3 : AnyInv ctx E nv st3 ∧ KeepsBest st st3 ∧ st3.updatePenalty = st.updatePenalty ∧ st3.pen = st.pen := by
        split at h5
        · obtain ⟨a1, a2, a3, a4⟩ := updateBest_any hi1 hc2 hnv h5
          exact ⟨a1, fun _ => by rw [a2]; rfl, a3, a4⟩
        · simp only [Option.some.injEq] at h5
          subst h5
          exact ⟨hi1, fun h => h, rfl, rfl⟩
      obtain ⟨a1, a2, a3, a4⟩ := key3
      exact ⟨⟨copyFrom_any a1.sol.toSound a1.cur a1.sol.count h6, a1.cur, a1.best, a1.hist⟩, a2, a3, a4⟩
    · simp only [Option.some.injEq] at h3
      subst h3
      exact ⟨hi1, fun h => h, rfl, rfl⟩
  obtain ⟨g1, g2, g3, g4⟩ := key
  exact ⟨⟨g1.sol, copyFrom_any g1.cur.toSound g1.sol g1.cur.count h4, g1.best, g1.hist⟩, g2, g3, g4⟩

theorem reevaluate_any {p : α} {s : RRSol α} (h : s.OK ctx E nv) : (s.reevaluate (ctxAt ctx p)).OK ctx E nv :=
  ⟨⟨h.part, h.locs, h.len, h.unassigned, h.ruined⟩, h.count, h.all⟩

theorem penaltyUpdate_any {st : RR α} (hi : AnyInv ctx E nv st) :
    AnyInv ctx E nv (penaltyUpdate env ctx st) ∧ KeepsBest st (penaltyUpdate env ctx st) ∧
      (penaltyUpdate env ctx st).updatePenalty = st.updatePenalty ∧
      (st.updatePenalty = false → penaltyUpdate env ctx st = st) := by
  unfold penaltyUpdate
  split
  · rename_i hu
    refine ⟨⟨reevaluate_any hi.sol, reevaluate_any hi.cur, ?_, hi.hist⟩, ?_, rfl, by simp [hu]⟩
    · intro b hb
      simp only [Option.map_eq_some_iff] at hb
      obtain ⟨b0, h0, rfl⟩ := hb
      exact reevaluate_any (hi.best b0 h0)
    · intro h
      simpa using h
  · exact ⟨hi, fun h => h, rfl, fun _ => rfl⟩

theorem searchLoop_any (hE : RouteLaws ctx E) (hn : 0 < ctx.n) {ch : ℕ → RRChoice α}
    (hch : ∀ i, ChoiceOK (ch i)) (hnv : env.numVehicles = nv) : ∀ (k : ℕ) {st st' : RR α},
      AnyInv ctx E nv st → searchLoop env ctx ch k st = some st' →
      AnyInv ctx E nv st' ∧ KeepsBest st st' ∧ st'.updatePenalty = st.updatePenalty ∧
        (st.updatePenalty = false → st'.pen = st.pen)
  | 0, st, st', hi, h => by
    simp only [searchLoop, Option.some.injEq] at h
    subst h
    exact ⟨hi, fun h => h, rfl, fun _ => rfl⟩
  | k + 1, st, st', hi, h => by
    unfold searchLoop at h
    simp only [Option.bind_eq_some_iff] at h
    obtain ⟨st1, h1, h⟩ := h
    generalize hst0 : (if k = 0 then penaltyUpdate env ctx st else st) = st0 at h1
    have h0 : AnyInv ctx E nv st0 ∧ KeepsBest st st0 ∧ st0.updatePenalty = st.updatePenalty ∧
        (st.updatePenalty = false → st0 = st) := by
      split at hst0
      · subst hst0
        exact penaltyUpdate_any hi
      · subst hst0; exact ⟨hi, fun h => h, rfl, fun _ => rfl⟩
    obtain ⟨i0, b0, u0, e0⟩ := h0
    obtain ⟨i1, b1, u1, p1⟩ := round_any hE hn (hch k) i0 hnv h1
    split at h
    · simp only [Option.some.injEq] at h
      subst h
      exact ⟨i1, fun e => b1 (b0 e), u1.trans u0, fun hf => by rw [p1, e0 hf]⟩
    · obtain ⟨i2, b2, u2, p2⟩ := searchLoop_any hE hn hch hnv k i1 h
      exact ⟨i2, fun e => b2 (b1 (b0 e)), u2.trans (u1.trans u0), fun hf => by
        rw [p2 ((u1.trans u0).trans hf), p1, e0 hf]⟩

/-! ### Loading -/

omit [F64 α] in
theorem loadRoutes_any {n : ℕ} : ∀ (ls : List (List ℕ)) (es : List (RouteEval α)) (r : ℕ)
    (locs : List (ℕ × ℕ)) (p : List (RRoute α) × List (ℕ × ℕ)),
    ls.flatten.Nodup → (∀ x ∈ ls.flatten, x < n) → locs.length = n → loadRoutes r ls es locs = some p →
      p.1.map (·.nodes) = ls ∧
      (∀ rt ∈ p.1, ∃ (j : ℕ) (ev : RouteEval α), ls[j]? = some rt.nodes ∧ es[j]? = some ev ∧
        rt = ⟨rt.nodes, ev.distance, ev.overload⟩) ∧ p.2.length = n ∧
      (∀ (j : ℕ) (rt : RRoute α) (i x : ℕ), p.1[j]? = some rt → rt.nodes[i]? = some x →
        p.2[x]? = some (r + j, i)) ∧
      ∀ y, y ∉ ls.flatten → p.2[y]? = locs[y]?
  | [], es, r, locs, p, _, _, hl, h => by
    simp only [loadRoutes, Option.some.injEq] at h
    subst h
    exact ⟨rfl, by simp, hl, by simp, fun _ _ => rfl⟩
  | l :: ls, [], r, locs, p, _, _, _, h => by simp [loadRoutes] at h
  | l :: ls, e :: es, r, locs, p, hnd, hlt, hl, h => by
    rw [List.flatten_cons, List.nodup_append] at hnd
    obtain ⟨nd1, nd2, nd3⟩ := hnd
    obtain ⟨l1, h1, h2, h3, h4⟩ := writeLocs_some r l 0 locs nd1
      (fun x hx => by rw [hl]; exact hlt x (by simp [hx]))
    unfold loadRoutes at h
    rw [h1, Option.bind_some, Option.map_eq_some_iff] at h
    obtain ⟨q, hq, rfl⟩ := h
    obtain ⟨e2, e3, e4, e5, e6⟩ := loadRoutes_any ls es (r + 1) l1 q nd2
      (fun x hx => hlt x (by rw [List.flatten_cons]; exact List.mem_append_right _ hx)) (h2.trans hl) hq
    refine ⟨by simp [e2], ?_, e4, ?_, ?_⟩
    · intro rt hrt
      simp only [List.mem_cons] at hrt
      rcases hrt with rfl | hrt
      · exact ⟨0, e, rfl, rfl, rfl⟩
      · obtain ⟨j, ev, a, b, c⟩ := e3 rt hrt
        exact ⟨j + 1, ev, by simpa using a, by simpa using b, c⟩
    · intro j rt i x hj hx
      cases j with
      | zero =>
        simp only [List.getElem?_cons_zero, Option.some.injEq] at hj
        subst hj
        dsimp only at hx ⊢
        rw [e6 x (fun hm => nd3 x (List.mem_of_getElem? hx) x hm rfl), h3 i x hx]
        simp
      | succ j =>
        simp only [List.getElem?_cons_succ] at hj
        dsimp only
        rw [e5 j rt i x hj hx]
        congr 2
        omega
    · intro y hy
      rw [List.flatten_cons, List.mem_append, not_or] at hy
      dsimp only
      rw [e6 y hy.2, h4 y hy.1]

/-- Loading an evaluated complete individual into an idle object establishes the invariant. -/
theorem load_any (hE : RouteLaws ctx E) {now p : α} {x : Individual α} {st st' : RR α}
    (hx : x.Good (ctxAt ctx p)) (hst : st.Idle ctx nv) (hh : HistOK ctx E nv st.hist)
    (h : load ctx now x st = some st') :
    AnyInv ctx E nv st' ∧ x.phenotype.length = nv ∧ st'.best.isSome = true ∧ st'.pen = st.pen ∧ st'.hist = st.hist ∧
      st'.updatePenalty = st.updatePenalty := by
  unfold load at h
  obtain ⟨s1, h1, h⟩ := Option.bind_eq_some_iff.mp h
  obtain ⟨s2, h2, rfl⟩ := Option.map_eq_some_iff.mp h
  unfold RRSol.load at h1
  split at h1
  · rename_i hl
    obtain ⟨q, hq, rfl⟩ := Option.map_eq_some_iff.mp h1
    obtain ⟨a1, a2, a3, a4, -⟩ := loadRoutes_any (n := ctx.n) _ _ _ _ _ hx.part.nodup
      (fun y hy => (hx.part.mem_iff.mp hy).2) hst.locs hq
    have hlen : q.1.length = nv := by
      rw [← hst.routes, ← hl, ← a1]; simp
    have hall : ∀ rt ∈ q.1, E rt := by
      intro rt hrt
      obtain ⟨j, ev, b1, b2, b3⟩ := a2 rt hrt
      rw [b3]
      exact hE.load p x hx j _ ev b1 b2
    have hv : RRSol.OK ctx E nv { st.solution with routes := q.1, locs := q.2 } :=
      ⟨⟨by unfold stops; rw [a1]; exact hx.part, fun r rt i y a b => by simpa using a4 r rt i y a b,
        a3, hst.unassigned, hst.ruined⟩, hlen, hall⟩
    obtain ⟨l', g1, g2, g3⟩ := relocate_some (routes := q.1) (P := fun _ => True)
      (by rw [a1]; exact hx.part.nodup) (List.range q.1.length) q.2 (fun _ => True)
      (fun r hr' => List.mem_range.mp hr') (by
        rw [a1]
        intro y hy
        rw [a3]
        exact (hx.part.mem_iff.mp hy).2)
      (fun r rt i y _ a b => hv.locs r rt i y a b) (fun _ _ => Or.inl trivial)
    unfold RRSol.evaluate at h2
    dsimp only at h2
    rw [g1, Option.map_some, Option.some.injEq] at h2
    subst h2
    have hv' : RRSol.OK ctx E nv { st.solution with routes := q.1, locs := l', cost := costOf (ctxAt ctx st.pen) q.1 } :=
      ⟨⟨hv.part, fun r rt i y a b => g3 r rt i y trivial a b, g2.trans a3, hst.unassigned, hst.ruined⟩, hlen, hall⟩
    refine ⟨⟨hv', hv, ?_, hh⟩, hl.trans hst.routes, rfl, rfl, rfl, rfl⟩
    intro b hb
    simp only [Option.some.injEq] at hb
    subst hb
    exact hv'
  · simp at h1

end RR
end Verif
