import Verif.Props.Recreate
import Verif.Lemmas.Good

/-! # Invariants of the ruin-and-recreate search (exact arithmetic) -/

namespace Verif
open F64 RRSol

theorem RRSol.Valid.at {ctx : Ctx ℚ} {p : ℚ} {s : RRSol ℚ} (h : s.Valid ctx) :
    s.Valid (RR.ctxAt ctx p) :=
  ⟨⟨h.part, h.locs, h.len, h.unassigned, h.ruined⟩, h.exact⟩

theorem RRSol.Valid.of_at {ctx : Ctx ℚ} {p : ℚ} {s : RRSol ℚ} (h : s.Valid (RR.ctxAt ctx p)) :
    s.Valid ctx :=
  ⟨⟨h.part, h.locs, h.len, h.unassigned, h.ruined⟩, h.exact⟩

/-- Penalized cost of the routes under penalty `p`. -/
def RRSol.trueCost (ctx : Ctx ℚ) (p : ℚ) (s : RRSol ℚ) : ℚ :=
  Spec.solCost ctx.dist ctx.demand ctx.cap p s.stops

theorem RRSol.length_stops {α : Type} (s : RRSol α) : s.stops.length = s.routes.length := by
  simp [stops]

/-- `is_feasible` implies that no route exceeds the capacity by more than the tolerance. -/
theorem RRSol.feasible_rat {ctx : Ctx ℚ} {s : RRSol ℚ} (h : ∀ rt ∈ s.routes, rt.Exact ctx)
    (hf : s.isFeasible = true) : Spec.CapFeasible ctx.demand ctx.cap (1 / 1000000) s.stops := by
  unfold isFeasible at hf
  rw [rat_approxEq, decide_eq_true_eq] at hf
  have key : ∀ (rs : List (RRoute ℚ)) (a : ℚ), (∀ rt ∈ rs, rt.Exact ctx) →
      a ≤ rs.foldl (fun t r => t +. F64.max (lit 0) r.overload) a ∧
      ∀ rt ∈ rs, Spec.routeLoad ctx.demand rt.nodes - ctx.cap ≤
        rs.foldl (fun t r => t +. F64.max (lit 0) r.overload) a - a := by
    intro rs
    induction rs with
    | nil => intro a _; simp
    | cons r rs ih =>
      intro a hh
      obtain ⟨i1, i2⟩ := ih (a +. F64.max (lit 0) r.overload) (fun x hx => hh x (by simp [hx]))
      have h0 : (0 : ℚ) ≤ max 0 r.overload := le_max_left _ _
      have h1 : r.overload ≤ max 0 r.overload := le_max_right _ _
      rw [List.foldl_cons]
      simp only [rat_add, rat_max, rat_lit] at i1 i2 ⊢
      refine ⟨by linarith, ?_⟩
      intro rt hrt
      simp only [List.mem_cons] at hrt
      rcases hrt with rfl | hrt
      · rw [← (hh rt (by simp)).2]
        linarith
      · have := i2 rt hrt
        linarith
  obtain ⟨-, k2⟩ := key s.routes (lit 0) h
  intro l hl
  simp only [stops, List.mem_map] at hl
  obtain ⟨rt, hrt, rfl⟩ := hl
  have h1 := k2 rt hrt
  have h2 := (abs_lt.mp hf).2
  simp only [rat_lit, sub_zero] at h1 h2
  linarith

namespace RR

/-- What holds between the rounds of a search with `nv` routes: the three solutions are valid, and the
recorded costs of the accepted and the best solution are the true ones at the current penalty. The cost
recorded for the working copy `current` is not covered: it is stale right after loading. -/
structure Inv (ctx : Ctx ℚ) (nv : ℕ) (st : RR ℚ) : Prop where
  sol : st.solution.Valid ctx
  cur : st.current.Valid ctx
  solLen : st.solution.routes.length = nv
  curLen : st.current.routes.length = nv
  solCost : st.solution.cost = st.solution.trueCost ctx st.pen
  best : ∀ b, st.best = some b → b.Valid ctx ∧ b.routes.length = nv ∧
    b.cost = b.trueCost ctx st.pen

theorem updateIndividual_some {atan2 : ℚ → ℚ → ℚ} {ctx : Ctx ℚ} {s : RRSol ℚ}
    {x y : Individual ℚ} (hs : s.Valid ctx) (hl : s.routes.length = x.phenotype.length)
    (h : updateIndividual atan2 ctx s x = some y) :
    y.Good ctx ∧ y.phenotype.Perm s.stops ∧ y.number = x.number ∧ y.fitness = x.fitness := by
  unfold updateIndividual at h
  rw [if_pos (by simp [hs.unassigned])] at h
  unfold overwrite at h
  rw [if_pos (by simp [hl]), Option.bind_some, List.drop_eq_nil_of_le (by simp [hl]),
    List.append_nil, Option.bind_eq_some_iff] at h
  obtain ⟨z, hz, hy⟩ := h
  obtain ⟨p1, p2, p3, p4, p5⟩ := sortRoutes_of_some rfl hz
  rw [Individual.evaluate, Option.map_eq_some_iff] at hy
  obtain ⟨e, he, rfl⟩ := hy
  exact ⟨⟨p1.flatten.trans hs.part, p2, ⟨_, he⟩⟩, p1, p3, p4⟩

theorem updateIndividual_total {atan2 : ℚ → ℚ → ℚ} {ctx : Ctx ℚ} {s : RRSol ℚ}
    {x : Individual ℚ} (hn : 0 < ctx.n) (hs : s.Valid ctx)
    (hl : s.routes.length = x.phenotype.length) : ∃ y, updateIndividual atan2 ctx s x = some y := by
  unfold updateIndividual
  rw [if_pos (by simp [hs.unassigned])]
  unfold overwrite
  rw [if_pos (by simp [hl]), Option.bind_some, List.drop_eq_nil_of_le (by simp [hl]),
    List.append_nil]
  obtain ⟨z, hz, hp, -⟩ := C03_sort_routes_perm atan2 ctx
    { x with genotype := (s.routes.map (·.nodes)).flatten, phenotype := s.routes.map (·.nodes) } rfl
    (by simp)
  rw [hz, Option.bind_some, Individual.evaluate]
  obtain ⟨e', ee, -⟩ := C01_evaluate_exact ctx z.evaluation z.phenotype hn
    (Spec.IsPartition.lt (hp.flatten.trans hs.part))
  rw [ee]
  exact ⟨_, rfl⟩

theorem newRandom_len {α : Type} [F64 α] (ctx : Ctx α) (nv : ℕ) (ω : Oracle) (k : ℕ) :
    (Individual.newRandom ctx nv ω k).phenotype.length = nv := by
  simp [Individual.newRandom]

theorem copyFrom_valid {ctx : Ctx ℚ} {s t : RRSol ℚ} (hs : s.Valid ctx) (ht : t.Valid ctx)
    (hl : s.routes.length = t.routes.length) :
    ∃ u, s.copyFrom t = some u ∧ u.Valid ctx ∧ u.routes = t.routes ∧ u.cost = t.cost := by
  have hl' : s.locs.length = t.locs.length := by rw [hs.len, ht.len]
  unfold copyFrom
  rw [if_pos ⟨by omega, by omega⟩]
  refine ⟨_, rfl, ?_, ?_, rfl⟩
  · rw [hl, hl']
    simp only [List.take_length]
    exact ⟨⟨ht.part, ht.locs, ht.len, hs.unassigned, hs.ruined⟩, ht.exact⟩
  · rw [hl]
    simp

variable {env : RREnv ℚ} {ctx : Ctx ℚ} {nv : ℕ} {P : ℚ → Prop}

/-- The penalty has `P`, and the penalty updates (if switched on) keep it. -/
structure PenOK (env : RREnv ℚ) (P : ℚ → Prop) (st : RR ℚ) : Prop where
  now : P st.pen
  upd : st.updatePenalty = true → ∀ p, P p → P (p * env.incMultiplier) ∧ P (p * env.decMultiplier)

/-- Recording a new best solution. -/
theorem updateBest_inv {ω : Oracle} {st st' : RR ℚ} (hi : Inv ctx nv st) (hnv : env.numVehicles = nv)
    (hP : P st.pen) (hcost : st.current.cost = st.current.trueCost ctx st.pen)
    (h : updateBest env ctx ω st = some st') :
    st'.solution = st.solution ∧ st'.current = st.current ∧ st'.best = some st.current ∧
      st'.acceptance = st.acceptance ∧ st'.updatePenalty = st.updatePenalty ∧ st'.pen = st.pen ∧
      HistRun P ctx nv st.hist st'.hist := by
  unfold updateBest at h
  dsimp only at h
  split at h
  · rename_i hc
    simp only [Option.map_eq_some_iff] at h
    obtain ⟨x, hx, rfl⟩ := h
    rw [Bool.and_eq_true] at hc
    have hv : st.current.Valid (ctxAt ctx st.pen) := hi.cur.at
    obtain ⟨g1, g2, -, -⟩ := updateIndividual_some hv (by rw [newRandom_len, hi.curLen, hnv]) hx
    refine ⟨rfl, rfl, rfl, rfl, rfl, rfl, .step (.refl _) hP g1 ?_ ?_ ?_⟩
    · rw [g1.feasible]
      have := feasible_rat hv.exact hc.1
      intro l hl
      exact this l (g2.mem_iff.mp hl)
    · rw [g2.length_eq, length_stops, hi.curLen]
    · rw [g1.cost, Spec.solCost_perm _ _ _ _ g2]
      have : Spec.solCost (ctxAt ctx st.pen).dist (ctxAt ctx st.pen).demand (ctxAt ctx st.pen).cap
          (ctxAt ctx st.pen).pen st.current.stops = st.current.cost := by rw [hcost]; rfl
      rw [this]
      exact hc.2
  · simp only [Option.some.injEq] at h
    subst h
    exact ⟨rfl, rfl, rfl, rfl, rfl, rfl, .refl _⟩

theorem updateBest_total {ω : Oracle} {st : RR ℚ} (hn : 0 < ctx.n) (hi : Inv ctx nv st)
    (hnv : env.numVehicles = nv) : ∃ st', updateBest env ctx ω st = some st' := by
  unfold updateBest
  dsimp only
  split
  · obtain ⟨y, hy⟩ := updateIndividual_total (atan2 := env.atan2) (ctx := ctxAt ctx st.pen)
      (s := st.current) (x := Individual.newRandom ctx env.numVehicles ω 0) hn hi.cur.at
      (by rw [newRandom_len, hi.curLen, hnv])
    rw [hy]
    exact ⟨_, rfl⟩
  · exact ⟨_, rfl⟩

/-- The choices of a round iterate hash sets in some order. -/
def ChoiceOK {α : Type} (ch : RRChoice α) : Prop := ∀ k l, (ch.order k l).Perm l

/-- The working copy after ruin and recreate. -/
theorem operators_some {ch : RRChoice ℚ} (hch : ChoiceOK ch) {p : ℚ} {s s1 s2 : RRSol ℚ}
    (hs : s.Valid ctx) (h1 : s.ruin (ctxAt ctx p) env.nbrs env.cavg env.lmax (ch.ω.sub 0) = some s1)
    (hex : ∀ rt ∈ s2.routes, rt.Exact ctx)
    (h2 : s1.recreate (ctxAt ctx p) ch.order (ch.ω.sub 1) = some s2) :
    s2.Valid ctx ∧ s2.routes.length = s.routes.length ∧ s2.cost = s2.trueCost ctx p := by
  have r1 := C22_ruin_structure _ _ _ _ _ _ _ hs.ruined h1
  obtain ⟨q1, q2, q3, q4⟩ := r1.ready (ctx := ctxAt ctx p) hs.at.toSound
  obtain ⟨w1, w2, -⟩ := C23_recreate_structure _ ch.order hch _ s1 s2 q1 q2 q3 q4 h2
  refine ⟨RRSol.Valid.of_at (p := p) ⟨w1, hex⟩, w2.trans r1.count, ?_⟩
  unfold recreate at h2
  simp only [Option.bind_eq_some_iff, Option.map_eq_some_iff] at h2
  obtain ⟨cs, -, q, -, s3, h3, rfl⟩ := h2
  unfold RRSol.evaluate at h3
  simp only [Option.map_eq_some_iff] at h3
  obtain ⟨l, -, rfl⟩ := h3
  exact costOf_rat (ctx := ctxAt ctx p) hex

theorem insertAll_exact {ctx : Ctx ℚ} {order : ℕ → List ℕ → List ℕ} : ∀ {cs : List ℕ}
    {routes : List (RRoute ℚ)} {updated : List ℕ} {p : List (RRoute ℚ) × List ℕ},
    insertAll ctx order cs routes updated = some p → (∀ rt ∈ routes, rt.Exact ctx) →
      ∀ rt ∈ p.1, rt.Exact ctx
  | [], routes, updated, p, h, he => by
    simp only [insertAll, Option.some.injEq] at h
    subst h
    exact he
  | c :: cs, routes, updated, p, h, he => by
    unfold insertAll at h
    simp only [Option.bind_eq_some_iff] at h
    obtain ⟨q, hq, h⟩ := h
    obtain ⟨r, i, hi⟩ := insertCustomer_some hq
    obtain ⟨rt, rt', e1, e2, rfl⟩ := insertAt_some hi
    refine insertAll_exact h ?_
    intro x hx
    rcases List.mem_or_eq_of_mem_set hx with hx | rfl
    · exact he x hx
    · exact RRoute.add_exact e2 (he rt (List.mem_of_getElem? e1))

theorem ruinLoop_exact {ctx : Ctx ℚ} {ω : Oracle} {lsmax : ℚ} {ks : ℕ} :
    ∀ {vs : List ℕ} {s s' : RRSol ℚ}, (∀ rt ∈ s.routes, rt.Exact ctx) →
      ruinLoop ctx ω lsmax ks vs s = some s' → ∀ rt ∈ s'.routes, rt.Exact ctx
  | [], s, s', h, he => by
    simp only [ruinLoop, Option.some.injEq] at he
    exact he ▸ h
  | v :: vs, s, s', h, he => by
    unfold ruinLoop at he
    simp only [Option.bind_eq_some_iff] at he
    obtain ⟨loc, hloc, he⟩ := he
    split at he
    · exact ruinLoop_exact h he
    · simp only [Option.bind_eq_some_iff] at he
      obtain ⟨rt, hrt, s1, h1, he⟩ := he
      have h2 : ∀ rt ∈ s1.routes, rt.Exact ctx := by
        unfold ruinRoute at h1
        simp only [Option.bind_eq_some_iff, Option.map_eq_some_iff] at h1
        obtain ⟨loc, -, rt', hrt', is, -, p, hp, rfl⟩ := h1
        intro x hx
        rcases List.mem_or_eq_of_mem_set hx with hx | rfl
        · exact h x hx
        · exact removeSeq_exact hp (h rt' (List.mem_of_getElem? hrt'))
      split at he
      · simp only [Option.some.injEq] at he
        exact he ▸ h2
      · exact ruinLoop_exact h2 he

theorem operators_exact {ch : RRChoice ℚ} {p : ℚ} {s s1 s2 : RRSol ℚ}
    (hs : s.Valid ctx) (h1 : s.ruin (ctxAt ctx p) env.nbrs env.cavg env.lmax (ch.ω.sub 0) = some s1)
    (h2 : s1.recreate (ctxAt ctx p) ch.order (ch.ω.sub 1) = some s2) :
    ∀ rt ∈ s2.routes, rt.Exact ctx := by
  have e1 : ∀ rt ∈ s1.routes, rt.Exact (ctxAt ctx p) := by
    unfold ruin at h1
    simp only [Option.bind_eq_some_iff] at h1
    obtain ⟨seed, -, vs, -, h1⟩ := h1
    exact ruinLoop_exact (fun rt hrt => hs.exact rt hrt) h1
  unfold recreate at h2
  simp only [Option.bind_eq_some_iff, Option.map_eq_some_iff] at h2
  obtain ⟨cs, -, q, hq, s3, h3, rfl⟩ := h2
  unfold RRSol.evaluate at h3
  simp only [Option.map_eq_some_iff] at h3
  obtain ⟨l, -, rfl⟩ := h3
  exact fun rt hrt => insertAll_exact hq e1 rt hrt

/-- What a round does to the invariant and the history. -/
structure Step (P : ℚ → Prop) (ctx : Ctx ℚ) (nv : ℕ) (st st' : RR ℚ) : Prop where
  inv : Inv ctx nv st'
  hist : HistRun P ctx nv st.hist st'.hist
  upd : st'.updatePenalty = st.updatePenalty
  pen : P st'.pen

/-- Best cost not raised (at unchanged penalty). -/
def NoWorse (st st' : RR ℚ) : Prop :=
  st'.pen = st.pen ∧ ∀ b, st.best = some b → ∃ b', st'.best = some b' ∧ b'.cost ≤ b.cost

theorem round_inv {ch : RRChoice ℚ} (hch : ChoiceOK ch) {st st' : RR ℚ} (hi : Inv ctx nv st)
    (hnv : env.numVehicles = nv) (hP : P st.pen) (h : round env ctx ch st = some st') :
    Step P ctx nv st st' ∧ NoWorse st st' ∧ st'.current.cost = st'.solution.cost ∧
      st'.current.routes = st'.solution.routes := by
  unfold round at h
  dsimp only at h
  simp only [Option.bind_eq_some_iff, Option.map_eq_some_iff] at h
  obtain ⟨c1, h1, c2, h2, st2, h3, cur, h4, rfl⟩ := h
  have hex := operators_exact (env := env) (ch := ch) hi.cur h1 h2
  obtain ⟨v2, l2, k2⟩ := operators_some (env := env) hch hi.cur h1 hex h2
  have l2' : c2.routes.length = nv := l2.trans hi.curLen
  have hi1 : Inv ctx nv { st with current := c2 } :=
    ⟨hi.sol, v2, hi.solLen, l2', hi.solCost, hi.best⟩
  have key : Inv ctx nv st2 ∧ HistRun P ctx nv st.hist st2.hist ∧
      st2.updatePenalty = st.updatePenalty ∧ NoWorse st st2 := by
    split at h3
    · simp only [Option.bind_eq_some_iff, Option.map_eq_some_iff] at h3
      obtain ⟨st3, h5, sol, h6, rfl⟩ := h3
      have key3 : st3.solution = st.solution ∧ st3.current = c2 ∧ st3.pen = st.pen ∧
          st3.updatePenalty = st.updatePenalty ∧ HistRun P ctx nv st.hist st3.hist ∧
          (∀ b, st3.best = some b → b.Valid ctx ∧ b.routes.length = nv ∧
            b.cost = b.trueCost ctx st.pen) ∧
          (∀ b, st.best = some b → ∃ b', st3.best = some b' ∧ b'.cost ≤ b.cost) := by
        split at h5
        · rename_i himp
          obtain ⟨a1, a2, a3, a4, a5, a6, a7⟩ := updateBest_inv hi1 hnv hP k2 h5
          refine ⟨a1, a2, a6, a5, a7, ?_, ?_⟩
          · intro b hb
            rw [a3, Option.some.injEq] at hb
            subst hb
            exact ⟨v2, l2', k2⟩
          · intro b hb
            refine ⟨c2, a3, ?_⟩
            unfold improvesBest at himp
            dsimp only at himp
            rw [hb] at himp
            dsimp only at himp
            rw [rat_approxLt, decide_eq_true_eq] at himp
            linarith
        · simp only [Option.some.injEq] at h5
          subst h5
          exact ⟨rfl, rfl, rfl, rfl, .refl _, hi.best, fun b hb => ⟨b, hb, le_refl _⟩⟩
      obtain ⟨a1, a2, a3, a4, a5, a6, a7⟩ := key3
      obtain ⟨u, hu, u1, u2, u3⟩ := copyFrom_valid (s := st3.solution) (t := st3.current)
        (by rw [a1]; exact hi.sol) (by rw [a2]; exact v2) (by rw [a1, a2, hi.solLen, l2'])
      rw [h6, Option.some.injEq] at hu
      subst hu
      refine ⟨⟨u1, ?_, ?_, ?_, ?_, ?_⟩, a5, a4, ⟨a3, a7⟩⟩
      · dsimp only; rw [a2]; exact v2
      · dsimp only; rw [u2, a2]; exact l2'
      · dsimp only; rw [a2]; exact l2'
      · dsimp only
        rw [u3, a2, a3, k2]
        unfold trueCost stops
        rw [u2, a2]
      · intro b hb
        dsimp only
        rw [a3]
        exact a6 b hb
    · simp only [Option.some.injEq] at h3
      subst h3
      exact ⟨hi1, .refl _, rfl, rfl, fun b hb => ⟨b, hb, le_refl _⟩⟩
  obtain ⟨g1, g2, g3, g4⟩ := key
  obtain ⟨u, hu, u1, u2, u3⟩ := copyFrom_valid (s := st2.current) (t := st2.solution) g1.cur g1.sol
    (by rw [g1.curLen, g1.solLen])
  rw [h4, Option.some.injEq] at hu
  subst hu
  exact ⟨⟨⟨g1.sol, u1, g1.solLen, by dsimp only; rw [u2]; exact g1.solLen, g1.solCost, g1.best⟩, g2, g3,
    g4.1.symm ▸ hP⟩, g4, u3, u2⟩

theorem reevaluate_valid {p : ℚ} {s : RRSol ℚ} (h : s.Valid ctx) :
    (s.reevaluate (ctxAt ctx p)).Valid ctx ∧
      (s.reevaluate (ctxAt ctx p)).cost = (s.reevaluate (ctxAt ctx p)).trueCost ctx p :=
  ⟨⟨⟨h.part, h.locs, h.len, h.unassigned, h.ruined⟩, h.exact⟩,
    costOf_rat (ctx := ctxAt ctx p) h.exact⟩

theorem PenOK.update {st : RR ℚ} (h : PenOK env P st) : P (penaltyUpdate env ctx st).pen := by
  unfold penaltyUpdate
  split
  · rename_i hu
    dsimp only
    split
    · exact (h.upd hu _ h.now).2
    · exact (h.upd hu _ h.now).1
  · exact h.now

theorem penaltyUpdate_inv {st : RR ℚ} (hi : Inv ctx nv st) :
    Inv ctx nv (penaltyUpdate env ctx st) ∧ (penaltyUpdate env ctx st).hist = st.hist ∧
      (penaltyUpdate env ctx st).updatePenalty = st.updatePenalty ∧
      (st.updatePenalty = false → penaltyUpdate env ctx st = st) := by
  unfold penaltyUpdate
  split
  · rename_i hu
    refine ⟨?_, rfl, rfl, by simp [hu]⟩
    dsimp only
    generalize (if st.solution.isFeasible = true then st.pen *. env.decMultiplier
      else st.pen *. env.incMultiplier) = p
    refine ⟨(reevaluate_valid hi.sol).1, (reevaluate_valid hi.cur).1, hi.solLen, hi.curLen,
      (reevaluate_valid hi.sol).2, ?_⟩
    intro b hb
    simp only [Option.map_eq_some_iff] at hb
    obtain ⟨b0, h0, rfl⟩ := hb
    obtain ⟨x1, x2, x3⟩ := hi.best b0 h0
    exact ⟨(reevaluate_valid x1).1, x2, (reevaluate_valid x1).2⟩
  · exact ⟨hi, rfl, rfl, fun _ => rfl⟩

theorem searchLoop_inv {ch : ℕ → RRChoice ℚ} (hch : ∀ i, ChoiceOK (ch i))
    (hnv : env.numVehicles = nv) : ∀ (k : ℕ) {st st' : RR ℚ}, Inv ctx nv st →
      PenOK env P st → searchLoop env ctx ch k st = some st' → Step P ctx nv st st' ∧
        (st.updatePenalty = false → NoWorse st st')
  | 0, st, st', hi, hP, h => by
    simp only [searchLoop, Option.some.injEq] at h
    subst h
    exact ⟨⟨hi, .refl _, rfl, hP.now⟩, fun _ => ⟨rfl, fun b hb => ⟨b, hb, le_refl _⟩⟩⟩
  | k + 1, st, st', hi, hP, h => by
    unfold searchLoop at h
    simp only [Option.bind_eq_some_iff] at h
    obtain ⟨st1, h1, h⟩ := h
    generalize hst0 : (if k = 0 then penaltyUpdate env ctx st else st) = st0 at h1
    have h0 : Inv ctx nv st0 ∧ st0.hist = st.hist ∧ st0.updatePenalty = st.updatePenalty ∧
        (st.updatePenalty = false → st0 = st) ∧ P st0.pen := by
      split at hst0
      · subst hst0
        obtain ⟨a, b, c, d⟩ := penaltyUpdate_inv (env := env) hi
        exact ⟨a, b, c, d, hP.update⟩
      · subst hst0; exact ⟨hi, rfl, rfl, fun _ => rfl, hP.now⟩
    obtain ⟨i0, hh0, hu0, he0, hp0⟩ := h0
    obtain ⟨s1, n1, -⟩ := round_inv (hch k) i0 hnv hp0 h1
    have stp1 : Step P ctx nv st st1 := ⟨s1.inv, hh0 ▸ s1.hist, s1.upd.trans hu0, s1.pen⟩
    have nw1 : st.updatePenalty = false → NoWorse st st1 := fun hf => by rw [he0 hf] at n1; exact n1
    split at h
    · simp only [Option.some.injEq] at h
      subst h
      exact ⟨stp1, nw1⟩
    · obtain ⟨s2, n2⟩ := searchLoop_inv hch hnv k s1.inv
        ⟨s1.pen, fun e => hP.upd (stp1.upd ▸ e)⟩ h
      refine ⟨⟨s2.inv, stp1.hist.trans s2.hist, s2.upd.trans stp1.upd, s2.pen⟩, fun hf => ?_⟩
      have a := nw1 hf
      have b := n2 (stp1.upd.trans hf)
      refine ⟨b.1.trans a.1, fun x hx => ?_⟩
      obtain ⟨y, hy, hle⟩ := a.2 x hx
      obtain ⟨z, hz, hle'⟩ := b.2 y hy
      exact ⟨z, hz, hle'.trans hle⟩

/-! ### No panic -/

/-- Neighbour lists are available for every customer and contain customers only. -/
def NbrsOK (n : ℕ) (nbrs : ℕ → Option (List ℕ)) : Prop :=
  ∀ c, 1 ≤ c → c < n → ∃ vs, nbrs c = some vs ∧ ∀ v ∈ vs, 1 ≤ v ∧ v < n

theorem round_total {ch : RRChoice ℚ} (hch : ChoiceOK ch) {st : RR ℚ} (hi : Inv ctx nv st)
    (hnv : env.numVehicles = nv) (hn : 2 ≤ ctx.n) (hnb : NbrsOK ctx.n env.nbrs)
    (ht : Tame (ctxAt ctx st.pen)) : ∃ st', round env ctx ch st = some st' := by
  obtain ⟨c1, h1, r1, -, e1⟩ := C22_ruin (ctxAt ctx st.pen) env.nbrs env.cavg env.lmax (ch.ω.sub 0)
    st.current hn hi.cur.at hnb
  obtain ⟨q1, q2, q3, q4⟩ := r1.ready (ctx := ctxAt ctx st.pen) hi.cur.at.toSound
  have hne : c1.routes ≠ [] := by
    intro e
    have h2 := (hi.cur.part.mem_iff (x := 1)).mpr ⟨le_refl _, by omega⟩
    have h3 : st.current.routes = [] := by
      rw [← List.length_eq_zero_iff, ← r1.count, e]; rfl
    simp [stops, h3] at h2
  obtain ⟨c2, h2, v2, l2, k2, -⟩ := C23_recreate (ctxAt ctx st.pen) ht ch.order hch (ch.ω.sub 1) c1
    hne q1 e1 q2 q3 q4
  have l2' : c2.routes.length = nv := (l2.trans r1.count).trans hi.curLen
  have hi1 : Inv ctx nv { st with current := c2 } :=
    ⟨hi.sol, v2.of_at, hi.solLen, l2', hi.solCost, hi.best⟩
  unfold round
  dsimp only
  rw [h1, Option.bind_some, h2, Option.bind_some]
  have key : ∃ st2, (if st.acceptance.accept env.ln (ch.ω.sub 2 0) c2.cost st.current.cost = true then
      (if improvesBest { st with current := c2 } = true then
        updateBest env ctx (ch.ω.sub 3) { st with current := c2 } else
        some { st with current := c2 }).bind fun st =>
          (st.solution.copyFrom st.current).map fun sol => { st with solution := sol }
      else some { st with current := c2 }) = some st2 ∧ st2.current.Valid ctx ∧
        st2.solution.Valid ctx ∧ st2.current.routes.length = st2.solution.routes.length := by
    split
    · have key3 : ∃ st3, (if improvesBest { st with current := c2 } = true then
          updateBest env ctx (ch.ω.sub 3) { st with current := c2 } else
          some { st with current := c2 }) = some st3 ∧ st3.solution = st.solution ∧
            st3.current = c2 := by
        split
        · obtain ⟨st3, h3⟩ := updateBest_total (env := env) (ω := ch.ω.sub 3) (by omega) hi1 hnv
          obtain ⟨a1, a2, -⟩ := updateBest_inv (P := fun _ => True) hi1 hnv trivial k2 h3
          exact ⟨st3, h3, a1, a2⟩
        · exact ⟨_, rfl, rfl, rfl⟩
      obtain ⟨st3, h3, a1, a2⟩ := key3
      obtain ⟨u, hu, u1, u2, u3⟩ := copyFrom_valid (ctx := ctx) (s := st3.solution)
        (t := st3.current) (by rw [a1]; exact hi.sol) (by rw [a2]; exact v2.of_at)
        (by rw [a1, a2, hi.solLen, l2'])
      rw [h3, Option.bind_some, hu]
      exact ⟨_, rfl, by dsimp only; rw [a2]; exact v2.of_at, u1, by dsimp only; rw [u2]⟩
    · exact ⟨_, rfl, v2.of_at, hi.sol, by dsimp only; rw [l2', hi.solLen]⟩
  obtain ⟨st2, h3, g1, g2, g3⟩ := key
  obtain ⟨u, hu, -⟩ := copyFrom_valid (ctx := ctx) g1 g2 g3
  rw [h3, Option.bind_some, hu]
  exact ⟨_, rfl⟩

theorem searchLoop_total {ch : ℕ → RRChoice ℚ} (hch : ∀ i, ChoiceOK (ch i))
    (hnv : env.numVehicles = nv) (hn : 2 ≤ ctx.n) (hnb : NbrsOK ctx.n env.nbrs) :
    ∀ (k : ℕ) {st : RR ℚ}, Inv ctx nv st → st.updatePenalty = false → Tame (ctxAt ctx st.pen) →
      ∃ st', searchLoop env ctx ch k st = some st'
  | 0, st, _, _, _ => ⟨_, rfl⟩
  | k + 1, st, hi, hu, ht => by
    have hpu : (if k = 0 then penaltyUpdate env ctx st else st) = st := by
      split
      · exact (penaltyUpdate_inv hi).2.2.2 hu
      · rfl
    obtain ⟨st1, h1⟩ := round_total (hch k) hi hnv hn hnb ht
    obtain ⟨s1, n1, -⟩ := round_inv (P := fun _ => True) (hch k) hi hnv trivial h1
    unfold searchLoop
    rw [hpu, h1, Option.bind_some]
    split
    · exact ⟨_, rfl⟩
    · exact searchLoop_total hch hnv hn hnb k s1.inv (s1.upd.trans hu) (by rw [n1.1]; exact ht)

/-! ### Loading -/

theorem loadRoutes_some {ctx : Ctx ℚ} {n : ℕ} : ∀ (ls : List (List ℕ)) (r : ℕ) (locs : List (ℕ × ℕ)),
    ls.flatten.Nodup → (∀ x ∈ ls.flatten, x < n) → locs.length = n →
    ∃ p : List (RRoute ℚ) × List (ℕ × ℕ), loadRoutes r ls (ls.map fun l =>
        ({ distance := Spec.routeDist ctx.dist l
           overload := Spec.routeLoad ctx.demand l - ctx.cap
           cost := Spec.routeCost ctx.dist ctx.demand ctx.cap ctx.pen l } : RouteEval ℚ)) locs = some p ∧
      p.1.map (·.nodes) = ls ∧ (∀ rt ∈ p.1, rt.Exact ctx) ∧ p.2.length = n ∧
      (∀ (j : ℕ) (rt : RRoute ℚ) (i x : ℕ), p.1[j]? = some rt → rt.nodes[i]? = some x →
        p.2[x]? = some (r + j, i)) ∧
      ∀ y, y ∉ ls.flatten → p.2[y]? = locs[y]?
  | [], r, locs, _, _, hl => ⟨([], locs), rfl, rfl, by simp, hl, by simp, fun _ _ => rfl⟩
  | l :: ls, r, locs, hnd, hlt, hl => by
    rw [List.flatten_cons, List.nodup_append] at hnd
    obtain ⟨nd1, nd2, nd3⟩ := hnd
    obtain ⟨l1, h1, h2, h3, h4⟩ := writeLocs_some r l 0 locs nd1
      (fun x hx => by rw [hl]; exact hlt x (by simp [hx]))
    obtain ⟨p, e1, e2, e3, e4, e5, e6⟩ := loadRoutes_some (ctx := ctx) ls (r + 1) l1 nd2
      (fun x hx => hlt x (by rw [List.flatten_cons]; exact List.mem_append_right _ hx)) (h2.trans hl)
    refine ⟨(⟨l, Spec.routeDist ctx.dist l, Spec.routeLoad ctx.demand l - ctx.cap⟩ :: p.1, p.2),
      ?_, by simp [e2], ?_, e4, ?_, ?_⟩
    · rw [List.map_cons]
      unfold loadRoutes
      rw [h1, Option.bind_some, e1]
      rfl
    · intro rt hrt
      simp only [List.mem_cons] at hrt
      rcases hrt with rfl | hrt
      · exact ⟨rfl, rfl⟩
      · exact e3 rt hrt
    · intro j rt i x hj hx
      cases j with
      | zero =>
        simp only [List.getElem?_cons_zero, Option.some.injEq] at hj
        subst hj
        dsimp only at hx ⊢
        rw [e6 x (fun hm => nd3 x (List.mem_of_getElem? hx) x hm rfl), h3 i x hx]
        simp
      | succ j =>
        simp only [List.getElem?_cons_succ] at hj
        rw [e5 j rt i x hj hx]
        congr 2
        omega
    · intro y hy
      rw [List.flatten_cons, List.mem_append, not_or] at hy
      dsimp only
      rw [e6 y hy.2, h4 y hy.1]

/-- Loading an evaluated complete individual establishes the invariant. -/
theorem load_inv {now p : ℚ} {x : Individual ℚ} {st : RR ℚ} (hx : x.Good (ctxAt ctx p))
    (hl : x.phenotype.length = nv) (hsl : st.solution.routes.length = nv)
    (hlocs : st.solution.locs.length = ctx.n) (hu : st.solution.unassigned = [])
    (hr : st.solution.ruined = []) :
    ∃ st', load ctx now x st = some st' ∧ Inv ctx nv st' ∧ st'.pen = st.pen ∧
      st'.hist = st.hist ∧ st'.updatePenalty = st.updatePenalty ∧
      st'.acceptance = st.acceptance.reset now ∧ st'.solution.stops = x.phenotype ∧
      st'.best = some st'.solution ∧ st'.current.cost = st.solution.cost := by
  obtain ⟨q, h1, h2, h3, h4, h5, -⟩ := loadRoutes_some (ctx := ctxAt ctx p) (n := ctx.n) x.phenotype 0
    st.solution.locs hx.part.nodup (fun y hy => (hx.part.mem_iff.mp hy).2) hlocs
  have hload : st.solution.load x = some { st.solution with routes := q.1, locs := q.2 } := by
    unfold RRSol.load
    rw [if_pos (by rw [hl, hsl]), hx.routes, h1]
    rfl
  have hlen : q.1.length = nv := by
    rw [← hl, ← h2]; simp
  have hv : RRSol.Valid ctx { st.solution with routes := q.1, locs := q.2 } :=
    ⟨⟨by unfold stops; rw [h2]; exact hx.part, fun r rt i y a b => by simpa using h5 r rt i y a b,
      h4, hu, hr⟩, h3⟩
  obtain ⟨l', g1, g2, g3⟩ := relocate_some (routes := q.1) (P := fun _ => True)
    (by rw [h2]; exact hx.part.nodup) (List.range q.1.length) q.2 (fun _ => True)
    (fun r hr' => List.mem_range.mp hr') (by
      rw [h2]
      intro y hy
      rw [h4]
      exact (hx.part.mem_iff.mp hy).2)
    (fun r rt i y _ a b => hv.locs r rt i y a b) (fun _ _ => Or.inl trivial)
  have hv' : RRSol.Valid ctx { st.solution with routes := q.1, locs := l', cost := costOf (ctxAt ctx st.pen) q.1 } :=
    ⟨⟨hv.part, fun r rt i y a b => g3 r rt i y trivial a b, g2.trans h4, hu, hr⟩, h3⟩
  refine ⟨{ st with solution := { st.solution with routes := q.1, locs := l',
                                                   cost := costOf (ctxAt ctx st.pen) q.1 }
                    current := { st.solution with routes := q.1, locs := q.2 }
                    acceptance := st.acceptance.reset now
                    best := some { st.solution with routes := q.1, locs := l',
                                                    cost := costOf (ctxAt ctx st.pen) q.1 } },
    ?_, ⟨hv', hv, hlen, hlen, costOf_rat (ctx := ctxAt ctx st.pen) h3, ?_⟩, rfl, rfl, rfl, rfl, h2,
    rfl, rfl⟩
  · unfold load
    rw [hload, Option.bind_some]
    unfold RRSol.evaluate
    dsimp only
    rw [g1]
    rfl
  · intro b hb
    simp only [Option.some.injEq] at hb
    subst hb
    exact ⟨hv', hlen, costOf_rat (ctx := ctxAt ctx st.pen) h3⟩

end RR
end Verif
