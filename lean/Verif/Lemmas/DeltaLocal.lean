import Verif.Lemmas.MoveLocal
import Verif.Lemmas.Search

/-!
# A reported gain depends on the two routes only, and a performed move stamps both
-/

namespace Verif
open F64 LS Spec

set_option linter.unusedSectionVars false

variable {α : Type} [F64 α] {ctx : Ctx α}

theorem chain_succ {h : Heap} : ∀ {L : List Ref} {P : List Ref} {x : Ref} {Q : List Ref}, L.IsChain (Linked h) →
    L = P ++ x :: Q → (∀ y Q', Q = y :: Q' → h.succ x = some y) ∧ ∀ P' y, P = P' ++ [y] → h.pred x = some y := by
  rintro L P x Q hc rfl
  constructor
  · rintro y Q' rfl
    have := List.isChain_append.mp hc
    exact (List.isChain_cons_cons.mp this.2.1).1.1
  · rintro P' y rfl
    rw [List.append_assoc, List.isChain_append] at hc
    exact (List.isChain_cons_cons.mp hc.2.1).1.2

/-- Two states that agree on the nodes `N` and on the stored data of their routes. -/
structure AgreeOn (N : Ref → Prop) (s s' : LS α) : Prop where
  succ : ∀ x, N x → s.heap.succ x = s'.heap.succ x
  pred : ∀ x, N x → s.heap.pred x = s'.heap.pred x
  next : ∀ x y, N x → s'.heap.succ x = some y → N y
  rt : ∀ x, N x → s.rt x = s'.rt x
  pos : ∀ x, N x → s.pos x = s'.pos x
  cumD : ∀ x, N x → s.cumD x = s'.cumD x
  cumL : ∀ x, N x → s.cumL x = s'.cumL x
  route : ∀ x r, N x → s'.rt x = some r → (s.route r).distance = (s'.route r).distance ∧
    (s.route r).load = (s'.route r).load ∧ (s.route r).overload = (s'.route r).overload ∧
    (s.route r).cost = (s'.route r).cost
  pen : s.pen = s'.pen

theorem agreeOn_route {s s' : LS α} {R R' : List (List ℕ)} (h : Repr ctx s R) (h' : Repr ctx s' R')
    (hpen : s.pen = s'.pen) {r : ℕ} {l : List ℕ} (hr : R[r]? = some l) (hr' : R'[r]? = some l) :
    AgreeOn (· ∈ routeRefs r l) s s' := by
  have d := h.data r l trivial hr
  have d' := h'.data r l trivial hr'
  have c := h.enc.chain hr
  have c' := h'.enc.chain hr'
  have hdist : (s.route r).distance = (s'.route r).distance := d.distance.trans d'.distance.symm
  have hload : (s.route r).load = (s'.route r).load := d.load.trans d'.load.symm
  have hover : (s.route r).overload = (s'.route r).overload := by rw [d.overload, d'.overload, hload]
  have succ : ∀ x ∈ routeRefs r l, s.heap.succ x = s'.heap.succ x ∧
      ∀ y, s'.heap.succ x = some y → y ∈ routeRefs r l := by
    intro x hx
    obtain ⟨P, Q, e⟩ := List.append_of_mem hx
    cases Q with
    | cons y Q =>
      have e1 := (chain_succ c e).1 y Q rfl
      have e2 := (chain_succ c' e).1 y Q rfl
      refine ⟨e1.trans e2.symm, fun z hz => ?_⟩
      rw [e2] at hz
      cases hz
      rw [e]; simp
    | nil =>
      have hx' : x = .fin r := by
        have := congrArg List.getLast? e
        rw [routeRefs, ← List.cons_append, List.getLast?_concat, List.getLast?_concat] at this
        exact (Option.some.inj this).symm
      subst hx'
      rw [h.enc.succ0 r (get_lt hr), h'.enc.succ0 r (get_lt hr')]
      simp
  have pred : ∀ x ∈ routeRefs r l, s.heap.pred x = s'.heap.pred x := by
    intro x hx
    obtain ⟨P, Q, e⟩ := List.append_of_mem hx
    rcases List.eq_nil_or_concat P with rfl | ⟨P', y, rfl⟩
    · have hx' : x = .start r := by
        have := congrArg List.head? e
        simpa [routeRefs] using this.symm
      subst hx'
      rw [h.enc.pred0 r (get_lt hr), h'.enc.pred0 r (get_lt hr')]
    · rw [List.concat_eq_append] at e
      exact ((chain_succ c e).2 P' y rfl).trans ((chain_succ c' e).2 P' y rfl).symm
  have data : ∀ x ∈ routeRefs r l, s.pos x = s'.pos x ∧ s.cumD x = s'.cumD x ∧ s.cumL x = s'.cumL x := by
    intro x hx
    rcases List.mem_cons.mp hx with rfl | hx
    · rw [d.start.1, d.start.2.1, d.start.2.2, d'.start.1, d'.start.2.1, d'.start.2.2]
      simp
    · obtain ⟨P, Q, e⟩ := List.append_of_mem hx
      obtain ⟨a1, a2, a3⟩ := d.node P x Q e
      obtain ⟨b1, b2, b3⟩ := d'.node P x Q e
      rw [a1, a2, a3, b1, b2, b3]
      simp
  exact
    { succ := fun x hx => (succ x hx).1
      pred := pred
      next := fun x y hx hy => (succ x hx).2 y hy
      rt := fun x hx => (d.rt x hx).trans (d'.rt x hx).symm
      pos := fun x hx => (data x hx).1
      cumD := fun x hx => (data x hx).2.1
      cumL := fun x hx => (data x hx).2.2
      route := fun x k hx hk => by
        rw [d'.rt x hx] at hk
        cases hk
        exact ⟨hdist, hload, hover, by rw [d.cost, d'.cost, hdist, hover, hpen]⟩
      pen := hpen }

theorem AgreeOn.or {N N' : Ref → Prop} {s s' : LS α} (h : AgreeOn N s s') (h' : AgreeOn N' s s') :
    AgreeOn (fun x => N x ∨ N' x) s s' where
  succ x hx := hx.elim (h.succ x) (h'.succ x)
  pred x hx := hx.elim (h.pred x) (h'.pred x)
  next x y hx hy := hx.imp (fun hx => h.next x y hx hy) fun hx => h'.next x y hx hy
  rt x hx := hx.elim (h.rt x) (h'.rt x)
  pos x hx := hx.elim (h.pos x) (h'.pos x)
  cumD x hx := hx.elim (h.cumD x) (h'.cumD x)
  cumL x hx := hx.elim (h.cumL x) (h'.cumL x)
  route x r hx hr := hx.elim (fun hx => h.route x r hx hr) fun hx => h'.route x r hx hr
  pen := h.pen

/-- The reported gain only depends on the nodes and the data the states agree on. -/
theorem AgreeOn.delta {N : Ref → Prop} {s s' : LS α} (h : AgreeOn N s s') {u v : Ref} (hu : N u) (hv : N v)
    {r1 r2 : ℕ} (eu : s'.rt u = some r1) (ev : s'.rt v = some r2)
    (m : MoveKind) : m.delta ctx s u v = m.delta ctx s' u v := by
  obtain ⟨a1, a2, a3, a4⟩ := h.route u r1 hu eu
  obtain ⟨b1, b2, b3, b4⟩ := h.route v r2 hv ev
  have su := h.succ u hu
  have sv := h.succ v hv
  have pu := h.pred u hu
  have pv := h.pred v hv
  have ru := (h.rt u hu).trans eu
  have rv := (h.rt v hv).trans ev
  have du := h.cumD u hu
  have dv := h.cumD v hv
  have lu := h.cumL u hu
  have lv := h.cumL v hv
  have qu := h.pos u hu
  have qv := h.pos v hv
  have hp := h.pen
  rcases ex : s'.heap.succ u with _ | x
  · rw [ex] at su
    cases m <;> simp only [MoveKind.delta, Move.relocateSingleDelta, Move.relocateDoubleDelta,
      Move.relocateDoubleReverseDelta, Move.swapOneWithOneDelta, Move.swapTwoWithOneDelta,
      Move.swapTwoWithTwoDelta, Move.twoOptIntraReverseDelta, Move.twoOptInterReverseDelta,
      Move.twoOptInterDelta, costDelta, su, ex, pu, ru, eu, rv, ev, Option.bind_some, Option.bind_none]
  · have hx := h.next u x hu ex
    rw [ex] at su
    have sx := h.succ x hx
    have dx := h.cumD x hx
    rcases ey : s'.heap.succ v with _ | y
    · rw [ey] at sv
      cases m <;> simp only [MoveKind.delta, Move.relocateSingleDelta, Move.relocateDoubleDelta,
        Move.relocateDoubleReverseDelta, Move.swapOneWithOneDelta, Move.swapTwoWithOneDelta,
        Move.swapTwoWithTwoDelta, Move.twoOptIntraReverseDelta, Move.twoOptInterReverseDelta,
        Move.twoOptInterDelta, costDelta, su, ex, pu, pv, ru, eu, rv, ev, sv, ey, sx, Option.bind_some,
        Option.bind_none]
    · have hy := h.next v y hv ey
      rw [ey] at sv
      have sy := h.succ y hy
      have dy := h.cumD y hy
      cases m <;> simp only [MoveKind.delta, Move.relocateSingleDelta, Move.relocateDoubleDelta,
        Move.relocateDoubleReverseDelta, Move.swapOneWithOneDelta, Move.swapTwoWithOneDelta,
        Move.swapTwoWithTwoDelta, Move.twoOptIntraReverseDelta, Move.twoOptInterReverseDelta,
        Move.twoOptInterDelta, costDelta, su, ex, pu, pv, ru, eu, rv, ev, sv, ey, sx, sy, a1, a2, a3, a4,
        b1, b2, b3, b4, du, dv, lu, lv, qu, qv, dx, dy, hp, Option.bind_some]

/-- The reported gain is the same in every state that has the two routes. -/
theorem delta_same {s s' : LS α} {R R' : List (List ℕ)} (h : Repr ctx s R) (h' : Repr ctx s' R')
    (hpen : s.pen = s'.pen) {r1 r2 u c : ℕ} {l1 l2 : List ℕ} (e1 : R[r1]? = some l1) (e1' : R'[r1]? = some l1)
    (e2 : R[r2]? = some l2) (e2' : R'[r2]? = some l2) (hu : u ∈ l1) (hc : c ∈ l2) (m : MoveKind) :
    m.delta ctx s (.cust u) (.cust c) = m.delta ctx s' (.cust u) (.cust c) := by
  have g := (agreeOn_route h h' hpen e1 e1').or (agreeOn_route h h' hpen e2 e2')
  exact g.delta (.inl (by simp [routeRefs, hu])) (.inr (by simp [routeRefs, hc]))
    (h'.rt_cust e1' hu) (h'.rt_cust e2' hc) m

theorem updateRoute_stamps {r : ℕ} {s s' : LS α} (h : updateRoute ctx r s = some s') :
    s'.moveCount = s.moveCount ∧ (s'.route r).lastModified = s.moveCount ∧ ∀ k ≠ r, s'.route k = s.route k := by
  rw [updateRoute, Option.map_eq_some_iff] at h
  obtain ⟨l, -, rfl⟩ := h
  refine ⟨rfl, by simp [storeScan], fun k hk => by simp [storeScan, hk]⟩

theorem updateRoutes_stamps {r1 r2 : ℕ} {s s' : LS α} (h : updateRoutes ctx r1 r2 s = some s') :
    (s'.route r1).lastModified = s.moveCount ∧ (s'.route r2).lastModified = s.moveCount := by
  rw [updateRoutes, Option.bind_eq_some_iff] at h
  obtain ⟨s1, e1, h⟩ := h
  obtain ⟨m1, t1, k1⟩ := updateRoute_stamps e1
  by_cases hr : r1 = r2
  · subst hr
    simp only [ne_eq, not_true_eq_false, if_false, Option.some.injEq] at h
    subst h
    exact ⟨t1, t1⟩
  · rw [if_pos hr] at h
    obtain ⟨m2, t2, k2⟩ := updateRoute_stamps h
    rw [k2 r1 hr, t1, t2, m1]
    exact ⟨rfl, rfl⟩

theorem updateBoth_stamps {r1 r2 : ℕ} {s s' : LS α} (h : updateBoth ctx r1 r2 s = some s') :
    (s'.route r1).lastModified = s.moveCount ∧ (s'.route r2).lastModified = s.moveCount := by
  rw [updateBoth, Option.bind_eq_some_iff] at h
  obtain ⟨s1, e1, h⟩ := h
  obtain ⟨m1, t1, k1⟩ := updateRoute_stamps e1
  obtain ⟨m2, t2, k2⟩ := updateRoute_stamps h
  by_cases hr : r1 = r2
  · subst hr
    rw [t2, m1]; exact ⟨rfl, rfl⟩
  · rw [k2 r1 hr, t1, t2, m1]
    exact ⟨rfl, rfl⟩

/-- A performed move stamps the routes of both nodes (2-opt within a route: the one route). -/
theorem perform_stamps {m : MoveKind} {s s' : LS α} {u v : Ref} (h : m.perform ctx s u v = some s') {r1 r2 : ℕ}
    (eu : s.rt u = some r1) (ev : s.rt v = some r2) (hm : m = .twoOptIntraReverse → r1 = r2) :
    (s'.route r1).lastModified = s.moveCount ∧ (s'.route r2).lastModified = s.moveCount := by
  cases m
  case twoOptIntraReverse =>
    obtain rfl := hm rfl
    simp only [MoveKind.perform, Move.twoOptIntraReversePerform, eu, Option.bind_some, Option.bind_eq_some_iff] at h
    obtain ⟨x, -, y, -, hh, -, h⟩ := h
    exact ⟨(updateRoute_stamps h).2.1, (updateRoute_stamps h).2.1⟩
  case twoOptInterReverse =>
    simp only [MoveKind.perform, Move.twoOptInterReversePerform, eu, ev, Option.bind_some,
      Option.bind_eq_some_iff] at h
    obtain ⟨x, -, y, -, hh, -, hh', -, h⟩ := h
    have t := updateBoth_stamps h
    exact t
  case twoOptInter =>
    simp only [MoveKind.perform, Move.twoOptInterPerform, eu, ev, Option.bind_some, Option.bind_eq_some_iff] at h
    obtain ⟨x, -, y, -, hh, -, hh', -, h⟩ := h
    have t := updateBoth_stamps h
    exact t
  case relocateSingle =>
    simp only [MoveKind.perform, Move.relocateSinglePerform, eu, ev, Option.bind_some, Option.bind_eq_some_iff] at h
    obtain ⟨x, -, y, -, z, -, h⟩ := h
    have t := updateRoutes_stamps h
    exact t
  case relocateDouble =>
    simp only [MoveKind.perform, Move.relocateDoublePerform, eu, ev, Option.bind_some, Option.bind_eq_some_iff] at h
    obtain ⟨x, -, y, -, z, -, w, -, h⟩ := h
    have t := updateRoutes_stamps h
    exact t
  case relocateDoubleReverse =>
    simp only [MoveKind.perform, Move.relocateDoubleReversePerform, eu, ev, Option.bind_some,
      Option.bind_eq_some_iff] at h
    obtain ⟨x, -, y, -, z, -, w, -, h⟩ := h
    have t := updateRoutes_stamps h
    exact t
  case swapOneWithOne =>
    simp only [MoveKind.perform, Move.swapOneWithOnePerform, eu, ev, Option.bind_some, Option.bind_eq_some_iff] at h
    obtain ⟨x, -, y, -, z, -, w, -, h⟩ := h
    have t := updateRoutes_stamps h
    exact t
  case swapTwoWithOne =>
    simp only [MoveKind.perform, Move.swapTwoWithOnePerform, eu, ev, Option.bind_some, Option.bind_eq_some_iff] at h
    obtain ⟨x, -, y, -, z, -, w, -, w', -, h⟩ := h
    have t := updateRoutes_stamps h
    exact t
  case swapTwoWithTwo =>
    simp only [MoveKind.perform, Move.swapTwoWithTwoPerform, eu, ev, Option.bind_some, Option.bind_eq_some_iff] at h
    obtain ⟨x, -, y, -, z, -, w, -, w', -, w'', -, h⟩ := h
    have t := updateRoutes_stamps h
    exact t

theorem tryMoves_true {u v : Ref} : ∀ {ms : List MoveKind} {s s' : LS α},
    tryMoves ctx u v ms s = some (s', true) → ∃ m ∈ ms, ∃ d, m.delta ctx s u v = some d ∧
      approxLt d (lit 0) = true ∧ m.perform ctx { s with moveCount := s.moveCount + 1 } u v = some s'
  | [], s, s', h => by simp [tryMoves] at h
  | m :: ms, s, s', h => by
    rw [tryMoves, Option.bind_eq_some_iff] at h
    obtain ⟨d, ed, h⟩ := h
    split at h
    · next hlt =>
      rw [Option.map_eq_some_iff] at h
      obtain ⟨t, et, e⟩ := h
      cases e
      exact ⟨m, by simp, d, ed, hlt, et⟩
    · obtain ⟨m', hm, r⟩ := tryMoves_true h
      exact ⟨m', by simp [hm], r⟩

end Verif
