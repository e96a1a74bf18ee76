import Verif.Lemmas.Cache

/-!
# SWAP*: preprocessing, choosing and performing a move
-/

namespace Verif
open F64 LS Spec

set_option linter.unusedSectionVars false

variable {α : Type} [F64 α] {ctx : Ctx α}

/-! ### Preprocessing -/

/-- Everything but the insertion cache and the removal costs is the same. -/
structure SameButCache (s s' : LS α) : Prop where
  heap : s'.heap = s.heap
  rt : s'.rt = s.rt
  pos : s'.pos = s.pos
  cumD : s'.cumD = s.cumD
  cumL : s'.cumL = s.cumL
  route : s'.route = s.route
  moveCount : s'.moveCount = s.moveCount
  empty : s'.empty = s.empty
  frame : SameFrame s s'

theorem SameButCache.refl (s : LS α) : SameButCache s s :=
  ⟨rfl, rfl, rfl, rfl, rfl, rfl, rfl, rfl, .refl s⟩

theorem SameButCache.trans {s s' s'' : LS α} (h : SameButCache s s') (h' : SameButCache s' s'') :
    SameButCache s s'' :=
  ⟨h'.1.trans h.1, h'.2.trans h.2, h'.3.trans h.3, h'.4.trans h.4, h'.5.trans h.5, h'.6.trans h.6,
    h'.7.trans h.7, h'.8.trans h.8, h.9.trans h'.9⟩

/-- Changes of the cache that keep it valid. -/
theorem Repr.changeCache {s s' : LS α} {R : List (List ℕ)} (h : Repr ctx s R)
    (hs : SameButCache s s')
    (hle : ∀ r < R.length, ∀ u, (s'.inserts r u).lastCalculated ≤ s.moveCount)
    (hc : ∀ r l u, R[r]? = some l → (s.route r).lastModified ≤ (s'.inserts r u).lastCalculated →
      Cached ctx r l u (s'.inserts r u)) : Repr ctx s' R := by
  constructor
  · rw [hs.heap]; exact h.enc
  · rw [hs.frame.numRoutes]; exact h.len
  · exact h.part
  · rw [hs.cumD, hs.cumL]; exact h.cums
  · intro r l _ hr
    exact (h.data r l trivial hr).congr (fun _ _ => by rw [hs.rt]) (fun _ _ => by rw [hs.pos])
      (fun _ _ => by rw [hs.cumD]) (fun _ _ => by rw [hs.cumL]) (by rw [hs.route]) (by rw [hs.route])
      (by rw [hs.route]) (by rw [hs.route]) (by rw [hs.route]) hs.frame.pen (by rw [hs.route])
      hs.frame.angle
  · rw [hs.empty]; exact h.empty
  · rw [hs.route, hs.moveCount]; exact h.stamps
  · rw [hs.moveCount]; exact hle
  · rw [hs.route]; exact fun r l u _ => hc r l u
  · simp

theorem refreshInserts_repr {s : LS α} {R : List (List ℕ)} (h : Repr ctx s R) {r : ℕ} {l : List ℕ}
    (hr : R[r]? = some l) (u : ℕ) :
    ∃ s', refreshInserts ctx r u s = some s' ∧ Repr ctx s' R ∧ SameButCache s s' ∧
      s'.delRem = s.delRem ∧ (∀ k ≠ r, s'.inserts k = s.inserts k) ∧
      (∀ w ≠ u, s'.inserts r w = s.inserts r w) ∧
      (s'.route r).lastModified ≤ (s'.inserts r u).lastCalculated := by
  unfold refreshInserts
  split
  · obtain ⟨t, e, hc, hl⟩ := calcInserts_eq h hr u
    rw [e, Option.map_some]
    refine ⟨_, rfl, h.changeCache (s' := { s with
        inserts := Function.update s.inserts r (Function.update (s.inserts r) u t) })
      ⟨rfl, rfl, rfl, rfl, rfl, rfl, rfl, rfl, ⟨⟨rfl, rfl, rfl, rfl, rfl, rfl, rfl, rfl⟩, fun _ => rfl⟩⟩ ?_ ?_,
      ⟨rfl, rfl, rfl, rfl, rfl, rfl, rfl, rfl, ⟨⟨rfl, rfl, rfl, rfl, rfl, rfl, rfl, rfl⟩, fun _ => rfl⟩⟩, rfl, ?_, ?_, ?_⟩
    · intro k hk w
      by_cases e : k = r
      · subst e
        by_cases e' : w = u
        · subst e'; simp [hl]
        · simpa [e'] using h.cacheLe k hk w
      · simpa [e] using h.cacheLe k hk w
    · intro k l' w hk hle
      by_cases e : k = r
      · subst e
        rw [hr] at hk; cases hk
        by_cases e' : w = u
        · subst e'; simpa using hc
        · simp only [Function.update_self, ne_eq, e', not_false_eq_true, Function.update_of_ne] at hle ⊢
          exact h.cache k l w trivial hr hle
      · simp only [ne_eq, e, not_false_eq_true, Function.update_of_ne] at hle ⊢
        exact h.cache k l' w trivial hk hle
    · intro k hk; simp [hk]
    · intro w hw; simp [hw]
    · simp only [Function.update_self, hl]
      exact h.stamps r (get_lt hr)
  · next hlt =>
    exact ⟨s, rfl, h, .refl s, rfl, fun _ _ => rfl, fun _ _ => rfl, by omega⟩

/-- The change of distance when `u` is removed between `p` and `q`. -/
def remCost (ctx : Ctx α) (r : ℕ) (p : List ℕ) (u : ℕ) (q : List ℕ) : α :=
  ctx.dist (lastRef r p).number (headRef r q).number -. ctx.dist (lastRef r p).number u
    -. ctx.dist u (headRef r q).number

theorem preprocessLoop_repr {r1 r2 : ℕ} {l1 l2 : List ℕ} : ∀ (us pre : List ℕ) (s : LS α)
    (R : List (List ℕ)), Repr ctx s R → R[r1]? = some l1 → R[r2]? = some l2 → l1 = pre ++ us →
    ∃ s', preprocessLoop ctx r2 (us.map Ref.cust) s = some s' ∧ Repr ctx s' R ∧ SameButCache s s' ∧
      (∀ k ≠ r2, s'.inserts k = s.inserts k) ∧ (∀ w ∉ us, s'.inserts r2 w = s.inserts r2 w) ∧
      (∀ x ∉ us.map Ref.cust, s'.delRem x = s.delRem x) ∧
      (∀ p u q, us = p ++ u :: q → s'.delRem (.cust u) = remCost ctx r1 (pre ++ p) u q ∧
        (s'.route r2).lastModified ≤ (s'.inserts r2 u).lastCalculated)
  | [], pre, s, R, h, h1, h2, he =>
    ⟨s, rfl, h, .refl s, fun _ _ => rfl, fun _ _ => rfl, fun _ _ => rfl, fun p u q e => by simp at e⟩
  | u :: us, pre, s, R, h, h1, h2, he => by
    subst he
    have hnd : (pre ++ u :: us).Nodup := part_nodup h.part h1
    have hu : u ∉ us := by
      rw [List.nodup_append, List.nodup_cons] at hnd; exact hnd.2.1.1
    have hp := h.enc.pred_cust h1
    have hs := h.enc.succ_cust h1
    have h0 : Repr ctx
        { s with delRem := Function.update s.delRem (.cust u) (remCost ctx r1 pre u us) } R :=
      h.changeCache ⟨rfl, rfl, rfl, rfl, rfl, rfl, rfl, rfl, ⟨⟨rfl, rfl, rfl, rfl, rfl, rfl, rfl, rfl⟩, fun _ => rfl⟩⟩ h.cacheLe
        (fun r l u hr hle => h.cache r l u trivial hr hle)
    obtain ⟨sa, ea, ha, ca, da, ka, wa, la⟩ := refreshInserts_repr h0 h2 u
    obtain ⟨s', e, h', c', k', w', x', n'⟩ := preprocessLoop_repr us (pre ++ [u]) sa R ha h1 h2 (by simp)
    refine ⟨s', ?_, h', ?_, ?_, ?_, ?_, ?_⟩
    · rw [List.map_cons, preprocessLoop, hp, hs]
      simp only [Option.bind_some]
      rw [show (Ref.cust u).number = u from rfl]
      have : ctx.dist (lastRef r1 pre).number (headRef r1 us).number -.
          ctx.dist (lastRef r1 pre).number u -. ctx.dist u (headRef r1 us).number =
          remCost ctx r1 pre u us := rfl
      rw [this, ea, Option.bind_some, e]
    · exact SameButCache.trans ⟨ca.1, ca.2, ca.3, ca.4, ca.5, ca.6, ca.7, ca.8,
        ⟨⟨ca.9.1.1, ca.9.1.2, ca.9.1.3, ca.9.1.4, ca.9.1.5, ca.9.1.6, ca.9.1.7, ca.9.1.8⟩, ca.9.2⟩⟩ c'
    · intro k hk; rw [k' k hk, ka k hk]
    · intro w hw
      simp only [List.mem_cons, not_or] at hw
      rw [w' w hw.2, wa w hw.1]
    · intro x hx
      simp only [List.map_cons, List.mem_cons, not_or] at hx
      rw [x' x hx.2, da]
      simp [hx.1]
    · intro p w q e
      cases p with
      | nil =>
        simp only [List.nil_append, List.cons.injEq] at e
        obtain ⟨rfl, rfl⟩ := e
        refine ⟨?_, ?_⟩
        · rw [x' _ (by simpa using hu), da]; simp
        · rw [c'.route, w' _ hu]; exact la
      | cons c p =>
        simp only [List.cons_append, List.cons.injEq] at e
        obtain ⟨rfl, rfl⟩ := e
        have := n' p w q rfl
        simpa using this

theorem walk_custs {s : LS α} {R : List (List ℕ)} (h : Repr ctx s R) {r : ℕ} {l : List ℕ}
    (hr : R[r]? = some l) :
    s.heap.walkCust (s.fuel ctx) (s.heap.succ (.start r)) = some (l.map Ref.cust) := by
  have hchain := h.enc.chain hr
  have hs : s.heap.succ (.start r) = (l.map Ref.cust ++ [Ref.fin r]).head? := by
    cases l with
    | nil => exact (List.isChain_cons_cons.mp hchain).1.1
    | cons y L => exact (List.isChain_cons_cons.mp hchain).1.1
  rw [hs]
  exact walkCust_chain (l.map Ref.cust) (.fin r) s.heap (s.fuel ctx) (List.IsChain.tail hchain)
    (by
      have := part_length h.part hr
      simp [fuel]; omega) rfl (by
      intro x hx
      obtain ⟨c, hc, rfl⟩ := List.mem_map.mp hx
      simp [Ref.isDepot, Ref.number, (part_pos h.part hr c hc).1])

/-- The data SWAP* uses for the customers of route `r1` with respect to route `r2`. -/
structure Prepared (ctx : Ctx α) (s : LS α) (r1 r2 : ℕ) (l1 l2 : List ℕ) : Prop where
  rem : ∀ p u q, l1 = p ++ u :: q → s.delRem (.cust u) = remCost ctx r1 p u q
  ins : ∀ u ∈ l1, Cached ctx r2 l2 u (s.inserts r2 u)

theorem preprocess_repr {s : LS α} {R : List (List ℕ)} (h : Repr ctx s R) {r1 r2 : ℕ}
    {l1 l2 : List ℕ} (hne : r1 ≠ r2) (h1 : R[r1]? = some l1) (h2 : R[r2]? = some l2) :
    ∃ s1 s2, preprocess ctx r1 r2 s = some s1 ∧ preprocess ctx r2 r1 s1 = some s2 ∧ Repr ctx s2 R ∧
      SameButCache s s2 ∧ Prepared ctx s2 r1 r2 l1 l2 ∧ Prepared ctx s2 r2 r1 l2 l1 := by
  obtain ⟨s1, e1, hr1, c1, k1, w1, x1, n1⟩ := preprocessLoop_repr l1 [] s R h h1 h2 rfl
  obtain ⟨s2, e2, hr2, c2, k2, w2, x2, n2⟩ := preprocessLoop_repr l2 [] s1 R hr1 h2 h1 rfl
  refine ⟨s1, s2, ?_, ?_, hr2, c1.trans c2, ⟨?_, ?_⟩, ⟨?_, ?_⟩⟩
  · rw [preprocess, walk_custs h h1, Option.bind_some, e1]
  · rw [preprocess, walk_custs hr1 h2, Option.bind_some, e2]
  · intro p u q e
    have hm : Ref.cust u ∉ l2.map Ref.cust := by
      simpa using part_disj h.part hne h1 h2 u (by simp [e])
    rw [x2 _ hm, (n1 p u q e).1]; rfl
  · intro u hu
    obtain ⟨p, q, e⟩ := List.append_of_mem hu
    refine hr2.cache r2 l2 u trivial h2 ?_
    rw [c2.route, k2 r2 hne.symm]
    exact (n1 p u q e).2
  · intro p u q e
    rw [(n2 p u q e).1]; rfl
  · intro u hu
    obtain ⟨p, q, e⟩ := List.append_of_mem hu
    exact hr2.cache r1 l1 u trivial h1 (n2 p u q e).2

/-! ### Choosing a place -/

/-- Where `u` can go in route `p, v, q` when `v` leaves it: `pos` is the node it follows, `c` the
added distance on top of removing `v`; the route becomes the two last lists with `u` between. -/
inductive Placed (ctx : Ctx α) (r : ℕ) (p : List ℕ) (v : ℕ) (q : List ℕ) (u : ℕ) :
    Ref → α → List ℕ → List ℕ → Prop
  | inPlace : Placed ctx r p v q u (lastRef r p) (insCost ctx (lastRef r p) u (headRef r q)) p q
  | before (A B : List ℕ) : p = A ++ B → B ≠ [] →
      Placed ctx r p v q u (lastRef r A) (insCost ctx (lastRef r A) u (headRef r B)) A (B ++ q)
  | after (A B : List ℕ) : q = A ++ B → A ≠ [] →
      Placed ctx r p v q u (lastRef r A) (insCost ctx (lastRef r A) u (headRef r B)) (p ++ A) B

theorem split_cases {p q A B : List ℕ} {v : ℕ} (h : p ++ v :: q = A ++ B) :
    (∃ B1, p = A ++ B1 ∧ B = B1 ++ v :: q) ∨ (∃ A2, A = p ++ v :: A2 ∧ q = A2 ++ B) := by
  rcases List.append_eq_append_iff.mp h with ⟨a', rfl, hb⟩ | ⟨c', rfl, hc⟩
  · cases a' with
    | nil =>
      simp only [List.nil_append] at hb
      exact .inl ⟨[], by simp, by simp [hb]⟩
    | cons x a' =>
      simp only [List.cons_append, List.cons.injEq] at hb
      obtain ⟨rfl, rfl⟩ := hb
      exact .inr ⟨a', rfl, rfl⟩
  · exact .inl ⟨c', rfl, hc⟩

/-- A location of the whole route that is not next to `v`. -/
theorem LocOf.placed {r : ℕ} {p q : List ℕ} {v u : ℕ} {loc : Loc α}
    (h : LocOf ctx r (p ++ v :: q) u loc) {n : Ref} (hn : loc.node = some n) (hn1 : n ≠ .cust v)
    (hn2 : n ≠ lastRef r p) : ∃ A B, Placed ctx r p v q u n loc.cost A B := by
  obtain ⟨A, B, e, e2, e3⟩ := h
  rw [hn] at e2
  cases e2
  rw [e3]
  rcases split_cases e with ⟨B1, rfl, rfl⟩ | ⟨A2, rfl, rfl⟩
  · have hB : B1 ≠ [] := by
      rintro rfl; simp at hn2
    rw [headRef_append hB]
    exact ⟨_, _, .before A B1 rfl hB⟩
  · have hA : A2 ≠ [] := by
      rintro rfl; simp at hn1
    have : lastRef r (p ++ v :: A2) = lastRef r A2 := by
      have := lastRef_append (r := r) (p := p ++ [v]) hA
      simpa using this
    rw [this]
    exact ⟨_, _, .after A2 B rfl hA⟩

/-- `notAdjacent` at a node of the route. -/
theorem notAdjacent_eq {s : LS α} {R : List (List ℕ)} (h : Repr ctx s R) {r : ℕ} {p q : List ℕ} {v : ℕ}
    (hr : R[r]? = some (p ++ v :: q)) {A B : List ℕ} (hAB : p ++ v :: q = A ++ B) :
    notAdjacent s.heap (.cust v) (lastRef r A) =
      some (decide (lastRef r A ≠ .cust v ∧ lastRef r A ≠ lastRef r p)) := by
  have hsucc := h.enc.succ_last (hAB ▸ hr)
  have hpos := part_pos h.part hr
  have hnd := part_nodup h.part hr
  rw [notAdjacent, hsucc, Option.map_some]
  congr 1
  rw [decide_eq_decide]
  have hv0 : v ≠ 0 := (hpos v (by simp)).1
  have h1 : ∀ x ∈ routeRefs r (p ++ v :: q), x.number ≠ (Ref.cust v).number ↔ x ≠ .cust v := by
    intro x hx
    cases x with
    | cust c => simp [Ref.number]
    | start c => simpa [Ref.number] using Ne.symm hv0
    | fin c => simpa [Ref.number] using Ne.symm hv0
  have hm1 : lastRef r A ∈ routeRefs r (p ++ v :: q) := hAB ▸ lastRef_mem r A B
  have hm2 : headRef r B ∈ routeRefs r (p ++ v :: q) := by
    rw [hAB, routeRefs_split, List.mem_append]
    exact .inr (List.mem_of_head? (head_fin r B))
  rw [h1 _ hm1, h1 _ hm2]
  refine and_congr_right fun hne => not_congr ?_
  -- the successor of a node is `v` exactly when the node is the one before `v`
  constructor
  · intro e
    have a := h.enc.pred_head (hAB ▸ hr)
    rw [e, h.enc.pred_cust hr] at a
    exact (Option.some.inj a).symm
  · intro e
    rw [e] at hsucc
    have := h.enc.succ_last (p := p) (q := v :: q) hr
    rw [this] at hsucc
    have := Option.some.inj hsucc
    rw [← this]; simp

theorem pickInsert_ok {s : LS α} {R : List (List ℕ)} (h : Repr ctx s R) {r : ℕ} {p q : List ℕ}
    {v u : ℕ} (hr : R[r]? = some (p ++ v :: q)) {t : Three α}
    (ht : EntryOK ctx r (p ++ v :: q) u t) :
    ∃ n c b, pickInsert s.heap t (.cust v) = some (n, c, b) ∧
      (b = true → ∃ A B, Placed ctx r p v q u n c A B) := by
  have hlen : 2 ≤ (p ++ v :: q).length + 1 := by simp; omega
  have f0 := ht.filled.f0 (by omega)
  have f1 := ht.filled.f1 hlen
  obtain ⟨n0, e0⟩ := Option.isSome_iff_exists.mp f0
  obtain ⟨n1, e1⟩ := Option.isSome_iff_exists.mp f1
  have l0 := ht.loc0 f0
  have l1 := ht.loc1 f1
  obtain ⟨A0, B0, s0, m0, -⟩ := id l0
  obtain ⟨A1, B1, s1, m1, -⟩ := id l1
  have a0 := notAdjacent_eq h hr s0
  have a1 := notAdjacent_eq h hr s1
  rw [e0] at m0; cases m0
  rw [e1] at m1; cases m1
  rw [pickInsert, e0, Option.bind_some, a0, Option.bind_some]
  by_cases c0 : lastRef r A0 ≠ Ref.cust v ∧ lastRef r A0 ≠ lastRef r p
  · refine ⟨lastRef r A0, t.l0.cost, true, ?_, fun _ => l0.placed e0 c0.1 c0.2⟩
    exact if_pos (decide_eq_true c0)
  · have hif : ∀ X Y : Option (Ref × α × Bool), (if decide (lastRef r A0 ≠ Ref.cust v ∧
        lastRef r A0 ≠ lastRef r p) = true then X else Y) = Y :=
      fun X Y => if_neg (by rw [decide_eq_false c0]; simp)
    rw [hif]
    simp only [e1]
    rw [a1, Option.bind_some]
    by_cases c1 : lastRef r A1 ≠ Ref.cust v ∧ lastRef r A1 ≠ lastRef r p
    · refine ⟨lastRef r A1, t.l1.cost, true, ?_, fun _ => l1.placed e1 c1.1 c1.2⟩
      exact if_pos (decide_eq_true c1)
    · have hif : ∀ X Y : Option (Ref × α × Bool), (if decide (lastRef r A1 ≠ Ref.cust v ∧
          lastRef r A1 ≠ lastRef r p) = true then X else Y) = Y :=
        fun X Y => if_neg (by rw [decide_eq_false c1]; simp)
      rw [hif]
      rcases e2 : t.l2.node with _ | n2
      · exact ⟨lastRef r A1, t.l1.cost, false, rfl, by simp⟩
      · have f2 : t.l2.node.isSome := by rw [e2]; rfl
        have l2 := ht.loc2 f2
        have n01 := ht.ne01 f1
        have n02 := ht.ne02 f2
        have n12 := ht.ne12 f2
        rw [e0, e1] at n01
        rw [e0, e2] at n02
        rw [e1, e2] at n12
        refine ⟨n2, t.l2.cost, true, rfl, fun _ => l2.placed e2 ?_ ?_⟩
        all_goals
          intro e
          rw [not_and_or, not_not, not_not] at c0 c1
          rcases c0 with c0 | c0 <;> rcases c1 with c1 | c1 <;> simp_all

/-- `cheapest_insert_and_removal` returns a place for `u`. -/
theorem cheapestInsert_ok {s : LS α} {R : List (List ℕ)} (h : Repr ctx s R) {r : ℕ} {p q : List ℕ}
    {v u : ℕ} (hr : R[r]? = some (p ++ v :: q))
    (ht : EntryOK ctx r (p ++ v :: q) u (s.inserts r u)) :
    ∃ n c A B, cheapestInsert ctx s (.cust u) (.cust v) = some (n, c) ∧
      Placed ctx r p v q u n c A B := by
  obtain ⟨n, c, b, e, hb⟩ := pickInsert_ok h hr ht
  rw [cheapestInsert, h.rt_cust hr (by simp), Option.bind_some]
  rw [show (Ref.cust u).number = u from rfl, e, Option.bind_some, h.enc.pred_cust hr,
    Option.bind_some, h.enc.succ_cust hr, Option.map_some]
  dsimp only
  split
  · exact ⟨_, _, _, _, rfl, .inPlace⟩
  · next hc =>
    have : b = true := by
      cases b
      · simp at hc
      · rfl
    obtain ⟨A, B, hp⟩ := hb this
    exact ⟨_, _, A, B, rfl, hp⟩

/-! ### The best move -/

/-- `0f64.max(overload ∓ …) * penalty` differences. -/
def penDiff (s : LS α) (o o' : α) : α := SwapStar.penaltyOf s o' -. SwapStar.penaltyOf s o

/-- The best move is none or a real move with its cost; the last list is the resulting routes. -/
inductive GoodBest (ctx : Ctx α) (s : LS α) (R : List (List ℕ)) (r1 r2 : ℕ) :
    BestSwap α → List (List ℕ) → Prop
  | none : GoodBest ctx s R r1 r2 SwapStar.best0 R
  | both (p1 q1 p2 q2 A B C D : List ℕ) (u v : ℕ) (pu pv : Ref) (cu cv : α) :
      R[r1]? = some (p1 ++ u :: q1) → R[r2]? = some (p2 ++ v :: q2) →
      Placed ctx r2 p2 v q2 u pu cu A B → Placed ctx r1 p1 u q1 v pv cv C D →
      GoodBest ctx s R r1 r2
        ⟨remCost ctx r1 p1 u q1
          +. penDiff s (s.route r1).overload ((s.route r1).overload -. ctx.demand u +. ctx.demand v)
          +. cu +. remCost ctx r2 p2 v q2
          +. penDiff s (s.route r2).overload ((s.route r2).overload +. ctx.demand u -. ctx.demand v)
          +. cv, some (.cust u), some (.cust v), some pu, some pv⟩
        ((R.set r1 (C ++ v :: D)).set r2 (A ++ u :: B))
  | relocU (p q A B : List ℕ) (u : ℕ) : R[r1]? = some (p ++ u :: q) → R[r2]? = some (A ++ B) →
      GoodBest ctx s R r1 r2
        ⟨remCost ctx r1 p u q +. insCost ctx (lastRef r2 A) u (headRef r2 B)
          +. penDiff s (s.route r1).overload ((s.route r1).overload -. ctx.demand u)
          +. penDiff s (s.route r2).overload ((s.route r2).overload +. ctx.demand u),
          some (.cust u), .none, some (lastRef r2 A), .none⟩
        ((R.set r1 (p ++ q)).set r2 (A ++ u :: B))
  | relocV (p q A B : List ℕ) (v : ℕ) : R[r2]? = some (p ++ v :: q) → R[r1]? = some (A ++ B) →
      GoodBest ctx s R r1 r2
        ⟨remCost ctx r2 p v q +. insCost ctx (lastRef r1 A) v (headRef r1 B)
          +. penDiff s (s.route r1).overload ((s.route r1).overload +. ctx.demand v)
          +. penDiff s (s.route r2).overload ((s.route r2).overload -. ctx.demand v),
          .none, some (.cust v), .none, some (lastRef r1 A)⟩
        ((R.set r2 (p ++ q)).set r1 (A ++ v :: B))

section best
variable {s : LS α} {R : List (List ℕ)} {r1 r2 : ℕ} {l1 l2 : List ℕ}

theorem pairLoopV_good (h : Repr ctx s R) (hf : InsertFinite ctx) (h1 : R[r1]? = some l1)
    (h2 : R[r2]? = some l2) (hp1 : Prepared ctx s r1 r2 l1 l2) (hp2 : Prepared ctx s r2 r1 l2 l1)
    {p1 q1 : List ℕ} {u : ℕ} (hu : l1 = p1 ++ u :: q1) :
    ∀ (vs pre : List ℕ) (b : BestSwap α), l2 = pre ++ vs → (∃ R', GoodBest ctx s R r1 r2 b R') →
      ∃ b', SwapStar.pairLoopV ctx s r1 r2 (.cust u) (vs.map Ref.cust) b = some b' ∧
        (∃ R', GoodBest ctx s R r1 r2 b' R')
  | [], _, b, _, hb => ⟨b, rfl, hb⟩
  | v :: vs, pre, b, he, hb => by
    obtain ⟨b1, e1, g1⟩ : ∃ b', SwapStar.pairStep ctx s r1 r2 (.cust u) (.cust v) b = some b' ∧
        (∃ R', GoodBest ctx s R r1 r2 b' R') := by
      have hnd1 := h.enc.nodup h1
      have hnd2 := h.enc.nodup h2
      unfold SwapStar.pairStep
      dsimp only
      split
      · obtain ⟨n, c, A, B, e, hpl⟩ := cheapestInsert_ok (u := u) h (he ▸ h2)
          ((hp1.ins u (by simp [hu])).entryOK hf hnd2 |> fun x => he ▸ x)
        obtain ⟨n', c', C, D, e', hpl'⟩ := cheapestInsert_ok (u := v) h (hu ▸ h1)
          ((hp2.ins v (by simp [he])).entryOK hf hnd1 |> fun x => hu ▸ x)
        rw [e, Option.bind_some, e', Option.map_some]
        refine ⟨_, rfl, ?_⟩
        split
        · have := GoodBest.both (ctx := ctx) (s := s) p1 q1 pre vs A B C D u v n n' c c' (hu ▸ h1) (he ▸ h2) hpl hpl'
          rw [hp1.rem p1 u q1 hu, hp2.rem pre v vs he]
          exact ⟨_, this⟩
        · exact hb
      · exact ⟨b, rfl, hb⟩
    obtain ⟨b', e', g'⟩ := pairLoopV_good h hf h1 h2 hp1 hp2 hu vs (pre ++ [v]) b1 (by simpa using he) g1
    refine ⟨b', ?_, g'⟩
    rw [List.map_cons, SwapStar.pairLoopV, e1, Option.bind_some, e']

theorem pairLoop_good (h : Repr ctx s R) (hf : InsertFinite ctx) (h1 : R[r1]? = some l1)
    (h2 : R[r2]? = some l2) (hp1 : Prepared ctx s r1 r2 l1 l2) (hp2 : Prepared ctx s r2 r1 l2 l1) :
    ∀ (us pre : List ℕ) (b : BestSwap α), l1 = pre ++ us → (∃ R', GoodBest ctx s R r1 r2 b R') →
      ∃ b', SwapStar.pairLoop ctx s r1 r2 (l2.map Ref.cust) (us.map Ref.cust) b = some b' ∧
        (∃ R', GoodBest ctx s R r1 r2 b' R')
  | [], _, b, _, hb => ⟨b, rfl, hb⟩
  | u :: us, pre, b, he, hb => by
    obtain ⟨b1, e1, g1⟩ := pairLoopV_good h hf h1 h2 hp1 hp2 he l2 [] b rfl hb
    obtain ⟨b', e', g'⟩ := pairLoop_good h hf h1 h2 hp1 hp2 us (pre ++ [u]) b1 (by simpa using he) g1
    refine ⟨b', ?_, g'⟩
    rw [List.map_cons, SwapStar.pairLoop, e1, Option.bind_some, e']

theorem relocU_good (h : Repr ctx s R) (hf : InsertFinite ctx) (h1 : R[r1]? = some l1)
    (h2 : R[r2]? = some l2) (hp1 : Prepared ctx s r1 r2 l1 l2) :
    ∀ (us pre : List ℕ) (b : BestSwap α), l1 = pre ++ us → (∃ R', GoodBest ctx s R r1 r2 b R') →
      ∃ R', GoodBest ctx s R r1 r2 (SwapStar.relocU ctx s r1 r2 (us.map Ref.cust) b) R'
  | [], _, _, _, hb => hb
  | u :: us, pre, b, he, hb => by
    rw [List.map_cons, SwapStar.relocU]
    refine relocU_good h hf h1 h2 hp1 us (pre ++ [u]) _ (by simpa using he) ?_
    split
    · have hok := (hp1.ins u (by simp [he])).entryOK hf (h.enc.nodup h2)
      obtain ⟨A, B, eAB, en, ec⟩ := hok.loc0 (hok.filled.f0 (by omega))
      have := GoodBest.relocU (ctx := ctx) (s := s) pre us A B u (he ▸ h1) (eAB ▸ h2)
      rw [show (Ref.cust u).number = u from rfl, hp1.rem pre u us he, en, ec]
      exact ⟨_, this⟩
    · exact hb

theorem relocV_good (h : Repr ctx s R) (hf : InsertFinite ctx) (h1 : R[r1]? = some l1)
    (h2 : R[r2]? = some l2) (hp2 : Prepared ctx s r2 r1 l2 l1) :
    ∀ (us pre : List ℕ) (b : BestSwap α), l2 = pre ++ us → (∃ R', GoodBest ctx s R r1 r2 b R') →
      ∃ R', GoodBest ctx s R r1 r2 (SwapStar.relocV ctx s r1 r2 (us.map Ref.cust) b) R'
  | [], _, _, _, hb => hb
  | u :: us, pre, b, he, hb => by
    rw [List.map_cons, SwapStar.relocV]
    refine relocV_good h hf h1 h2 hp2 us (pre ++ [u]) _ (by simpa using he) ?_
    split
    · have hok := (hp2.ins u (by simp [he])).entryOK hf (h.enc.nodup h1)
      obtain ⟨A, B, eAB, en, ec⟩ := hok.loc0 (hok.filled.f0 (by omega))
      have := GoodBest.relocV (ctx := ctx) (s := s) pre us A B u (he ▸ h2) (eAB ▸ h1)
      rw [show (Ref.cust u).number = u from rfl, hp2.rem pre u us he, en, ec]
      exact ⟨_, this⟩
    · exact hb

theorem bestMove_good (h : Repr ctx s R) (hf : InsertFinite ctx) (h1 : R[r1]? = some l1)
    (h2 : R[r2]? = some l2) (hp1 : Prepared ctx s r1 r2 l1 l2) (hp2 : Prepared ctx s r2 r1 l2 l1) :
    ∃ b, SwapStar.bestMove ctx s r1 r2 = some b ∧ ∃ R', GoodBest ctx s R r1 r2 b R' := by
  obtain ⟨b, e, g⟩ := pairLoop_good h hf h1 h2 hp1 hp2 l1 [] _ rfl ⟨_, .none⟩
  refine ⟨_, ?_, relocV_good h hf h1 h2 hp2 l2 [] _ rfl (relocU_good h hf h1 h2 hp1 l1 [] b rfl g)⟩
  rw [SwapStar.bestMove, walk_custs h h1, Option.bind_some, walk_custs h h2, Option.bind_some, e,
    Option.map_some]

end best

/-! ### Performing -/

/-- `insert_node` on an encoded list of routes. -/
theorem Encodes.insertNode {h : Heap} {R : List (List ℕ)} (he : Encodes h R) {r1 r2 : ℕ} {u : ℕ}
    {p q A B : List ℕ} (hne : r1 ≠ r2) (h1 : R[r1]? = some (p ++ u :: q)) (h2 : R[r2]? = some (A ++ B)) :
    ∃ h', h.insertNode (.cust u) (lastRef r2 A) = some h' ∧
      Encodes h' ((R.set r1 (p ++ q)).set r2 (A ++ u :: B)) := by
  refine ⟨((h.link (lastRef r1 p) (headRef r1 q)).link (lastRef r2 A) (.cust u)).link (.cust u)
    (headRef r2 B), ?_, ?_⟩
  · rw [Heap.insertNode, he.pred_cust h1, he.succ_cust h1, he.succ_last h2]
  · have e2 : A ++ u :: B = A ++ [u] ++ B := by simp
    rw [e2]
    refine he.set_two (l1 := p ++ [u] ++ q) hne (by simpa using h1) h2 ?_ (by frame) (by frame)
    intro Ls hs
    rw [routeRefs_split3, routeRefs_split] at hs
    rw [routeRefs_split3, routeRefs_split]
    exact hs.reloc_inter (getLast_start _ _) (head_fin _ _) (getLast_start _ _) (head_map_cust rfl)
      (last_map_cust rfl) (head_fin _ _)

/-- The list view of a place: where it is before and after `v` leaves. -/
theorem Placed.lists {r : ℕ} {p q A B : List ℕ} {v u : ℕ} {n : Ref} {c : α}
    (h : Placed ctx r p v q u n c A B) : p ++ q = A ++ B ∧ n = lastRef r A ∧ ∃ A' B' P Q,
      n = lastRef r A' ∧ p ++ v :: q = A' ++ B' ∧ A' ++ u :: B' = P ++ v :: Q ∧
      P ++ Q = A ++ u :: B := by
  cases h with
  | inPlace => exact ⟨rfl, rfl, p, v :: q, p ++ [u], q, rfl, rfl, by simp, by simp⟩
  | before A B e hB =>
    subst e
    exact ⟨by simp, rfl, A, B ++ v :: q, A ++ u :: B, q, rfl, by simp, by simp, by simp⟩
  | after A B e hA =>
    subst e
    refine ⟨by simp, ?_, p ++ v :: A, B, p, A ++ u :: B, ?_, by simp, by simp, by simp⟩
    · rw [lastRef_append hA]
    · have := lastRef_append (r := r) (p := p ++ [v]) hA
      simpa using this.symm

theorem set_comm' {β : Type} (R : List β) {a b : ℕ} (hne : a ≠ b) (x y : β) :
    (R.set a x).set b y = (R.set b y).set a x := List.set_comm x y hne

/-- Performing a real best move. -/
theorem GoodBest.perform {s : LS α} {R R' : List (List ℕ)} {r1 r2 : ℕ} {b : BestSwap α}
    (h : Repr ctx s R) (hne : r1 ≠ r2) (hg : GoodBest ctx s R r1 r2 b R') (hb : b ≠ SwapStar.best0) :
    (∃ s', SwapStar.performBest ctx r1 r2 b s = some s' ∧ Repr ctx s' R' ∧ SameFrame s s' ∧
      Stamped s R s' R') ∧
      SwapStarEffect R r1 r2 R' := by
  cases hg with
  | none => exact absurd rfl hb
  | relocU p q A B u h1 h2 =>
    obtain ⟨h', e, he⟩ := h.enc.insertNode hne h1 h2
    obtain ⟨s', es, hr, hf, hst⟩ := h.updateBoth he (by simp)
      ((flatten_set_two hne h1 h2 (by perm_custs)).trans h.part) (get_lt h1) (get_lt h2) hne set_set_other
    refine ⟨⟨s', ?_, hr, hf, hst⟩, ?_⟩
    · simp only [SwapStar.performBest, SwapStar.insertAt, Option.bind_some, e]
      exact es
    · have := SwapStarEffect.relocU u p q A B (by simpa using h1) h2
      simpa using this
  | relocV p q A B v h1 h2 =>
    obtain ⟨h', e, he⟩ := h.enc.insertNode hne.symm h1 h2
    obtain ⟨s', es, hr, hf, hst⟩ := h.updateBoth (r1 := r1) (r2 := r2) he (by simp)
      ((flatten_set_two hne.symm h1 h2 (by perm_custs)).trans h.part) (get_lt h2) (get_lt h1) hne
      (fun r a b => set_set_other r b a)
    refine ⟨⟨s', ?_, hr, hf, hst⟩, ?_⟩
    · simp only [SwapStar.performBest, SwapStar.insertAt, Option.bind_some, e]
      exact es
    · have := SwapStarEffect.relocV v p q A B (by simpa using h1) h2
      simpa using this
  | both p1 q1 p2 q2 A B C D u v pu pv cu cv h1 h2 hpu hpv =>
    obtain ⟨e1, n1, A', B', P, Q, n2, e2, e3, e4⟩ := hpu.lists
    obtain ⟨f1, m1, C', D', P', Q', m2, f2, f3, f4⟩ := hpv.lists
    obtain ⟨ha, ea, hea⟩ := h.enc.insertNode hne h1 (e2 ▸ h2)
    have hl1 := get_lt h1
    have hl2 := get_lt h2
    have g2 : ((R.set r1 (p1 ++ q1)).set r2 (A' ++ u :: B'))[r2]? = some (P ++ v :: Q) := by
      rw [List.getElem?_set_self (by simpa using hl2), e3]
    have g1 : ((R.set r1 (p1 ++ q1)).set r2 (A' ++ u :: B'))[r1]? = some (C ++ D) := by
      rw [List.getElem?_set_ne hne.symm, List.getElem?_set_self hl1, f1]
    obtain ⟨hb', eb, heb⟩ := hea.insertNode hne.symm g2 g1
    have hfinal : (((R.set r1 (p1 ++ q1)).set r2 (A' ++ u :: B')).set r2 (P ++ Q)).set r1 (C ++ v :: D) =
        (R.set r1 (C ++ v :: D)).set r2 (A ++ u :: B) := by
      rw [List.set_set, set_comm' _ hne.symm, List.set_set, e4]
    rw [hfinal] at heb
    have hperm : ((R.set r1 (C ++ v :: D)).set r2 (A ++ u :: B)).flatten.Perm R.flatten := by
      refine flatten_set_two hne h1 h2 ?_
      have i1 := fun c => congrArg (List.count c) e1
      have i2 := fun c => congrArg (List.count c) f1
      rw [List.perm_iff_count]; intro c
      have i1 := i1 c
      have i2 := i2 c
      simp only [List.count_append, List.count_cons] at i1 i2 ⊢
      omega
    obtain ⟨s', es, hr, hf, hst⟩ := h.updateBoth heb (by simp) (hperm.trans h.part) hl1 hl2 hne set_set_other
    refine ⟨⟨s', ?_, hr, hf, hst⟩, ?_⟩
    · rw [SwapStar.performBest]
      simp only [SwapStar.insertAt, Option.bind_some]
      rw [n2, ea, Option.bind_some]
      rw [m1, eb, Option.bind_some]
      exact es
    · have := SwapStarEffect.both u v p1 q1 p2 q2 A B C D (by simpa using h1) (by simpa using h2) e1 f1
      simpa using this

/-- SWAP* on two different routes of a valid state: it never fails, keeps the state valid, and either
changes no route or performs a real move of the predicted cost. -/
theorem swapStar_run {s : LS α} {R : List (List ℕ)} (h : Repr ctx s R) (hf : InsertFinite ctx)
    (hinf : approxGte (inf : α) (lit 0) = true) {r1 r2 : ℕ} (hne : r1 ≠ r2) (h1 : r1 < R.length)
    (h2 : r2 < R.length) :
    ∃ s' imp R', SwapStar.run ctx r1 r2 s = some (s', imp) ∧ Repr ctx s' R' ∧ SameFrame s s' ∧
      Stamped s R s' R' ∧ (imp = false → R' = R ∧ s'.moveCount = s.moveCount ∧ s'.route = s.route) ∧
      (imp = true → SwapStarEffect R r1 r2 R' ∧ ∃ s2 b, Repr ctx s2 R ∧ s2.pen = s.pen ∧
        GoodBest ctx s2 R r1 r2 b R' ∧ approxGte b.cost (lit 0) = false ∧ b ≠ SwapStar.best0) := by
  have g1 : R[r1]? = some R[r1] := List.getElem?_eq_getElem h1
  have g2 : R[r2]? = some R[r2] := List.getElem?_eq_getElem h2
  obtain ⟨s1, s2, e1, e2, hr, hc, hp1, hp2⟩ := preprocess_repr h hne g1 g2
  obtain ⟨b, eb, R', hg⟩ := bestMove_good hr hf g1 g2 hp1 hp2
  rw [SwapStar.run, e1, Option.bind_some, e2, Option.bind_some, eb, Option.bind_some]
  have hst : Stamped s R s2 R := by
    refine ⟨hc.moveCount.ge, fun r _ => ⟨rfl, by rw [hc.route]⟩⟩
  by_cases hge : approxGte b.cost (lit 0) = true
  · rw [if_pos hge]
    exact ⟨s2, false, R, rfl, hr, hc.frame, hst, fun _ => ⟨rfl, hc.moveCount, hc.route⟩, by simp⟩
  · rw [if_neg hge]
    have hb : b ≠ SwapStar.best0 := by
      rintro rfl; exact hge hinf
    obtain ⟨⟨s3, e3, hr3, hf3, hst3⟩, heff⟩ := hg.perform hr hne hb
    rw [e3, Option.map_some]
    exact ⟨s3, true, R', rfl, hr3, hc.frame.trans hf3, hst.trans hst3, by simp,
      fun _ => ⟨heff, s2, b, hr, hc.frame.pen, hg, by simpa using hge, hb⟩⟩

end Verif
