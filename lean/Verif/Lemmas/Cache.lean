import Verif.Lemmas.MoveSteps
import Verif.Model.SwapStar

/-!
# The insertion cache
-/

namespace Verif
open F64 LS Spec

set_option linter.unusedSectionVars false

variable {α : Type} [F64 α]

/-- Added distance of `u` between `a` and `b`. -/
def insCost (ctx : Ctx α) (a : Ref) (u : ℕ) (b : Ref) : α :=
  ctx.dist a.number u +. ctx.dist u b.number -. ctx.dist a.number b.number

/-- A location stands for a place in the route. -/
def LocOf (ctx : Ctx α) (r : ℕ) (l : List ℕ) (u : ℕ) (loc : Loc α) : Prop :=
  ∃ p q, l = p ++ q ∧ loc.node = some (lastRef r p) ∧
    loc.cost = insCost ctx (lastRef r p) u (headRef r q)

theorem insertLocs_aux (ctx : Ctx α) (r u : ℕ) : ∀ (q p : List ℕ) (a : Ref), a = lastRef r p →
    ∀ loc ∈ (a :: (q.map Ref.cust ++ [Ref.fin r])).zipWith (fun a b =>
      (⟨ctx.dist a.number u +. ctx.dist u b.number -. ctx.dist a.number b.number, some a⟩ : Loc α))
      (q.map Ref.cust ++ [Ref.fin r]), LocOf ctx r (p ++ q) u loc
  | [], p, a, ha, loc, hl => by
    simp only [List.map_nil, List.nil_append, List.zipWith_cons_cons, List.zipWith_nil_right,
      List.mem_singleton] at hl
    subst hl ha
    exact ⟨p, [], by simp, rfl, rfl⟩
  | c :: q, p, a, ha, loc, hl => by
    simp only [List.map_cons, List.cons_append, List.zipWith_cons_cons, List.mem_cons] at hl
    rcases hl with rfl | hl
    · subst ha
      exact ⟨p, c :: q, rfl, rfl, by simp [insCost]⟩
    · have := insertLocs_aux ctx r u q (p ++ [c]) (.cust c) (by simp) loc hl
      simpa using this

theorem insertLocs_mem {ctx : Ctx α} {r : ℕ} {l : List ℕ} {u : ℕ} {loc : Loc α}
    (h : loc ∈ insertLocs ctx r l u) : LocOf ctx r l u loc :=
  insertLocs_aux ctx r u l [] (.start r) rfl loc h

theorem zipWith_tail_node (ctx : Ctx α) (u : ℕ) (x : Ref) : ∀ (a : Ref) (X : List Ref),
    ((a :: X).zipWith (fun a b =>
      (⟨ctx.dist a.number u +. ctx.dist u b.number -. ctx.dist a.number b.number, some a⟩ : Loc α))
      X).map (·.node) = (a :: X).dropLast.map some
  | a, [] => by simp
  | a, y :: X => by
    simp only [List.zipWith_cons_cons, List.map_cons, List.dropLast_cons_cons]
    rw [zipWith_tail_node ctx u x y X]

theorem insertLocs_nodes (ctx : Ctx α) (r : ℕ) (l : List ℕ) (u : ℕ) :
    (insertLocs ctx r l u).map (·.node) = (routeRefs r l).dropLast.map some :=
  zipWith_tail_node ctx u (.start 0) _ _

theorem insertLocs_length (ctx : Ctx α) (r : ℕ) (l : List ℕ) (u : ℕ) :
    (insertLocs ctx r l u).length = l.length + 1 := by
  have := congrArg List.length (insertLocs_nodes ctx r l u)
  simpa [routeRefs] using this

/-- Adding keeps what was there, drops nothing but one surplus location. -/
theorem Three.add_perm (t : Three α) (loc : Loc α) : ∃ x, ([(t.add loc).l0, (t.add loc).l1,
    (t.add loc).l2] ++ [x]).Perm ([t.l0, t.l1, t.l2] ++ [loc]) ∧
    (t.add loc).lastCalculated = t.lastCalculated := by
  unfold Three.add
  split
  · exact ⟨loc, .refl _, rfl⟩
  split
  · refine ⟨t.l2, ?_, rfl⟩
    exact .cons _ (.cons _ (.swap _ _ _))
  split
  · refine ⟨t.l2, ?_, rfl⟩
    refine .cons _ ?_
    exact (List.perm_append_comm (l₁ := [loc]) (l₂ := [t.l1, t.l2]))
  · refine ⟨t.l2, ?_, rfl⟩
    exact (List.perm_append_comm (l₁ := [loc]) (l₂ := [t.l0, t.l1, t.l2]))

theorem Three.foldl_perm : ∀ (L : List (Loc α)) (t : Three α), ∃ rest : List (Loc α),
    ([(L.foldl Three.add t).l0, (L.foldl Three.add t).l1, (L.foldl Three.add t).l2] ++ rest).Perm
      ([t.l0, t.l1, t.l2] ++ L) ∧ (L.foldl Three.add t).lastCalculated = t.lastCalculated
  | [], t => ⟨[], by simp, rfl⟩
  | x :: L, t => by
    obtain ⟨y, h1, e1⟩ := t.add_perm x
    obtain ⟨rest, h2, e2⟩ := Three.foldl_perm L (t.add x)
    rw [List.foldl_cons]
    refine ⟨rest ++ [y], ?_, e2.trans e1⟩
    have a1 := h2.append_right [y]
    have a2 := h1.append_right L
    refine (by simpa using a1 : List.Perm _ _).trans (.trans ?_ (by simpa using a2 : List.Perm _ _))
    refine .cons _ (.cons _ (.cons _ ?_))
    exact List.perm_append_comm (l₁ := L) (l₂ := [y])

/-- How many of the three slots are filled after `k` additions. -/
structure Filled (k : ℕ) (t : Three α) : Prop where
  e0 : k = 0 → t.l0 = Loc.new
  e1 : k ≤ 1 → t.l1 = Loc.new
  e2 : k ≤ 2 → t.l2 = Loc.new
  f0 : 1 ≤ k → t.l0.node.isSome
  f1 : 2 ≤ k → t.l1.node.isSome
  f2 : 3 ≤ k → t.l2.node.isSome

theorem Filled.add {k : ℕ} {t : Three α} (h : Filled k t) {loc : Loc α} (hn : loc.node.isSome)
    (hc : (inf <. loc.cost) = false) : Filled (k + 1) (t.add loc) := by
  have hinf : (Loc.new : Loc α).cost = inf := rfl
  unfold Three.add
  rcases k with _ | _ | _ | k
  · rw [if_neg (by rw [h.e2 (by omega)]; simp [hinf, hc]), if_neg (by rw [h.e1 (by omega)]; simp [hinf, hc]),
      if_neg (by rw [h.e0 (by omega)]; simp [hinf, hc])]
    exact ⟨by omega, fun _ => h.e0 rfl, fun _ => h.e1 (by omega), fun _ => hn, by omega, by omega⟩
  · rw [if_neg (by rw [h.e2 (by omega)]; simp [hinf, hc]), if_neg (by rw [h.e1 (by omega)]; simp [hinf, hc])]
    split
    · exact ⟨by omega, by omega, fun _ => h.e1 (by omega), fun _ => h.f0 (by omega), fun _ => hn, by omega⟩
    · exact ⟨by omega, by omega, fun _ => h.e1 (by omega), fun _ => hn, fun _ => h.f0 (by omega), by omega⟩
  · rw [if_neg (by rw [h.e2 (by omega)]; simp [hinf, hc])]
    split
    · exact ⟨by omega, by omega, by omega, fun _ => h.f0 (by omega), fun _ => h.f1 (by omega), fun _ => hn⟩
    split
    · exact ⟨by omega, by omega, by omega, fun _ => h.f0 (by omega), fun _ => hn, fun _ => h.f1 (by omega)⟩
    · exact ⟨by omega, by omega, by omega, fun _ => hn, fun _ => h.f0 (by omega), fun _ => h.f1 (by omega)⟩
  · have f0 := h.f0 (by omega)
    have f1 := h.f1 (by omega)
    have f2 := h.f2 (by omega)
    split
    · exact ⟨by omega, by omega, by omega, fun _ => f0, fun _ => f1, fun _ => f2⟩
    split
    · exact ⟨by omega, by omega, by omega, fun _ => f0, fun _ => f1, fun _ => hn⟩
    split
    · exact ⟨by omega, by omega, by omega, fun _ => f0, fun _ => hn, fun _ => f1⟩
    · exact ⟨by omega, by omega, by omega, fun _ => hn, fun _ => f0, fun _ => f1⟩

theorem Filled.foldl : ∀ (L : List (Loc α)) (k : ℕ) (t : Three α), Filled k t →
    (∀ loc ∈ L, loc.node.isSome ∧ (inf <. loc.cost) = false) → Filled (k + L.length) (L.foldl Three.add t)
  | [], k, t, h, _ => by simpa using h
  | x :: L, k, t, h, hL => by
    have h1 := h.add (hL x (by simp)).1 (hL x (by simp)).2
    have h2 := Filled.foldl L (k + 1) _ h1 (fun loc hl => hL loc (by simp [hl]))
    rw [List.foldl_cons]
    have : k + (x :: L).length = k + 1 + L.length := by simp; omega
    rw [this]; exact h2

/-- Insertion costs never exceed the value that stands for "nothing cached". For `f64` this always
holds (`f64::INFINITY < x` is false for every `x`). -/
def InsertFinite (ctx : Ctx α) : Prop :=
  ∀ a u b, (inf <. (ctx.dist a u +. ctx.dist u b -. ctx.dist a b)) = false

/-- What a valid cache entry looks like. -/
structure EntryOK (ctx : Ctx α) (r : ℕ) (l : List ℕ) (u : ℕ) (t : Three α) : Prop where
  filled : Filled (l.length + 1) t
  loc0 : t.l0.node.isSome → LocOf ctx r l u t.l0
  loc1 : t.l1.node.isSome → LocOf ctx r l u t.l1
  loc2 : t.l2.node.isSome → LocOf ctx r l u t.l2
  ne01 : t.l1.node.isSome → t.l0.node ≠ t.l1.node
  ne02 : t.l2.node.isSome → t.l0.node ≠ t.l2.node
  ne12 : t.l2.node.isSome → t.l1.node ≠ t.l2.node

theorem LocOf.isSome {ctx : Ctx α} {r : ℕ} {l : List ℕ} {u : ℕ} {loc : Loc α}
    (h : LocOf ctx r l u loc) : loc.node.isSome := by
  obtain ⟨p, q, -, e, -⟩ := h; simp [e]

theorem Cached.entryOK {ctx : Ctx α} {r : ℕ} {l : List ℕ} {u : ℕ} {t : Three α}
    (h : Cached ctx r l u t) (hf : InsertFinite ctx) (hnd : (routeRefs r l).Nodup) :
    EntryOK ctx r l u t := by
  have hfill : Filled (l.length + 1) t := by
    have h0 : Filled 0 (⟨Loc.new, Loc.new, Loc.new, t.lastCalculated⟩ : Three α) :=
      ⟨fun _ => rfl, fun _ => rfl, fun _ => rfl, by omega, by omega, by omega⟩
    have := Filled.foldl (insertLocs ctx r l u) 0 _ h0 (by
      intro loc hl
      have := insertLocs_mem hl
      refine ⟨this.isSome, ?_⟩
      obtain ⟨p, q, -, -, e⟩ := this
      rw [e]; exact hf _ _ _)
    rw [h]
    rw [insertLocs_length, Nat.zero_add] at this
    exact this
  obtain ⟨rest, hp, -⟩ := Three.foldl_perm (insertLocs ctx r l u)
    (⟨Loc.new, Loc.new, Loc.new, t.lastCalculated⟩ : Three α)
  rw [← h] at hp
  have hmem : ∀ x ∈ [t.l0, t.l1, t.l2], x.node.isSome → LocOf ctx r l u x := by
    intro x hx hs
    have := hp.mem_iff.mp (List.mem_append_left _ hx)
    rcases List.mem_append.mp this with h | h
    · have : x = Loc.new := by simpa using h
      subst this; simp [Loc.new] at hs
    · exact insertLocs_mem h
  -- all nodes that are present are different
  have hnd2 : (([t.l0, t.l1, t.l2] ++ rest).filterMap (·.node)).Nodup := by
    refine (hp.filterMap _).nodup_iff.mpr ?_
    have e : (([Loc.new, Loc.new, Loc.new] : List (Loc α)) ++ insertLocs ctx r l u).filterMap (·.node) =
        (routeRefs r l).dropLast := by
      rw [List.filterMap_append]
      have h1 : ([Loc.new, Loc.new, Loc.new] : List (Loc α)).filterMap (·.node) = [] := rfl
      have h2 : (insertLocs ctx r l u).filterMap (·.node) =
          ((insertLocs ctx r l u).map (·.node)).filterMap id := by
        rw [List.filterMap_map]; rfl
      rw [h1, h2, insertLocs_nodes, List.filterMap_map, List.nil_append]
      simp
    rw [e]
    exact hnd.sublist (List.dropLast_sublist _)
  rw [List.filterMap_append, List.nodup_append] at hnd2
  have h3 := hnd2.1
  refine ⟨hfill, hmem _ (by simp), hmem _ (by simp), hmem _ (by simp), ?_, ?_, ?_⟩
  all_goals
    intro hs he
    rcases t with ⟨⟨c0, _ | n0⟩, ⟨c1, _ | n1⟩, ⟨c2, _ | n2⟩, k⟩ <;> simp_all

/-! ### Computing the cache -/

theorem addInserts_eq (ctx : Ctx α) (h : Heap) (u r : ℕ) : ∀ (l : List ℕ) (t : Three α),
    (l.map Ref.cust ++ [Ref.fin r]).IsChain (Linked h) →
    addInserts ctx h u (l.map Ref.cust) t =
      some (((l.map Ref.cust ++ [Ref.fin r]).zipWith (fun a b =>
        (⟨ctx.dist a.number u +. ctx.dist u b.number -. ctx.dist a.number b.number, some a⟩ : Loc α))
        (l.map Ref.cust ++ [Ref.fin r]).tail).foldl Three.add t)
  | [], t, _ => by simp [addInserts]
  | c :: l, t, hc => by
    have hs : h.succ (.cust c) = (l.map Ref.cust ++ [Ref.fin r]).head? := by
      cases l with
      | nil => exact (List.isChain_cons_cons.mp hc).1.1
      | cons y L => exact (List.isChain_cons_cons.mp hc).1.1
    have ht : (l.map Ref.cust ++ [Ref.fin r]).IsChain (Linked h) := List.IsChain.tail hc
    obtain ⟨y, Y, hY⟩ : ∃ y Y, l.map Ref.cust ++ [Ref.fin r] = y :: Y := by
      cases l <;> exact ⟨_, _, rfl⟩
    rw [List.map_cons, addInserts, hs, hY, List.head?_cons, Option.bind_some,
      addInserts_eq ctx h u r l _ ht, List.cons_append, hY]
    simp

theorem calcInserts_eq {ctx : Ctx α} {s : LS α} {R : List (List ℕ)} (h : Repr ctx s R) {r : ℕ}
    {l : List ℕ} (hr : R[r]? = some l) (u : ℕ) :
    ∃ t, calcInserts ctx s r u = some t ∧ Cached ctx r l u t ∧ t.lastCalculated = s.moveCount := by
  have hchain := h.enc.chain hr
  obtain ⟨v0, V, hV⟩ : ∃ y Y, l.map Ref.cust ++ [Ref.fin r] = y :: Y := by
    cases l <;> exact ⟨_, _, rfl⟩
  have hs : s.heap.succ (.start r) = some v0 := by
    rw [routeRefs, hV] at hchain
    exact (List.isChain_cons_cons.mp hchain).1.1
  have hw : s.heap.walkCust (s.fuel ctx) (some v0) = some (l.map Ref.cust) := by
    have := walkCust_chain (l.map Ref.cust) (.fin r) s.heap (s.fuel ctx) (List.IsChain.tail hchain)
      (by
        have := part_length h.part hr
        simp [fuel]; omega) rfl (by
        intro x hx
        obtain ⟨c, hc, rfl⟩ := List.mem_map.mp hx
        simp [Ref.isDepot, Ref.number, (part_pos h.part hr c hc).1])
    rwa [hV, List.head?_cons] at this
  have hadd := addInserts_eq ctx s.heap u r l
    (Three.add ⟨Loc.new, Loc.new, Loc.new, s.moveCount⟩
      ⟨ctx.dist 0 u +. ctx.dist u v0.number -. ctx.dist 0 v0.number, some (.start r)⟩)
    (List.IsChain.tail hchain)
  have hlocs : insertLocs ctx r l u =
      ⟨ctx.dist 0 u +. ctx.dist u v0.number -. ctx.dist 0 v0.number, some (.start r)⟩ ::
        (l.map Ref.cust ++ [Ref.fin r]).zipWith (fun a b =>
        (⟨ctx.dist a.number u +. ctx.dist u b.number -. ctx.dist a.number b.number, some a⟩ : Loc α))
        (l.map Ref.cust ++ [Ref.fin r]).tail := by
    rw [insertLocs, routeRefs, List.tail_cons, hV, List.zipWith_cons_cons]; rfl
  have h0 : ((insertLocs ctx r l u).foldl Three.add
      (⟨Loc.new, Loc.new, Loc.new, s.moveCount⟩ : Three α)).lastCalculated = s.moveCount :=
    (Three.foldl_perm (insertLocs ctx r l u)
      (⟨Loc.new, Loc.new, Loc.new, s.moveCount⟩ : Three α)).choose_spec.2
  refine ⟨(insertLocs ctx r l u).foldl Three.add ⟨Loc.new, Loc.new, Loc.new, s.moveCount⟩, ?_, ?_, h0⟩
  · rw [calcInserts, hs, Option.bind_some, hw, Option.bind_some, hadd, hlocs, List.foldl_cons]
  · rw [Cached, h0]

end Verif
