import Verif.SpecMoves
import Verif.Lemmas.Repr

/-!
# The heap rewiring of each move, by segments
-/

namespace Verif
open F64 LS Spec

set_option linter.unusedSectionVars false

/-! ### First and last nodes of route parts -/

@[simp] theorem lastRef_nil (r : ℕ) : lastRef r [] = .start r := rfl
@[simp] theorem lastRef_concat (r : ℕ) (p : List ℕ) (c : ℕ) : lastRef r (p ++ [c]) = .cust c := by
  simp [lastRef]
@[simp] theorem headRef_nil (r : ℕ) : headRef r [] = .fin r := rfl
@[simp] theorem headRef_cons (r : ℕ) (c : ℕ) (q : List ℕ) : headRef r (c :: q) = .cust c := by
  simp [headRef]
@[simp] theorem lastRef_singleton (r c : ℕ) : lastRef r [c] = .cust c := rfl

theorem lastRef_append {r : ℕ} {p m : List ℕ} (hm : m ≠ []) : lastRef r (p ++ m) = lastRef r m := by
  obtain ⟨m', c, rfl⟩ := List.eq_nil_or_concat m |>.resolve_left hm
  rw [List.concat_eq_append, ← List.append_assoc, lastRef_concat, lastRef_concat]
theorem headRef_append {r : ℕ} {m q : List ℕ} (hm : m ≠ []) : headRef r (m ++ q) = headRef r m := by
  cases m with
  | nil => exact absurd rfl hm
  | cons c m => simp

theorem getLast_start (r : ℕ) (p : List ℕ) :
    (Ref.start r :: p.map Ref.cust).getLast? = some (lastRef r p) := by
  rcases List.eq_nil_or_concat p with rfl | ⟨p', c, rfl⟩
  · rfl
  · rw [List.concat_eq_append, List.map_append, ← List.cons_append, lastRef_concat]
    exact List.getLast?_concat

theorem head_fin (r : ℕ) (q : List ℕ) :
    (q.map Ref.cust ++ [Ref.fin r]).head? = some (headRef r q) := by
  cases q <;> simp

theorem getLast_custs (r : ℕ) {m : List ℕ} (hm : m ≠ []) :
    (m.map Ref.cust).getLast? = some (lastRef r m) := by
  obtain ⟨m', c, rfl⟩ := List.eq_nil_or_concat m |>.resolve_left hm
  simp

theorem head_custs (r : ℕ) {m : List ℕ} (hm : m ≠ []) :
    (m.map Ref.cust).head? = some (headRef r m) := by
  cases m with
  | nil => exact absurd rfl hm
  | cons c m => simp

theorem headRef_ne_start (r : ℕ) (q : List ℕ) (k : ℕ) : Ref.start k ≠ headRef r q := by
  cases q <;> simp
theorem lastRef_ne_fin (r : ℕ) (p : List ℕ) (k : ℕ) : Ref.fin k ≠ lastRef r p := by
  rcases List.eq_nil_or_concat p with rfl | ⟨p', c, rfl⟩ <;> simp

theorem getLast_append_some {A B : List Ref} {b : Ref} (h : B.getLast? = some b) :
    (A ++ B).getLast? = some b := by rw [List.getLast?_append, h]; rfl
theorem head_append_some {A B : List Ref} {a : Ref} (h : A.head? = some a) :
    (A ++ B).head? = some a := by rw [List.head?_append, h]; rfl

/-! ### Joining segments -/

theorem Segs.join {h : Heap} {A B : List Ref} {Ls : List (List Ref)} {a b : Ref}
    (hs : Segs h (A :: B :: Ls)) (ha : A.getLast? = some a) (hb : B.head? = some b) :
    Segs (h.link a b) ((A ++ B) :: Ls) := by
  obtain ⟨A, rfl⟩ := List.getLast?_eq_some_iff.mp ha
  obtain ⟨B, rfl⟩ := List.head?_eq_some_iff.mp hb
  have := Segs.link hs
  simpa using this

/-- Relocation, different routes. -/
theorem Segs.reloc_inter {h : Heap} {P S X C Y : List Ref} {Ls : List (List Ref)} {a x v sf sl y : Ref}
    (hs : Segs h ((P ++ S ++ X) :: (C ++ Y) :: Ls)) (ha : P.getLast? = some a) (hx : X.head? = some x)
    (hv : C.getLast? = some v) (hf : S.head? = some sf) (hl : S.getLast? = some sl)
    (hy : Y.head? = some y) :
    Segs (((h.link a x).link v sf).link sl y) ((P ++ X) :: (C ++ S ++ Y) :: Ls) := by
  have h0 : Segs h (P :: X :: S :: C :: Y :: Ls) := by
    have := hs.cut.cut
    have := (this.perm (Ms := (C ++ Y) :: P :: S :: X :: Ls) (by perm_lists)).cut
    exact this.perm (by perm_lists)
  have h1 := (h0.join ha hx).perm (Ms := C :: S :: Y :: (P ++ X) :: Ls) (by perm_lists)
  have h2 := h1.join hv hf
  have h3 := h2.join (getLast_append_some hl) hy
  exact h3.swap

/-- Relocation to a later place of the same route. -/
theorem Segs.reloc_after {h : Heap} {P S M Y : List Ref} {Ls : List (List Ref)} {a x v sf sl y : Ref}
    (hs : Segs h ((P ++ S ++ M ++ Y) :: Ls)) (ha : P.getLast? = some a) (hx : M.head? = some x)
    (hv : M.getLast? = some v) (hf : S.head? = some sf) (hl : S.getLast? = some sl)
    (hy : Y.head? = some y) :
    Segs (((h.link a x).link v sf).link sl y) ((P ++ M ++ S ++ Y) :: Ls) := by
  have h0 : Segs h (P :: M :: S :: Y :: Ls) := (hs.cut.cut.cut).perm (by perm_lists)
  have h1 := h0.join ha hx
  have h2 := h1.join (getLast_append_some hv) hf
  exact h2.join (getLast_append_some hl) hy

/-- Relocation to an earlier place of the same route. -/
theorem Segs.reloc_before {h : Heap} {P S M X : List Ref} {Ls : List (List Ref)} {a x v sf sl y : Ref}
    (hs : Segs h ((P ++ M ++ S ++ X) :: Ls)) (ha : M.getLast? = some a) (hx : X.head? = some x)
    (hv : P.getLast? = some v) (hf : S.head? = some sf) (hl : S.getLast? = some sl)
    (hy : M.head? = some y) :
    Segs (((h.link a x).link v sf).link sl y) ((P ++ S ++ M ++ X) :: Ls) := by
  have h0 : Segs h (M :: X :: P :: S :: Ls) := (hs.cut.cut.cut).perm (by perm_lists)
  have h1 := (h0.join ha hx).perm (Ms := P :: S :: (M ++ X) :: Ls) (by perm_lists)
  have h2 := h1.join hv hf
  have h3 := h2.join (getLast_append_some hl) (head_append_some hy)
  simpa using h3

/-- Reversed relocation of two nodes, different routes. -/
theorem Segs.relocRev_inter {h : Heap} {P X C Y : List Ref} {Ls : List (List Ref)} {a x v s t y : Ref}
    (hs : Segs h ((P ++ [s, t] ++ X) :: (C ++ Y) :: Ls)) (ha : P.getLast? = some a)
    (hx : X.head? = some x) (hv : C.getLast? = some v) (hy : Y.head? = some y) :
    Segs ((((h.link a x).link v t).link t s).link s y) ((P ++ X) :: (C ++ [t, s] ++ Y) :: Ls) := by
  have h0 : Segs h (P :: X :: [s] :: [t] :: C :: Y :: Ls) := by
    have := hs.cut.cut
    have := (this.perm (Ms := (C ++ Y) :: P :: [s, t] :: X :: Ls) (by perm_lists)).cut
    have := (this.perm (Ms := ([s] ++ [t]) :: P :: C :: Y :: X :: Ls) (by
      rw [show [s] ++ [t] = [s, t] from rfl]; perm_lists)).cut
    exact this.perm (by perm_lists)
  have h1 := (h0.join ha hx).perm (Ms := C :: [t] :: [s] :: Y :: (P ++ X) :: Ls) (by perm_lists)
  have h2 := h1.join hv (b := t) rfl
  have h3 := h2.join (a := t) (b := s) (by simp) rfl
  have h4 := h3.join (a := s) (by simp) hy
  have := h4.swap
  simpa using this

theorem Segs.relocRev_after {h : Heap} {P M Y : List Ref} {Ls : List (List Ref)} {a x v s t y : Ref}
    (hs : Segs h ((P ++ [s, t] ++ M ++ Y) :: Ls)) (ha : P.getLast? = some a) (hx : M.head? = some x)
    (hv : M.getLast? = some v) (hy : Y.head? = some y) :
    Segs ((((h.link a x).link v t).link t s).link s y) ((P ++ M ++ [t, s] ++ Y) :: Ls) := by
  have h0 : Segs h (P :: M :: [t] :: [s] :: Y :: Ls) := by
    have := (hs.cut.cut.cut).perm (Ms := ([s] ++ [t]) :: P :: M :: Y :: Ls) (by
      rw [show [s] ++ [t] = [s, t] from rfl]; perm_lists)
    exact this.cut.perm (by perm_lists)
  have h1 := h0.join ha hx
  have h2 := h1.join (b := t) (getLast_append_some hv) rfl
  have h3 := h2.join (a := t) (b := s) (by simp) rfl
  have h4 := h3.join (a := s) (by simp) hy
  simpa using h4

theorem Segs.relocRev_before {h : Heap} {P M X : List Ref} {Ls : List (List Ref)} {a x v s t y : Ref}
    (hs : Segs h ((P ++ M ++ [s, t] ++ X) :: Ls)) (ha : M.getLast? = some a) (hx : X.head? = some x)
    (hv : P.getLast? = some v) (hy : M.head? = some y) :
    Segs ((((h.link a x).link v t).link t s).link s y) ((P ++ [t, s] ++ M ++ X) :: Ls) := by
  have h0 : Segs h (M :: X :: P :: [t] :: [s] :: Ls) := by
    have := (hs.cut.cut.cut).perm (Ms := ([s] ++ [t]) :: P :: M :: X :: Ls) (by
      rw [show [s] ++ [t] = [s, t] from rfl]; perm_lists)
    exact this.cut.perm (by perm_lists)
  have h1 := (h0.join ha hx).perm (Ms := P :: [t] :: [s] :: (M ++ X) :: Ls) (by perm_lists)
  have h2 := h1.join hv (b := t) rfl
  have h3 := h2.join (a := t) (b := s) (by simp) rfl
  have h4 := h3.join (a := s) (by simp) (head_append_some hy)
  simpa using h4

/-- Swap, different routes. -/
theorem Segs.swap_inter {h : Heap} {P S X C T Y : List Ref} {Ls : List (List Ref)}
    {a x sf sl c y tf tl : Ref}
    (hs : Segs h ((P ++ S ++ X) :: (C ++ T ++ Y) :: Ls)) (ha : P.getLast? = some a)
    (hx : X.head? = some x) (hf : S.head? = some sf) (hl : S.getLast? = some sl)
    (hc : C.getLast? = some c) (hy : Y.head? = some y) (htf : T.head? = some tf)
    (htl : T.getLast? = some tl) :
    Segs ((((h.link a tf).link tl x).link c sf).link sl y) ((P ++ T ++ X) :: (C ++ S ++ Y) :: Ls) := by
  have h0 : Segs h (P :: T :: X :: C :: S :: Y :: Ls) := by
    have := hs.cut.cut
    have := (this.perm (Ms := (C ++ T ++ Y) :: P :: S :: X :: Ls) (by perm_lists)).cut.cut
    exact this.perm (by perm_lists)
  have h1 := h0.join ha htf
  have h2 := (h1.join (getLast_append_some htl) hx).perm (Ms := C :: S :: Y :: (P ++ T ++ X) :: Ls)
    (by perm_lists)
  have h3 := h2.join hc hf
  have h4 := h3.join (getLast_append_some hl) hy
  exact h4.swap

/-- Swap inside a route, `S` before `T`. -/
theorem Segs.swap_fwd {h : Heap} {P S M T Y : List Ref} {Ls : List (List Ref)}
    {a x sf sl c y tf tl : Ref}
    (hs : Segs h ((P ++ S ++ M ++ T ++ Y) :: Ls)) (ha : P.getLast? = some a)
    (hx : M.head? = some x) (hf : S.head? = some sf) (hl : S.getLast? = some sl)
    (hc : M.getLast? = some c) (hy : Y.head? = some y) (htf : T.head? = some tf)
    (htl : T.getLast? = some tl) :
    Segs ((((h.link a tf).link tl x).link c sf).link sl y) ((P ++ T ++ M ++ S ++ Y) :: Ls) := by
  have h0 : Segs h (P :: T :: M :: S :: Y :: Ls) := (hs.cut.cut.cut.cut).perm (by perm_lists)
  have h1 := h0.join ha htf
  have h2 := h1.join (getLast_append_some htl) hx
  have h3 := h2.join (getLast_append_some hc) hf
  exact h3.join (getLast_append_some hl) hy

/-- Swap inside a route, `T` before `S`. -/
theorem Segs.swap_bwd {h : Heap} {P S M T X : List Ref} {Ls : List (List Ref)}
    {a x sf sl c y tf tl : Ref}
    (hs : Segs h ((P ++ T ++ M ++ S ++ X) :: Ls)) (ha : M.getLast? = some a)
    (hx : X.head? = some x) (hf : S.head? = some sf) (hl : S.getLast? = some sl)
    (hc : P.getLast? = some c) (hy : M.head? = some y) (htf : T.head? = some tf)
    (htl : T.getLast? = some tl) :
    Segs ((((h.link a tf).link tl x).link c sf).link sl y) ((P ++ S ++ M ++ T ++ X) :: Ls) := by
  have h0 : Segs h (M :: T :: X :: P :: S :: Ls) := (hs.cut.cut.cut.cut).perm (by perm_lists)
  have h1 := h0.join ha htf
  have h2 := (h1.join (getLast_append_some htl) hx).perm (Ms := P :: S :: (M ++ T ++ X) :: Ls)
    (by perm_lists)
  have h3 := h2.join hc hf
  have h4 := h3.join (getLast_append_some hl) (head_append_some (head_append_some hy))
  simpa using h4

/-! ### Replacing routes in the list of segments -/

theorem perm_set_one {β : Type} {L : List β} {i : ℕ} (hi : i < L.length) :
    ∃ rest, L.Perm (L[i] :: rest) ∧ ∀ x, (L.set i x).Perm (x :: rest) := by
  induction L generalizing i with
  | nil => simp at hi
  | cons a L ih =>
    cases i with
    | zero => exact ⟨L, .refl _, fun x => .refl _⟩
    | succ i =>
      obtain ⟨rest, h1, h2⟩ := ih (i := i) (by simpa using hi)
      refine ⟨a :: rest, ?_, fun x => ?_⟩
      · simpa using (h1.cons a).trans (.swap _ _ _)
      · simpa using ((h2 x).cons a).trans (.swap _ _ _)

theorem perm_set_two {β : Type} {L : List β} {i j : ℕ} (hi : i < L.length) (hj : j < L.length)
    (hne : i ≠ j) :
    ∃ rest, L.Perm (L[i] :: L[j] :: rest) ∧ ∀ x y, ((L.set i x).set j y).Perm (x :: y :: rest) := by
  induction L generalizing i j with
  | nil => simp at hi
  | cons a L ih =>
    cases i with
    | zero =>
      cases j with
      | zero => exact absurd rfl hne
      | succ j =>
        obtain ⟨rest, h1, h2⟩ := perm_set_one (L := L) (i := j) (by simpa using hj)
        exact ⟨rest, by simpa using h1, fun x y => by simpa using h2 y⟩
    | succ i =>
      cases j with
      | zero =>
        obtain ⟨rest, h1, h2⟩ := perm_set_one (L := L) (i := i) (by simpa using hi)
        exact ⟨rest, by simpa using (h1.cons a).trans (.swap _ _ _),
          fun x y => by simpa using ((h2 x).cons y).trans (.swap _ _ _)⟩
      | succ j =>
        obtain ⟨rest, h1, h2⟩ := ih (i := i) (j := j) (by simpa using hi) (by simpa using hj)
          (by omega)
        refine ⟨a :: rest, ?_, fun x y => ?_⟩
        · have := h1.cons a
          simp only [List.getElem_cons_succ]
          exact this.trans ((List.Perm.swap _ _ _).trans ((List.Perm.swap _ _ _).cons _))
        · have := (h2 x y).cons a
          simp only [List.set_cons_succ]
          exact this.trans ((List.Perm.swap _ _ _).trans ((List.Perm.swap _ _ _).cons _))

theorem allRefs_set (R : List (List ℕ)) (r : ℕ) (l : List ℕ) :
    allRefs (R.set r l) = (allRefs R).set r (routeRefs r l) := by
  apply List.ext_getElem?
  intro i
  simp only [allRefs, List.getElem?_mapIdx, List.getElem?_set, List.length_mapIdx]
  by_cases e : r = i
  · subst e
    by_cases hr : r < R.length <;> simp [hr]
  · simp [e]

theorem Encodes.set_one {h h' : Heap} {R : List (List ℕ)} (he : Encodes h R) {r : ℕ} {l l' : List ℕ}
    (hr : R[r]? = some l)
    (hs : ∀ Ls, Segs h (routeRefs r l :: Ls) → Segs h' (routeRefs r l' :: Ls))
    (hp : ∀ k, h'.pred (.start k) = h.pred (.start k))
    (hf : ∀ k, h'.succ (.fin k) = h.succ (.fin k)) : Encodes h' (R.set r l') := by
  obtain ⟨hlt, -⟩ := List.getElem?_eq_some_iff.mp hr
  obtain ⟨rest, h1, h2⟩ := perm_set_one (L := allRefs R) (i := r) (by rw [allRefs_length]; exact hlt)
  have hg : (allRefs R)[r]'(by rw [allRefs_length]; exact hlt) = routeRefs r l :=
    (List.getElem?_eq_some_iff.mp (allRefs_get hr)).2
  refine ⟨?_, ?_, ?_⟩
  · rw [allRefs_set]
    rw [hg] at h1
    exact (hs rest (he.segs.perm h1)).perm (h2 _).symm
  · intro k hk; rw [hp]; exact he.pred0 k (by simpa using hk)
  · intro k hk; rw [hf]; exact he.succ0 k (by simpa using hk)

theorem Encodes.set_two {h h' : Heap} {R : List (List ℕ)} (he : Encodes h R) {r1 r2 : ℕ}
    {l1 l2 l1' l2' : List ℕ} (hne : r1 ≠ r2) (hr1 : R[r1]? = some l1) (hr2 : R[r2]? = some l2)
    (hs : ∀ Ls, Segs h (routeRefs r1 l1 :: routeRefs r2 l2 :: Ls) →
      Segs h' (routeRefs r1 l1' :: routeRefs r2 l2' :: Ls))
    (hp : ∀ k, h'.pred (.start k) = h.pred (.start k))
    (hf : ∀ k, h'.succ (.fin k) = h.succ (.fin k)) : Encodes h' ((R.set r1 l1').set r2 l2') := by
  obtain ⟨hlt1, -⟩ := List.getElem?_eq_some_iff.mp hr1
  obtain ⟨hlt2, -⟩ := List.getElem?_eq_some_iff.mp hr2
  obtain ⟨rest, h1, h2⟩ := perm_set_two (L := allRefs R) (i := r1) (j := r2)
    (by rw [allRefs_length]; exact hlt1) (by rw [allRefs_length]; exact hlt2) hne
  have hg1 : (allRefs R)[r1]'(by rw [allRefs_length]; exact hlt1) = routeRefs r1 l1 :=
    (List.getElem?_eq_some_iff.mp (allRefs_get hr1)).2
  have hg2 : (allRefs R)[r2]'(by rw [allRefs_length]; exact hlt2) = routeRefs r2 l2 :=
    (List.getElem?_eq_some_iff.mp (allRefs_get hr2)).2
  refine ⟨?_, ?_, ?_⟩
  · rw [allRefs_set, allRefs_set]
    rw [hg1, hg2] at h1
    exact (hs rest (he.segs.perm h1)).perm (h2 _ _).symm
  · intro k hk; rw [hp]; exact he.pred0 k (by simpa using hk)
  · intro k hk; rw [hf]; exact he.succ0 k (by simpa using hk)

/-! ### Reading links of a held route -/

theorem routeRefs_split (r : ℕ) (p q : List ℕ) :
    routeRefs r (p ++ q) = (Ref.start r :: p.map Ref.cust) ++ (q.map Ref.cust ++ [Ref.fin r]) := by
  simp [routeRefs]

theorem routeRefs_split3 (r : ℕ) (p m q : List ℕ) :
    routeRefs r (p ++ m ++ q) =
      (Ref.start r :: p.map Ref.cust) ++ m.map Ref.cust ++ (q.map Ref.cust ++ [Ref.fin r]) := by
  simp [routeRefs]

theorem routeRefs_split4 (r : ℕ) (p m m2 q : List ℕ) :
    routeRefs r (p ++ m ++ m2 ++ q) =
      (Ref.start r :: p.map Ref.cust) ++ m.map Ref.cust ++ m2.map Ref.cust ++
        (q.map Ref.cust ++ [Ref.fin r]) := by
  simp [routeRefs]

theorem routeRefs_split5 (r : ℕ) (p m m2 m3 q : List ℕ) :
    routeRefs r (p ++ m ++ m2 ++ m3 ++ q) =
      (Ref.start r :: p.map Ref.cust) ++ m.map Ref.cust ++ m2.map Ref.cust ++ m3.map Ref.cust ++
        (q.map Ref.cust ++ [Ref.fin r]) := by
  simp [routeRefs]

theorem chain_join_linked {h : Heap} {A B : List Ref} {a b : Ref} (hc : (A ++ B).IsChain (Linked h))
    (ha : A.getLast? = some a) (hb : B.head? = some b) : Linked h a b := by
  rw [List.isChain_append] at hc
  exact hc.2.2 a (by simp [ha]) b (by simp [hb])

theorem Encodes.linked {h : Heap} {R : List (List ℕ)} (he : Encodes h R) {r : ℕ} {p q : List ℕ}
    (hr : R[r]? = some (p ++ q)) : Linked h (lastRef r p) (headRef r q) := by
  have hc := he.chain hr
  rw [routeRefs_split] at hc
  exact chain_join_linked hc (getLast_start r p) (head_fin r q)

variable {α : Type} [F64 α]

theorem lastRef_mem (r : ℕ) (p q : List ℕ) : lastRef r p ∈ routeRefs r (p ++ q) := by
  rcases List.eq_nil_or_concat p with rfl | ⟨p', c, rfl⟩ <;> simp [routeRefs]

theorem cust_mem {r c : ℕ} {l : List ℕ} (h : c ∈ l) : Ref.cust c ∈ routeRefs r l := by
  simp [routeRefs, h]

end Verif
