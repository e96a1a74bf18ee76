import Verif.Lemmas.MoveSteps

/-!
# The rewiring of the three 2-opt moves, and `perform` of every move
-/

namespace Verif
open F64 LS Spec

set_option linter.unusedSectionVars false

variable {α : Type} [F64 α]

theorem fuel_le {ctx : Ctx α} {s : LS α} {R : List (List ℕ)} (h : Repr ctx s R) {r : ℕ} {l : List ℕ}
    (hr : R[r]? = some l) : l.length + 2 ≤ s.fuel ctx := by
  have := part_length h.part hr
  unfold LS.fuel; omega

/-! ### Intra-route 2-opt -/

theorem intraReverse_step {ctx : Ctx α} {s : LS α} {R : List (List ℕ)} (h : Repr ctx s R) {r u c : ℕ}
    {p m q : List ℕ} (hm : m ≠ []) (hr : R[r]? = some (p ++ [u] ++ (m ++ [c]) ++ q)) :
    ∃ h', s.heap.backwardReverse (s.fuel ctx) (.cust c) (some (headRef r m)) none = some h' ∧
      Encodes ((h'.link (.cust u) (.cust c)).link (headRef r m) (headRef r q))
        (R.set r (p ++ [u] ++ (m ++ [c]).reverse ++ q)) := by
  obtain ⟨m', w, hm'⟩ : ∃ m' w, m = m' ++ [w] := by
    rcases List.eq_nil_or_concat m with rfl | ⟨m', w, rfl⟩
    · exact absurd rfl hm
    · exact ⟨m', w, by simp⟩
  obtain ⟨x, m'', hmx⟩ : ∃ x m'', m = x :: m'' := by
    cases m with
    | nil => exact absurd rfl hm
    | cons x m'' => exact ⟨x, m'', rfl⟩
  have hpred : s.heap.pred (.cust c) = some (.cust w) := by
    have := h.enc.pred_cust (p := p ++ [u] ++ m) (c := c) (q := q) (by simpa using hr)
    rw [this, lastRef_append hm, hm', lastRef_concat]
  have hfuel := fuel_le h hr
  have hseg : ∀ Ls, Segs s.heap (routeRefs r (p ++ [u] ++ (m ++ [c]) ++ q) :: Ls) →
      Segs s.heap (([] ++ [Ref.cust c]) :: (m'.map Ref.cust ++ [Ref.cust w]) ::
        (Ref.start r :: (p ++ [u]).map Ref.cust) :: (q.map Ref.cust ++ [Ref.fin r]) :: Ls) := by
    intro Ls hs
    have e : routeRefs r (p ++ [u] ++ (m ++ [c]) ++ q) = (Ref.start r :: (p ++ [u]).map Ref.cust) ++
        (m'.map Ref.cust ++ [Ref.cust w]) ++ [Ref.cust c] ++ (q.map Ref.cust ++ [Ref.fin r]) := by
      rw [hm']; simp [routeRefs]
    rw [e] at hs
    have := hs.cut.cut.cut
    rw [List.nil_append]
    exact this.perm (by perm_lists)
  have hloop := fun Ls hs => backwardReverseLoop_seg (t := Ref.cust x) (m'.map Ref.cust) (.cust w)
    (.cust c) [] ((Ref.start r :: (p ++ [u]).map Ref.cust) :: (q.map Ref.cust ++ [Ref.fin r]) :: Ls)
    s.heap (s.fuel ctx) (hseg Ls hs) (by simp [hm'] at hfuel ⊢; omega)
    (by
      have : m'.map Ref.cust ++ [Ref.cust w] = m.map Ref.cust := by rw [hm']; simp
      rw [this, hmx]; rfl)
    (by
      intro z hz hn
      simp only [List.mem_append, List.mem_map, List.mem_singleton] at hz
      rcases hz with ⟨k, -, rfl⟩ | rfl
      · simp [Ref.number] at hn; rw [hn]
      · simp [Ref.number] at hn; rw [hn])
  obtain ⟨rest, hp1, -⟩ := perm_set_one (L := allRefs R) (i := r)
    (by rw [allRefs_length]; exact get_lt hr)
  rw [(List.getElem?_eq_some_iff.mp (allRefs_get hr)).2] at hp1
  obtain ⟨h', he, -, hfp, hfs⟩ := hloop rest (h.enc.segs.perm hp1)
  refine ⟨h', ?_, ?_⟩
  · rw [Heap.backwardReverse, hpred, hmx, headRef_cons]; exact he
  · refine h.enc.set_one hr ?_ ?_ ?_
    · intro Ls hs
      obtain ⟨h'', he', hs', -⟩ := hloop Ls hs
      rw [he] at he'
      cases he'
      have h1 := (hs'.swap.join (b := .cust c) (getLast_start r (p ++ [u])) (by simp))
      rw [lastRef_concat] at h1
      have h2 := h1.join (a := .cust x) (b := headRef r q) (by
        have e : (m'.map Ref.cust ++ [Ref.cust w]) = m.map Ref.cust := by rw [hm']; simp
        refine getLast_append_some (getLast_append_some ?_)
        rw [e, hmx, List.map_cons, List.reverse_cons]
        exact List.getLast?_concat) (head_fin r q)
      rw [hmx, headRef_cons]
      have e : routeRefs r (p ++ [u] ++ ((x :: m'') ++ [c]).reverse ++ q) =
          Ref.start r :: List.map Ref.cust (p ++ [u]) ++
            ([] ++ [Ref.cust c] ++ (m'.map Ref.cust ++ [Ref.cust w]).reverse) ++
            (q.map Ref.cust ++ [Ref.fin r]) := by
        rw [← hmx, hm']; simp [routeRefs]
      rw [e]; exact h2
    · intro k
      rw [link_pred_start (headRef_ne_start _ _ _), link_pred_start (by simp), hfp _ (by simp)]
    · intro k
      rw [hmx, headRef_cons, link_succ_fin (by simp), link_succ_fin (by simp), hfs _ (by simp)]

/-! ### Inter-route 2-opt with reversal -/

theorem interReverse_step {ctx : Ctx α} {s : LS α} {R : List (List ℕ)} (h : Repr ctx s R)
    {r1 r2 u c : ℕ} {p q p2 q2 : List ℕ} (hne : r1 ≠ r2) (h1 : R[r1]? = some (p ++ [u] ++ q))
    (h2 : R[r2]? = some (p2 ++ [c] ++ q2)) :
    ∃ h' h'', Move.interReverseHead (s.fuel ctx) r1 (.cust u) (.cust c) s.heap = some h' ∧
      Move.interReverseTail (s.fuel ctx) r2 (headRef r1 q) (headRef r2 q2) h' = some h'' ∧
      Encodes h'' ((R.set r1 (p ++ [u] ++ (p2 ++ [c]).reverse)).set r2 (q.reverse ++ q2)) := by
  have hc0 : c ≠ 0 := (part_pos h.part h2 c (by simp)).1
  have hq0 : ∀ k ∈ q, k ≠ 0 := fun k hk => (part_pos h.part h1 k (by simp [hk])).1
  have hpred : s.heap.pred (.cust c) = some (lastRef r2 p2) :=
    h.enc.pred_cust (q := q2) (by simpa using h2)
  have hf1 := fuel_le h h1
  have hf2 := fuel_le h h2
  have hst : s.heap.pred (.start r2) = none := h.enc.pred0 _ (get_lt h2)
  have hen : s.heap.succ (.fin r1) = none := h.enc.succ0 _ (get_lt h1)
  have hseg : ∀ Ls, Segs s.heap (routeRefs r1 (p ++ [u] ++ q) :: routeRefs r2 (p2 ++ [c] ++ q2) :: Ls) →
      Segs s.heap (([] ++ [Ref.cust c]) :: (Ref.start r2 :: p2.map Ref.cust) :: (Ref.fin r1 :: []) ::
        (Ref.start r1 :: (p ++ [u]).map Ref.cust) :: q.map Ref.cust ::
          (q2.map Ref.cust ++ [Ref.fin r2]) :: Ls) := by
    intro Ls hs
    have e1 : routeRefs r1 (p ++ [u] ++ q) = (Ref.start r1 :: (p ++ [u]).map Ref.cust) ++
        q.map Ref.cust ++ [Ref.fin r1] := by simp [routeRefs]
    have e2 : routeRefs r2 (p2 ++ [c] ++ q2) = (Ref.start r2 :: p2.map Ref.cust) ++
        [Ref.cust c] ++ (q2.map Ref.cust ++ [Ref.fin r2]) := by simp [routeRefs]
    rw [e1, e2] at hs
    have := hs.cut.cut.perm (Ms := ((Ref.start r2 :: p2.map Ref.cust) ++
        [Ref.cust c] ++ (q2.map Ref.cust ++ [Ref.fin r2])) ::
        (Ref.start r1 :: (p ++ [u]).map Ref.cust) :: q.map Ref.cust :: [Ref.fin r1] :: Ls)
        (by perm_lists)
    rw [List.nil_append]
    exact this.cut.cut.perm (by perm_lists)
  have hloop := fun Ls hs => backwardReverseLoop_last (st := .start r2) (last := .fin r1)
    (p2.map Ref.cust) (lastRef r2 p2) (.cust c) [] []
    ((Ref.start r1 :: (p ++ [u]).map Ref.cust) :: q.map Ref.cust ::
          (q2.map Ref.cust ++ [Ref.fin r2]) :: Ls) s.heap (s.fuel ctx) (hseg Ls hs)
    (by simp at hf2 ⊢; omega) (getLast_start r2 p2) hst
  obtain ⟨rest, hp1, -⟩ := perm_set_two (L := allRefs R) (i := r1) (j := r2)
    (by rw [allRefs_length]; exact get_lt h1) (by rw [allRefs_length]; exact get_lt h2) hne
  rw [(List.getElem?_eq_some_iff.mp (allRefs_get h1)).2,
    (List.getElem?_eq_some_iff.mp (allRefs_get h2)).2] at hp1
  obtain ⟨h', he, -, hfp, hfs⟩ := hloop rest (h.enc.segs.perm hp1)
  -- the state after the first half
  have hmid : ∀ Ls, Segs s.heap (routeRefs r1 (p ++ [u] ++ q) :: routeRefs r2 (p2 ++ [c] ++ q2) :: Ls) →
      Segs (h'.link (.cust u) (.cust c)) (routeRefs r1 (p ++ [u] ++ (p2 ++ [c]).reverse) ::
        [Ref.start r2] :: q.map Ref.cust :: (q2.map Ref.cust ++ [Ref.fin r2]) :: Ls) := by
    intro Ls hs
    obtain ⟨h'', he', hs', -⟩ := hloop Ls hs
    rw [he] at he'
    cases he'
    have hs1 := hs'.perm (Ms := (Ref.start r1 :: (p ++ [u]).map Ref.cust) ::
      ([] ++ [Ref.cust c] ++ (p2.map Ref.cust).reverse ++ [Ref.fin r1]) :: [Ref.start r2] ::
      q.map Ref.cust :: (q2.map Ref.cust ++ [Ref.fin r2]) :: Ls) (by perm_lists)
    have hs2 := hs1.join (b := .cust c) (getLast_start r1 (p ++ [u])) (by simp)
    rw [lastRef_concat] at hs2
    have e : routeRefs r1 (p ++ [u] ++ (p2 ++ [c]).reverse) =
      Ref.start r1 :: List.map Ref.cust (p ++ [u]) ++
        ([] ++ [Ref.cust c] ++ (List.map Ref.cust p2).reverse ++ [Ref.fin r1]) := by
      simp [routeRefs]
    rw [e]; exact hs2
  have hhead : Move.interReverseHead (s.fuel ctx) r1 (.cust u) (.cust c) s.heap =
      some (h'.link (.cust u) (.cust c)) := by
    rw [Move.interReverseHead, if_neg (by simp [Ref.isDepot, Ref.number, hc0]), Heap.backwardReverse,
      hpred, he]
    rfl
  have hfp' : ∀ k, (h'.link (.cust u) (.cust c)).pred (.start k) = s.heap.pred (.start k) := fun k => by
    rw [link_pred_start (by simp), hfp _ (by simp)]
  have hfs' : ∀ k, (h'.link (.cust u) (.cust c)).succ (.fin k) = s.heap.succ (.fin k) := fun k => by
    rw [link_succ_fin (by simp), hfs _ (by simp)]
  cases q with
  | nil =>
    refine ⟨_, _, hhead, by rw [Move.interReverseTail, if_pos (by rfl)], ?_⟩
    refine h.enc.set_two hne h1 h2 ?_ ?_ ?_
    · intro Ls hs
      have hs1 := (hmid Ls hs).perm (Ms := [Ref.start r2] :: (q2.map Ref.cust ++ [Ref.fin r2]) ::
        routeRefs r1 (p ++ [u] ++ (p2 ++ [c]).reverse) :: [].map Ref.cust :: Ls) (by perm_lists)
      have hs2 := hs1.join (a := .start r2) rfl (head_fin r2 q2)
      have e : routeRefs r2 ([].reverse ++ q2) = [Ref.start r2] ++ (q2.map Ref.cust ++ [Ref.fin r2]) := by
        simp [routeRefs]
      rw [e]
      exact Segs.drop_nil (hs2.perm (by rw [List.map_nil]; perm_lists))
    · intro k; rw [link_pred_start (headRef_ne_start _ _ _)]; exact hfp' k
    · intro k; rw [link_succ_fin (by simp)]; exact hfs' k
  | cons x q =>
    have hx0 : x ≠ 0 := hq0 x (by simp)
    have hnd1 := part_nodup h.part h1
    have hd := part_disj h.part hne h1 h2
    -- successors of the tail of `r1` are untouched
    have hkeep : ∀ k ∈ x :: q, (h'.link (.cust u) (.cust c)).succ (.cust k) = s.heap.succ (.cust k) := by
      intro k hk
      have hku : k ≠ u := by
        rintro rfl
        rw [List.nodup_append] at hnd1
        exact hnd1.2.2 k (by simp) k hk rfl
      have hk2 := hd k (by simp at hk ⊢; tauto)
      rw [link_succ_of_ne (by simpa using hku), hfs]
      simp only [List.mem_append, List.mem_singleton, not_or] at hk2
      simp; tauto
    have hsx : (h'.link (.cust u) (.cust c)).succ (.cust x) = some (headRef r1 q) := by
      rw [hkeep x (by simp)]
      exact h.enc.succ_cust (p := p ++ [u]) (by simpa using h1)
    have hlast : ∀ w, (q.map Ref.cust).getLast? = some w →
        (h'.link (.cust u) (.cust c)).succ w = some (Ref.fin r1) := by
      intro w hw
      obtain ⟨k, hk, rfl⟩ : ∃ k, q.getLast? = some k ∧ w = .cust k := by
        rcases List.eq_nil_or_concat q with rfl | ⟨q', k, rfl⟩
        · simp at hw
        · exact ⟨k, by simp, by simpa using hw.symm⟩
      obtain ⟨q', rfl⟩ := last_split hk
      rw [hkeep k (by simp)]
      have := h.enc.succ_cust (p := p ++ [u] ++ x :: q') (c := k) (q := []) (by simpa using h1)
      simpa using this
    have hloop2 := fun Ls hs => forwardReverseLoop_first (en := .fin r1) (first := .start r2)
      (q.map Ref.cust) (headRef r1 q) (.cust x) [] []
      ((q2.map Ref.cust ++ [Ref.fin r2]) :: routeRefs r1 (p ++ [u] ++ (p2 ++ [c]).reverse) :: Ls)
      (h'.link (.cust u) (.cust c)) (s.fuel ctx)
      (by
        have hs1 := (hmid Ls hs).perm (Ms := ([Ref.cust x] ++ q.map Ref.cust) :: [Ref.start r2] ::
          (q2.map Ref.cust ++ [Ref.fin r2]) ::
          routeRefs r1 (p ++ [u] ++ (p2 ++ [c]).reverse) :: Ls) (by
            rw [List.map_cons]; rw [show ([Ref.cust x] ++ q.map Ref.cust) = Ref.cust x :: q.map Ref.cust from rfl]
            perm_lists)
        exact hs1.cut)
      (by simp at hf1 ⊢; omega) (head_fin r1 q) hlast (by simp) (by rw [hfs']; exact hen)
    obtain ⟨h3, he3, -, hfp3, hfs3⟩ := hloop2 rest (h.enc.segs.perm hp1)
    refine ⟨_, h3.link (.cust x) (headRef r2 q2), hhead, ?_, ?_⟩
    · rw [headRef_cons, Move.interReverseTail, if_neg (by simp [Ref.isDepot, Ref.number, hx0]),
        Heap.forwardReverse, hsx, he3]
      rfl
    · refine h.enc.set_two hne h1 h2 ?_ ?_ ?_
      · intro Ls hs
        obtain ⟨h4, he4, hs4, -⟩ := hloop2 Ls hs
        rw [he3] at he4
        cases he4
        have hs5 := hs4.join (a := .cust x) List.getLast?_concat (head_fin r2 q2)
        have e : routeRefs r2 ((x :: q).reverse ++ q2) =
          [] ++ [Ref.start r2] ++ (q.map Ref.cust).reverse ++ [Ref.cust x] ++
            (q2.map Ref.cust ++ [Ref.fin r2]) := by simp [routeRefs]
        rw [e]
        exact hs5.swap
      · intro k
        rw [link_pred_start (headRef_ne_start _ _ _), hfp3 _ (by simp)]
        exact hfp' k
      · intro k
        rw [link_succ_fin (by simp), hfs3 _ (by simp)]
        exact hfs' k

/-! ### Inter-route 2-opt -/

theorem twoOptInter_step {ctx : Ctx α} {s : LS α} {R : List (List ℕ)} (h : Repr ctx s R)
    {r1 r2 u : ℕ} {p q p2 q2 : List ℕ} (hne : r1 ≠ r2) (h1 : R[r1]? = some (p ++ [u] ++ q))
    (h2 : R[r2]? = some (p2 ++ q2)) :
    ∃ h' h'', ((s.heap.link (.cust u) (headRef r2 q2)).link (lastRef r2 p2)
        (headRef r1 q)).replaceEndDepot (s.fuel ctx) (lastRef r2 p2) (.fin r2) = some h' ∧
      h'.replaceEndDepot (s.fuel ctx) (.cust u) (.fin r1) = some h'' ∧
      Encodes h'' ((R.set r1 (p ++ [u] ++ q2)).set r2 (p2 ++ q)) := by
  have hf1 := fuel_le h h1
  have hf2 := fuel_le h h2
  have hen1 : s.heap.succ (.fin r1) = none := h.enc.succ0 _ (get_lt h1)
  have hen2 : s.heap.succ (.fin r2) = none := h.enc.succ0 _ (get_lt h2)
  -- segments after the two links
  have hA : ∀ Ls, Segs s.heap (routeRefs r1 (p ++ [u] ++ q) :: routeRefs r2 (p2 ++ q2) :: Ls) →
      Segs ((s.heap.link (.cust u) (headRef r2 q2)).link (lastRef r2 p2) (headRef r1 q))
        (((Ref.start r2 :: p2.map Ref.cust) ++ (q.map Ref.cust ++ [Ref.fin r1])) ::
         ((Ref.start r1 :: (p ++ [u]).map Ref.cust) ++ (q2.map Ref.cust ++ [Ref.fin r2])) :: Ls) := by
    intro Ls hs
    rw [routeRefs_split, routeRefs_split] at hs
    have hs1 := hs.cut.perm (Ms := ((Ref.start r2 :: p2.map Ref.cust) ++
      (q2.map Ref.cust ++ [Ref.fin r2])) :: (Ref.start r1 :: (p ++ [u]).map Ref.cust) ::
      (q.map Ref.cust ++ [Ref.fin r1]) :: Ls) (by perm_lists)
    have hs2 := hs1.cut.perm (Ms := (Ref.start r1 :: (p ++ [u]).map Ref.cust) ::
      (q2.map Ref.cust ++ [Ref.fin r2]) :: (Ref.start r2 :: p2.map Ref.cust) ::
      (q.map Ref.cust ++ [Ref.fin r1]) :: Ls) (by perm_lists)
    have hs3 := hs2.join (getLast_start r1 (p ++ [u])) (head_fin r2 q2)
    rw [lastRef_concat] at hs3
    have hs4 := hs3.perm (Ms := (Ref.start r2 :: p2.map Ref.cust) :: (q.map Ref.cust ++ [Ref.fin r1]) ::
      ((Ref.start r1 :: (p ++ [u]).map Ref.cust) ++ (q2.map Ref.cust ++ [Ref.fin r2])) :: Ls)
      (by perm_lists)
    exact hs4.join (getLast_start r2 p2) (head_fin r1 q)
  generalize hh1 : (s.heap.link (.cust u) (headRef r2 q2)).link (lastRef r2 p2) (headRef r1 q) = H at hA ⊢
  have hHs : ∀ k, H.succ (.fin k) = s.heap.succ (.fin k) := by
    intro k; rw [← hh1, link_succ_fin (lastRef_ne_fin _ _ _), link_succ_fin (by simp)]
  have hHp : ∀ k, H.pred (.start k) = s.heap.pred (.start k) := by
    intro k
    rw [← hh1, link_pred_start (headRef_ne_start _ _ _), link_pred_start (headRef_ne_start _ _ _)]
  obtain ⟨rest, hp1, -⟩ := perm_set_two (L := allRefs R) (i := r1) (j := r2)
    (by rw [allRefs_length]; exact get_lt h1) (by rw [allRefs_length]; exact get_lt h2) hne
  rw [(List.getElem?_eq_some_iff.mp (allRefs_get h1)).2,
    (List.getElem?_eq_some_iff.mp (allRefs_get h2)).2] at hp1
  have hS := hA rest (h.enc.segs.perm hp1)
  -- the two last nodes
  obtain ⟨w1, hw1⟩ : ∃ w, w = lastRef r2 (p2 ++ q) := ⟨_, rfl⟩
  obtain ⟨w2, hw2⟩ : ∃ w, w = lastRef r1 (p ++ [u] ++ q2) := ⟨_, rfl⟩
  have hl1 : (Ref.start r2 :: (p2 ++ q).map Ref.cust).getLast? = some w1 := by
    rw [hw1]; exact getLast_start _ _
  have hl2 : (Ref.start r1 :: (p ++ [u] ++ q2).map Ref.cust).getLast? = some w2 := by
    rw [hw2]; exact getLast_start _ _
  have hc1 : ((Ref.start r2 :: (p2 ++ q).map Ref.cust) ++ [Ref.fin r1]).IsChain (Linked H) := by
    have := hS.chain_head
    simpa using this
  have hc2 : ((Ref.start r1 :: (p ++ [u] ++ q2).map Ref.cust) ++ [Ref.fin r2]).IsChain (Linked H) := by
    have := hS.tail.chain_head
    simpa using this
  have hsw1 : H.succ w1 = some (.fin r1) := (chain_join_linked hc1 hl1 rfl).1
  have hsw2 : H.succ w2 = some (.fin r2) := (chain_join_linked hc2 hl2 rfl).1
  have hB : ∀ Ls, Segs s.heap (routeRefs r1 (p ++ [u] ++ q) :: routeRefs r2 (p2 ++ q2) :: Ls) →
      Segs (H.link w1 (.fin r2)) (routeRefs r2 (p2 ++ q) ::
        (Ref.start r1 :: (p ++ [u] ++ q2).map Ref.cust) :: [Ref.fin r1] :: Ls) := by
    intro Ls hs
    have hs1 := hA Ls hs
    have e1 : (Ref.start r2 :: p2.map Ref.cust) ++ (q.map Ref.cust ++ [Ref.fin r1]) =
      (Ref.start r2 :: (p2 ++ q).map Ref.cust) ++ [Ref.fin r1] := by simp
    have e2 : (Ref.start r1 :: (p ++ [u]).map Ref.cust) ++ (q2.map Ref.cust ++ [Ref.fin r2]) =
      (Ref.start r1 :: (p ++ [u] ++ q2).map Ref.cust) ++ [Ref.fin r2] := by simp
    rw [e1, e2] at hs1
    have hs2 := hs1.cut.perm (Ms := ((Ref.start r1 :: (p ++ [u] ++ q2).map Ref.cust) ++ [Ref.fin r2]) ::
      (Ref.start r2 :: (p2 ++ q).map Ref.cust) :: [Ref.fin r1] :: Ls) (by perm_lists)
    have hs3 := hs2.cut.perm (Ms := (Ref.start r2 :: (p2 ++ q).map Ref.cust) :: [Ref.fin r2] ::
      (Ref.start r1 :: (p ++ [u] ++ q2).map Ref.cust) :: [Ref.fin r1] :: Ls) (by perm_lists)
    exact hs3.join hl1 rfl
  have hB' := hB rest (h.enc.segs.perm hp1)
  have hw12 : w2 ≠ w1 := by
    rintro rfl
    have hnd := hB'.1
    have m1 : w2 ∈ Ref.start r2 :: (p2 ++ q).map Ref.cust := List.mem_of_getLast? hl1
    have m2 : w2 ∈ Ref.start r1 :: (p ++ [u] ++ q2).map Ref.cust := List.mem_of_getLast? hl2
    simp only [List.flatten_cons] at hnd
    rw [List.nodup_append] at hnd
    refine hnd.2.2 w2 ?_ w2 ?_ rfl
    · simp only [routeRefs, List.mem_cons, List.mem_append] at m1 ⊢; tauto
    · exact List.mem_append_left _ m2
  have hw1f : ∀ k, Ref.fin k ≠ w1 := fun k => by rw [hw1]; exact lastRef_ne_fin _ _ _
  have hw2f : ∀ k, Ref.fin k ≠ w2 := fun k => by rw [hw2]; exact lastRef_ne_fin _ _ _
  refine ⟨H.link w1 (.fin r2), (H.link w1 (.fin r2)).link w2 (.fin r1), ?_, ?_, ?_⟩
  · rw [Heap.replaceEndDepot]
    refine replaceEndLoop_chain (e := .fin r1) (q.map Ref.cust) (lastRef r2 p2) w1 H _ ?_ ?_ ?_ hsw1
      (by rw [hHs]; exact hen1)
    · obtain ⟨A, hA'⟩ := List.getLast?_eq_some_iff.mp (getLast_start r2 p2)
      have e : (Ref.start r2 :: (p2 ++ q).map Ref.cust) ++ [Ref.fin r1] =
          A ++ ((lastRef r2 p2 :: q.map Ref.cust) ++ [Ref.fin r1]) := by
        have : Ref.start r2 :: (p2 ++ q).map Ref.cust =
          (Ref.start r2 :: p2.map Ref.cust) ++ q.map Ref.cust := by simp
        rw [this, hA']; simp
      rw [e] at hc1
      exact (List.isChain_append.mp (List.isChain_append.mp hc1).2.1).1
    · simp at hf1 ⊢; omega
    · rcases List.eq_nil_or_concat q with rfl | ⟨q', k, rfl⟩
      · simp [hw1]
      · rw [List.concat_eq_append, List.map_append, ← List.cons_append]
        rw [hw1, List.concat_eq_append, ← List.append_assoc, lastRef_concat]
        simp only [List.map_cons, List.map_nil]
        exact List.getLast?_concat
  · rw [Heap.replaceEndDepot]
    refine replaceEndLoop_chain (e := .fin r2) (q2.map Ref.cust) (.cust u) w2 (H.link w1 (.fin r2)) _
      ?_ ?_ ?_ (by rw [link_succ_of_ne hw12]; exact hsw2)
      (by rw [link_succ_of_ne (hw1f r2), hHs]; exact hen2)
    · have hc := hB'.tail.chain_head
      have e : Ref.start r1 :: (p ++ [u] ++ q2).map Ref.cust =
          (Ref.start r1 :: p.map Ref.cust) ++ (.cust u :: q2.map Ref.cust) := by simp
      rw [e] at hc
      exact (List.isChain_append.mp hc).2.1
    · simp at hf2 ⊢; omega
    · rcases List.eq_nil_or_concat q2 with rfl | ⟨q', k, rfl⟩
      · simp [hw2]
      · rw [List.concat_eq_append, List.map_append, ← List.cons_append]
        rw [hw2, List.concat_eq_append, ← List.append_assoc, lastRef_concat]
        simp only [List.map_cons, List.map_nil]
        exact List.getLast?_concat
  · refine h.enc.set_two hne h1 h2 ?_ ?_ ?_
    · intro Ls hs
      have hs1 := (hB Ls hs).perm (Ms := (Ref.start r1 :: (p ++ [u] ++ q2).map Ref.cust) ::
        [Ref.fin r1] :: routeRefs r2 (p2 ++ q) :: Ls) (by perm_lists)
      exact hs1.join hl2 rfl
    · intro k; rw [link_pred_start (by simp), link_pred_start (by simp)]; exact hHp k
    · intro k; rw [link_succ_fin (hw2f k), link_succ_fin (hw1f k)]; exact hHs k

end Verif
