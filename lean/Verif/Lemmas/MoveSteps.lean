import Verif.Lemmas.MoveHeap

/-!
# Performing a move on a state that holds a list of routes
-/

namespace Verif
open F64 LS Spec

set_option linter.unusedSectionVars false

/-! ### Permutations -/

theorem flatten_set_one {R : List (List ℕ)} {r : ℕ} {l l' : List ℕ} (hr : R[r]? = some l)
    (hp : l'.Perm l) : (R.set r l').flatten.Perm R.flatten := by
  obtain ⟨hlt, e⟩ := List.getElem?_eq_some_iff.mp hr
  obtain ⟨rest, h1, h2⟩ := perm_set_one hlt
  rw [e] at h1
  refine ((h2 l').flatten).trans (.trans ?_ h1.flatten.symm)
  simpa using hp.append_right _

theorem flatten_set_two {R : List (List ℕ)} {r1 r2 : ℕ} {l1 l2 l1' l2' : List ℕ} (hne : r1 ≠ r2)
    (hr1 : R[r1]? = some l1) (hr2 : R[r2]? = some l2) (hp : (l1' ++ l2').Perm (l1 ++ l2)) :
    ((R.set r1 l1').set r2 l2').flatten.Perm R.flatten := by
  obtain ⟨hlt1, e1⟩ := List.getElem?_eq_some_iff.mp hr1
  obtain ⟨hlt2, e2⟩ := List.getElem?_eq_some_iff.mp hr2
  obtain ⟨rest, h1, h2⟩ := perm_set_two hlt1 hlt2 hne
  rw [e1, e2] at h1
  refine ((h2 l1' l2').flatten).trans (.trans ?_ h1.flatten.symm)
  have := hp.append_right rest.flatten
  simpa using this

/-- Closes permutations of concatenations of customer lists. -/
macro "perm_custs" : tactic =>
  `(tactic| (rw [List.perm_iff_count]; intro _; simp only [List.count_cons, List.count_append, List.count_nil, List.count_reverse, List.reverse_append, List.reverse_cons, List.reverse_nil]; omega))

theorem Relocated.perm {R R' : List (List ℕ)} {S S' : List ℕ} {v : Ref} (h : Relocated R S S' v R')
    (hS : S'.Perm S) : R'.flatten.Perm R.flatten ∧ R'.length = R.length := by
  have hS' := List.perm_iff_count.mp hS
  cases h with
  | inter r1 r2 p q p2 q2 hne h1 h2 hv =>
    refine ⟨flatten_set_two hne h1 h2 ?_, by simp⟩
    rw [List.perm_iff_count]; intro c
    simp only [List.count_append, hS']; omega
  | after r p m q hm h1 hv =>
    refine ⟨flatten_set_one h1 ?_, by simp⟩
    rw [List.perm_iff_count]; intro c
    simp only [List.count_append, hS']; omega
  | before r p m q hm h1 hv =>
    refine ⟨flatten_set_one h1 ?_, by simp⟩
    rw [List.perm_iff_count]; intro c
    simp only [List.count_append, hS']; omega

theorem Swapped.perm {R R' : List (List ℕ)} {S T : List ℕ} (h : Swapped R S T R') :
    R'.flatten.Perm R.flatten ∧ R'.length = R.length := by
  cases h with
  | inter r1 r2 p q p2 q2 hne h1 h2 =>
    exact ⟨flatten_set_two hne h1 h2 (by perm_custs), by simp⟩
  | fwd r p m q hm h1 => exact ⟨flatten_set_one h1 (by perm_custs), by simp⟩
  | bwd r p m q hm h1 => exact ⟨flatten_set_one h1 (by perm_custs), by simp⟩

theorem MoveEffect.perm {R R' : List (List ℕ)} {u : ℕ} {v : Ref} {m : MoveKind}
    (h : MoveEffect R u v m R') : R'.flatten.Perm R.flatten ∧ R'.length = R.length := by
  cases h with
  | relocateSingle h => exact h.perm (.refl _)
  | relocateDouble x h => exact h.perm (.refl _)
  | relocateDoubleReverse x h => exact h.perm (.swap _ _ _)
  | swapOneWithOne c _ h => exact h.perm
  | swapTwoWithOne c x _ h => exact h.perm
  | swapTwoWithTwo c x y _ h => exact h.perm
  | twoOptIntraReverse c r p m q _ _ h => exact ⟨flatten_set_one h (by perm_custs), by simp⟩
  | twoOptInterReverse c r1 r2 p q p2 q2 _ hne h1 h2 =>
    exact ⟨flatten_set_two hne h1 h2 (by perm_custs), by simp⟩
  | twoOptInter r1 r2 p q p2 q2 hne h1 h2 =>
    exact ⟨flatten_set_two hne h1 h2 (by perm_custs), by simp⟩

/-! ### Reads -/

variable {α : Type} [F64 α]

theorem ReprOn.rt_cust {ctx : Ctx α} {s : LS α} {R : List (List ℕ)} (h : Repr ctx s R) {r c : ℕ}
    {l : List ℕ} (hr : R[r]? = some l) (hc : c ∈ l) : s.rt (.cust c) = some r :=
  (h.data r l trivial hr).rt _ (cust_mem hc)

theorem ReprOn.rt_last {ctx : Ctx α} {s : LS α} {R : List (List ℕ)} (h : Repr ctx s R) {r : ℕ}
    {p q : List ℕ} (hr : R[r]? = some (p ++ q)) : s.rt (lastRef r p) = some r :=
  (h.data r _ trivial hr).rt _ (lastRef_mem r p q)

theorem Encodes.succ_last {h : Heap} {R : List (List ℕ)} (he : Encodes h R) {r : ℕ} {p q : List ℕ}
    (hr : R[r]? = some (p ++ q)) : h.succ (lastRef r p) = some (headRef r q) := (he.linked hr).1

theorem Encodes.pred_head {h : Heap} {R : List (List ℕ)} (he : Encodes h R) {r : ℕ} {p q : List ℕ}
    (hr : R[r]? = some (p ++ q)) : h.pred (headRef r q) = some (lastRef r p) := (he.linked hr).2

/-- The node after the customer `c`. -/
theorem Encodes.succ_cust {h : Heap} {R : List (List ℕ)} (he : Encodes h R) {r c : ℕ} {p q : List ℕ}
    (hr : R[r]? = some (p ++ c :: q)) : h.succ (.cust c) = some (headRef r q) := by
  have := he.succ_last (p := p ++ [c]) (q := q) (by simpa using hr)
  simpa using this

/-- The node before the customer `c`. -/
theorem Encodes.pred_cust {h : Heap} {R : List (List ℕ)} (he : Encodes h R) {r c : ℕ} {p q : List ℕ}
    (hr : R[r]? = some (p ++ c :: q)) : h.pred (.cust c) = some (lastRef r p) := by
  have := he.pred_head (p := p) (q := c :: q) hr
  simpa using this

/-! ### Relocation -/

/-- The heap after relocating the segment from `sf` to `sl`. -/
abbrev relocHeap (h : Heap) (a x v sf sl y : Ref) : Heap := ((h.link a x).link v sf).link sl y

/-- The heap after relocating `s, t` as `t, s`. -/
abbrev relocRevHeap (h : Heap) (a x v s t y : Ref) : Heap :=
  (((h.link a x).link v t).link t s).link s y

/-- The heap after swapping. -/
abbrev swapHeap (h : Heap) (a x sf sl c y tf tl : Ref) : Heap :=
  (((h.link a tf).link tl x).link c sf).link sl y

theorem head_map_cust {S : List ℕ} {sf : ℕ} (hf : S.head? = some sf) :
    (S.map Ref.cust).head? = some (.cust sf) := by simp [hf]
theorem last_map_cust {S : List ℕ} {sl : ℕ} (hl : S.getLast? = some sl) :
    (S.map Ref.cust).getLast? = some (.cust sl) := by simp [hl]

/-- What a relocation reads from the heap. -/
structure RelocReads (s : LS α) (S : List ℕ) (v : Ref) (r1 r2 : ℕ) (a x y : Ref) : Prop where
  pred : ∀ sf, S.head? = some sf → s.heap.pred (.cust sf) = some a
  succ : ∀ sl, S.getLast? = some sl → s.heap.succ (.cust sl) = some x
  succV : s.heap.succ v = some y
  rtS : ∀ c ∈ S, s.rt (.cust c) = some r1
  rtV : s.rt v = some r2
  vS : ∀ c ∈ S, v ≠ .cust c
  yS : ∀ c ∈ S, y ≠ .cust c

theorem part_nodup {n : ℕ} {R : List (List ℕ)} (hp : IsPartition n R) {r : ℕ} {l : List ℕ}
    (hr : R[r]? = some l) : l.Nodup :=
  (List.sublist_flatten_of_mem (List.mem_of_getElem? hr)).nodup hp.nodup

theorem part_disj {n : ℕ} {R : List (List ℕ)} (hp : IsPartition n R) {r1 r2 : ℕ} {l1 l2 : List ℕ}
    (hne : r1 ≠ r2) (h1 : R[r1]? = some l1) (h2 : R[r2]? = some l2) : ∀ c ∈ l1, c ∉ l2 := by
  obtain ⟨hlt1, e1⟩ := List.getElem?_eq_some_iff.mp h1
  obtain ⟨hlt2, e2⟩ := List.getElem?_eq_some_iff.mp h2
  obtain ⟨rest, hp1, -⟩ := perm_set_two hlt1 hlt2 hne
  rw [e1, e2] at hp1
  have := hp1.flatten.nodup_iff.mp hp.nodup
  simp only [List.flatten_cons, List.nodup_append] at this
  intro c hc1 hc2
  exact this.2.2 c hc1 c (by simp [hc2]) rfl

theorem lastRef_ne_cust {r c : ℕ} {p : List ℕ} (h : c ∉ p) : lastRef r p ≠ .cust c := by
  rcases List.eq_nil_or_concat p with rfl | ⟨p', d, rfl⟩
  · simp
  · simp at h ⊢; exact fun e => h.2 e.symm
theorem headRef_ne_cust {r c : ℕ} {q : List ℕ} (h : c ∉ q) : headRef r q ≠ .cust c := by
  cases q with
  | nil => simp
  | cons d q => simp at h ⊢; exact fun e => h.1 e.symm

/-- The two cases of an update after a change of links. -/
theorem Repr.updateRoutes {ctx : Ctx α} {s : LS α} {R R' : List (List ℕ)} (h : Repr ctx s R)
    {h' : Heap} (he : Encodes h' R') (hperm : R'.flatten.Perm R.flatten ∧ R'.length = R.length)
    {r1 r2 : ℕ} (hr1 : r1 < R.length) (hr2 : r2 < R.length)
    (hsame : ∀ r, r ≠ r1 → r ≠ r2 → R'[r]? = R[r]?) :
    ∃ s', LS.updateRoutes ctx r1 r2 { s with heap := h', moveCount := s.moveCount + 1 } = some s' ∧
      Repr ctx s' R' ∧ SameFrame s s' ∧ Stamped s R s' R' := by
  have hpart : IsPartition ctx.n R' := hperm.1.trans h.part
  by_cases e : r1 = r2
  · subst e
    exact h.updateRoutes_eq he hperm.2 hpart hr1 (fun r hr => hsame r hr hr)
  · exact h.updateRoutes_ne he hperm.2 hpart hr1 hr2 e hsame

theorem link_pred_start {h : Heap} {a b : Ref} {k : ℕ} (hb : Ref.start k ≠ b) :
    (h.link a b).pred (.start k) = h.pred (.start k) := link_pred_of_ne hb
theorem link_succ_fin {h : Heap} {a b : Ref} {k : ℕ} (ha : Ref.fin k ≠ a) :
    (h.link a b).succ (.fin k) = h.succ (.fin k) := link_succ_of_ne ha

/-- Closes the frame conditions of `Encodes.set_one` and `Encodes.set_two`. -/
macro "frame" : tactic => `(tactic| (intro k; simp [link_pred_start, link_succ_fin,
  headRef_ne_start, lastRef_ne_fin]))

theorem get_lt {β : Type} {R : List β} {r : ℕ} {l : β} (h : R[r]? = some l) : r < R.length :=
  (List.getElem?_eq_some_iff.mp h).1

theorem set_other {β : Type} {R : List β} {r1 : ℕ} {l1 : β} :
    ∀ r, r ≠ r1 → r ≠ r1 → (R.set r1 l1)[r]? = R[r]? := by
  intro r h1 _
  rw [List.getElem?_set_ne (Ne.symm h1)]
theorem set_set_other {β : Type} {R : List β} {r1 r2 : ℕ} {l1 l2 : β} :
    ∀ r, r ≠ r1 → r ≠ r2 → ((R.set r1 l1).set r2 l2)[r]? = R[r]? := by
  intro r h1 h2
  rw [List.getElem?_set_ne (Ne.symm h2), List.getElem?_set_ne (Ne.symm h1)]

theorem head_split {S : List ℕ} {sf : ℕ} (h : S.head? = some sf) : ∃ S1, S = sf :: S1 := by
  obtain ⟨S1, e⟩ := List.head?_eq_some_iff.mp h; exact ⟨S1, e⟩
theorem last_split {S : List ℕ} {sl : ℕ} (h : S.getLast? = some sl) : ∃ S1, S = S1 ++ [sl] := by
  obtain ⟨S1, e⟩ := List.getLast?_eq_some_iff.mp h; exact ⟨S1, e⟩

theorem Encodes.pred_seg {h : Heap} {R : List (List ℕ)} (he : Encodes h R) {r sf : ℕ}
    {p S q : List ℕ} (hr : R[r]? = some (p ++ S ++ q)) (hf : S.head? = some sf) :
    h.pred (.cust sf) = some (lastRef r p) := by
  obtain ⟨S1, rfl⟩ := head_split hf
  exact he.pred_cust (q := S1 ++ q) (by simpa using hr)
theorem Encodes.succ_seg {h : Heap} {R : List (List ℕ)} (he : Encodes h R) {r sl : ℕ}
    {p S q : List ℕ} (hr : R[r]? = some (p ++ S ++ q)) (hl : S.getLast? = some sl) :
    h.succ (.cust sl) = some (headRef r q) := by
  obtain ⟨S1, rfl⟩ := last_split hl
  exact he.succ_cust (p := p ++ S1) (by simpa using hr)

/-- A relocation can be carried out on a state holding the routes. -/
theorem Relocated.step {ctx : Ctx α} {s : LS α} {R R' : List (List ℕ)} {S S' : List ℕ} {v : Ref}
    (h : Repr ctx s R) (hrel : Relocated R S S' v R') (hperm : S'.Perm S) :
    ∃ r1 r2 a x y, RelocReads s S v r1 r2 a x y ∧ r1 < R.length ∧ r2 < R.length ∧
      (∀ r, r ≠ r1 → r ≠ r2 → R'[r]? = R[r]?) ∧
      (∀ sf sl, S.head? = some sf → S.getLast? = some sl → S' = S →
        Encodes (relocHeap s.heap a x v (.cust sf) (.cust sl) y) R') ∧
      (∀ u w, S = [u, w] → S' = [w, u] →
        Encodes (relocRevHeap s.heap a x v (.cust u) (.cust w) y) R') := by
  cases hrel with
  | inter r1 r2 p q p2 q2 hne h1 h2 hv =>
    subst hv
    refine ⟨r1, r2, lastRef r1 p, headRef r1 q, headRef r2 q2, ⟨?_, ?_, ?_, ?_, ?_, ?_, ?_⟩,
      get_lt h1, get_lt h2, set_set_other, ?_, ?_⟩
    · exact fun sf hf => h.enc.pred_seg h1 hf
    · exact fun sl hl => h.enc.succ_seg h1 hl
    · exact h.enc.succ_last h2
    · exact fun c hc => h.rt_cust h1 (by simp [hc])
    · exact h.rt_last h2
    · intro c hc
      have := part_disj h.part hne h1 h2 c (by simp [hc])
      exact lastRef_ne_cust (by simp at this; exact this.1)
    · intro c hc
      have := part_disj h.part hne h1 h2 c (by simp [hc])
      exact headRef_ne_cust (by simp at this; exact this.2)
    · rintro sf sl hf hl rfl
      refine h.enc.set_two hne h1 h2 ?_ (by frame) (by frame)
      intro Ls hs
      rw [routeRefs_split3, routeRefs_split] at hs
      rw [routeRefs_split3, routeRefs_split]
      exact hs.reloc_inter (getLast_start _ _) (head_fin _ _) (getLast_start _ _) (head_map_cust hf)
        (last_map_cust hl) (head_fin _ _)
    · rintro u w rfl rfl
      refine h.enc.set_two hne h1 h2 ?_ (by frame) (by frame)
      intro Ls hs
      rw [routeRefs_split3, routeRefs_split] at hs
      rw [routeRefs_split3, routeRefs_split]
      exact hs.relocRev_inter (getLast_start _ _) (head_fin _ _) (getLast_start _ _) (head_fin _ _)
  | after r p m q hm h1 hv =>
    subst hv
    have hnd := part_nodup h.part h1
    refine ⟨r, r, lastRef r p, headRef r m, headRef r q, ⟨?_, ?_, ?_, ?_, ?_, ?_, ?_⟩,
      get_lt h1, get_lt h1, set_other, ?_, ?_⟩
    · exact fun sf hf => h.enc.pred_seg (q := m ++ q) (by simpa using h1) hf
    · intro sl hl
      rw [← headRef_append hm (q := q)]
      exact h.enc.succ_seg (q := m ++ q) (by simpa using h1) hl
    · rw [← lastRef_append hm (p := p ++ S)]
      exact h.enc.succ_last h1
    · exact fun c hc => h.rt_cust h1 (by simp [hc])
    · rw [← lastRef_append hm (p := p ++ S)]
      exact h.rt_last h1
    · intro c hc
      refine lastRef_ne_cust fun hc' => ?_
      simp only [List.nodup_append, List.mem_append] at hnd
      exact hnd.1.2.2 c (.inr hc) c hc' rfl
    · intro c hc
      refine headRef_ne_cust fun hc' => ?_
      simp only [List.nodup_append, List.mem_append] at hnd
      exact hnd.2.2 c (.inl (.inr hc)) c hc' rfl
    · rintro sf sl hf hl rfl
      refine h.enc.set_one h1 ?_ (by frame) (by frame)
      intro Ls hs
      rw [routeRefs_split4] at hs ⊢
      exact hs.reloc_after (getLast_start _ _) (head_custs r hm) (getLast_custs r hm) (head_map_cust hf)
        (last_map_cust hl) (head_fin _ _)
    · rintro u w rfl rfl
      refine h.enc.set_one h1 ?_ (by frame) (by frame)
      intro Ls hs
      rw [routeRefs_split4] at hs ⊢
      exact hs.relocRev_after (getLast_start _ _) (head_custs r hm) (getLast_custs r hm) (head_fin _ _)
  | before r p m q hm h1 hv =>
    subst hv
    have hnd := part_nodup h.part h1
    refine ⟨r, r, lastRef r m, headRef r q, headRef r m, ⟨?_, ?_, ?_, ?_, ?_, ?_, ?_⟩,
      get_lt h1, get_lt h1, set_other, ?_, ?_⟩
    · intro sf hf
      rw [← lastRef_append hm (p := p)]
      exact h.enc.pred_seg h1 hf
    · exact fun sl hl => h.enc.succ_seg h1 hl
    · rw [← headRef_append hm (q := S ++ q)]
      exact h.enc.succ_last (by simpa using h1)
    · exact fun c hc => h.rt_cust h1 (by simp [hc])
    · exact h.rt_last (q := m ++ (S ++ q)) (by simpa using h1)
    · intro c hc
      refine lastRef_ne_cust fun hc' => ?_
      simp only [List.nodup_append, List.mem_append] at hnd
      exact hnd.1.2.2 c (.inl hc') c hc rfl
    · intro c hc
      refine headRef_ne_cust fun hc' => ?_
      simp only [List.nodup_append, List.mem_append] at hnd
      exact hnd.1.2.2 c (.inr hc') c hc rfl
    · rintro sf sl hf hl rfl
      refine h.enc.set_one h1 ?_ (by frame) (by frame)
      intro Ls hs
      rw [routeRefs_split4] at hs ⊢
      exact hs.reloc_before (getLast_custs r hm) (head_fin _ _) (getLast_start _ _) (head_map_cust hf)
        (last_map_cust hl) (head_custs r hm)
    · rintro u w rfl rfl
      refine h.enc.set_one h1 ?_ (by frame) (by frame)
      intro Ls hs
      rw [routeRefs_split4] at hs ⊢
      exact hs.relocRev_before (getLast_custs r hm) (head_fin _ _) (getLast_start _ _) (head_custs r hm)

/-- What a swap reads from the heap. -/
structure SwapReads (s : LS α) (S T : List ℕ) (r1 r2 : ℕ) (a x c y : Ref) : Prop where
  pred : ∀ sf, S.head? = some sf → s.heap.pred (.cust sf) = some a
  succ : ∀ sl, S.getLast? = some sl → s.heap.succ (.cust sl) = some x
  predT : ∀ tf, T.head? = some tf → s.heap.pred (.cust tf) = some c
  succT : ∀ tl, T.getLast? = some tl → s.heap.succ (.cust tl) = some y
  rtS : ∀ k ∈ S, s.rt (.cust k) = some r1
  rtT : ∀ k ∈ T, s.rt (.cust k) = some r2
  cS : ∀ k ∈ S, c ≠ .cust k
  yS : ∀ k ∈ S, y ≠ .cust k
  aT : ∀ k ∈ T, a ≠ .cust k
  xT : ∀ k ∈ T, x ≠ .cust k
  disj : ∀ k ∈ S, k ∉ T

/-- A swap can be carried out on a state holding the routes. -/
theorem Swapped.step {ctx : Ctx α} {s : LS α} {R R' : List (List ℕ)} {S T : List ℕ}
    (h : Repr ctx s R) (hsw : Swapped R S T R') :
    ∃ r1 r2 a x c y, SwapReads s S T r1 r2 a x c y ∧ r1 < R.length ∧ r2 < R.length ∧
      (∀ r, r ≠ r1 → r ≠ r2 → R'[r]? = R[r]?) ∧
      (∀ sf sl tf tl, S.head? = some sf → S.getLast? = some sl → T.head? = some tf →
        T.getLast? = some tl →
        Encodes (swapHeap s.heap a x (.cust sf) (.cust sl) c y (.cust tf) (.cust tl)) R') := by
  cases hsw with
  | inter r1 r2 p q p2 q2 hne h1 h2 =>
    have hd := part_disj h.part hne h1 h2
    refine ⟨r1, r2, lastRef r1 p, headRef r1 q, lastRef r2 p2, headRef r2 q2,
      ⟨?_, ?_, ?_, ?_, ?_, ?_, ?_, ?_, ?_, ?_, ?_⟩, get_lt h1, get_lt h2, set_set_other, ?_⟩
    · exact fun sf hf => h.enc.pred_seg h1 hf
    · exact fun sl hl => h.enc.succ_seg h1 hl
    · exact fun sf hf => h.enc.pred_seg h2 hf
    · exact fun sl hl => h.enc.succ_seg h2 hl
    · exact fun c hc => h.rt_cust h1 (by simp [hc])
    · exact fun c hc => h.rt_cust h2 (by simp [hc])
    · exact fun k hk => lastRef_ne_cust fun hk' => hd k (by simp [hk]) (by simp [hk'])
    · exact fun k hk => headRef_ne_cust fun hk' => hd k (by simp [hk]) (by simp [hk'])
    · exact fun k hk => lastRef_ne_cust fun hk' => hd k (by simp [hk']) (by simp [hk])
    · exact fun k hk => headRef_ne_cust fun hk' => hd k (by simp [hk']) (by simp [hk])
    · exact fun k hk hk' => hd k (by simp [hk]) (by simp [hk'])
    · intro sf sl tf tl hf hl htf htl
      refine h.enc.set_two hne h1 h2 ?_ (by frame) (by frame)
      intro Ls hs
      rw [routeRefs_split3, routeRefs_split3] at hs
      rw [routeRefs_split3, routeRefs_split3]
      exact hs.swap_inter (getLast_start _ _) (head_fin _ _) (head_map_cust hf) (last_map_cust hl)
        (getLast_start _ _) (head_fin _ _) (head_map_cust htf) (last_map_cust htl)
  | fwd r p m q hm h1 =>
    have hnd := part_nodup h.part h1
    simp only [List.nodup_append, List.mem_append] at hnd
    refine ⟨r, r, lastRef r p, headRef r m, lastRef r m, headRef r q,
      ⟨?_, ?_, ?_, ?_, ?_, ?_, ?_, ?_, ?_, ?_, ?_⟩, get_lt h1, get_lt h1, set_other, ?_⟩
    · exact fun sf hf => h.enc.pred_seg (q := m ++ T ++ q) (by simpa using h1) hf
    · intro sl hl
      rw [← headRef_append hm (q := T ++ q)]
      exact h.enc.succ_seg (q := m ++ (T ++ q)) (by simpa using h1) hl
    · intro sf hf
      rw [← lastRef_append hm (p := p ++ S)]
      exact h.enc.pred_seg h1 hf
    · exact fun sl hl => h.enc.succ_seg h1 hl
    · exact fun c hc => h.rt_cust h1 (by simp [hc])
    · exact fun c hc => h.rt_cust h1 (by simp [hc])
    · exact fun k hk => lastRef_ne_cust fun hk' => hnd.1.1.2.2 k (.inr hk) k hk' rfl
    · exact fun k hk => headRef_ne_cust fun hk' => hnd.2.2 k (.inl (.inl (.inr hk))) k hk' rfl
    · exact fun k hk => lastRef_ne_cust fun hk' => hnd.1.2.2 k (.inl (.inl hk')) k hk rfl
    · exact fun k hk => headRef_ne_cust fun hk' => hnd.1.2.2 k (.inr hk') k hk rfl
    · exact fun k hk hk' => hnd.1.2.2 k (.inl (.inr hk)) k hk' rfl
    · intro sf sl tf tl hf hl htf htl
      refine h.enc.set_one h1 ?_ (by frame) (by frame)
      intro Ls hs
      rw [routeRefs_split5] at hs ⊢
      exact hs.swap_fwd (getLast_start _ _) (head_custs r hm) (head_map_cust hf) (last_map_cust hl)
        (getLast_custs r hm) (head_fin _ _) (head_map_cust htf) (last_map_cust htl)
  | bwd r p m q hm h1 =>
    have hnd := part_nodup h.part h1
    simp only [List.nodup_append, List.mem_append] at hnd
    refine ⟨r, r, lastRef r m, headRef r q, lastRef r p, headRef r m,
      ⟨?_, ?_, ?_, ?_, ?_, ?_, ?_, ?_, ?_, ?_, ?_⟩, get_lt h1, get_lt h1, set_other, ?_⟩
    · intro sf hf
      rw [← lastRef_append hm (p := p ++ T)]
      exact h.enc.pred_seg h1 hf
    · exact fun sl hl => h.enc.succ_seg h1 hl
    · exact fun sf hf => h.enc.pred_seg (q := m ++ S ++ q) (by simpa using h1) hf
    · intro sl hl
      rw [← headRef_append hm (q := S ++ q)]
      exact h.enc.succ_seg (q := m ++ (S ++ q)) (by simpa using h1) hl
    · exact fun c hc => h.rt_cust h1 (by simp [hc])
    · exact fun c hc => h.rt_cust h1 (by simp [hc])
    · exact fun k hk => lastRef_ne_cust fun hk' => hnd.1.2.2 k (.inl (.inl hk')) k hk rfl
    · exact fun k hk => headRef_ne_cust fun hk' => hnd.1.2.2 k (.inr hk') k hk rfl
    · exact fun k hk => lastRef_ne_cust fun hk' => hnd.1.1.2.2 k (.inr hk) k hk' rfl
    · exact fun k hk => headRef_ne_cust fun hk' => hnd.2.2 k (.inl (.inl (.inr hk))) k hk' rfl
    · exact fun k hk hk' => hnd.1.2.2 k (.inl (.inr hk')) k hk rfl
    · intro sf sl tf tl hf hl htf htl
      refine h.enc.set_one h1 ?_ (by frame) (by frame)
      intro Ls hs
      rw [routeRefs_split5] at hs ⊢
      exact hs.swap_bwd (getLast_custs r hm) (head_fin _ _) (head_map_cust hf) (last_map_cust hl)
        (getLast_start _ _) (head_custs r hm) (head_map_cust htf) (last_map_cust htl)

end Verif
