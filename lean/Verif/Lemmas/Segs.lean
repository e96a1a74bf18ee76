import Verif.Model.LinkedList
import Mathlib.Data.List.Chain
import Mathlib.Data.List.Perm.Basic
import Mathlib.Data.List.Nodup

/-!
# Reasoning about doubly linked lists by segments

`Segs h Ls`: the lists `Ls` are pairwise disjoint and each is a correctly (doubly) linked chain in the
heap `h`. Cutting a segment is free; `link` joins two segments.
-/

namespace Verif

/-- `a` and `b` are linked in both directions. -/
def Linked (h : Heap) (a b : Ref) : Prop := h.succ a = some b ∧ h.pred b = some a

/-- Disjoint correctly linked chains. -/
def Segs (h : Heap) (Ls : List (List Ref)) : Prop :=
  Ls.flatten.Nodup ∧ ∀ L ∈ Ls, L.IsChain (Linked h)

theorem link_succ_of_ne {h : Heap} {a b x : Ref} (hx : x ≠ a) : (h.link a b).succ x = h.succ x := by
  simp [Heap.link, hx]
theorem link_pred_of_ne {h : Heap} {a b x : Ref} (hx : x ≠ b) : (h.link a b).pred x = h.pred x := by
  simp [Heap.link, hx]
@[simp] theorem link_succ_self {h : Heap} {a b : Ref} : (h.link a b).succ a = some b := by
  simp [Heap.link]
@[simp] theorem link_pred_self {h : Heap} {a b : Ref} : (h.link a b).pred b = some a := by
  simp [Heap.link]

/-- Linking `a → b` keeps a chain in which `a` is not followed and `b` is not preceded by anything. -/
theorem IsChain.link {h : Heap} {a b : Ref} : ∀ {L : List Ref}, L.IsChain (Linked h) →
    a ∉ L.dropLast → b ∉ L.tail → L.IsChain (Linked (h.link a b))
  | [], _, _, _ => .nil
  | [x], _, _, _ => .singleton x
  | x :: y :: L, hc, ha, hb => by
    rw [List.isChain_cons_cons] at hc ⊢
    rw [List.dropLast_cons_cons, List.mem_cons, not_or] at ha
    rw [List.tail_cons, List.mem_cons, not_or] at hb
    refine ⟨⟨?_, ?_⟩, IsChain.link hc.2 ha.2 hb.2⟩
    · rw [link_succ_of_ne (Ne.symm ha.1)]; exact hc.1.1
    · rw [link_pred_of_ne (Ne.symm hb.1)]; exact hc.1.2

namespace Segs
variable {h : Heap} {Ls Ms : List (List Ref)} {A B L : List Ref} {a b x : Ref}

theorem perm (hs : Segs h Ls) (hp : Ls.Perm Ms) : Segs h Ms :=
  ⟨hp.flatten.nodup_iff.mp hs.1, fun L hL => hs.2 L (hp.mem_iff.mpr hL)⟩

theorem nodup_head (hs : Segs h (A :: Ls)) : A.Nodup := (List.nodup_append.mp hs.1).1

theorem chain_head (hs : Segs h (A :: Ls)) : A.IsChain (Linked h) := hs.2 A (by simp)

theorem tail (hs : Segs h (A :: Ls)) : Segs h Ls :=
  ⟨(List.nodup_append.mp hs.1).2.1, fun L hL => hs.2 L (by simp [hL])⟩

theorem swap (hs : Segs h (A :: B :: Ls)) : Segs h (B :: A :: Ls) := hs.perm (.swap _ _ _)

/-- Cutting a segment. -/
theorem cut (hs : Segs h ((A ++ B) :: Ls)) : Segs h (A :: B :: Ls) := by
  refine ⟨by simpa using hs.1, ?_⟩
  intro L hL
  have hc := List.isChain_append.mp hs.chain_head
  rcases List.mem_cons.mp hL with rfl | hL
  · exact hc.1
  rcases List.mem_cons.mp hL with rfl | hL
  · exact hc.2.1
  · exact hs.2 L (by simp [hL])

/-- A fresh node is a segment. -/
theorem single (hs : Segs h Ls) (hx : ∀ L ∈ Ls, x ∉ L) : Segs h ([x] :: Ls) := by
  refine ⟨?_, ?_⟩
  · simp only [List.flatten_cons, List.singleton_append, List.nodup_cons]
    refine ⟨?_, hs.1⟩
    intro hm
    obtain ⟨L, hL, hxL⟩ := List.mem_flatten.mp hm
    exact hx L hL hxL
  · intro L hL
    rcases List.mem_cons.mp hL with rfl | hL
    · exact .singleton _
    · exact hs.2 L hL

/-- Dropping an empty segment. -/
theorem drop_nil (hs : Segs h ([] :: Ls)) : Segs h Ls := hs.tail

theorem cons_nil (hs : Segs h Ls) : Segs h ([] :: Ls) :=
  ⟨by simpa using hs.1, fun L hL => by
    rcases List.mem_cons.mp hL with rfl | hL
    · exact .nil
    · exact hs.2 L hL⟩

/-- `link` joins two segments. -/
theorem link (hs : Segs h ((A ++ [a]) :: (b :: B) :: Ls)) :
    Segs (h.link a b) ((A ++ a :: b :: B) :: Ls) := by
  have hnd : (A ++ a :: b :: (B ++ Ls.flatten)).Nodup := by
    have := hs.1
    simpa using this
  refine ⟨by simpa using hnd, ?_⟩
  rw [List.nodup_append, List.nodup_cons, List.nodup_cons] at hnd
  obtain ⟨hA, ⟨ha, hb, hBL⟩, hdis⟩ := hnd
  have haA : a ∉ A := fun hm => hdis a hm a (by simp) rfl
  have hbA : b ∉ A := fun hm => hdis b hm b (by simp) rfl
  have hab : a ≠ b := fun e => ha (by simp [e])
  intro L hL
  rcases List.mem_cons.mp hL with rfl | hL
  · have h1 : (A ++ [a]).IsChain (Linked (h.link a b)) := by
      refine IsChain.link hs.chain_head (by simpa using haA) ?_
      intro hm
      have := List.mem_of_mem_tail hm
      simp [hbA, hab.symm] at this
    have h2 : (b :: B).IsChain (Linked (h.link a b)) := by
      refine IsChain.link (hs.2 _ (by simp)) ?_ ?_
      · intro hm
        have := List.dropLast_subset _ hm
        simp only [List.mem_cons] at this
        rcases this with e | hm
        · exact hab e
        · exact ha (by simp [hm])
      · intro hm; exact hb (by simp at hm; simp [hm])
    have : A ++ a :: b :: B = (A ++ [a]) ++ (b :: B) := by simp
    rw [this, List.isChain_append]
    refine ⟨h1, h2, ?_⟩
    intro x hx y hy
    simp at hx hy
    subst hx hy
    exact ⟨link_succ_self, link_pred_self⟩
  · have haL : a ∉ L := fun hm => ha (by
      simp only [List.mem_cons, List.mem_append, List.mem_flatten]; exact .inr (.inr ⟨L, hL, hm⟩))
    have hbL : b ∉ L := fun hm => hb (by
      simp only [List.mem_append, List.mem_flatten]; exact .inr ⟨L, hL, hm⟩)
    exact IsChain.link (hs.2 L (by simp [hL])) (fun hm => haL (List.dropLast_subset _ hm))
      (fun hm => hbL (List.mem_of_mem_tail hm))

/-- The links inside a segment. -/
theorem linked (hs : Segs h ((A ++ a :: b :: B) :: Ls)) : Linked h a b := by
  have hc := hs.chain_head
  rw [List.isChain_append, List.isChain_cons_cons] at hc
  exact hc.2.1.1

end Segs

/-- Closes permutations of concrete lists of segments. -/
macro "perm_lists" : tactic =>
  `(tactic| (rw [List.perm_iff_count]; intro _; simp only [List.count_cons, List.count_append, List.count_nil]; omega))

/-! ### Reversal loops -/

/-- Backward reversal up to a given customer: the segment `rest ++ [nd]` is appended in reverse. -/
theorem backwardReverseLoop_seg {t : Ref} : ∀ (rest : List Ref) (nd f : Ref) (D : List Ref)
    (Ls : List (List Ref)) (h : Heap) (fuel : ℕ),
    Segs h ((D ++ [f]) :: (rest ++ [nd]) :: Ls) → rest.length < fuel →
    (rest ++ [nd]).head? = some t → (∀ x ∈ rest ++ [nd], x.number = t.number → x = t) →
    ∃ h', Heap.backwardReverseLoop (some t) none fuel f (some nd) h = some h' ∧
      Segs h' ((D ++ [f] ++ (rest ++ [nd]).reverse) :: Ls) ∧
      (∀ x, x ∉ rest ++ [nd] → h'.pred x = h.pred x) ∧
      (∀ x, x ∉ f :: (rest ++ [nd]) → h'.succ x = h.succ x) := by
  intro rest
  induction rest using List.reverseRecOn with
  | nil =>
    intro nd f D Ls h fuel hs hf ht hinj
    obtain ⟨fuel, rfl⟩ : ∃ k, fuel = k + 1 := ⟨fuel - 1, by simp at hf; omega⟩
    simp at ht
    subst ht
    refine ⟨h.link f nd, ?_, ?_, ?_, ?_⟩
    · simp only [Heap.backwardReverseLoop]
      split <;> simp_all
    · have := Segs.link (A := D) (B := []) (by simpa using hs)
      simpa using this
    · intro x hx
      exact link_pred_of_ne (by simpa using hx)
    · intro x hx
      simp only [List.mem_cons, not_or] at hx
      exact link_succ_of_ne hx.1
  | append_singleton rest nd' ih =>
    intro nd f D Ls h fuel hs hf ht hinj
    obtain ⟨fuel, rfl⟩ : ∃ k, fuel = k + 1 := ⟨fuel - 1, by simp at hf; omega⟩
    have hp : h.pred nd = some nd' := by
      have := Segs.linked (A := rest) (a := nd') (b := nd) (B := []) (by simpa using hs.swap)
      exact this.2
    have hs2 : Segs (h.link f nd) ((D ++ [f] ++ [nd]) :: (rest ++ [nd']) :: Ls) := by
      have h1 : Segs h ((rest ++ [nd']) :: [nd] :: (D ++ [f]) :: Ls) := Segs.cut (by simpa using hs.swap)
      have h2 := Segs.link (A := D) (a := f) (b := nd) (B := []) (Ls := (rest ++ [nd']) :: Ls)
        (h1.perm (by perm_lists))
      simpa using h2
    have hne : nd ≠ t := by
      intro e
      have hnd := hs.tail.nodup_head
      have : t ∈ rest ++ [nd'] := by
        have : (rest ++ [nd'] ++ [nd]).head? = (rest ++ [nd']).head? := by
          cases rest <;> simp
        rw [this] at ht
        exact List.mem_of_mem_head? (by simp [ht])
      rw [List.nodup_append] at hnd
      exact hnd.2.2 t this nd (by simp) e.symm
    have hnum : nd.number ≠ t.number := fun e => hne (hinj nd (by simp) e)
    obtain ⟨h', he, hseg, hst, hfi⟩ := ih nd' nd (D ++ [f]) Ls (h.link f nd) fuel hs2
      (by simp at hf ⊢; omega) (by cases rest <;> simpa using ht)
      (fun x hx => hinj x (by simp at hx ⊢; tauto))
    refine ⟨h', ?_, by simpa using hseg, ?_, ?_⟩
    · rw [Heap.backwardReverseLoop]
      · simp only [hp, Option.any_some]
        rw [if_neg (by simpa using hnum)]
        exact he
      · simp
    · intro x hx
      simp only [List.append_assoc, List.cons_append, List.nil_append, List.mem_append,
        List.mem_cons, List.not_mem_nil, or_false, not_or] at hx
      rw [hst x (by simp [hx]), link_pred_of_ne hx.2.2]
    · intro x hx
      simp only [List.append_assoc, List.cons_append, List.nil_append, List.mem_append,
        List.mem_cons, List.not_mem_nil, or_false, not_or] at hx
      rw [hfi x (by simp [hx]), link_succ_of_ne hx.1]

/-- Backward reversal up to the start of a list, whose first node is replaced by `last`. -/
theorem backwardReverseLoop_last {st last : Ref} : ∀ (mid : List Ref) (nd f : Ref) (D E : List Ref)
    (Ls : List (List Ref)) (h : Heap) (fuel : ℕ),
    Segs h ((D ++ [f]) :: (st :: mid) :: (last :: E) :: Ls) → mid.length + 1 < fuel →
    (st :: mid).getLast? = some nd → h.pred st = none →
    ∃ h', Heap.backwardReverseLoop none (some last) fuel f (some nd) h = some h' ∧
      Segs h' ((D ++ [f] ++ mid.reverse ++ last :: E) :: [st] :: Ls) ∧
      (∀ x, x ∉ last :: mid → h'.pred x = h.pred x) ∧
      (∀ x, x ∉ f :: mid → h'.succ x = h.succ x) := by
  intro mid
  induction mid using List.reverseRecOn with
  | nil =>
    intro nd f D E Ls h fuel hs hf hnd hst
    obtain ⟨fuel, rfl⟩ : ∃ k, fuel = k + 2 := ⟨fuel - 2, by simp at hf; omega⟩
    simp at hnd
    subst hnd
    refine ⟨h.link f last, ?_, ?_, ?_, ?_⟩
    · simp [Heap.backwardReverseLoop, hst]
    · have := Segs.link (A := D) (a := f) (b := last) (B := E) (Ls := [st] :: Ls)
        (hs.perm (by perm_lists))
      simpa using this
    · intro x hx; exact link_pred_of_ne (by simpa using hx)
    · intro x hx; exact link_succ_of_ne (by simpa using hx)
  | append_singleton mid nd' ih =>
    intro nd f D E Ls h fuel hs hf hnd hst
    obtain ⟨fuel, rfl⟩ : ∃ k, fuel = k + 1 := ⟨fuel - 1, by simp at hf; omega⟩
    have : nd = nd' := by
      rw [← List.cons_append, List.getLast?_concat] at hnd
      exact (Option.some.inj hnd).symm
    subst this
    obtain ⟨nd', hnd'⟩ : ∃ y, (st :: mid).getLast? = some y := ⟨_, List.getLast?_cons⟩
    obtain ⟨pre, hpre⟩ : ∃ pre, st :: mid = pre ++ [nd'] := by
      obtain ⟨pre, hpre⟩ := List.getLast?_eq_some_iff.mp hnd'
      exact ⟨pre, hpre⟩
    have hs' : Segs h ((pre ++ nd' :: nd :: []) :: (D ++ [f]) :: (last :: E) :: Ls) := by
      have : pre ++ nd' :: nd :: [] = st :: (mid ++ [nd]) := by
        have : pre ++ nd' :: nd :: [] = (pre ++ [nd']) ++ [nd] := by simp
        rw [this, ← hpre]; simp
      rw [this]; exact hs.swap
    have hp : h.pred nd = some nd' := hs'.linked.2
    have hs2 : Segs (h.link f nd) ((D ++ [f] ++ [nd]) :: (st :: mid) :: (last :: E) :: Ls) := by
      have h1 : Segs h ((pre ++ [nd']) :: [nd] :: (D ++ [f]) :: (last :: E) :: Ls) :=
        Segs.cut (by simpa using hs')
      rw [← hpre] at h1
      have h2 := Segs.link (A := D) (a := f) (b := nd) (B := []) (Ls := (st :: mid) :: (last :: E) :: Ls)
        (h1.perm (by perm_lists))
      simpa using h2
    have hstnd : st ≠ nd := by
      intro e
      have := hs.tail.nodup_head
      rw [List.nodup_cons] at this
      exact this.1 (by simp [e])
    obtain ⟨h', he, hseg, hpr, hsu⟩ := ih nd' nd (D ++ [f]) E Ls (h.link f nd) fuel hs2
      (by simp at hf ⊢; omega) hnd' (by rw [link_pred_of_ne hstnd]; exact hst)
    refine ⟨h', ?_, by simpa using hseg, ?_, ?_⟩
    · rw [Heap.backwardReverseLoop.eq_def]
      simp only [hp, Option.any_none]
      simpa using he
    · intro x hx
      simp only [List.mem_cons, List.mem_append, List.not_mem_nil, or_false, not_or] at hx
      rw [hpr x (by simp [hx]), link_pred_of_ne hx.2.2]
    · intro x hx
      simp only [List.mem_cons, List.mem_append, List.not_mem_nil, or_false, not_or] at hx
      rw [hsu x (by simp [hx]), link_succ_of_ne hx.1]

/-- Forward reversal of a list whose last node points to `en`, a node without successor; the place of
`en` is taken by `first`. The node `en` need not be linked back (it may already belong to another list). -/
theorem forwardReverseLoop_first {en first : Ref} : ∀ (mid : List Ref) (nd f : Ref) (D E : List Ref)
    (Ls : List (List Ref)) (h : Heap) (fuel : ℕ),
    Segs h ((f :: D) :: mid :: (E ++ [first]) :: Ls) → mid.length + 1 < fuel →
    (mid ++ [en]).head? = some nd → (∀ w, mid.getLast? = some w → h.succ w = some en) →
    en ∉ mid → h.succ en = none →
    ∃ h', Heap.forwardReverseLoop none (some first) fuel f (some nd) h = some h' ∧
      Segs h' ((E ++ [first] ++ mid.reverse ++ f :: D) :: Ls) ∧
      (∀ x, x ∉ f :: mid → h'.pred x = h.pred x) ∧
      (∀ x, x ∉ first :: mid → h'.succ x = h.succ x) := by
  intro mid
  induction mid with
  | nil =>
    intro nd f D E Ls h fuel hs hf hnd _ _ hst
    obtain ⟨fuel, rfl⟩ : ∃ k, fuel = k + 2 := ⟨fuel - 2, by simp at hf; omega⟩
    simp at hnd
    subst hnd
    refine ⟨h.link first f, ?_, ?_, ?_, ?_⟩
    · simp [Heap.forwardReverseLoop, hst]
    · have := Segs.link (A := E) (a := first) (b := f) (B := D) (Ls := Ls)
        (Segs.swap (hs.swap.tail))
      simpa using this
    · intro x hx; exact link_pred_of_ne (by simpa using hx)
    · intro x hx; exact link_succ_of_ne (by simpa using hx)
  | cons nd0 mid ih =>
    intro nd f D E Ls h fuel hs hf hnd hlast hen hst
    obtain ⟨fuel, rfl⟩ : ∃ k, fuel = k + 1 := ⟨fuel - 1, by simp at hf; omega⟩
    have : nd = nd0 := by simpa using hnd.symm
    subst this
    have hnin : nd ∉ mid := by
      have := hs.tail.nodup_head
      rw [List.nodup_cons] at this
      exact this.1
    obtain ⟨nd', post, hpost⟩ : ∃ y post, mid ++ [en] = y :: post := by
      cases mid with
      | nil => exact ⟨_, _, rfl⟩
      | cons y m => exact ⟨_, _, rfl⟩
    have hp : h.succ nd = some nd' := by
      cases mid with
      | nil =>
        simp at hpost
        rw [← hpost.1]
        exact hlast nd (by simp)
      | cons y m =>
        simp at hpost
        rw [← hpost.1]
        exact (Segs.linked (A := []) (B := m) (by simpa using hs.swap)).1
    have hs2 : Segs (h.link nd f) ((nd :: f :: D) :: mid :: (E ++ [first]) :: Ls) := by
      have h1 : Segs h ([nd] :: mid :: (f :: D) :: (E ++ [first]) :: Ls) :=
        Segs.cut (by simpa using hs.swap)
      have h2 := Segs.link (A := []) (a := nd) (b := f) (B := D)
        (Ls := mid :: (E ++ [first]) :: Ls) (h1.perm (by
          rw [List.nil_append]; perm_lists))
      simpa using h2
    have hstnd : en ≠ nd := fun e => hen (by simp [e])
    obtain ⟨h', he, hseg, hpr, hsu⟩ := ih nd' nd (f :: D) E Ls (h.link nd f) fuel hs2
      (by simp at hf ⊢; omega) (by rw [hpost]; rfl)
      (fun w hw => by
        have hwm : w ∈ mid := List.mem_of_getLast? hw
        have hwn : w ≠ nd := by rintro rfl; exact hnin hwm
        rw [link_succ_of_ne hwn]
        refine hlast w ?_
        rw [List.getLast?_cons, hw]; rfl)
      (fun hm => hen (by simp [hm])) (by rw [link_succ_of_ne hstnd]; exact hst)
    refine ⟨h', ?_, by simpa using hseg, ?_, ?_⟩
    · rw [Heap.forwardReverseLoop.eq_def]
      simp only [hp, Option.any_none]
      simpa using he
    · intro x hx
      simp only [List.mem_cons, not_or] at hx
      rw [hpr x (by simp [hx]), link_pred_of_ne hx.1]
    · intro x hx
      simp only [List.mem_cons, not_or] at hx
      rw [hsu x (by simp [hx]), link_succ_of_ne hx.2.1]

/-- `replace_end_depot` on a chain whose last node points to `e`, a node without successor. -/
theorem replaceEndLoop_chain {e e' : Ref} : ∀ (mid : List Ref) (f w : Ref) (h : Heap) (fuel : ℕ),
    (f :: mid).IsChain (Linked h) → mid.length + 1 < fuel → (f :: mid).getLast? = some w →
    h.succ w = some e → h.succ e = none →
    Heap.replaceEndLoop e' fuel f (h.succ f) h = some (h.link w e') := by
  intro mid
  induction mid with
  | nil =>
    intro f w h fuel hc hf hw hwe he
    obtain ⟨fuel, rfl⟩ : ∃ k, fuel = k + 2 := ⟨fuel - 2, by simp at hf; omega⟩
    simp at hw
    subst hw
    have hne : e ≠ f := by rintro rfl; rw [he] at hwe; cases hwe
    simp [Heap.replaceEndLoop, hwe, he, link_succ_of_ne hne]
  | cons y mid ih =>
    intro f w h fuel hc hf hw hwe he
    obtain ⟨fuel, rfl⟩ : ∃ k, fuel = k + 1 := ⟨fuel - 1, by simp at hf; omega⟩
    rw [List.isChain_cons_cons] at hc
    rw [hc.1.1, Heap.replaceEndLoop]
    have hy : ∃ z, h.succ y = some z := by
      cases mid with
      | nil => simp at hw; subst hw; exact ⟨e, hwe⟩
      | cons z m => exact ⟨z, (List.isChain_cons_cons.mp hc.2).1.1⟩
    obtain ⟨z, hz⟩ := hy
    simp only [hz]
    rw [← hz]
    exact ih y w h fuel hc.2 (by simp at hf ⊢; omega) (by simpa using hw) hwe he

/-- Following successors along a chain that ends in a node without successor. -/
theorem walk_chain : ∀ (L : List Ref) (h : Heap) (fuel : ℕ) (e : Ref), L.IsChain (Linked h) →
    L.length < fuel → L.getLast? = some e → h.succ e = none →
    h.walk fuel L.head? = some L
  | [], _, _, _, _, _, he, _ => by simp at he
  | [x], h, fuel, e, _, hf, he, hn => by
    obtain ⟨fuel, rfl⟩ : ∃ k, fuel = k + 2 := ⟨fuel - 2, by simp at hf; omega⟩
    simp at he
    subst he
    simp [Heap.walk, hn]
  | x :: y :: L, h, fuel, e, hc, hf, he, hn => by
    obtain ⟨fuel, rfl⟩ : ∃ k, fuel = k + 1 := ⟨fuel - 1, by simp at hf; omega⟩
    rw [List.isChain_cons_cons] at hc
    have := walk_chain (y :: L) h fuel e hc.2 (by simp at hf ⊢; omega) (by simpa using he) hn
    rw [List.head?_cons] at this
    simp only [List.head?_cons, Heap.walk, hc.1.1, this, Option.map_some]

/-- Following successors along a chain up to the depot that ends it. -/
theorem walkCust_chain : ∀ (L : List Ref) (e : Ref) (h : Heap) (fuel : ℕ),
    (L ++ [e]).IsChain (Linked h) → L.length < fuel → e.isDepot = true →
    (∀ x ∈ L, x.isDepot = false) → h.walkCust fuel (L ++ [e]).head? = some L
  | [], e, _, fuel, _, hf, he, _ => by
    obtain ⟨fuel, rfl⟩ : ∃ k, fuel = k + 1 := ⟨fuel - 1, by simp at hf; omega⟩
    simp [Heap.walkCust, he]
  | x :: L, e, h, fuel, hc, hf, he, hx => by
    obtain ⟨fuel, rfl⟩ : ∃ k, fuel = k + 1 := ⟨fuel - 1, by simp at hf; omega⟩
    have hx0 := hx x (by simp)
    have ih := walkCust_chain L e h fuel (List.IsChain.tail hc) (by simp at hf; omega) he
      (fun y hy => hx y (by simp [hy]))
    have hs : h.succ x = (L ++ [e]).head? := by
      cases L with
      | nil => exact (List.isChain_cons_cons.mp hc).1.1
      | cons y L => exact (List.isChain_cons_cons.mp hc).1.1
    simp only [List.cons_append, List.head?_cons, Heap.walkCust, hx0, hs, ih, Option.map_some]
    simp

end Verif
