import Mathlib.Data.List.Basic

/-!
# The stable sort of the standard library

Modelled by insertion sort, which the kernel can evaluate. For comparisons that order the elements it is
the same function as Lean's merge sort, and there is only one stable sort (`stableSort_eq`).
-/

namespace Verif

/-- Insert before the first element that is not smaller. -/
def insertStable {β : Type} (le : β → β → Bool) (x : β) : List β → List β
  | [] => [x]
  | y :: l => if le x y then x :: y :: l else y :: insertStable le x l

/-- Std's stable sort (`slice::sort_by`), `le a b` being "not greater". -/
def stableSort {β : Type} (le : β → β → Bool) (l : List β) : List β := l.foldr (insertStable le) []

variable {β : Type} {le : β → β → Bool}

theorem insertStable_perm (x : β) : ∀ l : List β, (insertStable le x l).Perm (x :: l)
  | [] => .refl _
  | y :: l => by
    unfold insertStable
    split
    · exact .refl _
    · exact ((insertStable_perm x l).cons y).trans (.swap x y l)

theorem stableSort_perm (le : β → β → Bool) : ∀ l : List β, (stableSort le l).Perm l
  | [] => .refl _
  | x :: l => (insertStable_perm x _).trans ((stableSort_perm le l).cons x)

/-- On a total preorder the result is that of merge sort. -/
theorem stableSort_eq (trans : ∀ a b c, le a b → le b c → le a c) (total : ∀ a b, le a b || le b a) :
    ∀ l : List β, stableSort le l = l.mergeSort le
  | [] => by simp [stableSort]
  | x :: l => by
    obtain ⟨l1, l2, h1, h2, h3⟩ := List.mergeSort_cons trans total x l
    have hs : (x :: l2).Pairwise fun a b => le a b := by
      have := List.pairwise_mergeSort trans total (x :: l)
      rw [h1] at this
      exact (List.pairwise_append.mp this).2.1
    show insertStable le x (stableSort le l) = _
    rw [stableSort_eq trans total l, h1, h2]
    clear h1 h2
    induction l1 with
    | nil =>
      cases l2 with
      | nil => rfl
      | cons y l2 =>
        have : le x y = true := by
          rw [List.pairwise_cons] at hs
          exact hs.1 y (by simp)
        simp [insertStable, this]
    | cons y l1 ih =>
      have : le x y = false := by simpa using h3 y (by simp)
      simp only [List.cons_append, insertStable, this, Bool.false_eq_true, if_false]
      rw [ih fun b hb => h3 b (by simp [hb])]

theorem pairwise_stableSort (trans : ∀ a b c, le a b → le b c → le a c) (total : ∀ a b, le a b || le b a)
    (l : List β) : (stableSort le l).Pairwise fun a b => le a b := by
  rw [stableSort_eq trans total]
  exact List.pairwise_mergeSort trans total l

end Verif
