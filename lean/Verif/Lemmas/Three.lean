import Verif.Lemmas.Cache
import Mathlib.Tactic.Linarith

/-!
# The insertion cache keeps the three cheapest locations
-/

namespace Verif
open F64 LS

/-- Slots in ascending order. -/
def Three.Sorted (t : Three ℚ) : Prop := t.l0.cost ≤ t.l1.cost ∧ t.l1.cost ≤ t.l2.cost

theorem Three.add_sorted {t : Three ℚ} (h : t.Sorted) (loc : Loc ℚ) : (t.add loc).Sorted ∧
    ∃ x, ([(t.add loc).l0, (t.add loc).l1, (t.add loc).l2] ++ [x]).Perm ([t.l0, t.l1, t.l2] ++ [loc]) ∧
      (t.add loc).l2.cost ≤ x.cost ∧ (t.add loc).l2.cost ≤ t.l2.cost := by
  obtain ⟨h1, h2⟩ := h
  unfold Three.add
  simp only [rat_lt, decide_eq_true_eq]
  split
  · next h => exact ⟨⟨h1, h2⟩, loc, .refl _, le_of_lt h, le_refl _⟩
  split
  · next h h' =>
    exact ⟨⟨h1, le_of_lt h'⟩, t.l2, .cons _ (.cons _ (.swap _ _ _)), not_lt.mp h, not_lt.mp h⟩
  split
  · next h h' h'' =>
    refine ⟨⟨le_of_lt h'', not_lt.mp h'⟩, t.l2, ?_, h2, h2⟩
    exact .cons _ (List.perm_append_comm (l₁ := [loc]) (l₂ := [t.l1, t.l2]))
  · next h h' h'' =>
    refine ⟨⟨not_lt.mp h'', h1⟩, t.l2, ?_, h2, h2⟩
    exact (List.perm_append_comm (l₁ := [loc]) (l₂ := [t.l0, t.l1, t.l2]))

theorem Three.foldl_sorted : ∀ (L : List (Loc ℚ)) (t : Three ℚ), t.Sorted →
    (L.foldl Three.add t).Sorted ∧ (L.foldl Three.add t).l2.cost ≤ t.l2.cost ∧
    ∃ rest : List (Loc ℚ),
      ([(L.foldl Three.add t).l0, (L.foldl Three.add t).l1, (L.foldl Three.add t).l2] ++ rest).Perm
        ([t.l0, t.l1, t.l2] ++ L) ∧ ∀ x ∈ rest, (L.foldl Three.add t).l2.cost ≤ x.cost
  | [], t, h => ⟨h, le_refl _, [], by simp, by simp⟩
  | x :: L, t, h => by
    obtain ⟨h1, y, p1, c1, d1⟩ := Three.add_sorted h x
    obtain ⟨h2, d2, rest, p2, c2⟩ := Three.foldl_sorted L (t.add x) h1
    rw [List.foldl_cons]
    refine ⟨h2, d2.trans d1, rest ++ [y], ?_, ?_⟩
    · have a1 := p2.append_right [y]
      have a2 := p1.append_right L
      refine (by simpa using a1 : List.Perm _ _).trans (.trans ?_ (by simpa using a2 : List.Perm _ _))
      refine .cons _ (.cons _ (.cons _ ?_))
      exact List.perm_append_comm (l₁ := L) (l₂ := [y])
    · intro z hz
      rcases List.mem_append.mp hz with hz | hz
      · exact c2 z hz
      · simp only [List.mem_singleton] at hz
        subst hz
        exact d2.trans c1

end Verif
