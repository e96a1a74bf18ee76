import Verif.Props.Population
import Verif.Lemmas.DblArith

/-!
# C35 in double precision: the tournament
-/

namespace Verif
open F64 Dbl

variable {ρ : Rounding}

theorem dlt_trans {x y z : Dbl ρ} (h1 : (x <. y) = true) (h2 : (y <. z) = true) : (x <. z) = true := by
  change Dbl.lt x y = true at h1
  change Dbl.lt y z = true at h2
  change Dbl.lt x z = true
  cases x <;> cases y <;> cases z <;> simp_all [Dbl.lt]
  exact lt_trans h1 h2

theorem dlt_negtrans {x y z : Dbl ρ} (hy : y ≠ nan) (h1 : (x <. y) = false) (h2 : (y <. z) = false) :
    (x <. z) = false := by
  change Dbl.lt x y = false at h1
  change Dbl.lt y z = false at h2
  change Dbl.lt x z = false
  cases x <;> cases y <;> cases z <;> simp_all [Dbl.lt]
  exact h2.trans h1

theorem dlt_irrefl (x : Dbl ρ) : (x <. x) = false := by
  change Dbl.lt x x = false
  cases x <;> simp [Dbl.lt]

theorem Population.contest_double (p : Population (Dbl ρ))
    (hnan : ∀ y ∈ p.feasible.pop ++ p.infeasible.pop, y.fitness ≠ nan) :
    ∀ (l : List ℕ) (w : Option (Individual (Dbl ρ))), (∀ y, w = some y → y.fitness ≠ nan) →
    (∀ i ∈ l, i < p.size) → (l ≠ [] ∨ w ≠ none) →
    ∃ x, p.contest l w = some (some x) ∧
      ((∃ i ∈ l, (p.feasible.pop ++ p.infeasible.pop)[i]? = some x) ∨ w = some x) ∧
      (∀ i ∈ l, ∀ y, (p.feasible.pop ++ p.infeasible.pop)[i]? = some y → (y.fitness <. x.fitness) = false) ∧
      (∀ y, w = some y → (y.fitness <. x.fitness) = false)
  | [], none, _, _, h => by simp at h
  | [], some y, _, _, _ => ⟨y, rfl, Or.inr rfl, by simp, by rintro _ ⟨⟩; exact dlt_irrefl _⟩
  | i :: l, w, hw, hl, _ => by
    have hi : i < (p.feasible.pop ++ p.infeasible.pop).length := by
      rw [List.length_append]; exact hl i (by simp)
    obtain ⟨x, hx⟩ : ∃ x, (p.feasible.pop ++ p.infeasible.pop)[i]? = some x :=
      ⟨_, List.getElem?_eq_getElem hi⟩
    have hxn : ∀ y, some x = some y → y.fitness ≠ nan := by
      rintro _ ⟨⟩
      exact hnan x (List.mem_of_getElem? hx)
    have hl' : ∀ j ∈ l, j < p.size := fun j hj => hl j (by simp [hj])
    unfold contest
    rw [member_get, hx]
    dsimp only
    cases w with
    | none =>
      obtain ⟨z, h1, h2, h3, h4⟩ := contest_double p hnan l (some x) hxn hl' (by simp)
      refine ⟨z, h1, Or.inl ?_, ?_, by simp⟩
      · rcases h2 with ⟨j, hj, h2⟩ | h2
        · exact ⟨j, by simp [hj], h2⟩
        · exact ⟨i, by simp, hx.trans h2⟩
      · intro j hj y hy
        rw [List.mem_cons] at hj
        rcases hj with rfl | hj
        · rw [hx, Option.some.injEq] at hy
          exact h4 y (by rw [hy])
        · exact h3 j hj y hy
    | some y =>
      dsimp only
      cases hlt : (x.fitness <. y.fitness) with
      | true =>
        rw [if_pos rfl]
        obtain ⟨z, h1, h2, h3, h4⟩ := contest_double p hnan l (some x) hxn hl' (by simp)
        refine ⟨z, h1, Or.inl ?_, ?_, ?_⟩
        · rcases h2 with ⟨j, hj, h2⟩ | h2
          · exact ⟨j, by simp [hj], h2⟩
          · exact ⟨i, by simp, hx.trans h2⟩
        · intro j hj y' hy'
          rw [List.mem_cons] at hj
          rcases hj with rfl | hj
          · rw [hx, Option.some.injEq] at hy'
            exact h4 y' (by rw [hy'])
          · exact h3 j hj y' hy'
        · rintro _ ⟨⟩
          have h5 := h4 x rfl
          by_contra hc
          rw [Bool.not_eq_false] at hc
          rw [dlt_trans hlt hc] at h5
          simp at h5
      | false =>
        rw [if_neg (by simp)]
        obtain ⟨z, h1, h2, h3, h4⟩ := contest_double p hnan l (some y) hw hl' (by simp)
        refine ⟨z, h1, ?_, ?_, ?_⟩
        · rcases h2 with ⟨j, hj, h2⟩ | h2
          · exact Or.inl ⟨j, by simp [hj], h2⟩
          · exact Or.inr h2
        · intro j hj y' hy'
          rw [List.mem_cons] at hj
          rcases hj with rfl | hj
          · rw [hx, Option.some.injEq] at hy'
            rw [← hy']
            exact dlt_negtrans (hw y rfl) hlt (h4 y rfl)
          · exact h3 j hj y' hy'
        · exact h4

/-- **C35** in double precision, no fitness being NaN (infinities allowed): a tournament of at least one contestant in a
non-empty population returns a member, drawn as a contestant, such that no contestant has a lower fitness. -/
theorem C35_double (cfg : PopCfg) (p : Population (Dbl ρ)) (ω : Oracle)
    (hp : p.feasible.pop ≠ [] ∨ p.infeasible.pop ≠ []) (hk : 1 ≤ cfg.tournamentSize)
    (hnan : ∀ y ∈ p.feasible.pop ++ p.infeasible.pop, y.fitness ≠ nan) :
    ∃ x, p.parent cfg ω = some x ∧
      (∃ j < cfg.tournamentSize,
        (p.feasible.pop ++ p.infeasible.pop)[ω j % (p.feasible.pop ++ p.infeasible.pop).length]? = some x) ∧
      ∀ j < cfg.tournamentSize, ∀ y,
        (p.feasible.pop ++ p.infeasible.pop)[ω j % (p.feasible.pop ++ p.infeasible.pop).length]? = some y →
          (y.fitness <. x.fitness) = false := by
  have hs : 0 < p.size := by
    unfold Population.size
    rcases hp with hp | hp
    · have := List.length_pos_iff.mpr hp; omega
    · have := List.length_pos_iff.mpr hp; omega
  have es : (p.feasible.pop ++ p.infeasible.pop).length = p.size := by
    rw [List.length_append]; rfl
  obtain ⟨l, h1, hl⟩ := p.draws_some ω hs cfg.tournamentSize
  have hlt : ∀ i ∈ l, i < p.size := by
    intro i hi
    rw [hl, List.mem_reverse, List.mem_map] at hi
    obtain ⟨j, -, rfl⟩ := hi
    exact Nat.mod_lt _ hs
  have hne : l ≠ [] := by
    rw [hl]
    simp
    omega
  obtain ⟨x, h2, h3, h4, -⟩ := p.contest_double hnan l none (by simp) hlt (Or.inl hne)
  refine ⟨x, ?_, ?_, ?_⟩
  · unfold Population.parent
    rw [h1, Option.bind_some, h2]
    rfl
  · rcases h3 with ⟨i, hi, h3⟩ | h3
    · rw [hl, List.mem_reverse, List.mem_map] at hi
      obtain ⟨j, hj, rfl⟩ := hi
      exact ⟨j, List.mem_range.mp hj, es ▸ h3⟩
    · simp at h3
  · intro j hj y hy
    refine h4 (ω j % p.size) ?_ y (es ▸ hy)
    rw [hl, List.mem_reverse, List.mem_map]
    exact ⟨j, List.mem_range.mpr hj, rfl⟩

namespace TournamentDoubleEx

abbrev F := Dbl nearestEven

def ind (k : ℕ) (f : F) : Individual F := ⟨k, [], [], f, .new⟩

/-- Two feasible members and one infeasible member of infinite fitness. -/
def pop : Population F :=
  ⟨3, ⟨[ind 1 (fin 2), ind 2 (fin (1 / 2))], fun _ => none, false, 25⟩, ⟨[ind 3 (inf false)], fun _ => none, false, 25⟩, []⟩

example (ω : Oracle) := C35_double ⟨5, 20, 4, 3, 2⟩ pop ω (Or.inl (by simp [pop])) (by decide) (by
  intro y hy
  simp only [pop, List.cons_append, List.nil_append, List.mem_cons, List.not_mem_nil, or_false] at hy
  rcases hy with rfl | rfl | rfl <;> simp [ind])

end TournamentDoubleEx

end Verif
