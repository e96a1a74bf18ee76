import Verif.Lemmas.Population

/-!
# `slice::binary_search` of the standard library

The two algorithms the Rust standard library has used (up to 1.81 and since 1.82), as functions of the
comparison results. Both satisfy `BSearchOK` whatever the comparison results are, so the theorems on
populations hold with either.
-/

namespace Verif

/-- The loop of the current algorithm: `while size > 1 { half = size/2; mid = base+half; base = if cmp ==
Greater { base } else { mid }; size -= half }`. -/
def bsearchLoop (os : List Ordering) : ℕ → ℕ → ℕ → ℕ
  | 0, _, base => base
  | k + 1, size, base =>
    if size ≤ 1 then base else
      bsearchLoop os k (size - size / 2)
        (if os[base + size / 2]? = some .gt then base else base + size / 2)

/-- `binary_search_by` since Rust 1.82 (`/repo/src/solver/genetic/population.rs:78` calls it). -/
def bsearchNew : BSearch := fun os =>
  if os.length = 0 then 0 else
    let base := bsearchLoop os os.length os.length 0
    if os[base]? = some .eq then base
    else if os[base]? = some .lt then base + 1 else base

/-- `binary_search_by` up to Rust 1.81: `while left < right`. -/
def bsearchOldLoop (os : List Ordering) : ℕ → ℕ → ℕ → ℕ
  | 0, left, _ => left
  | k + 1, left, right =>
    if left < right then
      match os[left + (right - left) / 2]? with
      | some .eq => left + (right - left) / 2
      | some .lt => bsearchOldLoop os k (left + (right - left) / 2 + 1) right
      | some .gt => bsearchOldLoop os k left (left + (right - left) / 2)
      | none => left
    else left

/-- See `bsearchOldLoop`. -/
def bsearchOld : BSearch := fun os => bsearchOldLoop os os.length 0 os.length

theorem bsearchLoop_spec (os : List Ordering) : ∀ (k size base : ℕ), size ≤ k → 1 ≤ size →
    base + size ≤ os.length → (base = 0 ∨ os[base]? ≠ some .gt) →
    (base + size = os.length ∨ os[base + size]? = some .gt ∨
      (base < base + size - 1 ∧ os[base + size - 1]? = some .gt)) →
    let b := bsearchLoop os k size base
    b < os.length ∧ (b = 0 ∨ os[b]? ≠ some .gt) ∧ (b + 1 = os.length ∨ os[b + 1]? = some .gt)
  | 0, size, base, h1, h2, _, _, _ => by omega
  | k + 1, size, base, h1, h2, h3, h4, h5 => by
    unfold bsearchLoop
    by_cases hs : size ≤ 1
    · rw [if_pos hs]
      obtain rfl : size = 1 := by omega
      refine ⟨by omega, h4, ?_⟩
      rcases h5 with h5 | h5 | ⟨h5, -⟩
      · exact Or.inl h5
      · exact Or.inr h5
      · omega
    · rw [if_neg hs]
      by_cases hg : os[base + size / 2]? = some .gt
      · rw [if_pos hg]
        refine bsearchLoop_spec os k _ _ (by omega) (by omega) (by omega) h4 ?_
        rcases Nat.mod_two_eq_zero_or_one size with he | he
        · right; left
          have : base + (size - size / 2) = base + size / 2 := by omega
          rw [this]; exact hg
        · right; right
          refine ⟨by omega, ?_⟩
          have : base + (size - size / 2) - 1 = base + size / 2 := by omega
          rw [this]; exact hg
      · rw [if_neg hg]
        refine bsearchLoop_spec os k _ _ (by omega) (by omega) (by omega) (Or.inr hg) ?_
        have e : base + size / 2 + (size - size / 2) = base + size := by omega
        rw [e]
        rcases h5 with h5 | h5 | ⟨h5, h6⟩
        · exact Or.inl h5
        · exact Or.inr (Or.inl h5)
        · right; right
          refine ⟨?_, h6⟩
          by_contra hc
          have : base + size - 1 = base + size / 2 := by omega
          rw [this] at h6
          exact hg h6

theorem bsearchNew_ok : BSearchOK bsearchNew := by
  intro os
  unfold bsearchNew
  by_cases h0 : os.length = 0
  · rw [if_pos h0]
    exact ⟨by omega, Or.inr ⟨Or.inl rfl, Or.inl h0.symm⟩⟩
  · rw [if_neg h0]
    dsimp only
    obtain ⟨h1, h2, h3⟩ := bsearchLoop_spec os os.length os.length 0 le_rfl (by omega) (by omega)
      (Or.inl rfl) (Or.inl (by omega))
    generalize bsearchLoop os os.length os.length 0 = b at *
    by_cases he : os[b]? = some .eq
    · rw [if_pos he]
      exact ⟨h1.le, Or.inl he⟩
    · rw [if_neg he]
      by_cases hl : os[b]? = some .lt
      · rw [if_pos hl]
        exact ⟨h1, Or.inr ⟨Or.inr (by simpa using hl), h3⟩⟩
      · rw [if_neg hl]
        have hg : os[b]? = some .gt := by
          rw [List.getElem?_eq_getElem h1] at he hl ⊢
          generalize os[b] = o at *
          cases o <;> simp_all
        refine ⟨h1.le, Or.inr ⟨Or.inl (h2.resolve_right (fun c => c hg)), Or.inr hg⟩⟩

theorem bsearchOldLoop_spec (os : List Ordering) : ∀ (k left right : ℕ), right ≤ left + k →
    left ≤ right → right ≤ os.length → (left = 0 ∨ os[left - 1]? = some .lt) →
    (right = os.length ∨ os[right]? = some .gt) →
    let i := bsearchOldLoop os k left right
    i ≤ os.length ∧ (os[i]? = some .eq ∨
      ((i = 0 ∨ os[i - 1]? = some .lt) ∧ (i = os.length ∨ os[i]? = some .gt)))
  | 0, left, right, h1, h2, h3, h4, h5 => by
    obtain rfl : right = left := by omega
    exact ⟨h3, Or.inr ⟨h4, h5⟩⟩
  | k + 1, left, right, h1, h2, h3, h4, h5 => by
    unfold bsearchOldLoop
    split
    · split
      · rename_i he
        exact ⟨by omega, Or.inl he⟩
      · rename_i hl
        exact bsearchOldLoop_spec os k _ _ (by omega) (by omega) h3 (Or.inr (by simpa using hl)) h5
      · rename_i hg
        exact bsearchOldLoop_spec os k _ _ (by omega) (by omega) (by omega) h4 (Or.inr hg)
      · rename_i hn
        rw [List.getElem?_eq_none_iff] at hn
        omega
    · obtain rfl : right = left := by omega
      exact ⟨h3, Or.inr ⟨h4, h5⟩⟩

theorem bsearchOld_ok : BSearchOK bsearchOld := fun os =>
  bsearchOldLoop_spec os os.length 0 os.length (by omega) (by omega) le_rfl (Or.inl rfl) (Or.inl rfl)

end Verif
