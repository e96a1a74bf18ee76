import Verif.Rng
import Mathlib.Tactic.Push

/-!
# C53 (tolerant comparisons) and C54 (random helpers)
-/

namespace Verif

open F64

/-- C53. On exact numbers: `approx_lt`, `approx_eq`, `approx_gt` are pairwise exclusive; `approx_lt`
and `approx_gt` mirror each other; one of the three holds unless the difference is exactly `1e-6`;
`approx_lte`/`approx_gte` are `<`/`>` or `approx_eq`; `approx_eq` is reflexive and symmetric. -/
theorem C53_comparisons (a b : ℚ) :
    ¬ (approxLt a b = true ∧ approxEq a b = true) ∧
    ¬ (approxLt a b = true ∧ approxGt a b = true) ∧
    ¬ (approxEq a b = true ∧ approxGt a b = true) ∧
    (approxLt a b = approxGt b a) ∧
    (|a - b| ≠ 1 / 1000000 → approxLt a b = true ∨ approxEq a b = true ∨ approxGt a b = true) ∧
    (approxLte a b = true ↔ a < b ∨ approxEq a b = true) ∧
    (approxGte a b = true ↔ b < a ∨ approxEq a b = true) ∧
    approxEq a a = true ∧ approxEq a b = approxEq b a ∧
    (approxLt a b = true → a < b) ∧ (approxGt a b = true → b < a) := by
  refine ⟨?_, ?_, ?_, ?_, ?_, ?_, ?_, ?_, ?_, ?_, ?_⟩
  · simp only [rat_approxLt, rat_approxEq, decide_eq_true_eq, not_and, not_lt]
    intro h
    rw [abs_sub_comm, abs_of_pos (by linarith)]; linarith
  · simp only [rat_approxLt, rat_approxGt, decide_eq_true_eq, not_and, not_lt]
    intro h; linarith
  · simp only [rat_approxGt, rat_approxEq, decide_eq_true_eq, not_and, not_lt]
    intro h
    have := le_abs_self (a - b); linarith
  · simp only [rat_approxLt, rat_approxGt, decide_eq_decide]
    constructor <;> intro h <;> linarith
  · simp only [rat_approxLt, rat_approxGt, rat_approxEq, decide_eq_true_eq]
    intro h
    rcases lt_trichotomy |a - b| (1 / 1000000) with h1 | h1 | h1
    · exact Or.inr (Or.inl h1)
    · exact absurd h1 h
    · rcases lt_abs.1 h1 with h2 | h2
      · right; right; linarith
      · left; linarith
  · simp
  · simp
  · simp
  · simp [abs_sub_comm]
  · simp only [rat_approxLt, decide_eq_true_eq]; intro h; linarith
  · simp only [rat_approxGt, decide_eq_true_eq]; intro h; linarith

/-- C53, integers: on whole numbers the tolerant comparisons are the exact ones. -/
theorem C53_comparisons_int (m n : ℤ) :
    (approxLt (m : ℚ) n = true ↔ m < n) ∧ (approxEq (m : ℚ) n = true ↔ m = n) ∧
    (approxGt (m : ℚ) n = true ↔ n < m) ∧ (approxLte (m : ℚ) n = true ↔ m ≤ n) ∧
    (approxGte (m : ℚ) n = true ↔ n ≤ m) := by
  have heq : |(m : ℚ) - n| < 1 / 1000000 ↔ m = n := by
    constructor
    · intro h
      have h1 : |(m : ℚ) - n| < 1 := lt_trans h (by norm_num)
      have h2 : |m - n| < 1 := by exact_mod_cast h1
      have := Int.abs_lt_one_iff.1 h2
      omega
    · rintro rfl; norm_num
  have hlt : ∀ i j : ℤ, (i : ℚ) < j - 1 / 1000000 ↔ i < j := by
    intro i j
    constructor
    · intro h
      have : (i : ℚ) < j := by linarith
      exact_mod_cast this
    · intro h
      have h1 : (i : ℚ) + 1 ≤ j := by exact_mod_cast h
      linarith
  refine ⟨?_, ?_, ?_, ?_, ?_⟩
  · simp only [rat_approxLt, decide_eq_true_eq]; exact hlt m n
  · simp only [rat_approxEq, decide_eq_true_eq]; exact heq
  · simp only [rat_approxGt, decide_eq_true_eq]
    rw [← hlt n m]; constructor <;> intro h <;> linarith
  · simp only [rat_approxLte, decide_eq_true_eq, heq]
    rw [le_iff_lt_or_eq]; exact_mod_cast Iff.rfl
  · simp only [rat_approxGte, decide_eq_true_eq, heq]
    rw [le_iff_lt_or_eq, eq_comm (a := n)]; exact_mod_cast Iff.rfl

/-- A case of C53: 10 and 10.00001 are told apart, 10 and 10.0000001 are not. -/
example : approxLt (10 : ℚ) 10.00001 = true ∧ approxEq (10 : ℚ) 10.0000001 = true := by
  norm_num [abs_of_neg, abs_lt]

/-- C54, shuffle: for every stream the result is a rearrangement of the input. -/
theorem C54_shuffle {β : Type} (ω : Oracle) (l : List β) : (shuffle ω l).Perm l := shuffle_perm ω l

/-- C54, ranges: a non-empty range yields a value of `[lower, upper)`, an empty one panics. -/
theorem C54_range (w lo hi : ℕ) :
    (lo < hi → ∃ x, rangeUsize w lo hi = some x ∧ lo ≤ x ∧ x < hi) ∧
    (hi ≤ lo → rangeUsize w lo hi = none) := by
  constructor
  · intro h
    obtain ⟨x, hx⟩ := rangeUsize_isSome (w := w) h
    exact ⟨x, hx, rangeUsize_some hx⟩
  · intro h; simp [rangeUsize, Nat.not_lt.2 h]

/-- C54, ranges: every value of the range is drawn by some word. -/
theorem C54_range_onto (lo hi x : ℕ) (h1 : lo ≤ x) (h2 : x < hi) :
    ∃ w, rangeUsize w lo hi = some x := by
  refine ⟨x - lo, ?_⟩
  have : lo < hi := by omega
  simp only [rangeUsize, this, if_true, Option.some.injEq]
  rw [Nat.mod_eq_of_lt (by omega)]; omega

theorem sampleLoop_spec {β : Type} (ω : Oracle) (k : ℕ) (v acc : List β) (hk : k ≤ v.length) :
    ∃ s rest, sampleLoop ω k v acc = some (acc ++ s) ∧ s.length = k ∧ (s ++ rest).Perm v := by
  induction k generalizing v acc with
  | zero => exact ⟨[], v, by simp [sampleLoop], rfl, by simp⟩
  | succ k ih =>
    obtain ⟨j, hj⟩ := rangeUsize_isSome (w := ω k) (lo := 0) (hi := v.length) (by omega)
    have hjl := (rangeUsize_some hj).2
    obtain ⟨s, rest, h1, h2, h3⟩ := ih (v.eraseIdx j) (acc ++ [v[j]])
      (by rw [List.length_eraseIdx_of_lt hjl]; omega)
    refine ⟨v[j] :: s, rest, ?_, by simp [h2], ?_⟩
    · simp only [sampleLoop, hj, List.getElem?_eq_getElem hjl, h1, List.append_assoc,
        List.singleton_append]
    · have : (v[j] :: v.eraseIdx j).Perm v := List.getElem_cons_eraseIdx_perm hjl
      exact (List.Perm.cons _ h3).trans this

/-- C54, sampling: drawing `k ≤ |v|` elements succeeds and the sample together with some rest is a
rearrangement of the vector (no position is used twice). -/
theorem C54_sample {β : Type} (ω : Oracle) (v : List β) (k : ℕ) (hk : k ≤ v.length) :
    ∃ s rest, sampleFromVec ω v k = some s ∧ s.length = k ∧ (s ++ rest).Perm v := by
  obtain ⟨s, rest, h1, h2, h3⟩ := sampleLoop_spec ω k v [] hk
  exact ⟨s, rest, by simp [sampleFromVec, hk, h1], h2, h3⟩

/-- C54, sampling: asking for more elements than there are is rejected by the assertion. -/
theorem C54_sample_too_many {β : Type} (ω : Oracle) (v : List β) (k : ℕ) (hk : v.length < k) :
    sampleFromVec ω v k = none := by simp [sampleFromVec, Nat.not_le.2 hk]

/-- A case of C54. -/
example : sampleFromVec (fun k => k) [10, 20, 30] 2 = some [20, 10] ∧
    (shuffle (fun _ => 0) [1, 2, 3]) = [3, 1, 2] := by decide

end Verif
