import Verif.F64
import Mathlib.Data.Nat.Pairing

/-!
# Random draws

A random draw is a value of an arbitrary oracle stream; theorems quantify over all oracles, so over
every sequence of draws the `fastrand` generator could ever make. Independent parts of an execution get
independent sub-streams (`Oracle.sub`): every actual sequence of draws is obtained for some oracle.
-/

namespace Verif

/-- A stream of raw random words. -/
abbrev Oracle := ℕ → ℕ

/-- An independent sub-stream. -/
def Oracle.sub (ω : Oracle) (i : ℕ) : Oracle := fun k => ω (Nat.pair i k)

/-- `range_usize(lower, upper)`, a value of `lower..upper` (panics when empty, modelled by `none`);
models `/repo/src/utils/random.rs:36-38`. -/
def rangeUsize (w : ℕ) (lo hi : ℕ) : Option ℕ :=
  if lo < hi then some (lo + w % (hi - lo)) else none

/-- `real()`, a value of `[0,1)` with 52 fractional bits; models `/repo/src/utils/random.rs:31-33`
(the distribution is not modelled, only the set of values). -/
def realDraw (w : ℕ) : ℚ := (w % 2 ^ 52 : ℕ) / (2 ^ 52 : ℕ)

/-- `slice.swap(i, j)` (indices in range at every use). -/
def swapIdx {β : Type} (l : List β) (i j : ℕ) : List β := (l.toArray.swapIfInBounds i j).toList

/-- `shuffle`: `for i in 1..len { swap(i, usize(..=i)) }` (fastrand's Fisher–Yates);
models `/repo/src/utils/random.rs:27-29`. -/
def shuffle {β : Type} (ω : Oracle) (l : List β) : List β :=
  (List.range' 1 (l.length - 1)).foldl (fun l i => swapIdx l i (ω i % (i + 1))) l

/-- The `while new_vec.len() < number` loop of `sample_from_vec`; `k` is the number still missing.
Models `/repo/src/utils/random.rs:47-49`; an empty range panics (`none`). -/
def sampleLoop {β : Type} (ω : Oracle) : ℕ → List β → List β → Option (List β)
  | 0, _, acc => some acc
  | k + 1, v, acc =>
    match rangeUsize (ω k) 0 v.length with
    | none => none
    | some j =>
      match v[j]? with
      | none => none
      | some x => sampleLoop ω k (v.eraseIdx j) (acc ++ [x])

/-- `sample_from_vec`; models `/repo/src/utils/random.rs:41-51` (assertion failure = `none`). -/
def sampleFromVec {β : Type} (ω : Oracle) (v : List β) (number : ℕ) : Option (List β) :=
  if number ≤ v.length then sampleLoop ω number v [] else none

/-! Basic facts -/

theorem swapIdx_perm {β : Type} (l : List β) (i j : ℕ) : (swapIdx l i j).Perm l := by
  unfold swapIdx Array.swapIfInBounds
  split
  · split
    · exact (Array.swap_perm _ _).toList
    · exact .refl _
  · exact .refl _

theorem swapIdx_length {β : Type} (l : List β) (i j : ℕ) : (swapIdx l i j).length = l.length :=
  (swapIdx_perm l i j).length_eq

theorem shuffle_perm {β : Type} (ω : Oracle) (l : List β) : (shuffle ω l).Perm l := by
  unfold shuffle
  generalize List.range' 1 (l.length - 1) = is
  induction is generalizing l with
  | nil => exact .refl _
  | cons i is ih => exact (ih _).trans (swapIdx_perm _ _ _)

theorem rangeUsize_some {w lo hi x : ℕ} (h : rangeUsize w lo hi = some x) : lo ≤ x ∧ x < hi := by
  unfold rangeUsize at h
  split at h
  · rename_i hlt
    have hx : lo + w % (hi - lo) = x := by simpa using h
    have : w % (hi - lo) < hi - lo := Nat.mod_lt _ (by omega)
    omega
  · exact absurd h (by simp)

theorem rangeUsize_isSome {w lo hi : ℕ} (h : lo < hi) : ∃ x, rangeUsize w lo hi = some x := by
  simp [rangeUsize, h]

theorem realDraw_nonneg (w : ℕ) : 0 ≤ realDraw w := by unfold realDraw; positivity

theorem realDraw_lt_one (w : ℕ) : realDraw w < 1 := by
  unfold realDraw
  rw [div_lt_one (by positivity)]
  exact_mod_cast Nat.mod_lt _ (by positivity)

end Verif
