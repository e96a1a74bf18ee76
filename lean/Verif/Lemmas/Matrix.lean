import Verif.Model.Matrix
import Mathlib.Tactic.Common

/-!
# The raw matrix as a function of row and column
-/

namespace Verif
open F64

namespace RawMatrix
variable {β : Type}

/-- The matrix has the given size and holds `f r c` in cell `(r, c)`. -/
structure Shows (m : RawMatrix β) (rows cols : ℕ) (f : ℕ → ℕ → β) : Prop where
  rows_eq : m.rows = rows
  cols_eq : m.cols = cols
  len : m.cells.length = rows * cols
  cell : ∀ r c, r < rows → c < cols → m.cells[r * cols + c]? = some (f r c)

theorem idx_lt {rows cols r c : ℕ} (hr : r < rows) (hc : c < cols) : r * cols + c < rows * cols := by
  calc r * cols + c < r * cols + cols := by omega
    _ = (r + 1) * cols := by rw [Nat.add_mul, Nat.one_mul]
    _ ≤ rows * cols := Nat.mul_le_mul_right _ hr

theorem idx_inj {cols r c r' c' : ℕ} (hc : c < cols) (hc' : c' < cols)
    (h : r * cols + c = r' * cols + c') : r = r' ∧ c = c' := by
  have h1 : (r * cols + c) / cols = r := by
    rw [Nat.mul_comm, Nat.mul_add_div (by omega), Nat.div_eq_of_lt hc]; omega
  have h2 : (r' * cols + c') / cols = r' := by
    rw [Nat.mul_comm, Nat.mul_add_div (by omega), Nat.div_eq_of_lt hc']; omega
  have : r = r' := by rw [← h1, ← h2, h]
  subst this
  exact ⟨rfl, by omega⟩

theorem new_shows (zero : β) (rows cols : ℕ) : (new zero rows cols).Shows rows cols (fun _ _ => zero) := by
  refine ⟨rfl, rfl, by simp [new], fun r c hr hc => ?_⟩
  have := idx_lt hr hc
  simp [new, List.getElem?_replicate, this]

theorem Shows.get {m : RawMatrix β} {rows cols : ℕ} {f : ℕ → ℕ → β} (h : m.Shows rows cols f) {r c : ℕ}
    (hr : r < rows) (hc : c < cols) : m.get r c = some (f r c) := by
  rw [RawMatrix.get, h.cols_eq]; exact h.cell r c hr hc

theorem Shows.set {m : RawMatrix β} {rows cols : ℕ} {f : ℕ → ℕ → β} (h : m.Shows rows cols f) {r c : ℕ}
    (hr : r < rows) (hc : c < cols) (x : β) : ∃ m', m.set r c x = some m' ∧
      m'.Shows rows cols (fun r' c' => if r' = r ∧ c' = c then x else f r' c') := by
  have hlt := idx_lt hr hc
  refine ⟨{ m with cells := m.cells.set (r * cols + c) x }, ?_, h.rows_eq, h.cols_eq, by simp [h.len],
    fun r' c' hr' hc' => ?_⟩
  · rw [RawMatrix.set, h.len, h.cols_eq, if_pos hlt]
  dsimp only
  rw [List.getElem?_set]
  split
  · next e =>
    obtain ⟨rfl, rfl⟩ := idx_inj hc hc' e
    simp [h.len, hlt]
  · next e =>
    rw [if_neg (fun h => e (by rw [h.1, h.2])), h.cell r' c' hr' hc']

theorem Shows.congr {m : RawMatrix β} {rows cols : ℕ} {f g : ℕ → ℕ → β} (h : m.Shows rows cols f)
    (hfg : ∀ r c, r < rows → c < cols → f r c = g r c) : m.Shows rows cols g :=
  ⟨h.rows_eq, h.cols_eq, h.len, fun r c hr hc => by rw [h.cell r c hr hc, hfg r c hr hc]⟩

theorem fill_row {rows cols i : ℕ} {f : ℕ → ℕ → Option β} {g : ℕ → ℕ → β} (hi : i < rows)
    (hf : ∀ j < cols, f i j = some (g i j)) : ∀ (js : List ℕ) (m : RawMatrix β) (h : ℕ → ℕ → β),
    (∀ j ∈ js, j < cols) → m.Shows rows cols h →
    ∃ m', js.foldlM (fun m j => (f i j).bind fun x => m.set i j x) m = some m' ∧
      m'.Shows rows cols (fun r c => if r = i ∧ c ∈ js then g r c else h r c)
  | [], m, h, _, hm => ⟨m, rfl, hm.congr (by simp)⟩
  | j :: js, m, h, hj, hm => by
    have hjc := hj j (by simp)
    obtain ⟨m1, e1, h1⟩ := hm.set hi hjc (g i j)
    obtain ⟨m2, e2, h2⟩ := fill_row hi hf js m1 _ (fun k hk => hj k (by simp [hk])) h1
    refine ⟨m2, ?_, h2.congr ?_⟩
    · rw [List.foldlM_cons, hf j hjc]
      exact (congrArg (· >>= _) e1).trans e2
    · intro r c _ _
      by_cases hr : r = i
      · subst hr
        by_cases hc : c ∈ js
        · simp [hc]
        · by_cases hcj : c = j
          · subst hcj; simp
          · simp [hc, hcj]
      · simp [hr]

theorem fill_rows {rows cols : ℕ} {f : ℕ → ℕ → Option β} {g : ℕ → ℕ → β}
    (hf : ∀ i < rows, ∀ j < cols, f i j = some (g i j)) : ∀ (is : List ℕ) (m : RawMatrix β) (h : ℕ → ℕ → β),
    (∀ i ∈ is, i < rows) → m.Shows rows cols h →
    ∃ m', is.foldlM (fun m i =>
        (List.range cols).foldlM (fun m j => (f i j).bind fun x => m.set i j x) m) m = some m' ∧
      m'.Shows rows cols (fun r c => if r ∈ is then g r c else h r c)
  | [], m, h, _, hm => ⟨m, rfl, hm.congr (by simp)⟩
  | i :: is, m, h, hi, hm => by
    obtain ⟨m1, e1, h1⟩ := fill_row (hi i (by simp)) (hf i (hi i (by simp))) (List.range cols) m h
      (by simp) hm
    obtain ⟨m2, e2, h2⟩ := fill_rows hf is m1 _ (fun k hk => hi k (by simp [hk])) h1
    refine ⟨m2, ?_, h2.congr ?_⟩
    · rw [List.foldlM_cons]
      exact (congrArg (· >>= _) e1).trans e2
    · intro r c _ hc
      by_cases hr : r ∈ is
      · simp [hr]
      · by_cases hri : r = i
        · subst hri; simp [hc]
        · simp [hr, hri]

/-- The double loop writes every cell. -/
theorem fill_shows {rows cols : ℕ} {f : ℕ → ℕ → Option β} {g h : ℕ → ℕ → β} {m : RawMatrix β}
    (hm : m.Shows rows cols h) (hf : ∀ i < rows, ∀ j < cols, f i j = some (g i j)) :
    ∃ m', m.fill rows cols f = some m' ∧ m'.Shows rows cols g := by
  obtain ⟨m', e, h'⟩ := fill_rows hf (List.range rows) m h (by simp) hm
  exact ⟨m', e, h'.congr (by simp +contextual)⟩

theorem Shows.slice {m : RawMatrix β} {rows cols : ℕ} {f : ℕ → ℕ → β} (h : m.Shows rows cols f)
    {r c k : ℕ} (hk : r * cols + c + k ≤ rows * cols) : m.slice r c k =
      some ((List.range k).map fun i => f ((r * cols + c + i) / cols) ((r * cols + c + i) % cols)) := by
  rw [RawMatrix.slice, h.cols_eq, h.len, if_pos hk]
  congr 1
  apply List.ext_getElem?
  intro i
  by_cases hi : i < k
  · rw [List.getElem?_take_of_lt hi, List.getElem?_drop]
    have hcols : 0 < cols := by
      rcases Nat.eq_zero_or_pos cols with h0 | h0
      · subst h0; omega
      · exact h0
    have hdm := Nat.div_add_mod (r * cols + c + i) cols
    have hmod := Nat.mod_lt (r * cols + c + i) hcols
    have hdiv : (r * cols + c + i) / cols < rows := by
      rw [Nat.div_lt_iff_lt_mul hcols]; omega
    have := h.cell _ _ hdiv hmod
    rw [Nat.mul_comm, hdm] at this
    rw [this]
    simp [hi]
  · rw [List.getElem?_eq_none (by simp; omega), List.getElem?_eq_none (by simp; omega)]

theorem Shows.row {m : RawMatrix β} {rows cols : ℕ} {f : ℕ → ℕ → β} (h : m.Shows rows cols f)
    {r k : ℕ} (hr : r < rows) (hk : k ≤ cols) : m.slice r 0 k = some ((List.range k).map (f r)) := by
  have h1 : (r + 1) * cols ≤ rows * cols := Nat.mul_le_mul_right _ hr
  rw [Nat.add_mul, Nat.one_mul] at h1
  rw [h.slice (by omega)]
  congr 1
  apply List.map_congr_left
  intro i hi
  rw [List.mem_range] at hi
  have h2 : (r * cols + 0 + i) / cols = r := by
    rw [Nat.add_zero, Nat.mul_comm, Nat.mul_add_div (by omega), Nat.div_eq_of_lt (by omega)]; omega
  have h3 : (r * cols + 0 + i) % cols = i := by
    rw [Nat.add_zero, Nat.mul_comm, Nat.mul_add_mod, Nat.mod_eq_of_lt (by omega)]
  rw [h2, h3]

end RawMatrix
end Verif
