import Verif.Double
import Verif.Lemmas.EvalFold
import Verif.Lemmas.AnyDecomp

/-! # Whole numbers and magnitudes in double precision -/

namespace Verif
open F64

variable {ρ : Rounding}

namespace Dbl

/-- A whole number. -/
def ofInt (k : ℤ) : Dbl ρ := fin k

theorem ofInt_add {a b : ℤ} (h : |a + b| ≤ 2 ^ 53) : (ofInt a : Dbl ρ) +. ofInt b = ofInt (a + b) := by
  unfold ofInt
  rw [add_fin, ← Int.cast_add, ofRat_int h]

theorem ofInt_sub {a b : ℤ} (h : |a - b| ≤ 2 ^ 53) : (ofInt a : Dbl ρ) -. ofInt b = ofInt (a - b) := by
  unfold ofInt
  rw [sub_fin, ← Int.cast_sub, ofRat_int h]

theorem ofInt_neg (a : ℤ) : F64.neg (ofInt a : Dbl ρ) = ofInt (-a) := by
  unfold ofInt
  rw [Int.cast_neg]
  rfl

theorem lit_int {k : ℤ} (h : |k| ≤ 2 ^ 53) : (lit (k : ℚ) : Dbl ρ) = ofInt k := ofRat_int h

theorem lit_zero' : (lit 0 : Dbl ρ) = ofInt 0 := by rw [lit_zero]; simp [ofInt]

theorem ofInt_inj {a b : ℤ} (h : (ofInt a : Dbl ρ) = ofInt b) : a = b := by
  unfold ofInt at h
  rw [fin.injEq] at h
  exact_mod_cast h

/-- A finite number from 0 to `2 ^ m`. -/
def Nn (m : ℕ) (x : Dbl ρ) : Prop := ∃ q, x = fin q ∧ 0 ≤ q ∧ q ≤ 2 ^ m

theorem Nn.mono {m k : ℕ} {x : Dbl ρ} (h : Nn m x) (hk : m ≤ k) : Nn k x := by
  obtain ⟨q, h1, h2, h3⟩ := h
  exact ⟨q, h1, h2, h3.trans (pow_le_pow_right₀ (by norm_num) hk)⟩

theorem nn_ofRat {m : ℕ} (hm : m < 1024) {q : ℚ} (h0 : 0 ≤ q) (h : q ≤ 2 ^ m) : Nn m (ofRat q : Dbl ρ) :=
  ⟨ρ.fl q, ofRat_le hm (by rw [abs_of_nonneg h0]; exact h), ρ.nonneg h0, ρ.le_pow h⟩

theorem Nn.add {m : ℕ} (hm : m + 1 < 1024) {x y : Dbl ρ} (hx : Nn m x) (hy : Nn m y) : Nn (m + 1) (x +. y) := by
  obtain ⟨a, rfl, a0, a1⟩ := hx
  obtain ⟨b, rfl, b0, b1⟩ := hy
  rw [add_fin]
  refine nn_ofRat hm (by linarith) ?_
  rw [pow_succ]
  linarith

theorem Nn.mul {m k : ℕ} (hm : m + k < 1024) {x y : Dbl ρ} (hx : Nn m x) (hy : Nn k y) : Nn (m + k) (x *. y) := by
  obtain ⟨a, rfl, a0, a1⟩ := hx
  obtain ⟨b, rfl, b0, b1⟩ := hy
  rw [mul_fin]
  refine nn_ofRat hm (mul_nonneg a0 b0) ?_
  rw [pow_add]
  exact mul_le_mul a1 b1 b0 (by positivity)

theorem Nn.zero (m : ℕ) : Nn m (lit 0 : Dbl ρ) := ⟨0, lit_zero, le_refl _, by positivity⟩

theorem Nn.sub_zero {m : ℕ} (hm : m < 1024) {x : Dbl ρ} (hx : Nn m x) : Nn m (x -. lit 0) := by
  obtain ⟨a, rfl, a0, a1⟩ := hx
  rw [lit_zero, sub_fin, _root_.sub_zero]
  exact nn_ofRat hm a0 a1

theorem Nn.lt {m k : ℕ} (hmk : m < k) {x y : Dbl ρ} (hx : Nn m x) (hy : ∃ q, y = fin q ∧ 2 ^ k ≤ q) :
    (x <. y) = true := by
  obtain ⟨a, rfl, a0, a1⟩ := hx
  obtain ⟨b, rfl, b0⟩ := hy
  rw [lt_fin, decide_eq_true_eq]
  have : (2 : ℚ) ^ m < 2 ^ k := pow_lt_pow_right₀ (by norm_num) hmk
  linarith

theorem lt_inf (x : Dbl ρ) : ((F64.inf : Dbl ρ) <. x) = false := by
  show lt (.inf false) x = false
  cases x <;> rfl

theorem nan_lt (x : Dbl ρ) : ((nan : Dbl ρ) <. x) = false := by
  show lt nan x = false
  cases x <;> rfl

theorem nan_add (x : Dbl ρ) : (nan : Dbl ρ) +. x = nan := by
  show add nan x = nan
  cases x <;> rfl

theorem add_nan (x : Dbl ρ) : x +. (nan : Dbl ρ) = nan := by
  show add x nan = nan
  cases x <;> rfl

/-- The tolerance. -/
theorem eps_small : ∃ e : ℚ, (eps : Dbl ρ) = fin e ∧ 0 < e ∧ e ≤ 1 / 2 := by
  have r1 : ρ.fl (1 / 2 ^ 20) = 1 / 2 ^ 20 := by
    have := ρ.rep 1 (-20) (by norm_num) (by norm_num)
    norm_num at this ⊢
    exact this
  have r2 : ρ.fl (1 / 2) = 1 / 2 := by
    have := ρ.rep 1 (-1) (by norm_num) (by norm_num)
    norm_num at this ⊢
    exact this
  have e1 := ρ.mono (1 / 2 ^ 20) 0.000001 (by norm_num)
  have e2 := ρ.mono 0.000001 (1 / 2) (by norm_num)
  rw [r1] at e1
  rw [r2] at e2
  have p1 : (0 : ℚ) < 1 / 2 ^ 20 := by norm_num
  refine ⟨ρ.fl 0.000001, ?_, by linarith, e2⟩
  show (ofRat 0.000001 : Dbl ρ) = _
  exact ofRat_le (m := 0) (by norm_num) (by rw [abs_of_nonneg (by norm_num)]; norm_num)

theorem fl_half {x : ℚ} (h : x ≤ 1 / 2) : ρ.fl x ≤ 1 / 2 := by
  have r2 : ρ.fl (1 / 2) = 1 / 2 := by
    have := ρ.rep 1 (-1) (by norm_num) (by norm_num)
    norm_num at this ⊢
    exact this
  have := ρ.mono _ _ h
  rwa [r2] at this

/-- A whole number is found above zero exactly if it is. -/
theorem approxGt_int (k : ℤ) : approxGt (ofInt k : Dbl ρ) (lit 0) = decide (0 < k) := by
  obtain ⟨e, he, e0, e1⟩ := eps_small (ρ := ρ)
  have hs : (lit 0 : Dbl ρ) +. eps = fin (ρ.fl e) := by
    rw [lit_zero, he, add_fin, zero_add]
    exact ofRat_le (m := 0) (by norm_num) (by rw [abs_of_pos e0]; norm_num; linarith)
  unfold approxGt
  rw [hs]
  unfold ofInt
  rw [lt_fin]
  have h1 := fl_half (ρ := ρ) e1
  have h2 := ρ.nonneg e0.le
  congr 1
  apply propext
  constructor
  · intro h
    have : (0 : ℚ) < k := by linarith
    exact_mod_cast this
  · intro h
    have : (1 : ℚ) ≤ k := by exact_mod_cast h
    linarith

/-- The arithmetic of the local search. -/
theorem arith (ctx : Ctx (Dbl ρ)) : Arith ctx := by
  obtain ⟨e, he, e0, e1⟩ := eps_small (ρ := ρ)
  refine ⟨?_, ?_, fun a u b => lt_inf _⟩
  · unfold approxLt
    rw [lit_zero, he, sub_fin, zero_sub]
    rw [ofRat_le (m := 0) (by norm_num) (by rw [abs_neg, abs_of_pos e0]; norm_num; linarith), lt_fin]
    rw [decide_eq_false_iff_not, ρ.odd]
    have := ρ.nonneg e0.le
    linarith
  · unfold approxGte
    rw [Bool.or_eq_true]
    left
    rw [lit_zero]
    rfl

end Dbl
end Verif
