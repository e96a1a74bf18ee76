import Verif.Lemmas.DblCalm
import Verif.Lemmas.DblNearby
import Verif.Lemmas.DblMain

/-! # How far the penalty can grow in elite education, in double precision -/

namespace Verif
open F64 Dbl

variable {ρ : Rounding}

/-- At most `2 ^ 44` multiplied `k` times by at most 1.2001, with rounding. -/
def Grown (k : ℕ) (p : Dbl ρ) : Prop := ∃ v, p = fin v ∧ 0 ≤ v ∧ v ≤ 2 ^ 44 * (6001 / 5000) ^ k

theorem grown_zero {p : Dbl ρ} (h : Nn 44 p) : Grown 0 p := by
  obtain ⟨v, h1, h2, h3⟩ := h
  exact ⟨v, h1, h2, by simpa using h3⟩

theorem growth_le {k : ℕ} (hk : k ≤ 3000) : (2 : ℚ) ^ 44 * (6001 / 5000) ^ k ≤ 2 ^ 900 := by
  have h1 : ((6001 : ℚ) / 5000) ^ k ≤ (6001 / 5000) ^ (11 * 273) :=
    pow_le_pow_right₀ (by norm_num) (by omega)
  have h2 : ((6001 : ℚ) / 5000) ^ 11 ≤ 2 ^ 3 := by norm_num
  have h3 : ((6001 : ℚ) / 5000) ^ (11 * 273) ≤ 2 ^ (3 * 273) := by
    rw [pow_mul, pow_mul]
    exact pow_le_pow_left₀ (by positivity) h2 _
  calc (2 : ℚ) ^ 44 * (6001 / 5000) ^ k ≤ 2 ^ 44 * 2 ^ (3 * 273) :=
        mul_le_mul_of_nonneg_left (h1.trans h3) (by positivity)
    _ = 2 ^ (44 + 3 * 273) := (pow_add _ _ _).symm
    _ ≤ 2 ^ 900 := pow_le_pow_right₀ (by norm_num) (by norm_num)

theorem Grown.nn {k : ℕ} (hk : k ≤ 3000) {p : Dbl ρ} (h : Grown k p) : Nn 900 p := by
  obtain ⟨v, h1, h2, h3⟩ := h
  exact ⟨v, h1, h2, h3.trans (growth_le hk)⟩

/-- One more multiplication. -/
theorem Grown.mul {k : ℕ} (hk : k < 3000) {p x : Dbl ρ} (h : Grown k p)
    (hx : ∃ a, x = fin a ∧ 0 ≤ a ∧ a ≤ 12001 / 10000) : Grown (k + 1) (p *. x) := by
  obtain ⟨v, rfl, v0, v1⟩ := h
  obtain ⟨a, rfl, a0, a1⟩ := hx
  set C : ℚ := 2 ^ 44 * (6001 / 5000) ^ k with hC
  have hC1 : 1 ≤ C := one_le_mul_of_one_le_of_one_le (by norm_num) (one_le_pow₀ (by norm_num))
  have hU : v * a ≤ C * (12001 / 10000) := mul_le_mul v1 a1 a0 (by linarith)
  have hstep : 2 ^ 44 * (6001 / 5000) ^ (k + 1) = C * (6001 / 5000) := by rw [hC, pow_succ]; ring
  have hbig := growth_le (k := k + 1) (by omega)
  rw [hstep] at hbig
  have h0 : 0 ≤ v * a := mul_nonneg v0 a0
  have hfl : ρ.fl (v * a) ≤ C * (6001 / 5000) := by
    obtain ⟨m, m1, m2⟩ := exists_nat_pow_near (x := C * (12001 / 10000)) (y := (2 : ℚ))
      (by linarith) (by norm_num)
    have e1 := ρ.mono _ _ hU
    have e2 := fl_near_abs ρ (m := m + 1) (x := C * (12001 / 10000))
      (by rw [abs_of_nonneg (by linarith)]; exact m2.le)
    have e3 := (abs_le.mp e2).2
    have e4 : (2 : ℚ) ^ (m + 1) / 2 ^ 53 ≤ C * (1 / 10000) := by
      rw [pow_succ]
      generalize (2 : ℚ) ^ m = M at *
      rw [div_le_iff₀ (by norm_num)]
      linarith
    linarith
  rw [mul_fin, ofRat_le (m := 900) (by norm_num) (by
    rw [abs_of_nonneg h0]
    exact (hU.trans (by linarith)).trans hbig)]
  exact ⟨_, rfl, ρ.nonneg h0, by rw [hstep]; exact hfl⟩

/-- A factor of at most 1.2 as a literal. -/
theorem lit_factor {x : ℚ} (h0 : 0 ≤ x) (h : x ≤ 6 / 5) :
    ∃ a, (lit x : Dbl ρ) = fin a ∧ 0 ≤ a ∧ a ≤ 12001 / 10000 := by
  have h2 : |x| ≤ 2 ^ 1 := by rw [abs_of_nonneg h0]; linarith
  refine ⟨ρ.fl x, ofRat_le (by norm_num) h2, ρ.nonneg h0, ?_⟩
  have := (abs_le.mp (fl_near_abs ρ h2)).2
  have : (2 : ℚ) ^ 1 / 2 ^ 53 ≤ 1 / 10000 := by norm_num
  linarith

/-- The rounds of a schedule with 1000 rounds per customer. -/
theorem rounds_dbl {n : ℕ} (hn : n ≤ 3000) : toNat (F64.round ((lit 1000 : Dbl ρ) *. lit (n : ℕ))) = 1000 * n := by
  have e1 : (lit 1000 : Dbl ρ) = fin 1000 := by
    have := lit_int (ρ := ρ) (k := 1000) (by norm_num)
    simpa [ofInt] using this
  have e2 : (lit ((n : ℕ) : ℚ) : Dbl ρ) = fin n := by
    have := lit_int (ρ := ρ) (k := n) (by rw [abs_of_nonneg (by omega)]; omega)
    simpa [ofInt] using this
  have e3 : (lit 1000 : Dbl ρ) *. lit (n : ℕ) = ofInt ((1000 * n : ℕ) : ℤ) := by
    rw [e1, e2, mul_fin]
    have := ofRat_int (ρ := ρ) (k := ((1000 * n : ℕ) : ℤ)) (by rw [abs_of_nonneg (by omega)]; omega)
    have hc : ((1000 : ℚ) * n) = (((1000 * n : ℕ) : ℤ) : ℚ) := by push_cast; ring
    rw [hc, this]
    rfl
  rw [e3]
  have := Program.toNat_int (ρ := ρ) (k := ((1000 * n : ℕ) : ℤ)) (by omega) (by omega)
  omega

end Verif
