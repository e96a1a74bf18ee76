import Verif.Lemmas.DblNear
import Verif.Lemmas.DblRoute

/-! # Rounding errors of sums, differences and penalty terms -/

namespace Verif
open F64 Dbl

variable {ρ : Rounding}

/-- Between `-2 ^ m` and `2 ^ m` a rounding moves a number by at most `2 ^ (m - 53)`. -/
theorem fl_near_abs (ρ : Rounding) {m : ℕ} {x : ℚ} (h : |x| ≤ 2 ^ m) : |ρ.fl x - x| ≤ 2 ^ m / 2 ^ 53 := by
  rcases le_total 0 x with h0 | h0
  · exact fl_near ρ h0 (by rwa [abs_of_nonneg h0] at h)
  · have := fl_near ρ (x := -x) (by linarith) (by rwa [abs_of_nonpos h0] at h)
    rw [ρ.odd] at this
    rwa [show -ρ.fl x - -x = -(ρ.fl x - x) by ring, abs_neg] at this

/-- Everything computed stays below `2 ^ K`; a stored distance is off by at most `ed`, and the exact
distances and penalties are at most `M`. -/
structure Budget (K : ℕ) (ed M : ℚ) : Prop where
  exp : K < 1024
  ed0 : 0 ≤ ed
  M0 : 0 ≤ M
  big : 32 * M + 16 * ed + 32 * (2 ^ K / 2 ^ 53) ≤ 2 ^ K

/-- The double `x` is off the exact `q` by at most `a` stored errors and `b` roundings, and `q` is at
most `j` times `M`. -/
def Off (K : ℕ) (ed M : ℚ) (a b j : ℕ) (x : Dbl ρ) (q : ℚ) : Prop :=
  ∃ v, x = fin v ∧ |v - q| ≤ a * ed + b * (2 ^ K / 2 ^ 53) ∧ |q| ≤ j * M

section
variable {K : ℕ} {ed M : ℚ} {a b j a' b' j' : ℕ} {x y : Dbl ρ} {q r : ℚ}

theorem Off.bound (hb : Budget K ed M) {v : ℚ} (hv : |v - q| ≤ a * ed + b * (2 ^ K / 2 ^ 53)) (hq : |q| ≤ j * M)
    (h1 : a ≤ 16) (h2 : b ≤ 32) (h3 : j ≤ 32) : |v| ≤ 2 ^ K := by
  have e0 := hb.ed0
  have m0 := hb.M0
  have g := hb.big
  have d0 : (0 : ℚ) ≤ 2 ^ K / 2 ^ 53 := by positivity
  generalize (2 : ℚ) ^ K / 2 ^ 53 = δ at *
  have t1 : (a : ℚ) * ed ≤ 16 * ed := mul_le_mul_of_nonneg_right (by exact_mod_cast h1) e0
  have t2 : (b : ℚ) * δ ≤ 32 * δ := mul_le_mul_of_nonneg_right (by exact_mod_cast h2) d0
  have t3 : (j : ℚ) * M ≤ 32 * M := mul_le_mul_of_nonneg_right (by exact_mod_cast h3) m0
  rw [abs_le] at hv hq ⊢
  constructor <;> linarith [hv.1, hv.2, hq.1, hq.2]

theorem Off.add (hb : Budget K ed M) (hx : Off K ed M a b j x q) (hy : Off K ed M a' b' j' y r)
    (h1 : a + a' ≤ 16 := by decide) (h2 : b + b' ≤ 32 := by decide) (h3 : j + j' ≤ 32 := by decide) :
    Off K ed M (a + a') (b + b' + 1) (j + j') (x +. y) (q +. r) := by
  obtain ⟨v, rfl, v1, v2⟩ := hx
  obtain ⟨w, rfl, w1, w2⟩ := hy
  have s1 : |v + w - (q + r)| ≤ (a + a' : ℕ) * ed + (b + b' : ℕ) * (2 ^ K / 2 ^ 53) := by
    rw [show v + w - (q + r) = (v - q) + (w - r) by ring]
    refine (abs_add_le _ _).trans ?_
    push_cast
    linarith
  have s2 : |q + r| ≤ (j + j' : ℕ) * M := by
    refine (abs_add_le _ _).trans ?_
    push_cast
    linarith
  have s3 := Off.bound hb s1 s2 h1 h2 h3
  refine ⟨ρ.fl (v + w), ?_, ?_, s2⟩
  · rw [add_fin]; exact ofRat_le hb.exp s3
  · have n := fl_near_abs ρ s3
    show |ρ.fl (v + w) - (q + r)| ≤ _
    rw [show ρ.fl (v + w) - (q + r) = (ρ.fl (v + w) - (v + w)) + (v + w - (q + r)) by ring]
    refine (abs_add_le _ _).trans ?_
    push_cast at s1 ⊢
    linarith

theorem Off.neg (hx : Off K ed M a b j x q) : Off K ed M a b j (F64.neg x) (F64.neg q) := by
  obtain ⟨v, rfl, v1, v2⟩ := hx
  refine ⟨-v, rfl, ?_, ?_⟩
  · show |-v - -q| ≤ _
    rwa [show -v - -q = -(v - q) by ring, abs_neg]
  · show |-q| ≤ _
    rwa [abs_neg]

theorem Off.sub (hb : Budget K ed M) (hx : Off K ed M a b j x q) (hy : Off K ed M a' b' j' y r)
    (h1 : a + a' ≤ 16 := by decide) (h2 : b + b' ≤ 32 := by decide) (h3 : j + j' ≤ 32 := by decide) :
    Off K ed M (a + a') (b + b' + 1) (j + j') (x -. y) (q -. r) := by
  have := Off.add hb hx hy.neg h1 h2 h3
  obtain ⟨v, rfl, v1, v2⟩ := hx
  obtain ⟨w, rfl, w1, w2⟩ := hy
  have e : (fin v : Dbl ρ) -. fin w = fin v +. F64.neg (fin w : Dbl ρ) := by
    show _ = (fin v : Dbl ρ) +. fin (-w)
    rw [sub_fin, add_fin, sub_eq_add_neg]
  rw [e]
  have e' : q -. r = q +. F64.neg r := by simp [sub_eq_add_neg]
  rw [e']
  exact this

/-- An overload or a load: exact, a whole number of at most `j` times `T`. -/
def Exact (T : ℤ) (j : ℕ) (x : Dbl ρ) (q : ℚ) : Prop := ∃ k : ℤ, x = ofInt k ∧ q = k ∧ |k| ≤ j * T

theorem Exact.add {T : ℤ} (hT0 : 0 ≤ T) (hT : T ≤ 2 ^ 49) (hx : Exact T j x q) (hy : Exact T j' y r)
    (h : j + j' ≤ 16 := by decide) : Exact T (j + j') (x +. y) (q +. r) := by
  obtain ⟨k, rfl, rfl, hk⟩ := hx
  obtain ⟨i, rfl, rfl, hi⟩ := hy
  have s : |k + i| ≤ (j + j' : ℕ) * T := by
    refine (abs_add_le _ _).trans ?_
    push_cast
    linarith
  have s' : ((j + j' : ℕ) : ℤ) * T ≤ 16 * T := mul_le_mul_of_nonneg_right (by exact_mod_cast h) hT0
  refine ⟨k + i, ofInt_add (by linarith), by simp, s⟩

theorem Exact.neg {T : ℤ} (hx : Exact T j x q) : Exact T j (F64.neg x) (F64.neg q) := by
  obtain ⟨k, rfl, rfl, hk⟩ := hx
  exact ⟨-k, ofInt_neg k, by simp, by rwa [abs_neg]⟩

theorem Exact.sub {T : ℤ} (hT0 : 0 ≤ T) (hT : T ≤ 2 ^ 49) (hx : Exact T j x q) (hy : Exact T j' y r)
    (h : j + j' ≤ 16 := by decide) : Exact T (j + j') (x -. y) (q -. r) := by
  obtain ⟨k, rfl, rfl, hk⟩ := hx
  obtain ⟨i, rfl, rfl, hi⟩ := hy
  have s : |k - i| ≤ (j + j' : ℕ) * T := by
    refine (abs_sub _ _).trans ?_
    push_cast
    linarith
  have s' : ((j + j' : ℕ) : ℤ) * T ≤ 16 * T := mul_le_mul_of_nonneg_right (by exact_mod_cast h) hT0
  refine ⟨k - i, ofInt_sub (by linarith), by simp, s⟩

theorem Exact.mono {T : ℤ} (hT0 : 0 ≤ T) (hx : Exact T j x q) (h : j ≤ j') : Exact T j' x q := by
  obtain ⟨k, h1, h2, h3⟩ := hx
  exact ⟨k, h1, h2, h3.trans (mul_le_mul_of_nonneg_right (by exact_mod_cast h) hT0)⟩

theorem Exact.ite {T : ℤ} (hT0 : 0 ≤ T) {P : Prop} [Decidable P] {x' : Dbl ρ} {q' : ℚ} (hx : Exact T j x q)
    (hy : Exact T j' x' q') (h : j' ≤ j := by decide) :
    Exact T j (if P then x else x') (if P then q else q') := by
  split
  · exact hx
  · exact hy.mono hT0 h

/-- A term `penalty * max(0, overload)`. -/
theorem Exact.penalty {T : ℤ} {p : ℚ} (hb : Budget K ed M) (hT0 : 0 ≤ T) (hp : 0 ≤ p) (hpT : p * T ≤ M)
    (hx : Exact T j x q) (h : j ≤ 32 := by decide) :
    Off K ed M 0 1 j ((fin p : Dbl ρ) *. F64.max (lit 0) x) (p *. F64.max (lit 0) q) ∧
      Off K ed M 0 1 j (F64.max (lit 0) x *. (fin p : Dbl ρ)) (F64.max (lit 0) q *. p) := by
  obtain ⟨k, rfl, rfl, hk⟩ := hx
  have hm : F64.max (lit 0 : Dbl ρ) (ofInt k) = fin ((max 0 k : ℤ) : ℚ) := by
    unfold ofInt
    rw [lit_zero, max_fin]
    push_cast
    rfl
  have hm' : F64.max (lit 0 : ℚ) (k : ℚ) = ((max 0 k : ℤ) : ℚ) := by push_cast; rfl
  have k0 : 0 ≤ max 0 k := le_max_left _ _
  have k1 : max 0 k ≤ j * T := max_le (by positivity) ((le_abs_self k).trans hk)
  have s0 : (0 : ℚ) ≤ p * (max 0 k : ℤ) := mul_nonneg hp (by exact_mod_cast k0)
  have s1 : p * (max 0 k : ℤ) ≤ j * M := by
    have c : ((max 0 k : ℤ) : ℚ) ≤ j * T := by exact_mod_cast k1
    have := mul_le_mul_of_nonneg_left c hp
    have t : (j : ℚ) * (p * T) ≤ j * M := mul_le_mul_of_nonneg_left hpT (by positivity)
    linarith
  have s2 : |p * (max 0 k : ℤ)| ≤ 2 ^ K := by
    refine Off.bound (q := p * (max 0 k : ℤ)) (a := 0) (b := 0) hb ?_ (by rwa [abs_of_nonneg s0])
      (by decide) (by decide) h
    simp
  have key : Off K ed M 0 1 j (ofRat (p * (max 0 k : ℤ)) : Dbl ρ) (p * (max 0 k : ℤ)) := by
    refine ⟨ρ.fl _, ofRat_le hb.exp s2, ?_, by rwa [abs_of_nonneg s0]⟩
    have := fl_near_abs ρ s2
    push_cast at this ⊢
    linarith
  rw [hm, hm', mul_fin, mul_fin]
  refine ⟨key, ?_⟩
  rw [mul_comm]
  have e : ((max 0 k : ℤ) : ℚ) *. p = p * (max 0 k : ℤ) := by simp only [rat_mul]; ring
  rw [e]
  exact key

end
end Verif
