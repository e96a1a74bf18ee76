import Verif.Lemmas.DblArith
import Verif.Props.Basics

/-!
# C53 in double precision

The comparisons with tolerance round: `a < b - 1e-6` rounds the difference, `a > b + 1e-6` the sum. They still
exclude each other, but two parts of C53 are false of doubles: the two do not mirror each other, and there are
numbers further apart than the tolerance for which none of the three holds.
-/

namespace Verif
open F64 Dbl

namespace Spec

/-- A value a 64-bit float can have: not a number, an infinity, or a finite number that rounding leaves alone. -/
def IsDouble {ρ : Rounding} : Dbl ρ → Prop
  | .fin q => ρ.fl q = q ∧ |q| < limit
  | _ => True

end Spec

section

variable {ρ : Rounding}

theorem fin_lt_ofRat {a x : ℚ} (ha : |a| < limit) : ((fin a : Dbl ρ) <. ofRat x) = decide (a < ρ.fl x) := by
  obtain ⟨h1, h2⟩ := abs_lt.mp ha
  unfold ofRat
  split
  · rw [decide_eq_true (by linarith)]; rfl
  · split
    · rw [decide_eq_false (by linarith)]; rfl
    · rfl

theorem ofRat_lt_fin {a x : ℚ} (ha : |a| < limit) : ((ofRat x : Dbl ρ) <. fin a) = decide (ρ.fl x < a) := by
  obtain ⟨h1, h2⟩ := abs_lt.mp ha
  unfold ofRat
  split
  · rw [decide_eq_false (by linarith)]; rfl
  · split
    · rw [decide_eq_true (by linarith)]; rfl
    · rfl

theorem abs_ofRat_lt {a x : ℚ} (ha : |a| < limit) : (F64.abs (ofRat x : Dbl ρ) <. fin a) = decide (|ρ.fl x| < a) := by
  obtain ⟨h1, h2⟩ := abs_lt.mp ha
  have hl := limit_pos
  unfold ofRat
  split
  · rw [decide_eq_false (by have := le_abs_self (ρ.fl x); linarith)]; rfl
  · split
    · rw [decide_eq_false (by have := neg_abs_le (ρ.fl x); linarith)]; rfl
    · rfl

/-- The tolerance is a double. -/
theorem eps_double : ∃ e : ℚ, (eps : Dbl ρ) = fin e ∧ 0 < e ∧ e ≤ 1 / 2 ∧ ρ.fl e = e ∧ |e| < limit := by
  obtain ⟨e, he, e0, e1⟩ := eps_small (ρ := ρ)
  have h : (eps : Dbl ρ) = fin (ρ.fl 0.000001) :=
    ofRat_le (m := 0) (by norm_num) (by rw [abs_of_nonneg (by norm_num)]; norm_num)
  rw [he, fin.injEq] at h
  refine ⟨e, he, e0, e1, by rw [h, ρ.idem], ?_⟩
  rw [abs_of_pos e0]
  have := pow_lt_limit (m := 0) (by norm_num)
  norm_num at this
  linarith

variable {a b : ℚ}

/-- The comparisons of finite doubles, in terms of rounded exact results. -/
theorem approx_fin {e : ℚ} (he : (eps : Dbl ρ) = fin e) (hl : |e| < limit) (ha : |a| < limit) :
    approxLt (fin a : Dbl ρ) (fin b) = decide (a < ρ.fl (b - e)) ∧
    approxEq (fin a : Dbl ρ) (fin b) = decide (|ρ.fl (a - b)| < e) ∧
    approxGt (fin a : Dbl ρ) (fin b) = decide (ρ.fl (b + e) < a) := by
  unfold approxLt approxEq approxGt
  rw [he, sub_fin, sub_fin, add_fin]
  exact ⟨fin_lt_ofRat ha, abs_ofRat_lt hl, ofRat_lt_fin ha⟩

/-- Found equal means less than the tolerance apart. -/
theorem near_of_eq {e : ℚ} (hr : ρ.fl e = e) (h : |ρ.fl (a - b)| < e) : |a - b| < e := by
  obtain ⟨h1, h2⟩ := abs_lt.mp h
  rw [abs_lt]
  constructor
  · by_contra hc
    have := ρ.mono _ _ (not_lt.mp hc)
    rw [ρ.odd, hr] at this
    linarith
  · by_contra hc
    have := ρ.mono _ _ (not_lt.mp hc)
    rw [hr] at this
    linarith

/-- No comparison of a NaN or of infinities finds two numbers equal, and the others imply the exact ones. -/
theorem approx_special {x y : Dbl ρ} {e : ℚ} (he : (eps : Dbl ρ) = fin e) (h : (∀ q, x ≠ fin q) ∨ ∀ q, y ≠ fin q) :
    approxEq x y = false ∧ approxEq y x = false ∧ (approxLt x y = true → (x <. y) = true) ∧
    (approxGt x y = true → (y <. x) = true) ∧ ((x <. y) = true → (y <. x) = false) := by
  have low : ∀ z : Dbl ρ, (z <. (.inf true : Dbl ρ)) = false := fun z => by
    cases z with
    | nan => rfl
    | inf s => cases s <;> rfl
    | fin q => rfl
  have nl : ∀ z : Dbl ρ, (z <. (nan : Dbl ρ)) = false := fun z => by cases z <;> rfl
  unfold approxLt approxGt approxEq
  rw [he]
  cases x with
  | nan =>
    refine ⟨by cases y <;> rfl, by cases y <;> rfl, fun h => ?_, fun h => ?_, fun h => nl _⟩
    · rw [nan_lt] at h; exact absurd h (by simp)
    · rw [nl] at h; exact absurd h (by simp)
  | inf s =>
    cases y with
    | nan =>
      refine ⟨by cases s <;> rfl, by cases s <;> rfl, fun h => ?_, fun h => ?_, fun h => nan_lt _⟩
      · rw [show (nan : Dbl ρ) -. fin e = nan from rfl, nl] at h; exact absurd h (by simp)
      · rw [nan_add, nan_lt] at h; exact absurd h (by simp)
    | inf t => cases s <;> cases t <;> exact ⟨rfl, rfl, id, id, fun h => by first | rfl | exact absurd h Bool.false_ne_true⟩
    | fin b =>
      cases s with
      | true =>
        exact ⟨rfl, rfl, fun _ => rfl, fun h => by rw [low] at h; exact absurd h (by simp), fun _ => rfl⟩
      | false =>
        exact ⟨rfl, rfl, fun h => by rw [show (Dbl.inf false : Dbl ρ) = F64.inf from rfl, lt_inf] at h; exact absurd h (by simp),
          fun _ => rfl, fun h => by rw [show (Dbl.inf false : Dbl ρ) = F64.inf from rfl, lt_inf] at h; exact absurd h (by simp)⟩
  | fin a =>
    cases y with
    | nan =>
      refine ⟨rfl, rfl, fun h => ?_, fun h => ?_, fun h => nan_lt _⟩
      · rw [show (nan : Dbl ρ) -. fin e = nan from rfl, nl] at h; exact absurd h (by simp)
      · rw [nan_add, nan_lt] at h; exact absurd h (by simp)
    | inf t => cases t <;> exact ⟨rfl, rfl, id, id, fun h => by first | rfl | (rw [low] at h; exact absurd h (by simp))⟩
    | fin b => rcases h with h | h <;> exact absurd rfl (h _)

/-- **C53** (part), in double precision, infinities and NaN included: the three comparisons exclude each other,
`approx_lt` and `approx_gt` imply the exact comparisons, and `approx_eq` is symmetric, and reflexive on finite
numbers. Missing: that `approx_lt` and `approx_gt` mirror each other and that one of the three holds, which
`C53_mirror_refuted` and `C53_trichotomy_refuted` show to be false. -/
theorem C53_double_partial {x y : Dbl ρ} (hx : Spec.IsDouble x) (hy : Spec.IsDouble y) :
    ¬ (approxLt x y = true ∧ approxEq x y = true) ∧
    ¬ (approxLt x y = true ∧ approxGt x y = true) ∧
    ¬ (approxEq x y = true ∧ approxGt x y = true) ∧
    (approxLt x y = true → (x <. y) = true) ∧ (approxGt x y = true → (y <. x) = true) ∧
    approxEq x y = approxEq y x ∧ (∀ q, x = fin q → approxEq x x = true) := by
  obtain ⟨e, he, e0, e1, er, el⟩ := eps_double (ρ := ρ)
  have refl : ∀ q, x = fin q → approxEq x x = true := by
    rintro q rfl
    rw [(approx_fin he el hx.2).2.1, sub_self, ρ.zero, abs_zero]
    exact decide_eq_true e0
  by_cases h : (∀ q, x ≠ fin q) ∨ ∀ q, y ≠ fin q
  · obtain ⟨k1, k2, k3, k4, k5⟩ := approx_special he h
    rw [k1, k2]
    refine ⟨by simp, fun p => ?_, by simp, k3, k4, rfl, refl⟩
    have := k5 (k3 p.1)
    rw [k4 p.2] at this
    exact absurd this (by simp)
  · push Not at h
    obtain ⟨⟨a, rfl⟩, b, rfl⟩ := h
    obtain ⟨ra, la⟩ := hx
    obtain ⟨rb, lb⟩ := hy
    obtain ⟨h1, h2, h3⟩ := approx_fin (b := b) he el la
    obtain ⟨-, h4, -⟩ := approx_fin (b := a) he el lb
    obtain ⟨-, h5, -⟩ := approx_fin (b := a) he el la
    rw [h1, h2, h3, h4]
    simp only [decide_eq_true_eq, lt_fin]
    have m1 := ρ.mono (b - e) b (by linarith)
    have m2 := ρ.mono b (b + e) (by linarith)
    rw [rb] at m1 m2
    refine ⟨?_, ?_, ?_, ?_, ?_, ?_, ?_⟩
    · rintro ⟨p, q⟩
      have := (abs_lt.mp (near_of_eq er q)).1
      have := ρ.mono (b - e) a (by linarith)
      rw [ra] at this
      linarith
    · rintro ⟨p, q⟩
      linarith
    · rintro ⟨p, q⟩
      have := (abs_lt.mp (near_of_eq er p)).2
      have := ρ.mono a (b + e) (by linarith)
      rw [ra] at this
      linarith
    · intro p; linarith
    · intro p; linarith
    · rw [← neg_sub b a, ρ.odd, abs_neg]
    · intro q _
      rw [h5, sub_self, ρ.zero, abs_zero]
      exact decide_eq_true e0

/-- **C53**, whole numbers in double precision: the comparisons are the exact ones. -/
theorem C53_double_int {m n : ℤ} (hm : |m| < 2 ^ 52) (hn : |n| < 2 ^ 52) :
    (approxLt (ofInt m : Dbl ρ) (ofInt n) = true ↔ m < n) ∧ (approxEq (ofInt m : Dbl ρ) (ofInt n) = true ↔ m = n) ∧
    (approxGt (ofInt m : Dbl ρ) (ofInt n) = true ↔ n < m) ∧ (approxLte (ofInt m : Dbl ρ) (ofInt n) = true ↔ m ≤ n) ∧
    (approxGte (ofInt m : Dbl ρ) (ofInt n) = true ↔ n ≤ m) := by
  obtain ⟨e, he, e0, e1, er, el⟩ := eps_double (ρ := ρ)
  obtain ⟨hm1, hm2⟩ := abs_lt.mp hm
  obtain ⟨hn1, hn2⟩ := abs_lt.mp hn
  have lm : |(m : ℚ)| < limit := by
    have : |(m : ℚ)| < 2 ^ 52 := by exact_mod_cast hm
    exact this.trans (pow_lt_limit (by norm_num))
  obtain ⟨h1, h2, h3⟩ := approx_fin (a := m) (b := n) he el lm
  have half : ∀ k : ℤ, |k| ≤ 2 ^ 53 → ρ.fl (k / 2) = k / 2 := by
    intro k hk
    have := ρ.rep k (-1) hk (by norm_num)
    norm_num at this
    rw [div_eq_mul_inv]
    norm_num
    exact this
  have d1 : (n : ℚ) - 1 / 2 ≤ ρ.fl (n - e) ∧ ρ.fl (n - e) ≤ n := by
    have a1 := ρ.mono ((2 * n - 1 : ℤ) / 2) (n - e) (by push_cast; linarith)
    rw [half (2 * n - 1) (by rw [abs_le]; omega)] at a1
    have a2 := ρ.mono (n - e) n (by linarith)
    rw [ρ.int (k := n) (by rw [abs_le]; omega)] at a2
    push_cast at a1
    exact ⟨by linarith, a2⟩
  have d2 : (n : ℚ) ≤ ρ.fl (n + e) ∧ ρ.fl (n + e) ≤ n + 1 / 2 := by
    have a1 := ρ.mono (n + e) ((2 * n + 1 : ℤ) / 2) (by push_cast; linarith)
    rw [half (2 * n + 1) (by rw [abs_le]; omega)] at a1
    have a2 := ρ.mono n (n + e) (by linarith)
    rw [ρ.int (k := n) (by rw [abs_le]; omega)] at a2
    push_cast at a1
    exact ⟨a2, by linarith⟩
  have d3 : ρ.fl ((m : ℚ) - n) = ((m - n : ℤ) : ℚ) := by
    rw [← Int.cast_sub, ρ.int (by rw [abs_le]; omega)]
  have g1 : approxLt (ofInt m : Dbl ρ) (ofInt n) = true ↔ m < n := by
    refine (iff_of_eq (congrArg (· = true) h1)).trans ?_
    rw [decide_eq_true_eq]
    constructor
    · intro h
      have : (m : ℚ) < n := by linarith
      exact_mod_cast this
    · intro h
      have : (m : ℚ) + 1 ≤ n := by exact_mod_cast h
      linarith
  have g2 : approxEq (ofInt m : Dbl ρ) (ofInt n) = true ↔ m = n := by
    refine (iff_of_eq (congrArg (· = true) h2)).trans ?_
    rw [decide_eq_true_eq, d3]
    constructor
    · intro h
      have : |((m - n : ℤ) : ℚ)| < 1 := by linarith
      have : |m - n| < 1 := by exact_mod_cast this
      have := Int.abs_lt_one_iff.1 this
      omega
    · rintro rfl
      simpa using e0
  have g3 : approxGt (ofInt m : Dbl ρ) (ofInt n) = true ↔ n < m := by
    refine (iff_of_eq (congrArg (· = true) h3)).trans ?_
    rw [decide_eq_true_eq]
    constructor
    · intro h
      have : (n : ℚ) < m := by linarith
      exact_mod_cast this
    · intro h
      have : (n : ℚ) + 1 ≤ m := by exact_mod_cast h
      linarith
  refine ⟨g1, g2, g3, ?_, ?_⟩
  · unfold approxLte
    rw [Bool.or_eq_true, g2]
    unfold ofInt
    rw [lt_fin, decide_eq_true_eq, Int.cast_lt]
    omega
  · unfold approxGte
    rw [Bool.or_eq_true, g2]
    unfold ofInt
    rw [lt_fin, decide_eq_true_eq, Int.cast_lt]
    omega

end

namespace ComparisonEx

abbrev F := Dbl nearestEven

/-- The double just above 2, and the double one millionth below it less one unit. -/
def b : ℚ := 2 + 1 / 2 ^ 51
def a : ℚ := 2 + (1 - 4503599627) / 2 ^ 52

/-- In double precision `approx_lt a b` and `approx_gt b a` differ. -/
theorem C53_mirror_refuted : Spec.IsDouble (fin a : F) ∧ Spec.IsDouble (fin b : F) ∧
    approxLt (fin a : F) (fin b) = true ∧ approxGt (fin b : F) (fin a) = false := by
  refine ⟨⟨by decide +kernel, by decide +kernel⟩, ⟨by decide +kernel, by decide +kernel⟩, by decide +kernel, by decide +kernel⟩

/-- A double more than a millionth below 1. -/
def c : ℚ := 1 - 9007199255 / 2 ^ 53

/-- In double precision two numbers can be more than the tolerance apart and yet be neither found less, nor
equal, nor greater. -/
theorem C53_trichotomy_refuted : Spec.IsDouble (fin c : F) ∧ Spec.IsDouble (fin 1 : F) ∧
    1 / 1000000 < |c - 1| ∧ approxLt (fin c : F) (fin 1) = false ∧ approxEq (fin c : F) (fin 1) = false ∧
    approxGt (fin c : F) (fin 1) = false := by
  refine ⟨⟨by decide +kernel, by decide +kernel⟩, ⟨by decide +kernel, by decide +kernel⟩, by decide +kernel,
    by decide +kernel, by decide +kernel, by decide +kernel⟩

/-- The other parts on these numbers. -/
example : approxLt (fin c : F) (fin b) = true ∧ ¬ approxEq (fin c : F) (fin b) = true := by
  have h : approxLt (fin c : F) (fin b) = true := by decide +kernel
  have := (C53_double_partial (C53_trichotomy_refuted).1 C53_mirror_refuted.2.1).1
  exact ⟨h, fun q => this ⟨h, q⟩⟩

/-- Whole numbers. -/
example : approxLt (ofInt 3 : F) (ofInt 4) = true ∧ approxLte (ofInt 4 : F) (ofInt 4) = true :=
  ⟨(C53_double_int (by norm_num) (by norm_num)).1.mpr (by norm_num),
    (C53_double_int (by norm_num) (by norm_num)).2.2.2.1.mpr (le_refl _)⟩

end ComparisonEx

end Verif
