import Verif.F64
import Mathlib.Data.Int.Log
import Mathlib.Tactic.Push
import Mathlib.Tactic.Positivity
import Mathlib.Algebra.Order.Field.Power

/-!
# Double precision arithmetic

`Dbl ρ` are the numbers of IEEE 754 double precision with NaN and the two infinities, under any rounding
`ρ` of exact results that is monotone, odd, idempotent and leaves the numbers with 53 significant bits and exponents
from -1074 on unchanged. `nearestEven` is the rounding of the machine. The finite numbers of `Dbl ρ` are
all rationals, a superset of the representable numbers. Simplification: the two zeros are one number, so a
quotient by zero takes the sign of the numerator.
-/

namespace Verif
open F64

/-- A rounding of exact results. Overflow is left to `Dbl.ofRat`. -/
structure Rounding where
  fl : ℚ → ℚ
  mono : ∀ x y, x ≤ y → fl x ≤ fl y
  odd : ∀ x, fl (-x) = -fl x
  rep : ∀ k m : ℤ, |k| ≤ 2 ^ 53 → -1074 ≤ m → fl (k * 2 ^ m) = k * 2 ^ m
  idem : ∀ x, fl (fl x) = fl x

namespace Rounding

variable (ρ : Rounding)

theorem int {k : ℤ} (h : |k| ≤ 2 ^ 53) : ρ.fl k = k := by
  have := ρ.rep k 0 h (by norm_num)
  simpa using this

theorem zero : ρ.fl 0 = 0 := by
  have := ρ.int (k := 0) (by norm_num)
  simpa using this

theorem nat {k : ℕ} (h : k ≤ 2 ^ 53) : ρ.fl k = k := by
  have := ρ.int (k := k) (by
    rw [abs_of_nonneg (Int.natCast_nonneg k)]
    exact_mod_cast h)
  simpa using this

theorem nonneg {x : ℚ} (h : 0 ≤ x) : 0 ≤ ρ.fl x := by
  have := ρ.mono _ _ h
  rwa [ρ.zero] at this

theorem two_pow (m : ℕ) : ρ.fl (2 ^ m) = 2 ^ m := by
  have := ρ.rep 1 m (by norm_num) (by omega)
  simpa using this

/-- Multiples of powers of two. -/
theorem mul_two_pow {k m : ℕ} (h : k ≤ 2 ^ 53) : ρ.fl (k * 2 ^ m) = k * 2 ^ m := by
  have := ρ.rep k m (by
    rw [abs_of_nonneg (Int.natCast_nonneg k)]
    exact_mod_cast h) (by omega)
  simpa using this

theorem le_nat {x : ℚ} {k : ℕ} (hk : k ≤ 2 ^ 53) (h : x ≤ k) : ρ.fl x ≤ k := by
  have := ρ.mono _ _ h
  rwa [ρ.nat hk] at this

theorem nat_le {x : ℚ} {k : ℕ} (hk : k ≤ 2 ^ 53) (h : (k : ℚ) ≤ x) : (k : ℚ) ≤ ρ.fl x := by
  have := ρ.mono _ _ h
  rwa [ρ.nat hk] at this

theorem le_pow {x : ℚ} {m : ℕ} (h : x ≤ 2 ^ m) : ρ.fl x ≤ 2 ^ m := by
  have := ρ.mono _ _ h
  rwa [ρ.two_pow] at this

theorem pow_le {x : ℚ} {m : ℕ} (h : 2 ^ m ≤ x) : 2 ^ m ≤ ρ.fl x := by
  have := ρ.mono _ _ h
  rwa [ρ.two_pow] at this

end Rounding

/-- A double: not a number, an infinity (`true` for the negative one) or a finite number. -/
inductive Dbl (ρ : Rounding) where
  | nan
  | inf (neg : Bool)
  | fin (q : ℚ)
deriving DecidableEq

namespace Dbl

variable {ρ : Rounding}

/-- The first power of two that is too large. -/
def limit : ℚ := 2 ^ 1024

/-- The double for an exact result. -/
def ofRat (q : ℚ) : Dbl ρ :=
  if limit ≤ ρ.fl q then .inf false else if ρ.fl q ≤ -limit then .inf true else .fin (ρ.fl q)

/-- Sum. -/
def add : Dbl ρ → Dbl ρ → Dbl ρ
  | nan, _ => nan
  | _, nan => nan
  | inf a, inf b => if a = b then inf a else nan
  | inf a, fin _ => inf a
  | fin _, inf b => inf b
  | fin x, fin y => ofRat (x + y)

/-- Sign change. -/
def neg : Dbl ρ → Dbl ρ
  | nan => nan
  | inf a => inf (!a)
  | fin x => fin (-x)

/-- Product. -/
def mul : Dbl ρ → Dbl ρ → Dbl ρ
  | nan, _ => nan
  | _, nan => nan
  | inf a, inf b => inf (a != b)
  | inf a, fin y => if y = 0 then nan else inf (a != decide (y < 0))
  | fin x, inf b => if x = 0 then nan else inf (decide (x < 0) != b)
  | fin x, fin y => ofRat (x * y)

/-- Quotient. -/
def div : Dbl ρ → Dbl ρ → Dbl ρ
  | nan, _ => nan
  | _, nan => nan
  | inf _, inf _ => nan
  | inf a, fin y => inf (a != decide (y < 0))
  | fin _, inf _ => fin 0
  | fin x, fin y => if y = 0 then (if x = 0 then nan else inf (decide (x < 0))) else ofRat (x / y)

/-- Absolute value. -/
def abs : Dbl ρ → Dbl ρ
  | nan => nan
  | inf _ => inf false
  | fin x => fin |x|

/-- `<`, false for NaN. -/
def lt : Dbl ρ → Dbl ρ → Bool
  | nan, _ => false
  | _, nan => false
  | inf a, inf b => a && !b
  | inf a, fin _ => a
  | fin _, inf b => !b
  | fin x, fin y => decide (x < y)

/-- `<=`, false for NaN. -/
def le : Dbl ρ → Dbl ρ → Bool
  | nan, _ => false
  | _, nan => false
  | inf a, inf b => a || !b
  | inf a, fin _ => a
  | fin _, inf b => !b
  | fin x, fin y => decide (x ≤ y)

/-- `f64::max`: NaN only if both are. -/
def max : Dbl ρ → Dbl ρ → Dbl ρ
  | nan, y => y
  | x, nan => x
  | x, y => if lt x y then y else x

/-- `f64::min`: NaN only if both are. -/
def min : Dbl ρ → Dbl ρ → Dbl ρ
  | nan, y => y
  | x, nan => x
  | x, y => if lt y x then y else x

/-- A cast to 64 bits, which saturates. -/
def sat (z : ℤ) : ℕ := Min.min z.toNat (2 ^ 64 - 1)

instance : F64 (Dbl ρ) where
  add := add
  sub x y := add x (neg y)
  mul := mul
  div := div
  neg := neg
  abs := abs
  max := max
  min := min
  lt := lt
  le := le
  lit := ofRat
  inf := .inf false
  maxv := .fin ((2 ^ 53 - 1) * 2 ^ 971)
  round
    | fin x => fin (ratRound x)
    | x => x
  ceilNat
    | nan => 0
    | .inf a => if a then 0 else 2 ^ 64 - 1
    | fin x => sat ⌈x⌉
  toNat
    | nan => 0
    | .inf a => if a then 0 else 2 ^ 64 - 1
    | fin x => sat ⌊x⌋

theorem limit_pos : 0 < limit := by unfold limit; positivity

theorem pow_lt_limit {m : ℕ} (h : m < 1024) : (2 : ℚ) ^ m < limit :=
  pow_lt_pow_right₀ (by norm_num) h

section simp
variable (x y : ℚ)
theorem add_fin : (fin x : Dbl ρ) +. fin y = ofRat (x + y) := rfl
theorem sub_fin : (fin x : Dbl ρ) -. fin y = ofRat (x - y) := by
  rw [sub_eq_add_neg]; rfl
theorem mul_fin : (fin x : Dbl ρ) *. fin y = ofRat (x * y) := rfl
theorem div_fin (h : y ≠ 0) : (fin x : Dbl ρ) /. fin y = ofRat (x / y) := by
  show (if y = 0 then _ else _) = _
  rw [if_neg h]
theorem lt_fin : ((fin x : Dbl ρ) <. fin y) = decide (x < y) := rfl
theorem le_fin : ((fin x : Dbl ρ) ≤. fin y) = decide (x ≤ y) := rfl
theorem abs_fin : F64.abs (fin x : Dbl ρ) = fin |x| := rfl
theorem max_fin : F64.max (fin x : Dbl ρ) (fin y) = fin (Max.max x y) := by
  show (if lt (fin x : Dbl ρ) (fin y) then fin y else fin x) = _
  unfold lt
  simp only [decide_eq_true_eq]
  split
  · rw [max_eq_right (by linarith)]
  · rw [max_eq_left (by linarith)]
theorem min_fin : F64.min (fin x : Dbl ρ) (fin y) = fin (Min.min x y) := by
  show (if lt (fin y : Dbl ρ) (fin x) then fin y else fin x) = _
  unfold lt
  simp only [decide_eq_true_eq]
  split
  · rw [min_eq_right (by linarith)]
  · rw [min_eq_left (by linarith)]
theorem lit_eq : (lit x : Dbl ρ) = ofRat x := rfl
theorem inf_eq : (F64.inf : Dbl ρ) = .inf false := rfl
end simp

theorem ofRat_fin {q : ℚ} (h : |ρ.fl q| < limit) : (ofRat q : Dbl ρ) = fin (ρ.fl q) := by
  obtain ⟨h1, h2⟩ := abs_lt.mp h
  unfold ofRat
  rw [if_neg (by linarith), if_neg (by linarith)]

theorem fl_abs_le {q : ℚ} {m : ℕ} (h : |q| ≤ 2 ^ m) : |ρ.fl q| ≤ 2 ^ m := by
  obtain ⟨h1, h2⟩ := abs_le.mp h
  refine abs_le.mpr ⟨?_, ρ.le_pow h2⟩
  have := ρ.mono _ _ h1
  rwa [ρ.odd, ρ.two_pow] at this

/-- A result of moderate size is finite. -/
theorem ofRat_le {q : ℚ} {m : ℕ} (hm : m < 1024) (h : |q| ≤ 2 ^ m) : (ofRat q : Dbl ρ) = fin (ρ.fl q) :=
  ofRat_fin (lt_of_le_of_lt (fl_abs_le h) (pow_lt_limit hm))

theorem ofRat_int {k : ℤ} (h : |k| ≤ 2 ^ 53) : (ofRat k : Dbl ρ) = fin k := by
  have h' : |(k : ℚ)| ≤ 2 ^ 53 := by exact_mod_cast h
  rw [ofRat_le (by norm_num) h', ρ.int h]

theorem ofRat_nat {k : ℕ} (h : k ≤ 2 ^ 53) : (ofRat k : Dbl ρ) = fin k := by
  have := ofRat_int (ρ := ρ) (k := k) (by
    rw [abs_of_nonneg (Int.natCast_nonneg k)]
    exact_mod_cast h)
  simpa using this

theorem lit_zero : (lit 0 : Dbl ρ) = fin 0 := by
  have := ofRat_nat (ρ := ρ) (k := 0) (by norm_num)
  rw [Nat.cast_zero] at this
  exact this

/-- The tolerance lies between two powers of two. -/
theorem eps_eq : ∃ e : ℚ, (eps : Dbl ρ) = fin e ∧ 0 < e ∧ e < 1 := by
  have h1 : (1 : ℚ) / 2 ^ 20 ≤ 0.000001 := by norm_num
  have h2 : (0.000001 : ℚ) ≤ 1 / 2 ^ 19 := by norm_num
  have r1 : ρ.fl (1 / 2 ^ 20) = 1 / 2 ^ 20 := by
    have := ρ.rep 1 (-20) (by norm_num) (by norm_num)
    norm_num at this ⊢
    exact this
  have r2 : ρ.fl (1 / 2 ^ 19) = 1 / 2 ^ 19 := by
    have := ρ.rep 1 (-19) (by norm_num) (by norm_num)
    norm_num at this ⊢
    exact this
  have e1 := ρ.mono _ _ h1
  have e2 := ρ.mono _ _ h2
  rw [r1] at e1
  rw [r2] at e2
  have p1 : (0 : ℚ) < 1 / 2 ^ 20 := by norm_num
  have p2 : (1 : ℚ) / 2 ^ 19 < 1 := by norm_num
  refine ⟨ρ.fl 0.000001, ?_, by linarith, by linarith⟩
  show (ofRat 0.000001 : Dbl ρ) = _
  refine ofRat_fin ?_
  rw [abs_of_pos (by linarith)]
  have : (2 : ℚ) ^ 0 < limit := pow_lt_limit (by norm_num)
  rw [pow_zero] at this
  linarith

end Dbl

/-! ### Round to nearest, ties to even -/

/-- The nearest whole number, the even one of two. -/
def rne (q : ℚ) : ℤ :=
  if q - ⌊q⌋ < 1 / 2 then ⌊q⌋ else if 1 / 2 < q - ⌊q⌋ then ⌊q⌋ + 1
  else if ⌊q⌋ % 2 = 0 then ⌊q⌋ else ⌊q⌋ + 1

theorem rne_int (k : ℤ) : rne k = k := by simp [rne]

theorem rne_bounds (q : ℚ) : ⌊q⌋ ≤ rne q ∧ rne q ≤ ⌊q⌋ + 1 := by
  unfold rne
  split_ifs <;> omega

theorem rne_mono {x y : ℚ} (h : x ≤ y) : rne x ≤ rne y := by
  have hf := Int.floor_le_floor h
  rcases hf.eq_or_lt with e | e
  · unfold rne
    rw [e]
    generalize ⌊y⌋ = f at *
    split_ifs <;> first | omega | (exfalso; linarith)
  · have h1 := (rne_bounds x).2
    have h2 := (rne_bounds y).1
    omega

theorem rne_neg (q : ℚ) : rne (-q) = -rne q := by
  by_cases hq : q = ⌊q⌋
  · rw [hq, rne_int]
    have := rne_int (-⌊q⌋)
    push_cast at this
    rw [this]
  · have h1 : (⌊q⌋ : ℚ) < q := lt_of_le_of_ne (Int.floor_le q) (fun e => hq e.symm)
    have h2 := Int.lt_floor_add_one q
    have hf : ⌊-q⌋ = -⌊q⌋ - 1 := by
      rw [Int.floor_eq_iff]
      push_cast
      constructor <;> linarith
    unfold rne
    rw [hf]
    push_cast
    generalize ⌊q⌋ = f at *
    split_ifs <;> first | omega | (exfalso; linarith)

/-- The exponent of the last place of a double: 53 significant bits, but none below `2 ^ -1074`. -/
def lastPlace (q : ℚ) : ℤ := Max.max (Int.log 2 |q| - 52) (-1074)

/-- Round to nearest, ties to even, with 53 significant bits and gradual underflow. -/
def roundNearest (q : ℚ) : ℚ := rne (q / 2 ^ lastPlace q) * 2 ^ lastPlace q

theorem two_zpow_pos (e : ℤ) : (0 : ℚ) < 2 ^ e := by positivity

theorem roundNearest_int {q : ℚ} {k : ℤ} (h : q = k * 2 ^ lastPlace q) : roundNearest q = q := by
  unfold roundNearest
  have : q / 2 ^ lastPlace q = k := by
    rw [div_eq_iff (two_zpow_pos _).ne']
    exact h
  rw [this, rne_int, ← h]

theorem roundNearest_rep (k m : ℤ) (hk : |k| ≤ 2 ^ 53) (hm : -1074 ≤ m) :
    roundNearest (k * 2 ^ m) = k * 2 ^ m := by
  by_cases h0 : k = 0
  · subst h0
    simp [roundNearest, show rne (0 : ℚ) = 0 from rne_int 0]
  have hpos : (0 : ℚ) < |(k : ℚ) * 2 ^ m| := by
    rw [abs_pos]
    have : (k : ℚ) ≠ 0 := by exact_mod_cast h0
    exact mul_ne_zero this (two_zpow_pos m).ne'
  have habs : |(k : ℚ) * 2 ^ m| = |(k : ℚ)| * 2 ^ m := by rw [abs_mul, abs_of_pos (two_zpow_pos m)]
  have hkq : |(k : ℚ)| ≤ 2 ^ 53 := by exact_mod_cast hk
  have hlow := Int.zpow_log_le_self (b := 2) (by norm_num) hpos
  by_cases he : lastPlace (k * 2 ^ m) ≤ m
  · obtain ⟨d, hd⟩ : ∃ d : ℕ, m = lastPlace (k * 2 ^ m) + d := ⟨(m - lastPlace (k * 2 ^ m)).toNat, by omega⟩
    refine roundNearest_int (k := k * 2 ^ d) ?_
    push_cast
    conv_lhs => rw [hd]
    rw [zpow_add₀ (by norm_num), zpow_natCast]
    ring
  · have hlp : lastPlace (k * 2 ^ m) = Int.log 2 |(k : ℚ) * 2 ^ m| - 52 := by
      unfold lastPlace at he ⊢
      rcases max_choice (Int.log 2 |(k : ℚ) * 2 ^ m| - 52) (-1074) with e | e
      · exact e
      · rw [e] at he; omega
    have hlog : m + 53 ≤ Int.log 2 |(k : ℚ) * 2 ^ m| := by omega
    have h1 : (2 : ℚ) ^ (m + 53) ≤ |(k : ℚ)| * 2 ^ m := by
      rw [← habs]
      refine le_trans ?_ hlow
      exact_mod_cast zpow_le_zpow_right₀ (by norm_num : (1 : ℚ) ≤ 2) hlog
    have h2 : (2 : ℚ) ^ (m + 53) = 2 ^ 53 * 2 ^ m := by
      rw [zpow_add₀ (by norm_num)]
      norm_num
      ring
    rw [h2] at h1
    have h3 : (2 : ℚ) ^ 53 ≤ |(k : ℚ)| := le_of_mul_le_mul_right h1 (two_zpow_pos m)
    have h4 : |(k : ℚ)| = 2 ^ 53 := le_antisymm hkq h3
    have h5 : Int.log 2 |(k : ℚ) * 2 ^ m| = m + 53 := by
      rw [habs, h4, ← h2]
      exact_mod_cast Int.log_zpow (R := ℚ) (b := 2) (by norm_num) (m + 53)
    have h6 : lastPlace (k * 2 ^ m) = m + 1 := by rw [hlp, h5]; ring
    have h7 : |k| = 2 ^ 53 := by exact_mod_cast h4
    obtain ⟨c, hc⟩ : ∃ c, k = 2 * c := by
      rcases abs_choice k with e | e
      · exact ⟨2 ^ 52, by rw [← e, h7]; norm_num⟩
      · exact ⟨-2 ^ 52, by have : k = -|k| := by rw [e]; ring
                           rw [this, h7]; norm_num⟩
    refine roundNearest_int (k := c) ?_
    rw [h6, zpow_add₀ (by norm_num), hc]
    push_cast
    ring

theorem lastPlace_neg (q : ℚ) : lastPlace (-q) = lastPlace q := by simp [lastPlace]

theorem roundNearest_odd (q : ℚ) : roundNearest (-q) = -roundNearest q := by
  unfold roundNearest
  rw [lastPlace_neg, neg_div, rne_neg]
  push_cast
  ring

theorem roundNearest_nonneg {q : ℚ} (h : 0 ≤ q) : 0 ≤ roundNearest q := by
  unfold roundNearest
  have : rne 0 ≤ rne (q / 2 ^ lastPlace q) := rne_mono (div_nonneg h (two_zpow_pos _).le)
  rw [show rne 0 = 0 from rne_int 0] at this
  exact mul_nonneg (by exact_mod_cast this) (two_zpow_pos _).le

theorem roundNearest_mono_pos {x y : ℚ} (hx : 0 < x) (h : x ≤ y) : roundNearest x ≤ roundNearest y := by
  have hy : 0 < y := lt_of_lt_of_le hx h
  have hle : lastPlace x ≤ lastPlace y := by
    unfold lastPlace
    rw [abs_of_pos hx, abs_of_pos hy]
    have := Int.log_mono_right (b := 2) hx h
    exact max_le_max (by omega) (le_refl _)
  rcases hle.eq_or_lt with e | e
  · unfold roundNearest
    rw [e]
    have := rne_mono (div_le_div_of_nonneg_right h (two_zpow_pos (lastPlace y)).le)
    exact mul_le_mul_of_nonneg_right (by exact_mod_cast this) (two_zpow_pos _).le
  · -- a power of two lies between them
    have hly : lastPlace y = Int.log 2 y - 52 := by
      unfold lastPlace at e ⊢
      rw [abs_of_pos hy] at e ⊢
      rcases max_choice (Int.log 2 y - 52) (-1074) with e' | e'
      · exact e'
      · rw [e'] at e
        have := le_max_right (Int.log 2 |x| - 52) (-1074)
        omega
    have hlx : Int.log 2 x - 52 ≤ lastPlace x := by
      unfold lastPlace
      rw [abs_of_pos hx]
      exact le_max_left _ _
    have hxlt : x < 2 ^ (Int.log 2 x + 1) := by
      exact_mod_cast Int.lt_zpow_succ_log_self (b := 2) (by norm_num) x
    have hyge : (2 : ℚ) ^ Int.log 2 y ≤ y := by
      exact_mod_cast Int.zpow_log_le_self (b := 2) (by norm_num) hy
    have hmid : x ≤ 2 ^ Int.log 2 y :=
      hxlt.le.trans (zpow_le_zpow_right₀ (by norm_num) (by omega))
    obtain ⟨a, ha⟩ : ∃ a : ℕ, Int.log 2 y = lastPlace x + a := ⟨(Int.log 2 y - lastPlace x).toNat, by omega⟩
    have hb : Int.log 2 y = lastPlace y + 52 := by omega
    have h1 : roundNearest x ≤ 2 ^ Int.log 2 y := by
      unfold roundNearest
      have : x / 2 ^ lastPlace x ≤ ((2 ^ a : ℤ) : ℚ) := by
        rw [div_le_iff₀ (two_zpow_pos _)]
        push_cast
        refine hmid.trans (le_of_eq ?_)
        rw [ha, zpow_add₀ (by norm_num), zpow_natCast]
        ring
      have := rne_mono this
      rw [rne_int] at this
      have : (rne (x / 2 ^ lastPlace x) : ℚ) ≤ 2 ^ a := by exact_mod_cast this
      refine (mul_le_mul_of_nonneg_right this (two_zpow_pos _).le).trans (le_of_eq ?_)
      rw [ha, zpow_add₀ (by norm_num), zpow_natCast]
      ring
    have h2 : (2 : ℚ) ^ Int.log 2 y ≤ roundNearest y := by
      unfold roundNearest
      have : ((2 ^ 52 : ℤ) : ℚ) ≤ y / 2 ^ lastPlace y := by
        rw [le_div_iff₀ (two_zpow_pos _)]
        push_cast
        refine le_trans (le_of_eq ?_) hyge
        rw [hb, zpow_add₀ (by norm_num)]
        norm_num
        ring
      have := rne_mono this
      rw [rne_int] at this
      have : ((2 : ℚ) ^ 52) ≤ rne (y / 2 ^ lastPlace y) := by exact_mod_cast this
      refine le_trans (le_of_eq ?_) (mul_le_mul_of_nonneg_right this (two_zpow_pos _).le)
      rw [hb, zpow_add₀ (by norm_num)]
      norm_num
      ring
    exact h1.trans h2

theorem roundNearest_mono (x y : ℚ) (h : x ≤ y) : roundNearest x ≤ roundNearest y := by
  rcases lt_trichotomy 0 x with hx | hx | hx
  · exact roundNearest_mono_pos hx h
  · have h0 := roundNearest_rep 0 0 (by norm_num) (by norm_num)
    have h0 : roundNearest 0 = 0 := by simpa using h0
    rw [← hx, h0]
    exact roundNearest_nonneg (by linarith)
  · rcases lt_or_ge y 0 with hy | hy
    · have := roundNearest_mono_pos (x := -y) (y := -x) (by linarith) (by linarith)
      rw [roundNearest_odd, roundNearest_odd] at this
      linarith
    · have h1 := roundNearest_nonneg (q := -x) (by linarith)
      rw [roundNearest_odd] at h1
      have h2 := roundNearest_nonneg hy
      linarith

theorem roundNearest_idem (q : ℚ) : roundNearest (roundNearest q) = roundNearest q := by
  refine roundNearest_rep _ _ ?_ (le_max_right _ _)
  have h : |q / 2 ^ lastPlace q| ≤ ((2 ^ 53 : ℤ) : ℚ) := by
    rw [abs_div, abs_of_pos (two_zpow_pos _), div_le_iff₀ (two_zpow_pos _)]
    have h1 : |q| < 2 ^ (Int.log 2 |q| + 1) := by
      exact_mod_cast Int.lt_zpow_succ_log_self (b := 2) (by norm_num) |q|
    have h2 : Int.log 2 |q| - 52 ≤ lastPlace q := le_max_left _ _
    have h3 : (2 : ℚ) ^ (Int.log 2 |q| + 1) ≤ 2 ^ (53 + lastPlace q) :=
      zpow_le_zpow_right₀ (by norm_num) (by omega)
    have h4 : (2 : ℚ) ^ (53 + lastPlace q) = 2 ^ 53 * 2 ^ lastPlace q := by
      rw [zpow_add₀ (by norm_num)]
      rfl
    push_cast
    linarith
  obtain ⟨h1, h2⟩ := abs_le.mp h
  have e1 := rne_mono h2
  have e2 : rne (-((2 ^ 53 : ℤ) : ℚ)) ≤ _ := rne_mono h1
  rw [rne_int] at e1
  rw [rne_neg, rne_int] at e2
  exact abs_le.mpr ⟨e2, e1⟩

/-- The rounding of the machine. -/
def nearestEven : Rounding :=
  ⟨roundNearest, roundNearest_mono, roundNearest_odd, roundNearest_rep, roundNearest_idem⟩

/-- No rounding at all. -/
def exactly : Rounding := ⟨id, fun _ _ h => h, fun _ => rfl, fun _ _ _ _ => rfl, fun _ => rfl⟩

end Verif
