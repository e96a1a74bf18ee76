import Mathlib.Data.Rat.Floor
import Mathlib.Tactic.Linarith
import Mathlib.Tactic.Ring
import Mathlib.Tactic.NormNum
import Mathlib.Algebra.Order.Field.Basic

/-!
# The arithmetic the code uses

`F64 α` lists the operations on `f64` that occur in `/repo/src`. The class carries **no laws**: a
theorem proved for every `F64 α` holds for any behaviour of the arithmetic (rounding, NaN, infinities).
The instance on `ℚ` is exact arithmetic; `f64::INFINITY` is represented there by the
number `2 ^ 1024` and `f64::MAX` by `2 ^ 1023` (simplification: finite stand-ins).
-/

namespace Verif

/-- The `f64` operations used by the code; no laws are assumed. -/
class F64 (α : Type) where
  add : α → α → α
  sub : α → α → α
  mul : α → α → α
  div : α → α → α
  protected neg : α → α
  protected abs : α → α
  protected max : α → α → α
  protected min : α → α → α
  lt : α → α → Bool
  le : α → α → Bool
  /-- literals -/
  lit : ℚ → α
  inf : α
  maxv : α
  /-- `f64::round` (half away from zero) -/
  protected round : α → α
  /-- `f64::ceil` followed by an integer cast -/
  ceilNat : α → ℕ
  /-- `x as usize` (truncation, saturating at 0) -/
  toNat : α → ℕ

namespace F64

scoped infixl:65 " +. " => F64.add
scoped infixl:65 " -. " => F64.sub
scoped infixl:70 " *. " => F64.mul
scoped infixl:70 " /. " => F64.div
scoped infix:50 " <. " => F64.lt
scoped infix:50 " ≤. " => F64.le

/-- Round half away from zero on the rationals. -/
def ratRound (q : ℚ) : ℚ := if 0 ≤ q then (⌊q + 1/2⌋ : ℚ) else -(⌊-q + 1/2⌋ : ℚ)

instance : F64 ℚ where
  add := (· + ·)
  sub := (· - ·)
  mul := (· * ·)
  div := (· / ·)
  neg := (- ·)
  abs q := |q|
  max := Max.max
  min := Min.min
  lt a b := decide (a < b)
  le a b := decide (a ≤ b)
  lit := id
  inf := 2 ^ 1024
  maxv := 2 ^ 1023
  round := ratRound
  ceilNat q := ⌈q⌉.toNat
  toNat q := ⌊q⌋.toNat

section simp
variable (a b : ℚ)
@[simp] theorem rat_add : a +. b = a + b := rfl
@[simp] theorem rat_sub : a -. b = a - b := rfl
@[simp] theorem rat_mul : a *. b = a * b := rfl
@[simp] theorem rat_div : a /. b = a / b := rfl
@[simp] theorem rat_neg : F64.neg a = -a := rfl
@[simp] theorem rat_abs : F64.abs a = |a| := rfl
@[simp] theorem rat_max : F64.max a b = Max.max a b := rfl
@[simp] theorem rat_min : F64.min a b = Min.min a b := rfl
@[simp] theorem rat_lt : (a <. b) = decide (a < b) := rfl
@[simp] theorem rat_le : (a ≤. b) = decide (a ≤ b) := rfl
@[simp] theorem rat_lit : (F64.lit a : ℚ) = a := rfl
@[simp] theorem rat_inf : (F64.inf : ℚ) = 2 ^ 1024 := rfl
@[simp] theorem rat_maxv : (F64.maxv : ℚ) = 2 ^ 1023 := rfl
@[simp] theorem rat_round : F64.round a = ratRound a := rfl
@[simp] theorem rat_ceilNat : F64.ceilNat a = ⌈a⌉.toNat := rfl
@[simp] theorem rat_toNat : F64.toNat a = ⌊a⌋.toNat := rfl
end simp

variable {α : Type} [F64 α]

/-- `EPSILON`; models `/repo/src/utils/comparison.rs:3`. -/
def eps : α := lit 0.000001

/-- `approx_lt`; models `/repo/src/utils/comparison.rs:15-17`. -/
def approxLt (a b : α) : Bool := a <. b -. eps

/-- `approx_eq`; models `/repo/src/utils/comparison.rs:31-33`. -/
def approxEq (a b : α) : Bool := F64.abs (a -. b) <. eps

/-- `approx_lte`; models `/repo/src/utils/comparison.rs:19-21`. -/
def approxLte (a b : α) : Bool := a <. b || approxEq a b

/-- `approx_gt` (`a > b + EPSILON`); models `/repo/src/utils/comparison.rs:23-25`. -/
def approxGt (a b : α) : Bool := b +. eps <. a

/-- `approx_gte` (`a > b || approx_eq`); models `/repo/src/utils/comparison.rs:27-29`. -/
def approxGte (a b : α) : Bool := b <. a || approxEq a b

@[simp] theorem rat_eps : (eps : ℚ) = 1 / 1000000 := by
  simp only [eps, rat_lit]; norm_num
@[simp] theorem rat_approxLt (a b : ℚ) : approxLt a b = decide (a < b - 1 / 1000000) := by
  simp [approxLt]
@[simp] theorem rat_approxGt (a b : ℚ) : approxGt a b = decide (b + 1 / 1000000 < a) := by
  simp [approxGt]
@[simp] theorem rat_approxEq (a b : ℚ) : approxEq a b = decide (|a - b| < 1 / 1000000) := by
  simp [approxEq]
@[simp] theorem rat_approxLte (a b : ℚ) :
    approxLte a b = decide (a < b ∨ |a - b| < 1 / 1000000) := by
  simp [approxLte]
@[simp] theorem rat_approxGte (a b : ℚ) :
    approxGte a b = decide (b < a ∨ |a - b| < 1 / 1000000) := by
  simp [approxGte]

end F64
end Verif
