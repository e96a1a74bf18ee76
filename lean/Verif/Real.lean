import Verif.F64
import Mathlib.Data.Real.Archimedean
import Mathlib.Analysis.SpecialFunctions.Log.Basic
import Mathlib.Analysis.Complex.ExponentialBounds

/-!
# Exact real arithmetic

The temperature schedules use `exp` and `ln`, so their numeric theorems are stated over `ℝ`. As for `ℚ`,
the infinities are represented by the finite numbers `2 ^ 1024` and `2 ^ 1023`.
-/

namespace Verif
namespace F64

/-- Round half away from zero on the reals. -/
noncomputable def realRound (q : ℝ) : ℝ := if 0 ≤ q then (⌊q + 1/2⌋ : ℝ) else -(⌊-q + 1/2⌋ : ℝ)

noncomputable instance : F64 ℝ where
  add := (· + ·)
  sub := (· - ·)
  mul := (· * ·)
  div := (· / ·)
  neg := (- ·)
  abs q := |q|
  max := Max.max
  min := Min.min
  lt a b := decide (a < b)
  le a b := decide (a ≤ b)
  lit q := (q : ℝ)
  inf := 2 ^ 1024
  maxv := 2 ^ 1023
  round := realRound
  ceilNat q := ⌈q⌉.toNat
  toNat q := ⌊q⌋.toNat

section simp
variable (a b : ℝ)
@[simp] theorem real_add : a +. b = a + b := rfl
@[simp] theorem real_sub : a -. b = a - b := rfl
@[simp] theorem real_mul : a *. b = a * b := rfl
@[simp] theorem real_div : a /. b = a / b := rfl
@[simp] theorem real_neg : F64.neg a = -a := rfl
@[simp] theorem real_lt : (a <. b) = decide (a < b) := rfl
@[simp] theorem real_le : (a ≤. b) = decide (a ≤ b) := rfl
@[simp] theorem real_lit (q : ℚ) : (F64.lit q : ℝ) = (q : ℝ) := rfl
@[simp] theorem real_approxLt : approxLt a b = decide (a < b - 1 / 1000000) := by
  have : (eps : ℝ) = 1 / 1000000 := by
    simp only [eps, real_lit]; norm_num
  simp [approxLt, this]
end simp

end F64
end Verif
