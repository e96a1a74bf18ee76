import Verif.Double

/-! # Laws of double precision that hold for all numbers, the infinities and NaN included

They are what remains of the laws of a field; the table of special values in `Verif.Double` has to satisfy
them. -/

namespace Verif
open F64

variable {ρ : Rounding}

namespace Dbl

theorem ofRat_neg (q : ℚ) : (ofRat (-q) : Dbl ρ) = neg (ofRat q) := by
  have hl : (0 : ℚ) < limit := by unfold limit; positivity
  unfold ofRat
  rw [ρ.odd]
  by_cases h1 : limit ≤ ρ.fl q
  · rw [if_pos h1, if_neg (by linarith), if_pos (by linarith)]; rfl
  · rw [if_neg h1]
    by_cases h2 : ρ.fl q ≤ -limit
    · rw [if_pos h2, if_pos (by linarith)]; rfl
    · rw [if_neg h2, if_neg (by linarith), if_neg (by linarith)]; rfl

/-- Sums and products do not depend on the order of the two numbers. -/
theorem add_comm (x y : Dbl ρ) : x +. y = y +. x := by
  show add x y = add y x
  cases x <;> cases y <;> simp only [add]
  case inf.inf a b => cases a <;> cases b <;> rfl
  case fin.fin a b => rw [_root_.add_comm]

theorem mul_comm (x y : Dbl ρ) : x *. y = y *. x := by
  show mul x y = mul y x
  cases x <;> cases y <;> simp only [mul]
  case inf.inf a b => cases a <;> cases b <;> rfl
  case fin.fin a b => rw [_root_.mul_comm]
  case inf.fin a q => cases a <;> cases decide (q < 0) <;> rfl
  case fin.inf q a => cases a <;> cases decide (q < 0) <;> rfl

/-- The sign can be drawn out of a sum and of a product. -/
theorem neg_add (x y : Dbl ρ) : F64.neg (x +. y) = F64.neg x +. F64.neg y := by
  show neg (add x y) = add (neg x) (neg y)
  cases x <;> cases y <;> simp only [add, neg]
  case inf.inf a b => cases a <;> cases b <;> rfl
  case fin.fin a b => rw [show -a + -b = -(a + b) by ring, ofRat_neg]; rfl

theorem neg_mul (x y : Dbl ρ) : F64.neg (x *. y) = F64.neg x *. y := by
  show neg (mul x y) = mul (neg x) y
  cases x <;> cases y <;> simp only [mul, neg]
  case inf.inf a b => cases a <;> cases b <;> rfl
  case inf.fin a q =>
    by_cases h : q = 0
    · simp [h]
    · simp only [if_neg h]
      cases a <;> cases decide (q < 0) <;> rfl
  case fin.inf q a =>
    rcases lt_trichotomy q 0 with h | h | h
    · rw [if_neg h.ne, if_neg (by simpa using h.ne), decide_eq_true h, decide_eq_false (by linarith)]
      cases a <;> rfl
    · subst h; simp
    · rw [if_neg h.ne', if_neg (by simpa using h.ne'), decide_eq_false (by linarith), decide_eq_true (by linarith)]
      cases a <;> rfl
  case fin.fin a b => rw [show -a * b = -(a * b) by ring, ofRat_neg]; rfl

theorem neg_neg (x : Dbl ρ) : F64.neg (F64.neg x) = x := by
  show neg (neg x) = x
  cases x <;> simp [neg]

/-- A number minus itself is 0 if it is finite, and NaN otherwise. -/
theorem sub_self (x : Dbl ρ) : ((∃ q, x = fin q) → x -. x = fin 0) ∧ ((¬ ∃ q, x = fin q) → x -. x = nan) := by
  show (_ → add x (neg x) = _) ∧ (_ → add x (neg x) = _)
  cases x with
  | nan => simp [add]
  | inf a => cases a <;> simp [add, neg]
  | fin q =>
    refine ⟨fun _ => ?_, fun h => absurd ⟨q, rfl⟩ h⟩
    simp only [add, neg, add_neg_cancel]
    exact lit_zero

/-- Zero times a number is 0 if it is finite, and NaN otherwise. -/
theorem zero_mul (x : Dbl ρ) :
    ((∃ q, x = fin q) → fin 0 *. x = fin 0) ∧ ((¬ ∃ q, x = fin q) → fin 0 *. x = nan) := by
  show (_ → mul (fin 0) x = _) ∧ (_ → mul (fin 0) x = _)
  cases x with
  | nan => simp [mul]
  | inf a => simp [mul]
  | fin q =>
    refine ⟨fun _ => ?_, fun h => absurd ⟨q, rfl⟩ h⟩
    simp only [mul, MulZeroClass.zero_mul]
    exact lit_zero

/-- A number over itself is NaN exactly for 0, the infinities and NaN. -/
theorem div_self_nan (x : Dbl ρ) : x /. x = nan ↔ x = fin 0 ∨ ¬ ∃ q, x = fin q := by
  show div x x = nan ↔ _
  cases x with
  | nan => simp [div]
  | inf a => simp [div]
  | fin q =>
    simp only [div]
    by_cases h : q = 0
    · simp [h]
    · rw [if_neg h, div_self h]
      have : (ofRat 1 : Dbl ρ) = fin 1 := by
        have := ofRat_int (ρ := ρ) (k := 1) (by norm_num)
        simpa using this
      rw [this]
      simp [h]

/-- `<` is `<=` without the converse, and two numbers are comparable unless one is NaN. -/
theorem lt_iff (x y : Dbl ρ) : (x <. y) = ((x ≤. y) && !(y ≤. x)) := by
  show lt x y = (le x y && !(le y x))
  cases x <;> cases y <;> simp only [lt, le]
  all_goals try rfl
  case inf.inf a b => cases a <;> cases b <;> rfl
  case inf.fin a q => cases a <;> rfl
  case fin.inf q a => cases a <;> rfl
  case fin.fin a b => rw [← decide_not, ← Bool.decide_and]; congr 1; rw [not_le, eq_iff_iff]; constructor
                      · exact fun h => ⟨h.le, h⟩
                      · exact fun h => h.2

theorem le_total (x y : Dbl ρ) : ((x ≤. y) || (y ≤. x)) = decide (x ≠ nan ∧ y ≠ nan) := by
  show (le x y || le y x) = _
  cases x <;> cases y <;> simp only [le]
  all_goals try simp
  case inf.inf a b => cases a <;> cases b <;> simp
  case fin.fin a b => exact _root_.le_total a b

theorem le_trans {x y z : Dbl ρ} (h1 : (x ≤. y) = true) (h2 : (y ≤. z) = true) : (x ≤. z) = true := by
  change le x y = true at h1
  change le y z = true at h2
  show le x z = true
  cases x <;> cases y <;> cases z <;> simp only [le] at h1 h2 ⊢
  all_goals try simp at h1
  all_goals try simp at h2
  all_goals try simp_all
  case inf.inf.inf a b c => cases a <;> cases b <;> cases c <;> simp_all
  case fin.fin.fin a b c => exact h1.trans h2

/-- `max` and `min` bound both numbers, and ignore NaN. -/
theorem max_min (x y : Dbl ρ) : (x = nan → F64.max x y = y ∧ F64.min x y = y) ∧
    (y = nan → F64.max x y = x ∧ F64.min x y = x) ∧
    (x ≠ nan → y ≠ nan → (x ≤. F64.max x y) = true ∧ (y ≤. F64.max x y) = true ∧
      (F64.min x y ≤. x) = true ∧ (F64.min x y ≤. y) = true) := by
  have hle : ∀ z : Dbl ρ, z ≠ nan → le z z = true := by
    intro z hz
    cases z with
    | nan => exact absurd rfl hz
    | inf a => cases a <;> rfl
    | fin q => simp [le]
  have htot : ∀ a b : Dbl ρ, a ≠ nan → b ≠ nan → (lt a b = true → le a b = true) ∧ (¬ lt a b = true → le b a = true) := by
    intro a b ha hb
    have t := le_total a b
    have l := lt_iff a b
    rw [decide_eq_true ⟨ha, hb⟩] at t
    change (le a b || le b a) = true at t
    change lt a b = (le a b && !(le b a)) at l
    rw [l]
    generalize le a b = u at *
    generalize le b a = v at *
    cases u <;> cases v <;> simp_all
  refine ⟨?_, ?_, ?_⟩
  · rintro rfl; exact ⟨rfl, rfl⟩
  · rintro rfl
    cases x <;> exact ⟨rfl, rfl⟩
  · intro hx hy
    have e1 : F64.max x y = if lt x y then y else x := by
      show max x y = _
      cases x <;> cases y <;> first | rfl | exact absurd rfl hx
    have e2 : F64.min x y = if lt y x then y else x := by
      show min x y = _
      cases x <;> cases y <;> first | rfl | exact absurd rfl hx
    rw [e1, e2]
    change le x _ = true ∧ le y _ = true ∧ le _ x = true ∧ le _ y = true
    obtain ⟨t1, t2⟩ := htot x y hx hy
    obtain ⟨t3, t4⟩ := htot y x hy hx
    refine ⟨?_, ?_, ?_, ?_⟩
    · split
      · next h => exact t1 h
      · exact hle x hx
    · split
      · exact hle y hy
      · next h => exact t2 h
    · split
      · next h => exact t3 h
      · exact hle x hx
    · split
      · exact hle y hy
      · next h => exact t4 h

end Dbl
end Verif
