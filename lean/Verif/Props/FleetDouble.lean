import Verif.Lemmas.DblFleet

/-!
# C96: the size of the fleet in double precision, for every instance
-/

namespace Verif
open F64 Dbl

variable {ρ : Rounding}

/-- Numbers up to `2 ^ 66` lose at most `2 ^ 13`. -/
theorem Rounding.low {x : ℚ} (h0 : 0 ≤ x) (h : x ≤ 2 ^ 66) : x - 2 ^ 13 ≤ ρ.fl x := by
  have f0 := Int.floor_le (x / 2 ^ 13)
  have f1 := Int.lt_floor_add_one (x / 2 ^ 13)
  have k0 : 0 ≤ ⌊x / 2 ^ 13⌋ := Int.floor_nonneg.mpr (by positivity)
  have k1 : ⌊x / 2 ^ 13⌋ ≤ 2 ^ 53 := by
    have : (⌊x / 2 ^ 13⌋ : ℚ) ≤ 2 ^ 53 := f0.trans (by rw [div_le_iff₀ (by norm_num)]; linarith)
    exact_mod_cast this
  have r := ρ.rep ⌊x / 2 ^ 13⌋ 13 (by rw [abs_of_nonneg k0]; exact k1) (by norm_num)
  rw [show ((2 : ℚ) ^ (13 : ℤ)) = 2 ^ 13 by norm_num] at r
  have m := ρ.mono (⌊x / 2 ^ 13⌋ * 2 ^ 13) x (by rw [le_div_iff₀ (by norm_num)] at f0; exact f0)
  rw [r] at m
  rw [div_lt_iff₀ (by norm_num)] at f1
  linarith

/-- A cast to 64 bits gives 64 bits. -/
theorem ceilNat_lt (x : Dbl ρ) : ceilNat x < 2 ^ 64 := by
  cases x with
  | nan => show 0 < 2 ^ 64; norm_num
  | inf a => show (if a then 0 else 2 ^ 64 - 1) < 2 ^ 64; split <;> norm_num
  | fin x =>
    show sat ⌈x⌉ < 2 ^ 64
    unfold sat
    omega

/-- What the code needs of a fleet: tables with cells, not fewer vehicles than the loads take, and `num_vehicles + 1`
(`/repo/src/solver/genetic/split.rs:106`) a number of 64 bits. -/
def Spec.UsableFleet (bound fleet : ℕ) : Prop := 2 ≤ fleet ∧ bound ≤ fleet ∧ fleet + 1 < 2 ^ 64

/-- **C96**. For every instance, whatever its demands and its capacity are (negative, infinite, not a number): the fleet
is a 64-bit number, has at least two vehicles and not fewer than the lower bound. Missing from `Spec.UsableFleet` is
that the next number has 64 bits, too; `C96_usable_partial` has it for lower bounds up to `2 ^ 63`, and
`C96_fleet_refuted` is an instance without. -/
theorem C96_fleet_partial (ctx : Ctx (Dbl ρ)) :
    2 ≤ initialNumVehicles ctx ∧ vehicleLowerBound ctx ≤ initialNumVehicles ctx ∧ initialNumVehicles ctx < 2 ^ 64 := by
  have hv : vehicleLowerBound ctx < 2 ^ 64 := ceilNat_lt _
  refine ⟨?_, ?_, ceilNat_lt _⟩
  all_goals
    unfold initialNumVehicles
    generalize vehicleLowerBound ctx = v at *
    have v0 : (0 : ℚ) ≤ v := Nat.cast_nonneg _
    have v1 : (v : ℚ) ≤ 2 ^ 64 := by exact_mod_cast hv.le
    have r1 : (9 / 8 : ℚ) ≤ ρ.fl (6 / 5) := by
      have r := ρ.rep 9 (-3) (by norm_num) (by norm_num)
      have m := ρ.mono (9 / 8) (6 / 5) (by norm_num)
      norm_num at r
      rwa [r] at m
    have r2 : ρ.fl (6 / 5) ≤ 2 := by
      have := ρ.le_nat (x := 6 / 5) (k := 2) (by norm_num) (by norm_num)
      exact_mod_cast this
    have l1 : (lit 1.2 : Dbl ρ) = fin (ρ.fl (6 / 5)) := by
      rw [show (1.2 : ℚ) = 6 / 5 by norm_num]
      exact ofRat_le (m := 1) (by norm_num) (by rw [abs_of_nonneg (by norm_num)]; norm_num)
    have l2 : (lit (v : ℚ) : Dbl ρ) = fin (ρ.fl v) :=
      ofRat_le (m := 64) (by norm_num) (by rw [abs_of_nonneg v0]; exact v1)
    have l3 : (lit 2 : Dbl ρ) = fin 2 := by
      have := ofRat_nat (ρ := ρ) (k := 2) (by norm_num)
      exact_mod_cast this
    have w0 := ρ.nonneg v0
    have w1 := ρ.le_pow v1
    have w2 := ρ.low v0 (v1.trans (by norm_num))
    have w3 : v ≤ 2 ^ 53 → ρ.fl v = v := fun h => ρ.nat h
    generalize ρ.fl (6 / 5) = f at *
    generalize ρ.fl v = w at *
    have p0 : 0 ≤ f * w := mul_nonneg (by linarith) w0
    have p1 : f * w ≤ 2 ^ 65 := by nlinarith
    have p2 : 9 / 8 * w ≤ f * w := mul_le_mul_of_nonneg_right r1 w0
    have q0 := ρ.nonneg p0
    have q1 := ρ.le_pow p1
    have q2 := ρ.low p0 (p1.trans (by norm_num))
    rw [l1, l2, l3, mul_fin, ofRat_le (m := 65) (by norm_num) (by rw [abs_of_nonneg p0]; exact p1), add_fin]
    have s1 : ρ.fl (f * w) + 2 ≤ 2 ^ 66 := by norm_num at q1 ⊢; linarith
    rw [ofRat_le (m := 66) (by norm_num) (by rw [abs_of_nonneg (by linarith)]; exact s1)]
    show _ ≤ sat ⌈ρ.fl (ρ.fl (f * w) + 2)⌉
    have t2 := ρ.low (x := ρ.fl (f * w) + 2) (by linarith) s1
    have t3 : (2 : ℚ) ≤ ρ.fl (ρ.fl (f * w) + 2) := by
      have := ρ.nat_le (x := ρ.fl (f * w) + 2) (k := 2) (by norm_num) (by push_cast; linarith)
      exact_mod_cast this
    have t4 : (v : ℚ) ≤ ρ.fl (ρ.fl (f * w) + 2) := by
      rcases Nat.lt_or_ge (2 ^ 53) v with h | h
      · norm_num at w2 q2 t2
        have : (9007199254740992 : ℚ) ≤ v := by exact_mod_cast h.le
        linarith
      · have e := w3 h
        have := ρ.nat_le (x := f * w) h (by rw [e] at p2 ⊢; linarith)
        exact ρ.nat_le h (by linarith)
    generalize ρ.fl (ρ.fl (f * w) + 2) = y at *
    have c2 : (2 : ℤ) ≤ ⌈y⌉ := by
      have := t3.trans (Int.le_ceil y)
      exact_mod_cast this
    have c4 : (v : ℤ) ≤ ⌈y⌉ := by
      have := t4.trans (Int.le_ceil y)
      exact_mod_cast this
    unfold sat
    omega

/-- The tables of `Split` have `(fleet + 1) * n` cells and that of the local search `fleet * n`: never none. -/
theorem C96_tables (ctx : Ctx (Dbl ρ)) (hn : 0 < ctx.n) :
    0 < (initialNumVehicles ctx + 1) * ctx.n ∧ 0 < initialNumVehicles ctx * ctx.n :=
  ⟨Nat.mul_pos (by omega) hn, Nat.mul_pos (by have := C96_fleet_partial ctx; omega) hn⟩

/-- **C96** in full, if the lower bound is at most `2 ^ 63`. -/
theorem C96_usable_partial (ctx : Ctx (Dbl ρ)) (hb : vehicleLowerBound ctx ≤ 2 ^ 63) :
    Spec.UsableFleet (vehicleLowerBound ctx) (initialNumVehicles ctx) := by
  obtain ⟨h1, h2, -⟩ := C96_fleet_partial ctx
  refine ⟨h1, h2, ?_⟩
  unfold initialNumVehicles
  generalize vehicleLowerBound ctx = v at *
  have v0 : (0 : ℚ) ≤ v := Nat.cast_nonneg _
  have v1 : (v : ℚ) ≤ 2 ^ 63 := by exact_mod_cast hb
  have r0 : 0 ≤ ρ.fl (6 / 5) := ρ.nonneg (by norm_num)
  have r2 : ρ.fl (6 / 5) ≤ 5 / 4 := by
    have r := ρ.rep 5 (-2) (by norm_num) (by norm_num)
    have m := ρ.mono (6 / 5) (5 / 4) (by norm_num)
    norm_num at r
    rwa [r] at m
  have l1 : (lit 1.2 : Dbl ρ) = fin (ρ.fl (6 / 5)) := by
    rw [show (1.2 : ℚ) = 6 / 5 by norm_num]
    exact ofRat_le (m := 1) (by norm_num) (by rw [abs_of_nonneg (by norm_num)]; norm_num)
  have l2 : (lit (v : ℚ) : Dbl ρ) = fin (ρ.fl v) :=
    ofRat_le (m := 63) (by norm_num) (by rw [abs_of_nonneg v0]; exact v1)
  have l3 : (lit 2 : Dbl ρ) = fin 2 := by
    have := ofRat_nat (ρ := ρ) (k := 2) (by norm_num)
    exact_mod_cast this
  have w0 := ρ.nonneg v0
  have w1 := ρ.le_pow v1
  generalize ρ.fl (6 / 5) = f at *
  generalize ρ.fl v = w at *
  have grid : ∀ (k : ℕ) (x : ℚ), k ≤ 2 ^ 53 → x ≤ k * 2 ^ 60 → ρ.fl x ≤ k * 2 ^ 60 := by
    intro k x hk hx
    have := ρ.mono _ _ hx
    rwa [ρ.mul_two_pow hk] at this
  have p0 : 0 ≤ f * w := mul_nonneg r0 w0
  have p1 : f * w ≤ (10 : ℕ) * 2 ^ 60 := by
    have : f * w ≤ 5 / 4 * 2 ^ 63 := mul_le_mul r2 w1 w0 (by norm_num)
    norm_num at this ⊢
    linarith
  have q0 := ρ.nonneg p0
  have q1 := grid 10 _ (by norm_num) p1
  rw [l1, l2, l3, mul_fin, ofRat_le (m := 64) (by norm_num) (by
    rw [abs_of_nonneg p0]; norm_num at p1 ⊢; linarith), add_fin]
  have s1 : ρ.fl (f * w) + 2 ≤ (11 : ℕ) * 2 ^ 60 := by norm_num at q1 ⊢; linarith
  rw [ofRat_le (m := 64) (by norm_num) (by rw [abs_of_nonneg (by linarith)]; norm_num at s1 ⊢; linarith)]
  show sat ⌈ρ.fl (ρ.fl (f * w) + 2)⌉ + 1 < 2 ^ 64
  have t1 := grid 11 _ (by norm_num) s1
  have c1 : ⌈ρ.fl (ρ.fl (f * w) + 2)⌉ ≤ 11 * 2 ^ 60 := by
    rw [Int.ceil_le]
    norm_num at t1 ⊢
    linarith
  unfold sat
  omega

/-- **C96** fails for every instance with a load and capacity zero: the fleet is the largest 64-bit number. -/
theorem C96_no_capacity (ctx : Ctx (Dbl ρ)) (t : ℚ) (ht : totalDemand ctx = fin t) (h0 : 0 < t)
    (hc : ctx.cap = fin 0) : initialNumVehicles ctx = 2 ^ 64 - 1 := by
  have hv : vehicleLowerBound ctx = 2 ^ 64 - 1 := by
    unfold vehicleLowerBound
    rw [ht, hc]
    have : (fin t : Dbl ρ) /. fin 0 = .inf false := by
      show (if (0 : ℚ) = 0 then (if t = 0 then nan else .inf (decide (t < 0))) else ofRat (t / 0)) = _
      rw [if_pos rfl, if_neg h0.ne', decide_eq_false (not_lt.mpr h0.le)]
    rw [this]
    rfl
  have := C96_fleet_partial ctx
  omega

end Verif
