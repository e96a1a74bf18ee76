import Verif.Props.ScheduleDouble

/-!
# C27: the cooling curve in double precision
-/

namespace Verif
open F64 Dbl

namespace Spec

/-- What is asked of `f64::exp` between -2 and 0: it returns the numbers `f`, never falls, is at most 1 at 0, and at -2 not
below the constant the code subtracts there. -/
structure ExpOK {ρ : Rounding} (exp : Dbl ρ → Dbl ρ) (f : ℚ → ℚ) : Prop where
  eq : ∀ q, -2 ≤ q → q ≤ 0 → exp (fin q) = fin (f q)
  mono : ∀ p q, -2 ≤ p → p ≤ q → q ≤ 0 → f p ≤ f q
  one : f 0 ≤ 1
  low : ρ.fl 0.1353352832366127 ≤ f (-2)

end Spec

section

variable {ρ : Rounding}

/-- The temperature at time `τ`, start temperature `s`, as a number. -/
def coolQ (ρ : Rounding) (f : ℚ → ℚ) (s τ : ℚ) : ℚ :=
  ρ.fl (ρ.fl (f (ρ.fl (τ * -2)) - ρ.fl (τ * ρ.fl 0.1353352832366127)) * s)

theorem minQ_pos (ρ : Rounding) : 0 ≤ ρ.fl 0.1353352832366127 := ρ.nonneg (by norm_num)

theorem arg_range {τ : ℚ} (h0 : 0 ≤ τ) (h1 : τ ≤ 1) : -2 ≤ ρ.fl (τ * -2) ∧ ρ.fl (τ * -2) ≤ 0 := by
  have a := ρ.mono (-2) (τ * -2) (by linarith)
  have b := ρ.mono (τ * -2) 0 (by linarith)
  have c := ρ.int (k := -2) (by norm_num)
  norm_num at c
  rw [ρ.zero] at b
  rw [c] at a
  exact ⟨a, b⟩

section
variable {exp : Dbl ρ → Dbl ρ} {f : ℚ → ℚ} (he : Spec.ExpOK exp f) {s : ℚ} (hs : 0 ≤ s)
include he hs

omit hs in
theorem inner_range {τ : ℚ} (h0 : 0 ≤ τ) (h1 : τ ≤ 1) :
    0 ≤ f (ρ.fl (τ * -2)) - ρ.fl (τ * ρ.fl 0.1353352832366127) ∧
    f (ρ.fl (τ * -2)) - ρ.fl (τ * ρ.fl 0.1353352832366127) ≤ 1 := by
  have hm := minQ_pos ρ
  obtain ⟨a1, a2⟩ := arg_range h0 h1
  have b1 := he.mono _ _ le_rfl a1 a2
  have b2 := he.mono _ _ a1 a2 le_rfl
  have c := ρ.mono (τ * ρ.fl 0.1353352832366127) (ρ.fl 0.1353352832366127) (by nlinarith)
  rw [ρ.idem] at c
  have d := ρ.nonneg (x := τ * ρ.fl 0.1353352832366127) (by positivity)
  have := he.one
  have := he.low
  constructor <;> linarith

theorem coolQ_range (hf : ρ.fl s = s) {τ : ℚ} (h0 : 0 ≤ τ) (h1 : τ ≤ 1) : 0 ≤ coolQ ρ f s τ ∧ coolQ ρ f s τ ≤ s := by
  obtain ⟨a, b⟩ := inner_range he h0 h1
  have c := ρ.nonneg a
  have d := ρ.le_nat (k := 1) (by norm_num) (by exact_mod_cast b)
  refine ⟨ρ.nonneg (mul_nonneg c hs), ?_⟩
  have := ρ.mono _ s (show ρ.fl (f (ρ.fl (τ * -2)) - ρ.fl (τ * ρ.fl 0.1353352832366127)) * s ≤ s by
    have : ρ.fl (f (ρ.fl (τ * -2)) - ρ.fl (τ * ρ.fl 0.1353352832366127)) ≤ 1 := by exact_mod_cast d
    nlinarith)
  rwa [hf] at this

theorem coolQ_anti {σ τ : ℚ} (h0 : 0 ≤ σ) (h : σ ≤ τ) (h1 : τ ≤ 1) : coolQ ρ f s τ ≤ coolQ ρ f s σ := by
  have hm := minQ_pos ρ
  have a := ρ.mono (τ * -2) (σ * -2) (by linarith)
  have b := he.mono _ _ (arg_range (h0.trans h) h1).1 a (arg_range h0 (h.trans h1)).2
  have c := ρ.mono (σ * ρ.fl 0.1353352832366127) (τ * ρ.fl 0.1353352832366127) (mul_le_mul_of_nonneg_right h hm)
  exact ρ.mono _ _ (mul_le_mul_of_nonneg_right (ρ.mono _ _ (by linarith)) hs)

theorem tempAt_dbl (hf : ρ.fl s = s) (hl : s < limit) {τ : ℚ} (h0 : 0 ≤ τ) (h1 : τ ≤ 1) :
    tempAt exp (fin τ : Dbl ρ) (fin s) = fin (coolQ ρ f s τ) := by
  have hm := minQ_pos ρ
  have hlim : (2 : ℚ) < limit := by
    have := pow_lt_limit (m := 1) (by norm_num)
    simpa using this
  obtain ⟨a1, a2⟩ := arg_range h0 h1
  obtain ⟨b1, b2⟩ := inner_range he h0 h1
  obtain ⟨c1, c2⟩ := coolQ_range he hs hf h0 h1
  have e1 : (F64.neg coolingFactor : Dbl ρ) = fin (-2) := by
    have : (coolingFactor : Dbl ρ) = fin 2 := by
      have := ofRat_nat (ρ := ρ) (k := 2) (by norm_num)
      norm_num at this
      exact this
    rw [this]
    rfl
  have e2 : (minValue : Dbl ρ) = fin (ρ.fl 0.1353352832366127) :=
    ofRat_le (m := 0) (by norm_num) (by rw [abs_of_nonneg (by norm_num)]; norm_num)
  have e3 : (ofRat (τ * -2) : Dbl ρ) = fin (ρ.fl (τ * -2)) := ofRat_fin (by rw [abs_lt]; constructor <;> linarith)
  have m1 : ρ.fl 0.1353352832366127 ≤ 1 := by
    have := ρ.le_nat (k := 1) (x := 0.1353352832366127) (by norm_num) (by norm_num)
    exact_mod_cast this
  have p1 : τ * ρ.fl 0.1353352832366127 ≤ 1 := by nlinarith
  have p0 : 0 ≤ τ * ρ.fl 0.1353352832366127 := by positivity
  have e4 : (ofRat (τ * ρ.fl 0.1353352832366127) : Dbl ρ) = fin (ρ.fl (τ * ρ.fl 0.1353352832366127)) :=
    ofRat_le (m := 0) (by norm_num) (by rw [abs_of_nonneg p0]; simpa using p1)
  unfold tempAt
  rw [e1, e2, mul_fin, e3, he.eq _ a1 a2, mul_fin, e4, sub_fin,
    ofRat_le (m := 0) (by norm_num) (by rw [abs_of_nonneg b1]; simpa using b2), mul_fin]
  exact ofRat_fin (by show |coolQ ρ f s τ| < limit; rw [abs_of_nonneg c1]; linarith)

end

theorem iter_fields (exp : Dbl ρ → Dbl ρ) (s : Dbl ρ) (total : ℕ) : ∀ k,
    ((IterSchedule.update exp)^[k] (IterSchedule.new s total)).iteration = k ∧
    ((IterSchedule.update exp)^[k] (IterSchedule.new s total)).total = total ∧
    ((IterSchedule.update exp)^[k] (IterSchedule.new s total)).startTemp = s
  | 0 => ⟨rfl, rfl, rfl⟩
  | k + 1 => by
    obtain ⟨h1, h2, h3⟩ := iter_fields exp s total k
    rw [Function.iterate_succ_apply']
    exact ⟨by show _ + 1 = _; rw [h1], h2, h3⟩

/-- **C27**, the schedule, in double precision, for `1 ≤ total ≤ 2^53` updates and a finite start temperature that is not
negative: the temperature starts there, never rises and is never negative up to and including the last update, and the
schedule completes after exactly `total` updates. Missing: that the temperature falls strictly, which
is false (`CoolingEx.C27_double_strict_refuted`). -/
theorem C27_double_schedule_partial {exp : Dbl ρ → Dbl ρ} {f : ℚ → ℚ} (he : Spec.ExpOK exp f) {s : ℚ} (hs : 0 ≤ s)
    (hd : Spec.IsDouble (fin s : Dbl ρ)) {total : ℕ} (h0 : 0 < total) (ht : total ≤ 2 ^ 53) :
    ∃ T : ℕ → ℚ, T 0 = s ∧ (∀ k < total, T (k + 1) ≤ T k) ∧ (∀ k ≤ total, 0 ≤ T k) ∧
      (∀ k ≤ total, ((IterSchedule.update exp)^[k] (IterSchedule.new (fin s) total)).temp = fin (T k)) ∧
      ∀ k, ((IterSchedule.update exp)^[k] (IterSchedule.new (fin s) total)).completed = true ↔ total ≤ k := by
  obtain ⟨hf, hl⟩ := hd
  replace hl : s < limit := lt_of_le_of_lt (le_abs_self s) hl
  have hT : (0 : ℚ) < total := by exact_mod_cast h0
  have tau : ∀ k ≤ total, 0 ≤ ρ.fl ((k : ℚ) / total) ∧ ρ.fl ((k : ℚ) / total) ≤ 1 := fun k hk => by
    refine ⟨ρ.nonneg (div_nonneg (Nat.cast_nonneg k) hT.le), ?_⟩
    have : (k : ℚ) / total ≤ (1 : ℕ) := by
      rw [div_le_iff₀ hT]
      simpa using (show (k : ℚ) ≤ total by exact_mod_cast hk)
    have := ρ.le_nat (by norm_num) this
    rwa [Nat.cast_one] at this
  refine ⟨fun k => if k = 0 then s else coolQ ρ f s (ρ.fl ((k : ℚ) / total)), if_pos rfl, fun k hk => ?_, fun k hk => ?_,
    fun k hk => ?_, fun k => ?_⟩
  · dsimp only
    rw [if_neg (Nat.succ_ne_zero k)]
    split
    · exact (coolQ_range he hs hf (tau _ hk).1 (tau _ hk).2).2
    · refine coolQ_anti he hs (tau k hk.le).1 (ρ.mono _ _ ?_) (tau _ hk).2
      exact div_le_div_of_nonneg_right (by push_cast; linarith) hT.le
  · dsimp only
    split
    · exact hs
    · exact (coolQ_range he hs hf (tau _ hk).1 (tau _ hk).2).1
  · cases k with
    | zero => rfl
    | succ k =>
      obtain ⟨i1, i2, i3⟩ := iter_fields exp (fin s) total k
      dsimp only
      rw [Function.iterate_succ_apply', if_neg (Nat.succ_ne_zero k), ← tempAt_dbl he hs hf hl (tau _ hk).1 (tau _ hk).2]
      show tempAt exp ((lit ((_ + 1 : ℕ) : ℚ)) /. lit _) _ = _
      rw [i1, i2, i3]
      congr 1
      have e1 : (lit ((k + 1 : ℕ) : ℚ) : Dbl ρ) = fin ((k + 1 : ℕ) : ℚ) := ofRat_nat (hk.trans ht)
      have e2 : (lit (total : ℚ) : Dbl ρ) = fin (total : ℚ) := ofRat_nat ht
      rw [e1, e2, div_fin _ _ hT.ne']
      refine ofRat_fin ?_
      have := tau _ hk
      have h2 := pow_lt_limit (m := 0) (by norm_num)
      rw [abs_of_nonneg this.1]
      simp only [pow_zero] at h2
      linarith [this.2]
  · obtain ⟨i1, i2, -⟩ := iter_fields exp (fin s) total k
    unfold IterSchedule.completed
    rw [i1, i2, decide_eq_true_eq]

end

namespace CoolingEx

abbrev F := Dbl nearestEven

/-- A curve that meets the demands: a straight line from 1/5 at -2 to 1 at 0. -/
def exp : F → F
  | .fin q => .fin (1 + 2 / 5 * q)
  | x => x

theorem exp_ok : Spec.ExpOK exp fun q => 1 + 2 / 5 * q where
  eq := fun _ _ _ => rfl
  mono := fun p q _ h _ => by linarith
  one := by norm_num
  low := by decide +kernel

/-- A thousand updates from temperature 10. -/
example := C27_double_schedule_partial exp_ok (s := 10) (by norm_num) ⟨by decide +kernel, by decide +kernel⟩
  (total := 1000) (by norm_num) (by norm_num)

/-- **C27** in double precision: the temperature need not fall strictly. The smallest positive double as start temperature
is still the temperature after the first update. -/
theorem C27_double_strict_refuted : Spec.IsDouble (fin (1 / 2 ^ 1074) : F) ∧
    ((IterSchedule.update exp)^[1] (IterSchedule.new (fin (1 / 2 ^ 1074) : F) 1000)).temp =
      ((IterSchedule.update exp)^[0] (IterSchedule.new (fin (1 / 2 ^ 1074) : F) 1000)).temp := by
  refine ⟨⟨by decide +kernel, by decide +kernel⟩, by decide +kernel⟩

end CoolingEx

end Verif
