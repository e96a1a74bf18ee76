import Verif.Real
import Verif.Model.Schedule

/-!
# C27, C28: simulated-annealing schedules

Exact real arithmetic with the true `exp`. The logarithm is any function that is not positive on
`[0, 1)`; this includes `Real.log` with any (non-positive) convention at 0. In IEEE arithmetic `ln 0` is
`-∞`, and `0 * -∞` is NaN: at temperature exactly 0 and draw exactly 0 the code rejects even an
improvement. That corner is outside this arithmetic.
-/

namespace Verif
open F64

/-- A logarithm: not positive on `[0, 1)`. -/
def IsLn (ln : ℝ → ℝ) : Prop := ∀ u, 0 ≤ u → u < 1 → ln u ≤ 0

example : IsLn Real.log := fun _ h0 h1 => Real.log_nonpos h0 h1.le

/-- C27, acceptance. At a non-negative temperature a candidate that is cheaper by more than `1e-6` is
accepted whatever the draw; and any accepted candidate loses less than the temperature times `-ln u`,
where `u ∈ [0, 1)` is the value drawn. -/
theorem C27_accept (ln : ℝ → ℝ) (hln : IsLn ln) (a : Acceptance ℝ)
    (ha : 0 ≤ (match a with | .iteration s => s.temp | .time s => s.temp)) (w : ℕ) (new old : ℝ) :
    (new < old - 1 / 1000000 → a.accept ln w new old = true) ∧
    (a.accept ln w new old = true → ∃ u : ℝ, 0 ≤ u ∧ u < 1 ∧
      new - old < (match a with | .iteration s => s.temp | .time s => s.temp) * -(ln u)) := by
  have h0 : (0 : ℝ) ≤ ((realDraw w : ℚ) : ℝ) := by exact_mod_cast realDraw_nonneg w
  have h1 : ((realDraw w : ℚ) : ℝ) < 1 := by exact_mod_cast realDraw_lt_one w
  have h2 := hln _ h0 h1
  generalize hu : ((realDraw w : ℚ) : ℝ) = u at h0 h1 h2
  cases a <;> dsimp only at ha ⊢ <;>
    simp only [Acceptance.accept, acceptAt, real_approxLt, real_sub, real_mul, real_lit, hu,
      decide_eq_true_eq]
  all_goals
    have h3 := mul_nonpos_of_nonneg_of_nonpos ha h2
    refine ⟨fun h => by linarith, fun h => ⟨u, h0, h1, ?_⟩⟩
    linarith

/-- Every draw value of the generator is reached: the acceptance test really compares with
`temp * -ln u` for the drawn `u`. -/
theorem C27_accept_iff (ln : ℝ → ℝ) (t : ℝ) (w : ℕ) (new old : ℝ) :
    acceptAt ln t w new old = true ↔
      new - old + 1 / 1000000 < t * -(ln ((realDraw w : ℚ) : ℝ)) := by
  simp only [acceptAt, real_approxLt, real_sub, real_mul, real_lit, decide_eq_true_eq]
  constructor <;> intro h <;> linarith

/-! ### The temperature of the iteration schedule -/

/-- The value used for `e^-2` in the code. -/
noncomputable def minVal : ℝ := 0.1353352832366127

theorem tempAt_real (t s : ℝ) :
    tempAt Real.exp t s = (Real.exp (-(2 * t)) - t * minVal) * s := by
  have : t * -2 = -(2 * t) := by ring
  simp only [tempAt, coolingFactor, minValue, real_mul, real_sub, real_neg, real_lit, minVal]
  norm_num [this]

/-- `e^-2` and the constant of the code agree to `10^-16`. -/
theorem minVal_close : Real.exp (-2) < minVal ∧ minVal < Real.exp (-2) + 1 / 10 ^ 16 := by
  have h := Real.exp_one_near_20
  rw [abs_le] at h
  have hpos : 0 < Real.exp 1 := Real.exp_pos 1
  have e2 : Real.exp (-2) = (Real.exp 1 * Real.exp 1)⁻¹ := by
    rw [← Real.exp_add, ← Real.exp_neg]; norm_num
  have hsq : 0 < Real.exp 1 * Real.exp 1 := by positivity
  have hinv : Real.exp (-2) * (Real.exp 1 * Real.exp 1) = 1 := by
    rw [e2]; exact inv_mul_cancel₀ hsq.ne'
  have l1 : (363916618873 / 133877442384 - 1 / 10 ^ 20 : ℝ) ≤ Real.exp 1 := by linarith [h.1]
  have l2 : Real.exp 1 ≤ (363916618873 / 133877442384 + 1 / 10 ^ 20 : ℝ) := by linarith [h.2]
  have m1 : (363916618873 / 133877442384 - 1 / 10 ^ 20 : ℝ) *
      (363916618873 / 133877442384 - 1 / 10 ^ 20) ≤ Real.exp 1 * Real.exp 1 :=
    mul_le_mul l1 l1 (by norm_num) hpos.le
  have m2 : Real.exp 1 * Real.exp 1 ≤ (363916618873 / 133877442384 + 1 / 10 ^ 20 : ℝ) *
      (363916618873 / 133877442384 + 1 / 10 ^ 20) :=
    mul_le_mul l2 l2 hpos.le (by norm_num)
  generalize Real.exp 1 * Real.exp 1 = y at *
  constructor
  · by_contra hc
    push Not at hc
    have : minVal * y ≤ 1 := by rw [← hinv]; exact mul_le_mul_of_nonneg_right hc hsq.le
    have : minVal * ((363916618873 / 133877442384 - 1 / 10 ^ 20 : ℝ) *
      (363916618873 / 133877442384 - 1 / 10 ^ 20)) ≤ minVal * y :=
      mul_le_mul_of_nonneg_left m1 (by norm_num [minVal])
    have : (1 : ℝ) < minVal * ((363916618873 / 133877442384 - 1 / 10 ^ 20 : ℝ) *
      (363916618873 / 133877442384 - 1 / 10 ^ 20)) := by norm_num [minVal]
    linarith
  · by_contra hc
    push Not at hc
    have h1 : Real.exp (-2) ≤ minVal - 1 / 10 ^ 16 := by linarith
    have h3 := mul_le_mul_of_nonneg_right h1 hsq.le
    rw [hinv] at h3
    have : (minVal - 1 / 10 ^ 16) * y ≤ (minVal - 1 / 10 ^ 16) *
      ((363916618873 / 133877442384 + 1 / 10 ^ 20 : ℝ) *
      (363916618873 / 133877442384 + 1 / 10 ^ 20)) :=
      mul_le_mul_of_nonneg_left m2 (by norm_num [minVal])
    have : (minVal - 1 / 10 ^ 16) * ((363916618873 / 133877442384 + 1 / 10 ^ 20 : ℝ) *
      (363916618873 / 133877442384 + 1 / 10 ^ 20)) < 1 := by norm_num [minVal]
    linarith

theorem tempAt_strictAnti {s : ℝ} (hs : 0 < s) {t t' : ℝ} (h : t < t') :
    tempAt Real.exp t' s < tempAt Real.exp t s := by
  rw [tempAt_real, tempAt_real]
  have h1 : Real.exp (-(2 * t')) < Real.exp (-(2 * t)) := Real.exp_lt_exp.mpr (by linarith)
  have h2 : t * minVal < t' * minVal := mul_lt_mul_of_pos_right h (by norm_num [minVal])
  exact mul_lt_mul_of_pos_right (by linarith) hs

theorem tempAt_zero (s : ℝ) : tempAt Real.exp 0 s = s := by
  rw [tempAt_real]; norm_num

/-- Positive up to `10^-15` before the end. -/
theorem tempAt_pos {s : ℝ} (hs : 0 < s) {t : ℝ} (h0 : 0 ≤ t) (h : t ≤ 1 - 1 / 10 ^ 15) :
    0 < tempAt Real.exp t s := by
  rw [tempAt_real]
  refine mul_pos ?_ hs
  obtain ⟨c1, c2⟩ := minVal_close
  have h1 : Real.exp (-(2 * t)) = Real.exp (-2) * Real.exp (2 * (1 - t)) := by
    rw [← Real.exp_add]; congr 1; ring
  have h2 : 2 * (1 - t) + 1 ≤ Real.exp (2 * (1 - t)) := Real.add_one_le_exp _
  have h3 : (0.13 : ℝ) < Real.exp (-2) := by
    have : (0.1353352832366127 : ℝ) < Real.exp (-2) + 1 / 10 ^ 16 := c2
    norm_num at this ⊢
    linarith
  have h4 : Real.exp (-2) * (2 * (1 - t) + 1) ≤ Real.exp (-2) * Real.exp (2 * (1 - t)) :=
    mul_le_mul_of_nonneg_left h2 (by linarith)
  have h5 : t * minVal ≤ t * (Real.exp (-2) + 1 / 10 ^ 16) := mul_le_mul_of_nonneg_left c2.le h0
  rw [h1]
  generalize Real.exp (-2) = e at *
  have h6 : 0.13 * (1 - t) ≤ e * (1 - t) := mul_le_mul_of_nonneg_right h3.le (by norm_num at h; linarith)
  norm_num at h h5 h6 ⊢
  nlinarith

namespace IterSchedule

/-- The schedule after `k` updates. -/
noncomputable def after (startTemp : ℝ) (total k : ℕ) : IterSchedule ℝ :=
  (update Real.exp)^[k] (IterSchedule.new startTemp total)

theorem after_succ (s : ℝ) (total k : ℕ) : after s total (k + 1) = (after s total k).update Real.exp :=
  Function.iterate_succ_apply' _ _ _

theorem after_fields (s : ℝ) (total k : ℕ) : (after s total k).iteration = k ∧
    (after s total k).total = total ∧ (after s total k).startTemp = s := by
  induction k with
  | zero => exact ⟨rfl, rfl, rfl⟩
  | succ k ih => rw [after_succ]; simp [update, ih]

theorem after_temp (s : ℝ) (total k : ℕ) : (after s total k).temp =
    if k = 0 then s else tempAt Real.exp ((k : ℝ) / total) s := by
  cases k with
  | zero => rfl
  | succ k =>
    obtain ⟨h1, h2, h3⟩ := after_fields s total k
    rw [after_succ]
    simp [update, elapsed, h1, h2, h3]

end IterSchedule

/-- C27, the schedule. Between 1 and `10^15` iterations and a positive start temperature: the temperature
starts at the start temperature, falls strictly with every update, is positive as long as the schedule is
not completed, and the schedule completes after exactly `total` updates. (The bound `10^15` is needed
because the constant used for `e^-2` is too large by `8e-18`; at completion itself the temperature is
`-8e-18` times the start temperature, see `C27_final_temperature`.) -/
theorem C27_iteration_schedule (s : ℝ) (hs : 0 < s) (total : ℕ) (h0 : 0 < total)
    (hmax : total ≤ 10 ^ 15) :
    (IterSchedule.after s total 0).temp = s ∧
    (∀ k, (IterSchedule.after s total (k + 1)).temp < (IterSchedule.after s total k).temp) ∧
    (∀ k, (IterSchedule.after s total k).completed = false → 0 < (IterSchedule.after s total k).temp) ∧
    (∀ k, (IterSchedule.after s total k).completed = true ↔ total ≤ k) := by
  have hT : (0 : ℝ) < total := by exact_mod_cast h0
  have ht0 : ∀ k, (IterSchedule.after s total k).temp = tempAt Real.exp ((k : ℝ) / total) s := by
    intro k
    rw [IterSchedule.after_temp]
    split
    · next h => subst h; simp [tempAt_zero]
    · rfl
  refine ⟨rfl, ?_, ?_, ?_⟩
  · intro k
    rw [ht0, ht0]
    refine tempAt_strictAnti hs ?_
    rw [div_lt_div_iff_of_pos_right hT]
    push_cast
    linarith
  · intro k hk
    rw [IterSchedule.completed, (IterSchedule.after_fields s total k).1,
      (IterSchedule.after_fields s total k).2.1] at hk
    simp only [decide_eq_false_iff_not, not_le] at hk
    rw [ht0]
    refine tempAt_pos hs (by positivity) ?_
    rw [div_le_iff₀ hT]
    have h1 : (k : ℝ) + 1 ≤ total := by exact_mod_cast hk
    have h2 : (total : ℝ) ≤ 10 ^ 15 := by exact_mod_cast hmax
    have h3 : (1 : ℝ) / 10 ^ 15 * total ≤ 1 := by
      rw [div_mul_eq_mul_div, div_le_one (by norm_num)]
      linarith
    linarith
  · intro k
    rw [IterSchedule.completed, (IterSchedule.after_fields s total k).1,
      (IterSchedule.after_fields s total k).2.1]
    simp

/-- At completion the exact temperature is slightly negative. -/
theorem C27_final_temperature (s : ℝ) (hs : 0 < s) (total : ℕ) (h0 : 0 < total) :
    (IterSchedule.after s total total).temp < 0 ∧
    -(s / 10 ^ 16) < (IterSchedule.after s total total).temp := by
  have hT : (total : ℝ) ≠ 0 := by exact_mod_cast h0.ne'
  obtain ⟨c1, c2⟩ := minVal_close
  rw [IterSchedule.after_temp, if_neg h0.ne', div_self hT, tempAt_real]
  norm_num
  norm_num at c2
  constructor
  · exact mul_neg_of_neg_of_pos (by linarith) hs
  · nlinarith

/-- The hypotheses of `C27_iteration_schedule` for a schedule of 1000 iterations. -/
example : (0 : ℝ) < 100 ∧ 0 < 1000 ∧ 1000 ≤ 10 ^ 15 := by norm_num

/-! ### C28 -/

/-- The observable state of a schedule (the clock reading of its start is not observable by itself). -/
structure SchedView (α : Type) where
  temp : α
  iterations : ℕ
  completed : Bool

/-- View of an acceptance criterion. -/
def Acceptance.view {α : Type} : Acceptance α → SchedView α
  | .iteration s => ⟨s.temp, s.iteration, s.completed⟩
  | .time s => ⟨s.temp, s.iterations, s.completed⟩

/-- A history of updates at given clock readings. -/
def Acceptance.updates {α : Type} [F64 α] (exp : α → α) (ts : List α) (a : Acceptance α) :
    Acceptance α := ts.foldl (fun a now => a.update exp now) a

/-- C28 for the iteration schedule, any arithmetic: after any history of updates, reset gives back
exactly the schedule as it was created. Missing for the full property: the time schedule, for which it is
false (`C28_time_reset_refuted`). -/
theorem C28_reset_partial {α : Type} [F64 α] (exp : α → α) (startTemp : α) (total : ℕ) (ts : List α)
    (now : α) :
    ((Acceptance.iteration (IterSchedule.new startTemp total)).updates exp ts).reset now =
      .iteration (IterSchedule.new startTemp total) := by
  have key : ∀ (ts : List α) (s : IterSchedule α), s.startTemp = startTemp → s.total = total →
      ((Acceptance.iteration s).updates exp ts).reset now =
        .iteration (IterSchedule.new startTemp total) := by
    intro ts
    induction ts with
    | nil =>
      intro s h1 h2
      subst h1; subst h2
      rfl
    | cons t ts ih =>
      intro s h1 h2
      exact ih (s.update exp) (by simpa [IterSchedule.update] using h1)
        (by simpa [IterSchedule.update] using h2)
  exact key ts _ rfl rfl

/-- C28 is false for the time schedule, in any arithmetic: `reset` changes neither the temperature nor
the completion flag. -/
theorem C28_time_reset_keeps {α : Type} [F64 α] (s : TimeSchedule α) (now : α) :
    ((Acceptance.time s).reset now).completed = (Acceptance.time s).completed ∧
    (s.reset now).temp = s.temp := ⟨rfl, rfl⟩

/-- The flag is set by the update at which the update rate is reached, if the time is up. -/
theorem time_updates_completed {α : Type} [F64 α] (exp : α → α) (now : α) :
    ∀ (k : ℕ) (s : TimeSchedule α), s.sinceUpdate + k + 1 = s.updateRate →
      ((Acceptance.time s).updates exp (List.replicate (k + 1) now)).completed =
        (s.completed || (lit 1 ≤. s.elapsed now))
  | 0, s, h => by
    simp only [Nat.add_zero] at h
    show (s.update exp now).completed = _
    unfold TimeSchedule.update
    dsimp only
    rw [if_pos h]
    rfl
  | k + 1, s, h => by
    rw [List.replicate_succ]
    show ((Acceptance.time (s.update exp now)).updates exp (List.replicate (k + 1) now)).completed = _
    have hne : ¬ s.sinceUpdate + 1 = s.updateRate := by omega
    have e : s.update exp now =
        { s with sinceUpdate := s.sinceUpdate + 1, iterations := s.iterations + 1 } := by
      unfold TimeSchedule.update
      dsimp only
      rw [if_neg hne]
    rw [e, time_updates_completed exp now k _ (by dsimp only; omega)]
    rfl

/-- Witness: a time schedule of 1 second, 100 updates at second 5, then reset: still completed. -/
theorem C28_time_reset_refuted :
    ¬ ∀ (start now dur : ℝ) (ts : List ℝ), 0 < dur →
      (((Acceptance.time (TimeSchedule.new start 10 dur)).updates Real.exp ts).reset now).view =
        (Acceptance.time (TimeSchedule.new now 10 dur)).view := by
  intro h
  have h1 := h 0 5 1 (List.replicate 100 5) one_pos
  have hv : ∀ a : Acceptance ℝ, (a.view).completed = a.completed := fun a => by cases a <;> rfl
  have hr : ∀ a : Acceptance ℝ, (∃ s, a = .time s) → (a.reset 5).completed = a.completed := by
    rintro _ ⟨s, rfl⟩
    rfl
  have ht : ∀ (ts : List ℝ) (s : TimeSchedule ℝ),
      ∃ s', (Acceptance.time s).updates Real.exp ts = .time s' := by
    intro ts
    induction ts with
    | nil => exact fun s => ⟨s, rfl⟩
    | cons t ts ih => exact fun s => ih (s.update Real.exp t)
  have hc := congrArg SchedView.completed h1
  rw [hv, hv, hr _ (ht _ _), time_updates_completed Real.exp 5 99 _ rfl] at hc
  norm_num [Acceptance.completed, TimeSchedule.new, TimeSchedule.elapsed] at hc

end Verif
