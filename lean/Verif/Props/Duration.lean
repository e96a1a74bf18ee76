import Verif.Model.Duration
import Verif.Props.PenaltyDouble

/-!
# C94: the duration of a time-based elite education
-/

namespace Verif
open F64 Dbl

variable {ρ : Rounding}

/-- Numbers up to `2 ^ 21` are rounded by at most `2 ^ -31`. -/
theorem Rounding.near_wide {x : ℚ} (h : |x| ≤ 2 ^ 21) : |ρ.fl x - x| ≤ 1 / 2 ^ 31 := by
  obtain ⟨h1, h2⟩ := abs_le.mp h
  have rep : ∀ k : ℤ, |k| ≤ 2 ^ 53 → ρ.fl ((k : ℚ) / 2 ^ 31) = k / 2 ^ 31 := by
    intro k hk
    have := ρ.rep k (-31) hk (by norm_num)
    rwa [show ((2 : ℚ) ^ (-31 : ℤ)) = 1 / 2 ^ 31 by norm_num, mul_one_div] at this
  have f0 := Int.floor_le (x * 2 ^ 31)
  have f1 := Int.lt_floor_add_one (x * 2 ^ 31)
  have k0 : -2 ^ 52 ≤ ⌊x * 2 ^ 31⌋ := by
    rw [Int.le_floor]
    push_cast
    linarith
  have k1 : ⌊x * 2 ^ 31⌋ ≤ 2 ^ 52 := by
    have : (⌊x * 2 ^ 31⌋ : ℚ) ≤ 2 ^ 52 := by linarith
    exact_mod_cast this
  have a := rep ⌊x * 2 ^ 31⌋ (abs_le.mpr ⟨by linarith, by linarith⟩)
  have b := rep (⌊x * 2 ^ 31⌋ + 1) (abs_le.mpr ⟨by linarith, by linarith⟩)
  have e1 : (⌊x * 2 ^ 31⌋ : ℚ) / 2 ^ 31 ≤ x := by rw [div_le_iff₀ (by positivity)]; exact f0
  have e2 : x ≤ (⌊x * 2 ^ 31⌋ : ℚ) / 2 ^ 31 + 1 / 2 ^ 31 := by
    rw [← add_div, le_div_iff₀ (by positivity)]
    exact f1.le
  have m1 := ρ.mono _ _ e1
  have m2 := ρ.mono x (((⌊x * 2 ^ 31⌋ + 1 : ℤ) : ℚ) / 2 ^ 31) (by
    push_cast
    rw [add_div]
    exact e2)
  rw [a] at m1
  rw [b] at m2
  push_cast at m2
  rw [add_div] at m2
  rw [abs_le]
  constructor <;> linarith

/-- A conversion to whole numbers that errs by less than one: truncation and rounding are such. -/
def Spec.WholeWithinOne (r : ℚ → ℤ) : Prop := ∀ q, ⌊q⌋ ≤ r q ∧ r q ≤ ⌊q⌋ + 1 ∧ |(r q : ℚ) - q| ≤ 1

theorem floor_within : Spec.WholeWithinOne fun q => ⌊q⌋ := fun q => by
  have h1 := Int.floor_le q
  have h2 := Int.lt_floor_add_one q
  dsimp only
  exact ⟨le_refl _, by omega, by rw [abs_le]; constructor <;> linarith⟩

theorem rne_within : Spec.WholeWithinOne rne := fun q => by
  have h1 := Int.floor_le q
  have h2 := Int.lt_floor_add_one q
  obtain ⟨a, b⟩ := rne_bounds q
  have a' : (⌊q⌋ : ℚ) ≤ rne q := by exact_mod_cast a
  have b' : (rne q : ℚ) ≤ ⌊q⌋ + 1 := by exact_mod_cast b
  exact ⟨a, b, by rw [abs_le]; constructor <;> linarith⟩

/-- **C94**, when it works. With a fraction from 0 to 1 and a time limit of at most `2 ^ 20` seconds (12 days)
`setup_elite_education` does not panic, and the schedule gets the time limit times the fraction up to two
nanoseconds. -/
theorem C94_duration_partial {r : ℚ → ℤ} (hr : Spec.WholeWithinOne r) (cfg : Settings (Dbl ρ)) {f : ℚ}
    (hf : cfg.eliteFraction = fin f) (f0 : 0 ≤ f) (f1 : f ≤ 1) (hT : cfg.timeLimit ≤ 2 ^ 20) :
    ∃ t, Program.eliteTime r cfg = some (fin t) ∧ 0 ≤ t ∧ |t - cfg.timeLimit * f| ≤ 2 / 10 ^ 9 := by
  have hTq : (cfg.timeLimit : ℚ) ≤ 2 ^ 20 := by exact_mod_cast hT
  have hT0 : (0 : ℚ) ≤ cfg.timeLimit := Nat.cast_nonneg _
  have hp0 : 0 ≤ (cfg.timeLimit : ℚ) * f := mul_nonneg hT0 f0
  have hp1 : (cfg.timeLimit : ℚ) * f ≤ 2 ^ 20 := (mul_le_of_le_one_right hT0 f1).trans hTq
  have n1 := ρ.near_wide (x := cfg.timeLimit * f) (by rw [abs_of_nonneg hp0]; exact hp1.trans (by norm_num))
  have x0 := ρ.nonneg hp0
  have x1 := ρ.le_pow hp1
  have eprod : (lit (cfg.timeLimit : ℚ) *. cfg.eliteFraction : Dbl ρ) = fin (ρ.fl (cfg.timeLimit * f)) := by
    rw [hf, lit_eq, ofRat_nat (by omega), mul_fin]
    exact ofRat_le (m := 20) (by norm_num) (by rw [abs_of_nonneg hp0]; exact hp1)
  unfold Program.eliteTime
  rw [eprod]
  generalize ρ.fl (cfg.timeLimit * f) = x at *
  obtain ⟨r1, r2, r3⟩ := hr (x * 10 ^ 9)
  have rn : 0 ≤ r (x * 10 ^ 9) := le_trans (Int.floor_nonneg.mpr (by positivity)) r1
  have hfs : Duration.fromSecs r (fin x : Dbl ρ) = some (r (x * 10 ^ 9)).toNat := by
    show (if x < 0 ∨ 2 ^ 64 ≤ x then none else some (r (x * 10 ^ 9)).toNat) = _
    rw [if_neg]
    rintro (h | h)
    · linarith
    · have : (2 : ℚ) ^ 20 < 2 ^ 64 := by norm_num
      linarith
  rw [hfs, Option.map_some]
  obtain ⟨N, hN⟩ := Int.eq_ofNat_of_zero_le rn
  rw [hN] at r3 ⊢
  rw [Int.toNat_natCast]
  rw [Int.cast_natCast] at r3
  -- the parts
  have hsplit : (N : ℚ) = (N / 10 ^ 9 : ℕ) * 10 ^ 9 + (N % 10 ^ 9 : ℕ) := by
    have := Nat.div_add_mod N (10 ^ 9)
    have : ((10 ^ 9 * (N / 10 ^ 9) + N % 10 ^ 9 : ℕ) : ℚ) = N := by rw [this]
    push_cast at this ⊢
    linarith
  have hmod : N % 10 ^ 9 < 10 ^ 9 := Nat.mod_lt _ (by norm_num)
  unfold Duration.asSecs
  generalize N / 10 ^ 9 = S at *
  generalize N % 10 ^ 9 = M at *
  have hMq : (M : ℚ) < 10 ^ 9 := by exact_mod_cast hmod
  have hM0 : (0 : ℚ) ≤ M := Nat.cast_nonneg _
  have hS0 : (0 : ℚ) ≤ S := Nat.cast_nonneg _
  rw [abs_le] at n1 r3
  have hSle : (S : ℚ) ≤ 2 ^ 20 := by
    have h1 : (N : ℚ) ≤ 2 ^ 20 * 10 ^ 9 + 1 := by nlinarith
    have h2 : (S : ℚ) < 2 ^ 20 + 1 := by nlinarith
    have h3 : S < 2 ^ 20 + 1 := by exact_mod_cast h2
    have h4 : S ≤ 2 ^ 20 := by omega
    exact_mod_cast h4
  have hSn : S ≤ 2 ^ 53 := by
    have : S ≤ 2 ^ 20 := by exact_mod_cast hSle
    omega
  have hmm0 : 0 ≤ (M : ℚ) / 10 ^ 9 := by positivity
  have hmm1 : (M : ℚ) / 10 ^ 9 ≤ 1 := by rw [div_le_one (by positivity)]; linarith
  have n2 := ρ.near (x := (M : ℚ) / 10 ^ 9) (by rw [abs_of_nonneg hmm0]; linarith)
  have y0 := ρ.nonneg hmm0
  have y1 := ρ.le_nat (x := (M : ℚ) / 10 ^ 9) (k := 1) (by norm_num) (by simpa using hmm1)
  have ediv : (lit (M : ℚ) /. lit (10 ^ 9) : Dbl ρ) = fin (ρ.fl ((M : ℚ) / 10 ^ 9)) := by
    have e9 : (lit (10 ^ 9) : Dbl ρ) = fin (10 ^ 9) := by
      have := ofRat_nat (ρ := ρ) (k := 10 ^ 9) (by norm_num)
      rw [lit_eq]
      push_cast at this
      exact this
    rw [e9, lit_eq, ofRat_nat (by omega), div_fin _ _ (by norm_num)]
    exact ofRat_le (m := 0) (by norm_num) (by rw [abs_of_nonneg hmm0]; simpa using hmm1)
  rw [ediv]
  generalize ρ.fl ((M : ℚ) / 10 ^ 9) = y at *
  rw [abs_le] at n2
  have y1' : y ≤ 1 := by simpa using y1
  have eS : (lit (S : ℚ) : Dbl ρ) = fin S := ofRat_nat hSn
  have hsum0 : 0 ≤ (S : ℚ) + y := by linarith
  have key : (S : ℚ) + M / 10 ^ 9 = N / 10 ^ 9 := by
    rw [hsplit]
    field_simp
  have hNx : (N : ℚ) / 10 ^ 9 ≤ x + 1 / 10 ^ 9 ∧ x - 1 / 10 ^ 9 ≤ (N : ℚ) / 10 ^ 9 := by
    constructor
    · rw [div_le_iff₀ (by positivity)]
      linarith
    · rw [le_div_iff₀ (by positivity)]
      linarith
  have tiny : (1 : ℚ) / 2 ^ 31 ≤ 0.47 / 10 ^ 9 := by norm_num
  have tiny' : (1 : ℚ) / 2 ^ 40 ≤ 0.01 / 10 ^ 9 := by norm_num
  have hsum : (S : ℚ) + y ≤ 2 ^ 21 := by linarith
  refine ⟨ρ.fl (S + y), ?_, ρ.nonneg hsum0, ?_⟩
  · rw [eS, add_fin]
    exact congrArg some (ofRat_le (m := 21) (by norm_num) (by rw [abs_of_nonneg hsum0]; exact hsum))
  · have n3 := ρ.near_wide (x := S + y) (by rw [abs_of_nonneg hsum0]; exact hsum)
    rw [abs_le] at n3 ⊢
    constructor <;> linarith

/-- **C94**, exactly when it panics: the rounded product is negative, at least `2 ^ 64`, infinite or not a number. -/
theorem C94_panics_iff (r : ℚ → ℤ) (cfg : Settings (Dbl ρ)) :
    Program.eliteTime r cfg = none ↔
      ∀ x, (lit cfg.timeLimit *. cfg.eliteFraction : Dbl ρ) = fin x → x < 0 ∨ 2 ^ 64 ≤ x := by
  unfold Program.eliteTime
  rw [Option.map_eq_none_iff]
  cases (lit cfg.timeLimit *. cfg.eliteFraction : Dbl ρ) with
  | nan => simp [Duration.fromSecs]
  | inf s => simp [Duration.fromSecs]
  | fin q =>
    show (if q < 0 ∨ 2 ^ 64 ≤ q then none else some (r (q * 10 ^ 9)).toNat) = none ↔ _
    constructor
    · intro h x hx
      rw [fin.injEq] at hx
      subst hx
      by_contra hc
      rw [if_neg hc] at h
      cases h
    · intro h
      rw [if_pos (h q rfl)]

/-- **C94 refuted** for all settings: the fraction is not checked. A fraction of -1, one that is not a number, and one of
a thousand with a time limit of `2 ^ 60` seconds abort the program when elite education starts. -/
theorem C94_duration_refuted (r : ℚ → ℤ) (cfg : Settings (Dbl nearestEven)) :
    Program.eliteTime r { cfg with timeLimit := 60, eliteFraction := fin (-1) } = none ∧
    Program.eliteTime r { cfg with timeLimit := 60, eliteFraction := nan } = none ∧
    Program.eliteTime r { cfg with timeLimit := 2 ^ 60, eliteFraction := fin 1000 } = none := by
  refine ⟨?_, ?_, ?_⟩
  all_goals
    rw [C94_panics_iff]
    intro x hx
    dsimp only at hx
  · have e : (lit ((60 : ℕ) : ℚ) *. fin (-1) : Dbl nearestEven) = fin (-60) := by decide +kernel
    rw [e, fin.injEq] at hx
    left
    rw [← hx]
    norm_num
  · have e : (lit ((60 : ℕ) : ℚ) *. nan : Dbl nearestEven) = nan := by decide +kernel
    rw [e] at hx
    cases hx
  · have e : (lit ((2 ^ 60 : ℕ) : ℚ) *. fin 1000 : Dbl nearestEven) = fin (2 ^ 60 * 1000) := by decide +kernel
    rw [e, fin.injEq] at hx
    right
    rw [← hx]
    norm_num

/-- What the model of the run takes as the duration (`Program.gaEnv`) differs from that of the code by at most three
nanoseconds. -/
theorem C94_model_partial {r : ℚ → ℤ} (hr : Spec.WholeWithinOne r) (lib : Lib (Dbl ρ)) (cfg : Settings (Dbl ρ))
    (ctx : Ctx (Dbl ρ)) (d : DistMatrix (Dbl ρ)) (c : Correlation) {f : ℚ}
    (hf : cfg.eliteFraction = fin f) (f0 : 0 ≤ f) (f1 : f ≤ 1) (hT : cfg.timeLimit ≤ 2 ^ 20) :
    ∃ t x, Program.eliteTime r cfg = some (fin t) ∧ (Program.gaEnv lib cfg ctx d c).eliteDuration = fin x ∧
      |t - x| ≤ 3 / 10 ^ 9 := by
  obtain ⟨t, e, -, h⟩ := C94_duration_partial hr cfg hf f0 f1 hT
  have hTq : (cfg.timeLimit : ℚ) ≤ 2 ^ 20 := by exact_mod_cast hT
  have hT0 : (0 : ℚ) ≤ cfg.timeLimit := Nat.cast_nonneg _
  have hp0 : 0 ≤ (cfg.timeLimit : ℚ) * f := mul_nonneg hT0 f0
  have hp1 : (cfg.timeLimit : ℚ) * f ≤ 2 ^ 20 := (mul_le_of_le_one_right hT0 f1).trans hTq
  have n1 := ρ.near_wide (x := cfg.timeLimit * f) (by rw [abs_of_nonneg hp0]; exact hp1.trans (by norm_num))
  refine ⟨t, ρ.fl (cfg.timeLimit * f), e, ?_, ?_⟩
  · show (lit (cfg.timeLimit : ℚ) *. cfg.eliteFraction : Dbl ρ) = _
    rw [hf, lit_eq, ofRat_nat (by omega), mul_fin]
    exact ofRat_le (m := 20) (by norm_num) (by rw [abs_of_nonneg hp0]; exact hp1)
  · have tiny : (1 : ℚ) / 2 ^ 31 ≤ 1 / 10 ^ 9 := by norm_num
    rw [abs_le] at *
    constructor <;> linarith

/-- C94 applies to the shipped fraction and time limit: 30 seconds, up to two nanoseconds and the rounding of 0.05. -/
example (cfg : Settings (Dbl nearestEven)) : ∃ t,
    Program.eliteTime rne { cfg with timeLimit := 600, eliteFraction := lit 0.05 } = some (fin t) ∧
      |t - 30| ≤ 3 / 10 ^ 9 := by
  have h5 : (lit 0.05 : Dbl nearestEven) = fin (nearestEven.fl 0.05) := ofRat_le (m := 0) (by norm_num) (by norm_num)
  have h6 := nearestEven.near (x := 0.05) (by norm_num)
  have tiny : (1 : ℚ) / 2 ^ 40 ≤ 1 / 600 / 10 ^ 9 := by norm_num
  rw [abs_le] at h6
  obtain ⟨t, e, -, h⟩ := C94_duration_partial rne_within
    { cfg with timeLimit := 600, eliteFraction := lit 0.05 } h5 (by linarith) (by linarith)
    (by show 600 ≤ 2 ^ 20; norm_num)
  refine ⟨t, e, ?_⟩
  rw [abs_le] at h ⊢
  push_cast at h
  constructor <;> linarith

end Verif
