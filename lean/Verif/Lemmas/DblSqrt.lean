import Verif.Lemmas.DblProgram

/-! # Square roots and distances in double precision -/

namespace Verif
open F64 Dbl

variable {ρ : Rounding}

/-- The contract of the square root of the machine, which any root that is rounded up or down to a
neighbouring double meets: the result lies on the same side of every double as the exact root. -/
def SqrtOK (sqrt : Dbl ρ → Dbl ρ) : Prop :=
  ∀ s : ℚ, 0 ≤ s → ∃ v, sqrt (fin s) = fin v ∧ ∀ k m : ℤ, 0 ≤ k → k ≤ 2 ^ 53 → -1074 ≤ m →
    ((k * 2 ^ m : ℚ) ^ 2 ≤ s → k * 2 ^ m ≤ v) ∧ (s ≤ (k * 2 ^ m : ℚ) ^ 2 → v ≤ k * 2 ^ m)

namespace SqrtOK

variable {sqrt : Dbl ρ → Dbl ρ}

theorem zero (h : SqrtOK sqrt) : sqrt (fin 0) = fin 0 := by
  obtain ⟨v, e, hv⟩ := h 0 (le_refl _)
  obtain ⟨a, b⟩ := hv 0 0 (le_refl _) (by norm_num) (by norm_num)
  simp only [Int.cast_zero, zero_mul, ne_eq, OfNat.ofNat_ne_zero, not_false_eq_true, zero_pow, le_refl,
    forall_const] at a b
  rw [e, le_antisymm b a]

theorem nonneg (h : SqrtOK sqrt) {s : ℚ} (hs : 0 ≤ s) : ∃ v, sqrt (fin s) = fin v ∧ 0 ≤ v := by
  obtain ⟨v, e, hv⟩ := h s hs
  refine ⟨v, e, ?_⟩
  have := (hv 0 0 (le_refl _) (by norm_num) (by norm_num)).1
  simpa [hs] using this

theorem le_pow (h : SqrtOK sqrt) {s : ℚ} {m : ℕ} (h0 : 0 ≤ s) (hs : s ≤ (2 ^ m) ^ 2) :
    ∃ v, sqrt (fin s) = fin v ∧ 0 ≤ v ∧ v ≤ 2 ^ m := by
  obtain ⟨v, e, hv⟩ := h s h0
  obtain ⟨v', e', hv'⟩ := h.nonneg h0
  obtain rfl : v = v' := by rw [e] at e'; exact Dbl.fin.inj e'
  refine ⟨v, e, hv', ?_⟩
  have := (hv 1 m (by norm_num) (by norm_num) (by omega)).2
  simp only [Int.cast_one, one_mul, zpow_natCast] at this
  exact this hs

/-- The nearest integer of the root of an integer is found. -/
theorem nearest (h : SqrtOK sqrt) {s : ℤ} (h0 : 0 ≤ s) (hs : s ≤ 2 ^ 47) :
    ∃ v, sqrt (fin s) = fin v ∧ 0 ≤ v ∧ ⌊v + 1 / 2⌋ = ⌊Real.sqrt s + 1 / 2⌋ ∧ ⌊v + 1 / 2⌋ ≤ 2 ^ 24 := by
  obtain ⟨v, e, hv⟩ := h s (by exact_mod_cast h0)
  obtain ⟨v', e', hv'⟩ := h.nonneg (s := s) (by exact_mod_cast h0)
  obtain rfl : v = v' := by rw [e] at e'; exact Dbl.fin.inj e'
  have hr0 : (0 : ℝ) ≤ Real.sqrt s := Real.sqrt_nonneg _
  have hr2 : Real.sqrt s ^ 2 = s := Real.sq_sqrt (by exact_mod_cast h0)
  generalize hr : Real.sqrt s = r at *
  obtain ⟨K, hK⟩ : ∃ K, ⌊r + 1 / 2⌋ = K := ⟨_, rfl⟩
  have k1 : (K : ℝ) ≤ r + 1 / 2 := hK ▸ Int.floor_le _
  have k2 : r + 1 / 2 < K + 1 := hK ▸ Int.lt_floor_add_one _
  have hK0 : 0 ≤ K := by rw [← hK]; exact Int.floor_nonneg.mpr (by linarith)
  have hsr : (s : ℝ) ≤ 2 ^ 47 := by exact_mod_cast hs
  have hrle : r ≤ 2 ^ 24 - 1 := by
    by_contra hc
    push Not at hc
    nlinarith
  have hK24 : K ≤ 2 ^ 24 := by
    have : (K : ℝ) < 2 ^ 24 := by linarith
    have : K < 2 ^ 24 := by exact_mod_cast this
    omega
  refine ⟨v, e, hv', ?_⟩
  have key : ⌊v + 1 / 2⌋ = K := by
    rw [Int.floor_eq_iff]
    constructor
    · rcases hK0.eq_or_lt with h0' | h0'
      · rw [← h0']; push_cast; linarith
      · have := (hv (2 * K - 1) (-1) (by omega) (by omega) (by norm_num)).1
        push_cast at this
        norm_num at this
        have hq : ((2 * (K : ℚ) - 1) * (1 / 2)) ^ 2 ≤ s := by
          have h1 : ((2 * (K : ℝ) - 1) * (1 / 2)) ^ 2 ≤ s := by
            rw [← hr2]
            have h1 : (1 : ℝ) ≤ K := by exact_mod_cast h0'
            exact pow_le_pow_left₀ (by linarith) (by linarith) 2
          have h2 : (2 * K - 1) ^ 2 ≤ 4 * s := by
            have : (((2 * K - 1) ^ 2 : ℤ) : ℝ) ≤ ((4 * s : ℤ) : ℝ) := by push_cast; linarith
            exact_mod_cast this
          have h3 : (((2 * K - 1) ^ 2 : ℤ) : ℚ) ≤ ((4 * s : ℤ) : ℚ) := by exact_mod_cast h2
          push_cast at h3
          linarith
        have := this hq
        linarith
    · have hsK : s ≤ K ^ 2 + K := by
        have h1 : (s : ℝ) < (K + 1 / 2) ^ 2 := by
          rw [← hr2]
          exact pow_lt_pow_left₀ (by linarith) hr0 (by norm_num)
        have h2 : (s : ℝ) < ((K ^ 2 + K + 1 : ℤ) : ℝ) := by
          push_cast
          linarith
        have : s < K ^ 2 + K + 1 := by exact_mod_cast h2
        omega
      have := (hv (K * 2 ^ 28 + 2 ^ 27 - 1) (-28) (by omega) (by omega) (by norm_num)).2
      have hq : (s : ℚ) ≤ (((K * 2 ^ 28 + 2 ^ 27 - 1 : ℤ) : ℚ) * 2 ^ (-28 : ℤ)) ^ 2 := by
        have h1 : (s : ℚ) ≤ K ^ 2 + K := by exact_mod_cast hsK
        have h2 : (K : ℚ) ≤ 2 ^ 24 := by exact_mod_cast hK24
        refine h1.trans ?_
        have e28 : (2 : ℚ) ^ (-28 : ℤ) = 1 / 2 ^ 28 := by norm_num
        have e29 : (((K * 2 ^ 28 + 2 ^ 27 - 1 : ℤ) : ℚ) * 2 ^ (-28 : ℤ)) = K + (1 / 2 - 1 / 2 ^ 28) := by
          rw [e28]; push_cast; ring
        rw [e29]
        have : ((K : ℚ) + (1 / 2 - 1 / 2 ^ 28)) ^ 2 = K ^ 2 + K + (1 / 2 - 1 / 2 ^ 28) ^ 2 - K * (1 / 2 ^ 27) := by ring
        rw [this]
        have : (K : ℚ) * (1 / 2 ^ 27) ≤ 2 ^ 24 * (1 / 2 ^ 27) := mul_le_mul_of_nonneg_right h2 (by norm_num)
        norm_num at this ⊢
        linarith
      have := this hq
      have e28 : (2 : ℚ) ^ (-28 : ℤ) = 1 / 2 ^ 28 := by norm_num
      rw [e28] at this
      push_cast at this
      have : v ≤ K + 1 / 2 - 1 / 2 ^ 28 := by linarith
      have h28 : (0 : ℚ) < 1 / 2 ^ 28 := by norm_num
      linarith
  rw [key]
  exact ⟨hK.symm, hK24⟩

/-- The root of a whole number up to `2 ^ 47`. -/
theorem close (h : SqrtOK sqrt) {s : ℤ} (h0 : 0 ≤ s) (hs : s ≤ 2 ^ 47) :
    ∃ v : ℚ, sqrt (fin s) = fin v ∧ |(v : ℝ) - Real.sqrt s| ≤ 1 / 2 ^ 29 := by
  obtain ⟨v, e, hv⟩ := h s (by exact_mod_cast h0)
  refine ⟨v, e, ?_⟩
  have hr0 : (0 : ℝ) ≤ Real.sqrt s := Real.sqrt_nonneg _
  have hr2 : Real.sqrt s ^ 2 = s := Real.sq_sqrt (by exact_mod_cast h0)
  generalize Real.sqrt s = r at *
  have hsr : (s : ℝ) ≤ 2 ^ 47 := by exact_mod_cast hs
  have hrle : r ≤ 2 ^ 24 - 1 := by
    by_contra hc
    push Not at hc
    nlinarith
  obtain ⟨K, hK⟩ : ∃ K, ⌊r * 2 ^ 29⌋ = K := ⟨_, rfl⟩
  have k1 : (K : ℝ) ≤ r * 2 ^ 29 := hK ▸ Int.floor_le _
  have k2 : r * 2 ^ 29 < K + 1 := hK ▸ Int.lt_floor_add_one _
  have hK0 : 0 ≤ K := by rw [← hK]; exact Int.floor_nonneg.mpr (by positivity)
  have hK53 : K + 1 ≤ 2 ^ 53 := by
    have : (K : ℝ) < 2 ^ 53 := by norm_num at hrle ⊢; linarith
    have : K < 2 ^ 53 := by exact_mod_cast this
    omega
  have e29 : (2 : ℚ) ^ (-29 : ℤ) = 1 / 2 ^ 29 := by norm_num
  have a := (hv K (-29) hK0 (by omega) (by norm_num)).1
  have b := (hv (K + 1) (-29) (by omega) hK53 (by norm_num)).2
  rw [e29] at a b
  have ha : ((K : ℚ) * (1 / 2 ^ 29)) ^ 2 ≤ s := by
    rw [← Rat.cast_le (K := ℝ)]
    push_cast
    rw [← hr2]
    exact pow_le_pow_left₀ (by positivity) (by norm_num at k1 ⊢; linarith) 2
  have hb : (s : ℚ) ≤ (((K + 1 : ℤ) : ℚ) * (1 / 2 ^ 29)) ^ 2 := by
    rw [← Rat.cast_le (K := ℝ)]
    push_cast
    rw [← hr2]
    exact pow_le_pow_left₀ hr0 (by norm_num at k2 ⊢; linarith) 2
  have a'' := (Rat.cast_le (K := ℝ)).mpr (a ha)
  have b'' := (Rat.cast_le (K := ℝ)).mpr (b hb)
  push_cast at a'' b''
  rw [abs_le]
  norm_num at a'' b'' k1 k2 ⊢
  constructor <;> linarith

end SqrtOK

/-- Finite numbers have what the symmetric distance function needs. -/
theorem squareLaws_dbl {sqrt : Dbl ρ → Dbl ρ} (h : SqrtOK sqrt) : SquareLaws sqrt fun x => ∃ q, x = fin q := by
  refine ⟨?_, ?_, ?_, ?_, ?_⟩
  · rintro _ _ ⟨a, rfl⟩ ⟨b, rfl⟩
    have : (fin b : Dbl ρ) -. fin a = Dbl.neg (fin a -. fin b) := by
      rw [sub_fin, sub_fin, ← neg_sub a b]
      have hl := limit_pos
      unfold ofRat
      rw [ρ.odd]
      split_ifs <;> first | rfl | (exfalso; linarith)
    rw [this]
    cases (fin a : Dbl ρ) -. fin b with
    | nan => rfl
    | inf s => cases s <;> rfl
    | fin x =>
      show _ = (fin (-x) : Dbl ρ) *. fin (-x)
      rw [mul_fin, mul_fin, neg_mul_neg]
  · rintro _ ⟨a, rfl⟩
    have z : (ofRat 0 : Dbl ρ) = fin 0 := lit_zero
    rw [sub_fin, sub_self, z, mul_fin, mul_zero, z, lit_zero]
  · have z : (ofRat 0 : Dbl ρ) = fin 0 := lit_zero
    rw [lit_zero, add_fin, add_zero, z]
  · rw [lit_zero, h.zero]
  · rw [lit_zero]
    show (fin (ratRound 0) : Dbl ρ) = _
    have : ratRound 0 = 0 := by rw [ratRound, if_pos (le_refl _)]; norm_num
    rw [this]

/-! ### Some root meets the contract -/

/-- The root, cut off after 1074 binary digits. -/
def cutRoot (s : ℚ) : ℚ := (Nat.sqrt ⌊s * (2 ^ 1074) ^ 2⌋.toNat : ℚ) / 2 ^ 1074

/-- That root, rounded to a double. -/
def someSqrt (ρ : Rounding) : Dbl ρ → Dbl ρ
  | fin s => fin (ρ.fl (cutRoot s))
  | _ => nan

theorem someSqrt_ok (ρ : Rounding) : SqrtOK (someSqrt ρ) := by
  intro s hs
  refine ⟨_, rfl, fun k m hk0 hk hm => ?_⟩
  have hr := ρ.rep k m (by rw [abs_of_nonneg hk0]; exact hk) hm
  have hP : (0 : ℚ) < 2 ^ 1074 := by positivity
  obtain ⟨N, hN⟩ : ∃ N : ℕ, (k * 2 ^ m : ℚ) * 2 ^ 1074 = N := by
    obtain ⟨j, hj⟩ : ∃ j : ℕ, m + 1074 = j := ⟨(m + 1074).toNat, by omega⟩
    obtain ⟨i, hi⟩ : ∃ i : ℕ, k = i := ⟨k.toNat, by omega⟩
    refine ⟨i * 2 ^ j, ?_⟩
    rw [mul_assoc, ← zpow_natCast (2 : ℚ) 1074, ← zpow_add₀ (by norm_num)]
    have : m + ((1074 : ℕ) : ℤ) = j := by push_cast; exact hj
    rw [this, hi]
    push_cast
    rw [zpow_natCast]
  have hN2 : (k * 2 ^ m : ℚ) ^ 2 * (2 ^ 1074) ^ 2 = ((N ^ 2 : ℕ) : ℚ) := by
    rw [← mul_pow, hN]; push_cast; rfl
  generalize hPd : (2 : ℚ) ^ 1074 = P at *
  have hfl : 0 ≤ ⌊s * P ^ 2⌋ := Int.floor_nonneg.mpr (by positivity)
  have hcut : cutRoot s = (Nat.sqrt ⌊s * P ^ 2⌋.toNat : ℚ) / P := by rw [cutRoot, hPd]
  generalize ha : (k * 2 ^ m : ℚ) = a at *
  constructor
  · intro h
    rw [← hr]
    apply ρ.mono
    rw [hcut, le_div_iff₀ hP, hN]
    have h1 : ((N ^ 2 : ℕ) : ℚ) ≤ s * P ^ 2 := by
      rw [← hN2]; exact mul_le_mul_of_nonneg_right h (by positivity)
    have h2 : ((N ^ 2 : ℕ) : ℤ) ≤ ⌊s * P ^ 2⌋ := Int.le_floor.mpr (by exact_mod_cast h1)
    have h3 : N ≤ Nat.sqrt ⌊s * P ^ 2⌋.toNat := Nat.le_sqrt'.mpr (by omega)
    exact_mod_cast h3
  · intro h
    rw [← hr]
    apply ρ.mono
    rw [hcut, div_le_iff₀ hP, hN]
    have h1 : s * P ^ 2 ≤ ((N ^ 2 : ℕ) : ℚ) := by
      rw [← hN2]; exact mul_le_mul_of_nonneg_right h (by positivity)
    have h2 : ⌊s * P ^ 2⌋ ≤ ((N ^ 2 : ℕ) : ℤ) := by
      have := Int.floor_le_floor h1
      rwa [Int.floor_natCast] at this
    have h3 : Nat.sqrt ⌊s * P ^ 2⌋.toNat ≤ Nat.sqrt (N ^ 2) := Nat.sqrt_le_sqrt (by omega)
    rw [Nat.sqrt_eq'] at h3
    exact_mod_cast h3

end Verif
