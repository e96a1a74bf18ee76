import Verif.Lemmas.DblLaws

/-! # The fleet in double precision -/

namespace Verif
open F64 Dbl

variable {ρ : Rounding} {ctx : Ctx (Dbl ρ)} {q : ℕ → ℤ} {Q D : ℤ}

theorem totalDemand_eq {α : Type} [F64 α] (ctx : Ctx α) :
    totalDemand ctx = loadAlong ctx (lit 0) (List.range ctx.n) := by
  unfold totalDemand loadAlong
  rw [List.foldl_map]

theorem Whole.total (h : Whole ctx q Q D) : totalDemand ctx = ofInt (loadZ q (List.range ctx.n)) ∧
    0 ≤ loadZ q (List.range ctx.n) ∧ loadZ q (List.range ctx.n) < 2 ^ 52 := by
  have hs := h.small
  have hQ := h.capPos
  obtain ⟨b1, b2⟩ := loadZ_bounds h.nonneg h.le (List.range ctx.n)
  rw [List.length_range] at b2
  refine ⟨?_, b1, by omega⟩
  rw [totalDemand_eq, lit_zero', loadAlong_int h.demand h.nonneg h.le _ 0 (le_refl _)
    (by rw [List.length_range]; omega), zero_add]

/-- Between a whole number `k` and `T / Q` above it there is a double. -/
theorem fl_div_gt (ρ : Rounding) {T Q k : ℤ} (hT : T < 2 ^ 52) (hQ : 0 < Q) (hk0 : 0 ≤ k)
    (hk : (k : ℚ) < T / Q) (hQ2 : Q ≤ 2 ^ 52) : (k : ℚ) < ρ.fl (T / Q) := by
  have hQ' : (0 : ℚ) < Q := by exact_mod_cast hQ
  have hkQ : k * Q + 1 ≤ T := by
    have : (k : ℚ) * Q < T := by rwa [lt_div_iff₀ hQ'] at hk
    have : k * Q < T := by exact_mod_cast this
    omega
  -- the power of two just above the capacity
  obtain ⟨e, he1, he2⟩ : ∃ e : ℕ, Q ≤ 2 ^ e ∧ (2 : ℤ) ^ e ≤ 2 * Q := by
    refine ⟨Nat.clog 2 Q.toNat, ?_, ?_⟩
    · have := Nat.le_pow_clog (b := 2) (by norm_num) Q.toNat
      have h2 : (Q.toNat : ℤ) ≤ 2 ^ Nat.clog 2 Q.toNat := by exact_mod_cast this
      omega
    · by_cases h1 : Q.toNat ≤ 1
      · have : Q = 1 := by omega
        subst this
        simp
      · have := Nat.pow_pred_clog_lt_self (b := 2) (by norm_num) (x := Q.toNat) (by omega)
        have hpos : 0 < Nat.clog 2 Q.toNat := Nat.clog_pos (by norm_num) (by omega)
        obtain ⟨m, hm⟩ : ∃ m, Nat.clog 2 Q.toNat = m + 1 := ⟨_, (Nat.succ_pred_eq_of_pos hpos).symm⟩
        rw [hm] at this ⊢
        rw [Nat.pred_succ] at this
        have h2 : (2 : ℤ) ^ m < Q.toNat := by exact_mod_cast this
        rw [pow_succ]
        omega
  have he52 : e ≤ 1074 := by
    by_contra hc
    have h1 : (2 : ℤ) ^ 54 ≤ 2 ^ e := pow_le_pow_right₀ (by norm_num) (by omega)
    omega
  have hkk : (k * 2 ^ e + 1) ≤ 2 ^ 53 := by
    have : k * 2 ^ e ≤ k * (2 * Q) := mul_le_mul_of_nonneg_left he2 hk0
    have h3 : k * (2 * Q) = 2 * (k * Q) := by ring
    omega
  have hrep := ρ.rep (k * 2 ^ e + 1) (-(e : ℤ)) (by
    rw [abs_of_nonneg (by positivity)]
    exact hkk) (by omega)
  have hpe : (0 : ℚ) < 2 ^ e := by positivity
  have hval : (((k * 2 ^ e + 1 : ℤ) : ℚ)) * 2 ^ (-(e : ℤ)) = k + 1 / 2 ^ e := by
    push_cast
    rw [zpow_neg, zpow_natCast]
    field_simp
  rw [hval] at hrep
  have hle : (k : ℚ) + 1 / 2 ^ e ≤ T / Q := by
    have h1 : (1 : ℚ) / 2 ^ e ≤ 1 / Q :=
      one_div_le_one_div_of_le hQ' (by exact_mod_cast he1)
    have h2 : (k : ℚ) + 1 / Q ≤ T / Q := by
      rw [le_div_iff₀ hQ', add_mul, one_div, inv_mul_cancel₀ hQ'.ne']
      exact_mod_cast hkQ
    linarith
  have := ρ.mono _ _ hle
  rw [hrep] at this
  have : (0 : ℚ) < 1 / 2 ^ e := by positivity
  linarith

/-- The quotient of two whole numbers, rounded up, is the exact one. -/
theorem ceil_fl_div (ρ : Rounding) {T Q : ℤ} (hT0 : 0 ≤ T) (hT : T < 2 ^ 52) (hQ : 0 < Q) (hQ2 : Q ≤ 2 ^ 52) :
    ⌈ρ.fl (T / Q)⌉ = ⌈(T : ℚ) / Q⌉ := by
  have hQ' : (0 : ℚ) < Q := by exact_mod_cast hQ
  have h0 : (0 : ℚ) ≤ T / Q := div_nonneg (by exact_mod_cast hT0) hQ'.le
  have hc0 : 0 ≤ ⌈(T : ℚ) / Q⌉ := Int.ceil_nonneg h0
  have hcT : ⌈(T : ℚ) / Q⌉ ≤ T := by
    rw [Int.ceil_le, div_le_iff₀ hQ']
    exact_mod_cast (by nlinarith : T ≤ T * Q)
  apply le_antisymm
  · rw [Int.ceil_le]
    have := ρ.mono _ _ (Int.le_ceil ((T : ℚ) / Q))
    rwa [ρ.int (by rw [abs_of_nonneg hc0]; omega)] at this
  · rw [Int.ceil_le]
    by_contra hc
    push Not at hc
    have h1 : 0 ≤ ⌈ρ.fl (T / Q)⌉ := Int.ceil_nonneg (ρ.nonneg h0)
    have := fl_div_gt ρ hT hQ h1 hc hQ2
    have h2 := Int.le_ceil (ρ.fl (T / Q))
    linarith

/-- The lower bound on the number of vehicles is the exact one. -/
theorem Whole.lowerBound (h : Whole ctx q Q D) : (vehicleLowerBound ctx : ℤ) =
    ⌈(loadZ q (List.range ctx.n) : ℚ) / Q⌉ ∧ vehicleLowerBound ctx < 2 ^ 52 := by
  have hs := h.small
  have hQ := h.capPos
  obtain ⟨h1, h2, h3⟩ := h.total
  have hQ' : (0 : ℚ) < Q := by exact_mod_cast hQ
  have hD : (0 : ℤ) ≤ ctx.n * D := mul_nonneg (by positivity) h.D_nonneg
  have hQ2 : Q ≤ 2 ^ 52 := by omega
  generalize hT : loadZ q (List.range ctx.n) = T at *
  have h0 : (0 : ℚ) ≤ T / Q := div_nonneg (by exact_mod_cast h2) hQ'.le
  have hc0 : 0 ≤ ⌈(T : ℚ) / Q⌉ := Int.ceil_nonneg h0
  have hcT : ⌈(T : ℚ) / Q⌉ ≤ T := by
    rw [Int.ceil_le, div_le_iff₀ hQ']
    exact_mod_cast (by nlinarith : T ≤ T * Q)
  have hq : (T : ℚ) / Q ≤ 2 ^ 52 := by
    rw [div_le_iff₀ hQ']
    exact_mod_cast (by nlinarith : T ≤ 2 ^ 52 * Q)
  have hv : vehicleLowerBound ctx = sat ⌈(T : ℚ) / Q⌉ := by
    unfold vehicleLowerBound
    rw [h1, h.cap]
    show ceilNat ((fin T : Dbl ρ) /. fin Q) = _
    rw [div_fin _ _ hQ'.ne', ofRat_le (m := 52) (by norm_num) (by rw [abs_of_nonneg h0]; exact hq)]
    show sat ⌈ρ.fl (T / Q)⌉ = _
    rw [ceil_fl_div ρ h2 h3 hQ hQ2]
  have : vehicleLowerBound ctx = ⌈(T : ℚ) / Q⌉.toNat := by
    rw [hv, sat]
    refine min_eq_left ?_
    omega
  rw [this]
  omega

/-- The fleet in double precision: at least two above the lower bound, at most the exact number. -/
theorem Whole.fleet (h : Whole ctx q Q D) : vehicleLowerBound ctx + 2 ≤ initialNumVehicles ctx ∧
    (ρ.fl (6 / 5) ≤ 6 / 5 → (initialNumVehicles ctx : ℤ) ≤
      ⌈(6 / 5 : ℚ) * ⌈(loadZ q (List.range ctx.n) : ℚ) / Q⌉ + 2⌉) := by
  obtain ⟨hv, hv2⟩ := h.lowerBound
  generalize hV : vehicleLowerBound ctx = v at *
  have hvq : ((v : ℤ) : ℚ) = ((⌈(loadZ q (List.range ctx.n) : ℚ) / Q⌉ : ℤ) : ℚ) := by rw [hv]
  rw [← hvq]
  push_cast
  have r1 : (1 : ℚ) ≤ ρ.fl (6 / 5) := by
    have := ρ.nat_le (x := 6 / 5) (k := 1) (by norm_num) (by norm_num)
    exact_mod_cast this
  have r2 : ρ.fl (6 / 5) ≤ 2 := by
    have := ρ.le_nat (x := 6 / 5) (k := 2) (by norm_num) (by norm_num)
    exact_mod_cast this
  have l1 : (lit 1.2 : Dbl ρ) = fin (ρ.fl (6 / 5)) := by
    rw [show (1.2 : ℚ) = 6 / 5 by norm_num]
    exact ofRat_le (m := 1) (by norm_num) (by rw [abs_of_nonneg (by norm_num)]; norm_num)
  have l2 : (lit (v : ℚ) : Dbl ρ) = fin v := ofRat_nat (by omega)
  have l3 : (lit 2 : Dbl ρ) = fin 2 := by
    have := ofRat_nat (ρ := ρ) (k := 2) (by norm_num)
    exact_mod_cast this
  have v0 : (0 : ℚ) ≤ v := Nat.cast_nonneg _
  have v2 : (v : ℚ) ≤ 2 ^ 52 := by exact_mod_cast hv2.le
  generalize hf : ρ.fl (6 / 5) = f at *
  have m1 : (v : ℚ) ≤ f * v := by nlinarith
  have m2 : f * v ≤ 2 ^ 53 := by nlinarith
  have p1 : (v : ℚ) ≤ ρ.fl (f * v) := ρ.nat_le (by omega) m1
  have p2 : ρ.fl (f * v) ≤ 2 ^ 53 := ρ.le_pow m2
  have e1 : (lit 1.2 : Dbl ρ) *. lit (v : ℚ) +. lit 2 = fin (ρ.fl (ρ.fl (f * v) + 2)) := by
    rw [l1, l2, l3, mul_fin, ofRat_le (m := 53) (by norm_num) (by rw [abs_of_nonneg (by linarith)]; exact m2),
      add_fin]
    refine ofRat_le (m := 54) (by norm_num) ?_
    rw [abs_of_nonneg (by linarith)]
    have : (2 : ℚ) ^ 54 = 2 ^ 53 + 2 ^ 53 := by norm_num
    linarith
  have e2 : initialNumVehicles ctx = sat ⌈ρ.fl (ρ.fl (f * v) + 2)⌉ := by
    unfold initialNumVehicles
    rw [hV, e1]
    rfl
  have s1 : ((v + 2 : ℕ) : ℚ) ≤ ρ.fl (ρ.fl (f * v) + 2) := by
    refine ρ.nat_le (by omega) ?_
    push_cast
    linarith
  have s2 : ((v + 2 : ℕ) : ℤ) ≤ ⌈ρ.fl (ρ.fl (f * v) + 2)⌉ := by
    have := s1.trans (Int.le_ceil _)
    exact_mod_cast this
  refine ⟨?_, fun hf65 => ?_⟩
  · rw [e2, sat]
    refine le_min ?_ ?_ <;> omega
  · have hF := Int.le_ceil ((6 / 5 : ℚ) * v + 2)
    generalize hFz : ⌈(6 / 5 : ℚ) * v + 2⌉ = F at *
    have hF2 : F ≤ 2 ^ 53 := by
      rw [← hFz, Int.ceil_le]
      have : ((2 ^ 53 : ℤ) : ℚ) = 2 ^ 52 + 2 ^ 52 := by norm_num
      rw [this]
      have h8 : (10 : ℚ) ≤ 2 ^ 52 := by norm_num
      linarith
    have hF0 : (2 : ℚ) ≤ F := by nlinarith
    have hF0' : 2 ≤ F := by exact_mod_cast hF0
    have t1 : ρ.fl (f * v) ≤ ((F - 2 : ℤ) : ℚ) := by
      have : f * v ≤ ((F - 2 : ℤ) : ℚ) := by push_cast; nlinarith
      have := ρ.mono _ _ this
      rwa [ρ.int (by rw [abs_of_nonneg (by omega)]; omega)] at this
    have t2 : ρ.fl (ρ.fl (f * v) + 2) ≤ F := by
      have : ρ.fl (f * v) + 2 ≤ F := by push_cast at t1; linarith
      have := ρ.mono _ _ this
      rwa [ρ.int (by rw [abs_of_nonneg (by omega)]; omega)] at this
    have t3 : ⌈ρ.fl (ρ.fl (f * v) + 2)⌉ ≤ F := by rwa [Int.ceil_le]
    rw [e2, sat]
    have := min_le_left (⌈ρ.fl (ρ.fl (f * v) + 2)⌉.toNat) (2 ^ 64 - 1)
    omega

/-! ### Subproblems -/

theorem loadZ_sublist {q : ℕ → ℤ} (h0 : ∀ c, 0 ≤ q c) {a b : List ℕ} (h : a.Sublist b) : loadZ q a ≤ loadZ q b := by
  induction h with
  | slnil => exact le_refl _
  | cons c _ ih => rw [loadZ_cons]; have := h0 c; omega
  | cons_cons c _ ih => rw [loadZ_cons, loadZ_cons]; omega

theorem loadZ_perm (q : ℕ → ℤ) {a b : List ℕ} (h : a.Perm b) : loadZ q a = loadZ q b := (h.map q).sum_eq

theorem mapping_length {n : ℕ} {mapping : List ℕ} (h1 : mapping.Nodup) (h2 : ∀ c ∈ mapping, c < n) :
    mapping.length ≤ n := by
  have := (List.subperm_of_subset h1 (l₂ := List.range n) fun c hc => List.mem_range.mpr (h2 c hc)).length_le
  simpa using this

theorem Whole.sub (h : Whole ctx q Q D) {mapping : List ℕ} (h1 : mapping.Nodup) (h2 : ∀ c ∈ mapping, c < ctx.n) :
    Whole (subCtx ctx mapping) (fun c => q (mapping.getD c 0)) Q D := by
  refine ⟨fun c => h.demand _, fun c => h.nonneg _, fun c => h.le _, h.cap, h.capPos, ?_⟩
  have : ((mapping.length : ℤ)) * D ≤ ctx.n * D :=
    mul_le_mul_of_nonneg_right (by exact_mod_cast mapping_length h1 h2) h.D_nonneg
  have := h.small
  show (mapping.length : ℤ) * D + Q ≤ _
  omega

theorem Moderate.sub {m : ℕ} (h : Moderate ctx m) {mapping : List ℕ} (h1 : mapping.Nodup)
    (h2 : ∀ c ∈ mapping, c < ctx.n) : Moderate (subCtx ctx mapping) m :=
  ⟨fun _ _ => h.dist _ _, h.size, h.partial (mapping_length h1 h2), (mapping_length h1 h2).trans h.nodes⟩

theorem Whole.sub_bound (h : Whole ctx q Q D) {mapping : List ℕ} (h1 : mapping.Nodup)
    (h2 : ∀ c ∈ mapping, c < ctx.n) : vehicleLowerBound (subCtx ctx mapping) ≤ vehicleLowerBound ctx := by
  have a := h.lowerBound.1
  have b := (h.sub h1 h2).lowerBound.1
  have hQ' : (0 : ℚ) < Q := by exact_mod_cast h.capPos
  have e : loadZ (fun c => q (mapping.getD c 0)) (List.range (subCtx ctx mapping).n) = loadZ q mapping := by
    unfold loadZ
    congr 1
    show (List.range mapping.length).map _ = _
    apply List.ext_getElem
    · simp
    · intro i h1 h2
      simp at h1
      simp [h1]
  rw [e] at b
  have hle : loadZ q mapping ≤ loadZ q (List.range ctx.n) := by
    obtain ⟨l, hl, hs⟩ := List.subperm_of_subset h1 (l₂ := List.range ctx.n)
      fun c hc => List.mem_range.mpr (h2 c hc)
    rw [← loadZ_perm q hl]
    exact loadZ_sublist h.nonneg hs
  have : ⌈(loadZ q mapping : ℚ) / Q⌉ ≤ ⌈(loadZ q (List.range ctx.n) : ℚ) / Q⌉ :=
    Int.ceil_le_ceil (div_le_div_of_nonneg_right (by exact_mod_cast hle) hQ'.le)
  omega

/-- Nearest rounding takes 1.2 down. -/
theorem nearestEven_fleet : nearestEven.fl (6 / 5) ≤ 6 / 5 := by
  show roundNearest (6 / 5) ≤ 6 / 5
  have hlog : Int.log 2 |(6 / 5 : ℚ)| = 0 := by
    rw [abs_of_pos (by norm_num)]
    rw [Int.log_of_one_le_right _ (by norm_num)]
    have : ⌊(6 / 5 : ℚ)⌋₊ = 1 := by rw [Nat.floor_eq_iff (by norm_num)]; norm_num
    rw [this]
    simp
  have hp : lastPlace (6 / 5) = -52 := by unfold lastPlace; rw [hlog]; norm_num
  unfold roundNearest
  rw [hp]
  have hx : (6 / 5 : ℚ) / 2 ^ (-52 : ℤ) = 27021597764222976 / 5 := by norm_num
  rw [hx]
  have hr : rne (27021597764222976 / 5) = 5404319552844595 := by
    unfold rne
    have hf : ⌊(27021597764222976 / 5 : ℚ)⌋ = 5404319552844595 := by norm_num
    rw [hf]
    norm_num
  rw [hr]
  norm_num

end Verif
