import Verif.Lemmas.DblProgram
import Verif.Lemmas.DblFleet
import Verif.Props.Context

/-!
# C44, C45 in double precision

The number of vehicles is the rounded quotient of two rounded numbers, times the rounded 1.2, plus 2. For
whole demands no rounding takes away the vehicle that the exact argument needs.
-/

namespace Verif
open F64 Dbl

section

variable {ρ : Rounding} {ctx : Ctx (Dbl ρ)} {q : ℕ → ℤ} {Q D : ℤ}

/-- The fleet has room for 1.2 times the lower bound plus one, whatever the rounding. -/
theorem Whole.fleet_ge (h : Whole ctx q Q D) {k : ℕ} (hk : (k : ℚ) ≤ 6 / 5 * vehicleLowerBound ctx) :
    k + 1 ≤ initialNumVehicles ctx := by
  obtain ⟨-, hv2⟩ := h.lowerBound
  obtain rfl | ⟨k, rfl⟩ : k = 0 ∨ ∃ j, k = j + 1 := by cases k <;> simp
  · have := h.fleet.1
    omega
  generalize hV : vehicleLowerBound ctx = v at *
  have r1 : (6 / 5 : ℚ) - 1 / 2 ^ 52 ≤ ρ.fl (6 / 5) := by
    have r := ρ.rep 5404319552844595 (-52) (by norm_num) (by norm_num)
    have m := ρ.mono (5404319552844595 / 2 ^ 52) (6 / 5) (by norm_num)
    norm_num at r m ⊢
    rw [r] at m
    linarith
  have r2 : ρ.fl (6 / 5) ≤ 2 := by
    have := ρ.le_nat (x := 6 / 5) (k := 2) (by norm_num) (by norm_num)
    exact_mod_cast this
  have l1 : (lit 1.2 : Dbl ρ) = fin (ρ.fl (6 / 5)) := by
    rw [show (1.2 : ℚ) = 6 / 5 by norm_num]
    exact ofRat_le (m := 1) (by norm_num) (by rw [abs_of_nonneg (by norm_num)]; norm_num)
  have l2 : (lit (v : ℚ) : Dbl ρ) = fin v := ofRat_nat (by omega)
  have l3 : (lit 2 : Dbl ρ) = fin 2 := by
    have := ofRat_nat (ρ := ρ) (k := 2) (by norm_num)
    exact_mod_cast this
  have v0 : (0 : ℚ) ≤ v := Nat.cast_nonneg _
  have v2 : (v : ℚ) ≤ 2 ^ 52 := by exact_mod_cast hv2.le
  generalize hf : ρ.fl (6 / 5) = f at *
  have k2 : k + 1 ≤ 2 ^ 53 - 2 := by
    have : ((k + 1 : ℕ) : ℚ) ≤ ((2 ^ 53 - 2 : ℕ) : ℚ) := by
      refine hk.trans ?_
      have : ((2 ^ 53 - 2 : ℕ) : ℚ) = 2 ^ 52 * 2 - 2 := by norm_num
      rw [this]
      have : (10 : ℚ) ≤ 2 ^ 52 := by norm_num
      linarith
    exact_mod_cast this
  have m1 : (k : ℚ) ≤ f * v := by
    have a : (6 / 5 - 1 / 2 ^ 52 : ℚ) * v ≤ f * v := mul_le_mul_of_nonneg_right r1 v0
    push_cast at hk
    have b : 1 / 2 ^ 52 * (v : ℚ) ≤ 1 := by rw [div_mul_eq_mul_div, one_mul, div_le_one (by positivity)]; exact v2
    rw [sub_mul] at a
    linarith
  have m2 : f * v ≤ 2 ^ 53 := by nlinarith
  have m0 : 0 ≤ f * v := (Nat.cast_nonneg k).trans m1
  have p1 : (k : ℚ) ≤ ρ.fl (f * v) := ρ.nat_le (by omega) m1
  have p2 : ρ.fl (f * v) ≤ 2 ^ 53 := ρ.le_pow m2
  have p0 := ρ.nonneg m0
  have e1 : (lit 1.2 : Dbl ρ) *. lit (v : ℚ) +. lit 2 = fin (ρ.fl (ρ.fl (f * v) + 2)) := by
    rw [l1, l2, l3, mul_fin, ofRat_le (m := 53) (by norm_num) (by rw [abs_of_nonneg m0]; exact m2), add_fin]
    refine ofRat_le (m := 54) (by norm_num) ?_
    rw [abs_of_nonneg (by linarith)]
    have : (2 : ℚ) ^ 54 = 2 ^ 53 + 2 ^ 53 := by norm_num
    linarith
  have e2 : initialNumVehicles ctx = sat ⌈ρ.fl (ρ.fl (f * v) + 2)⌉ := by
    unfold initialNumVehicles
    rw [hV, e1]
    rfl
  have s1 : ((k + 2 : ℕ) : ℚ) ≤ ρ.fl (ρ.fl (f * v) + 2) := by
    refine ρ.nat_le (by omega) ?_
    push_cast
    linarith
  have s2 : ((k + 2 : ℕ) : ℤ) ≤ ⌈ρ.fl (ρ.fl (f * v) + 2)⌉ := by
    have := s1.trans (Int.le_ceil _)
    exact_mod_cast this
  rw [e2, sat]
  refine le_min ?_ ?_ <;> omega

theorem Whole.suffices (h : Whole ctx q Q D) (hn : 0 < ctx.n)
    (hd : ∀ c, 1 ≤ c → c < ctx.n → (q c : ℚ) ≤ Q / 6) :
    Spec.FleetAdmits ctx.n (fun c => (q c : ℚ)) Q 0 (initialNumVehicles ctx) := by
  have hQ : (0 : ℚ) < Q := by exact_mod_cast h.capPos
  obtain ⟨r, R, h1, h2, h3⟩ := nextFit (fun c => (q c : ℚ)) Q (Q / 6) hQ.le (by linarith)
    (Spec.customers ctx.n) (fun c hcm => by
      unfold Spec.customers at hcm
      rw [List.mem_range'_1] at hcm
      exact hd c hcm.1 (by omega))
  refine ⟨r :: R, h1, ?_, fun q hq => by simpa using h2 q hq⟩
  have hr0 : (0 : ℚ) ≤ Spec.routeLoad (fun c => (q c : ℚ)) r := by
    rw [loadZ_cast]
    exact_mod_cast (loadZ_bounds h.nonneg h.le r).1
  have hsum : Spec.routeLoad (fun c => (q c : ℚ)) (Spec.customers ctx.n) =
      Spec.routeLoad (fun c => (q c : ℚ)) r + (R.map (Spec.routeLoad fun c => (q c : ℚ))).sum := by
    rw [← routeLoad_perm _ h1, routeLoad_flatten]
    simp
  have hR := sum_ge_of_all (Spec.routeLoad fun c => (q c : ℚ)) (Q - Q / 6) R h3
  have ht : (loadZ q (List.range ctx.n) : ℚ) =
      q 0 + Spec.routeLoad (fun c => (q c : ℚ)) (Spec.customers ctx.n) := by
    rw [← loadZ_cast]
    obtain ⟨m, hm⟩ : ∃ m, ctx.n = m + 1 := ⟨ctx.n - 1, by omega⟩
    rw [hm, List.range_eq_range', List.range'_succ]
    simp [Spec.routeLoad, Spec.customers]
  have hq0 : (0 : ℚ) ≤ q 0 := by exact_mod_cast h.nonneg 0
  have hl : (loadZ q (List.range ctx.n) : ℚ) ≤ vehicleLowerBound ctx * Q := by
    have a := Int.le_ceil ((loadZ q (List.range ctx.n) : ℚ) / Q)
    rw [← h.lowerBound.1, div_le_iff₀ hQ] at a
    exact_mod_cast a
  have key : ((R.length : ℚ) * (5 / 6)) * Q ≤ vehicleLowerBound ctx * Q := by
    calc ((R.length : ℚ) * (5 / 6)) * Q = (R.length : ℚ) * (Q - Q / 6) := by ring
      _ ≤ _ := by linarith
  have := le_of_mul_le_mul_right key hQ
  simpa using h.fleet_ge (k := R.length) (by linarith)

end

namespace Program

variable {ρ : Rounding} {lib : Lib (Dbl ρ)} {nodes : List (ℚ × ℚ × ℚ)} {cap : ℚ}
  {d : DistMatrix (Dbl ρ)} {m : Option (List (List (Dbl ρ)))}

/-- **C44**, in double precision: for whole demands the fleet set at start-up is at least the bin-packing bound
plus two, without any loss by rounding, so there are two vehicles' worth of spare capacity. -/
theorem C44_double (hd : DblLoads nodes cap) :
    ⌈Spec.routeLoad (Spec.nodeDemand nodes) (List.range nodes.length) / cap⌉ + 2 ≤
      (initialNumVehicles (context lib (parsed (dblNodes ρ nodes) (fin cap) m) d) : ℤ) ∧
    Spec.routeLoad (Spec.nodeDemand nodes) (List.range nodes.length) + 2 * cap ≤
      initialNumVehicles (context lib (parsed (dblNodes ρ nodes) (fin cap) m) d) * cap := by
  obtain ⟨Q, D, hQ, hw⟩ := dbl_whole (lib := lib) (ρ := ρ) (m := m) (d := d) hd
  have e : Spec.nodeDemand nodes = fun c => (demandZ nodes c : ℚ) := funext fun c => demandZ_cast hd c
  have h1 := hw.lowerBound.1
  have h2 := hw.fleet.1
  have hc : (0 : ℚ) < cap := by rw [hQ]; exact_mod_cast hw.capPos
  rw [dbl_n, ← hQ, ← loadZ_cast, ← e] at h1
  have h3 := Int.le_ceil (Spec.routeLoad (Spec.nodeDemand nodes) (List.range nodes.length) / cap)
  have h4 : ((vehicleLowerBound (context lib (parsed (dblNodes ρ nodes) (fin cap) m) d) : ℤ) : ℚ) + 2 ≤
      initialNumVehicles (context lib (parsed (dblNodes ρ nodes) (fin cap) m) d) := by exact_mod_cast h2
  rw [← h1] at h3 ⊢
  rw [div_le_iff₀ hc] at h3
  refine ⟨by omega, ?_⟩
  have := mul_le_mul_of_nonneg_right h4 hc.le
  rw [add_mul] at this
  linarith

/-- **C45** (part), in double precision: if the demands are whole and none exceeds a sixth of the capacity,
the fleet set at start-up admits a solution within the capacities, whatever the distances. Missing: larger
demands, for which `FleetDoubleEx.C45_double_refuted` shows that the fleet can be too small. -/
theorem C45_double_partial (hd : DblLoads nodes cap) (hn : nodes ≠ [])
    (h6 : ∀ c, 1 ≤ c → c < nodes.length → Spec.nodeDemand nodes c ≤ cap / 6) :
    Spec.FleetAdmits nodes.length (Spec.nodeDemand nodes) cap 0
      (initialNumVehicles (context lib (parsed (dblNodes ρ nodes) (fin cap) m) d)) := by
  obtain ⟨Q, D, hQ, hw⟩ := dbl_whole (lib := lib) (ρ := ρ) (m := m) (d := d) hd
  have e : Spec.nodeDemand nodes = fun c => (demandZ nodes c : ℚ) := funext fun c => demandZ_cast hd c
  have := hw.suffices (by rw [dbl_n]; exact List.length_pos_iff.mpr hn) (fun c a b => by
    rw [dbl_n] at b
    rw [← demandZ_cast hd, ← hQ]
    exact h6 c a b)
  rw [dbl_n, ← hQ, ← e] at this
  exact this

end Program

namespace FleetDoubleEx
open Program

/-- The nodes of `FleetEx.ctx`: a depot and twenty customers that fill slightly more than half a vehicle. -/
def nodes : List (ℚ × ℚ × ℚ) := (List.range 21).map fun i : ℕ => ((i : ℚ), 0, if i = 0 then 0 else 51)

theorem loads : DblLoads nodes 100 := by
  refine ⟨by decide, 100, 51, by norm_num, by norm_num, ?_, by decide⟩
  intro p hp
  simp only [nodes, List.mem_map] at hp
  obtain ⟨i, -, rfl⟩ := hp
  by_cases h : i = 0
  · exact ⟨0, by simp [h], by norm_num, by norm_num⟩
  · exact ⟨51, by simp [h], by norm_num, by norm_num⟩

theorem demand (c : ℕ) : Spec.nodeDemand nodes c = if c = 0 then 0 else if c < 21 then 51 else 0 := by
  unfold Spec.nodeDemand nodes
  by_cases h : c < 21
  · by_cases h0 : c = 0
    · simp [h0]
    · simp [h, h0]
  · have : c ≠ 0 := by omega
    simp [h, this]

/-- In double precision too, the fleet of sixteen cannot serve the twenty customers: C45 is false of the
arithmetic the program uses, for every library and all distances. -/
theorem C45_double_refuted (lib : Lib (Dbl nearestEven)) (d : DistMatrix (Dbl nearestEven))
    (m : Option (List (List (Dbl nearestEven)))) :
    DblLoads nodes 100 ∧ (∀ c, 0 ≤ Spec.nodeDemand nodes c ∧ Spec.nodeDemand nodes c ≤ 100) ∧
    ¬ Spec.FleetAdmits nodes.length (Spec.nodeDemand nodes) 100 (1 / 1000000)
      (initialNumVehicles (context lib (parsed (dblNodes nearestEven nodes) (fin 100) m) d)) := by
  refine ⟨loads, fun c => by rw [demand]; split_ifs <;> norm_num, ?_⟩
  rintro ⟨R, h1, h2, h3⟩
  refine FleetEx.C45_refuted.2 ⟨R, h1, ?_, ?_⟩
  · rw [FleetEx.fleet]
    refine h2.trans ?_
    obtain ⟨Q, D, hQ, hw⟩ := dbl_whole (lib := lib) (ρ := nearestEven) (m := m) (d := d) loads
    have a := hw.fleet.2 nearestEven_fleet
    rw [dbl_n, ← hQ] at a
    have e : loadZ (demandZ nodes) (List.range nodes.length) = 1020 := by decide +kernel
    rw [e] at a
    have c : ⌈(6 / 5 : ℚ) * ⌈((1020 : ℤ) : ℚ) / 100⌉ + 2⌉ = 16 := by decide +kernel
    rw [c] at a
    exact_mod_cast a
  · intro r hr
    have := h3 r hr
    have e : Spec.routeLoad FleetEx.ctx.demand r = Spec.routeLoad (Spec.nodeDemand nodes) r := by
      unfold Spec.routeLoad
      congr 1
      apply List.map_congr_left
      intro x hx
      have hm := h1.mem_iff.mp (List.mem_flatten.mpr ⟨r, hr, hx⟩)
      have hl : nodes.length = 21 := by simp [nodes]
      rw [hl] at hm
      have h0 : x ≠ 0 := by omega
      have h21 : x < 21 := by omega
      simp [FleetEx.ctx, demand, h0, h21]
    rw [e]
    exact this

/-- `C44_double` on these nodes: the bound is 11, the total demand 1020. -/
example (lib : Lib (Dbl nearestEven)) (d : DistMatrix (Dbl nearestEven)) :
    (13 : ℤ) ≤ initialNumVehicles (context lib (parsed (dblNodes nearestEven nodes) (fin 100) none) d) := by
  have h := (C44_double (lib := lib) (d := d) (m := none) loads).1
  have e : ⌈Spec.routeLoad (Spec.nodeDemand nodes) (List.range nodes.length) / 100⌉ = 11 := by decide +kernel
  rw [e] at h
  exact h

/-- `C45_double_partial` with the bound attained: seven customers that each fill a sixth of a vehicle. -/
def small : List (ℚ × ℚ × ℚ) := (List.range 8).map fun i : ℕ => ((i : ℚ), 0, if i = 0 then 0 else 10)

example (lib : Lib (Dbl nearestEven)) (d : DistMatrix (Dbl nearestEven)) :
    Spec.nodeDemand small 3 = 60 / 6 ∧ Spec.FleetAdmits 8 (Spec.nodeDemand small) 60 0
      (initialNumVehicles (context lib (parsed (dblNodes nearestEven small) (fin 60) none) d)) := by
  refine ⟨by decide +kernel, ?_⟩
  refine C45_double_partial (nodes := small) ⟨by decide, 60, 10, by norm_num, by norm_num, ?_, by decide⟩ (by decide) ?_
  · intro p hp
    simp only [small, List.mem_map] at hp
    obtain ⟨i, -, rfl⟩ := hp
    by_cases h : i = 0
    · exact ⟨0, by simp [h], by norm_num, by norm_num⟩
    · exact ⟨10, by simp [h], by norm_num, by norm_num⟩
  · decide +kernel

end FleetDoubleEx

end Verif
