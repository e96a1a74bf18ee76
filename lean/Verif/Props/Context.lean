import Verif.Model.Context
import Verif.Lemmas.Spec
import Mathlib.Algebra.Order.Floor.Ring
import Mathlib.Tactic.Positivity

/-!
# C44, C45: the fleet size set at start-up

Statements use `Spec` (partitions, route loads) and the modelled functions of the context only. Exact
arithmetic.
-/

namespace Verif
open F64

namespace Spec

/-- A solution within a fleet of `k` vehicles: every customer once, at most `k` routes, no route over
the capacity by more than `tol`. -/
def FleetAdmits (n : ℕ) (demand : ℕ → ℚ) (cap tol : ℚ) (k : ℕ) : Prop :=
  ∃ R : List (List ℕ), IsPartition n R ∧ R.length ≤ k ∧ CapFeasible demand cap tol R

end Spec

theorem foldl_add_sum (l : List ℚ) : ∀ a : ℚ, l.foldl (· +. ·) a = a + l.sum := by
  induction l with
  | nil => intro a; simp
  | cons x l ih => intro a; rw [List.foldl_cons, ih, rat_add, List.sum_cons]; ring

/-- The total demand is the demand of the depot plus that of a route through all customers. -/
theorem totalDemand_rat (ctx : Ctx ℚ) (hn : 0 < ctx.n) :
    totalDemand ctx = ctx.demand 0 + Spec.routeLoad ctx.demand (Spec.customers ctx.n) := by
  unfold totalDemand Spec.routeLoad Spec.customers
  rw [foldl_add_sum]
  obtain ⟨m, hm⟩ : ∃ m, ctx.n = m + 1 := ⟨ctx.n - 1, by omega⟩
  rw [hm, List.range_eq_range', List.range'_succ]
  simp

theorem lowerBound_ge (ctx : Ctx ℚ) (hc : 0 < ctx.cap) :
    totalDemand ctx ≤ vehicleLowerBound ctx * ctx.cap := by
  have h : totalDemand ctx / ctx.cap ≤ vehicleLowerBound ctx := by
    unfold vehicleLowerBound
    rw [rat_ceilNat, rat_div]
    have h1 := Int.le_ceil (totalDemand ctx / ctx.cap)
    have h2 : (⌈totalDemand ctx / ctx.cap⌉ : ℚ) ≤ (⌈totalDemand ctx / ctx.cap⌉.toNat : ℚ) := by
      exact_mod_cast Int.self_le_toNat _
    exact h1.trans h2
  rwa [div_le_iff₀ hc] at h

theorem numVehicles_ge (ctx : Ctx ℚ) :
    (1.2 : ℚ) * vehicleLowerBound ctx + 2 ≤ initialNumVehicles ctx := by
  unfold initialNumVehicles
  simp only [rat_ceilNat, rat_add, rat_mul, rat_lit]
  have h1 := Int.le_ceil ((1.2 : ℚ) * vehicleLowerBound ctx + 2)
  have h2 : (⌈(1.2 : ℚ) * vehicleLowerBound ctx + 2⌉ : ℚ) ≤
      (⌈(1.2 : ℚ) * vehicleLowerBound ctx + 2⌉.toNat : ℚ) := by
    exact_mod_cast Int.self_le_toNat _
  exact h1.trans h2

/-- **C44.** The fleet size set at start-up is at least the bin-packing bound `⌈total demand / cap⌉`
plus two; the bound itself is enough for the total demand, so the fleet has at least two vehicles'
worth of spare capacity. -/
theorem C44_fleet_size (ctx : Ctx ℚ) (hn : 0 < ctx.n) (hc : 0 < ctx.cap) :
    ⌈(ctx.demand 0 + Spec.routeLoad ctx.demand (Spec.customers ctx.n)) / ctx.cap⌉.toNat + 2
      ≤ initialNumVehicles ctx ∧
    ctx.demand 0 + Spec.routeLoad ctx.demand (Spec.customers ctx.n) + 2 * ctx.cap
      ≤ initialNumVehicles ctx * ctx.cap := by
  rw [← totalDemand_rat ctx hn]
  have h1 := numVehicles_ge ctx
  have h2 := lowerBound_ge ctx hc
  have h3 : (0 : ℚ) ≤ vehicleLowerBound ctx := Nat.cast_nonneg _
  have h4 : (vehicleLowerBound ctx : ℚ) + 2 ≤ initialNumVehicles ctx := by linarith
  constructor
  · show vehicleLowerBound ctx + 2 ≤ _
    exact_mod_cast h4
  · nlinarith [mul_le_mul_of_nonneg_right h4 hc.le]

/-- Next-fit: closed routes leave less than the largest demand free. -/
theorem nextFit (demand : ℕ → ℚ) (cap d : ℚ) (hc : 0 ≤ cap) (hd : d ≤ cap) :
    ∀ l : List ℕ, (∀ c ∈ l, demand c ≤ d) →
    ∃ (r : List ℕ) (R : List (List ℕ)), (r :: R).flatten.Perm l ∧
      (∀ q ∈ r :: R, Spec.routeLoad demand q ≤ cap) ∧ ∀ q ∈ R, cap - d ≤ Spec.routeLoad demand q
  | [], _ => ⟨[], [], by simp, by simp [Spec.routeLoad, hc], by simp⟩
  | c :: l, h => by
    obtain ⟨r, R, h1, h2, h3⟩ := nextFit demand cap d hc hd l fun x hx => h x (by simp [hx])
    have hcd := h c (by simp)
    by_cases hfit : Spec.routeLoad demand (c :: r) ≤ cap
    · refine ⟨c :: r, R, ?_, ?_, h3⟩
      · simpa using h1
      · intro q hq
        rw [List.mem_cons] at hq
        rcases hq with rfl | hq
        · exact hfit
        · exact h2 q (by simp [hq])
    · refine ⟨[c], r :: R, ?_, ?_, ?_⟩
      · simpa using h1
      · intro q hq
        rw [List.mem_cons] at hq
        rcases hq with rfl | hq
        · simpa [Spec.routeLoad] using hcd.trans hd
        · exact h2 q hq
      · intro q hq
        rw [List.mem_cons] at hq
        rcases hq with rfl | hq
        · have : Spec.routeLoad demand (c :: q) = demand c + Spec.routeLoad demand q := by
            simp [Spec.routeLoad]
          rw [this] at hfit
          linarith
        · exact h3 q hq

theorem routeLoad_flatten (demand : ℕ → ℚ) : ∀ R : List (List ℕ),
    Spec.routeLoad demand R.flatten = (R.map (Spec.routeLoad demand)).sum
  | [] => by simp [Spec.routeLoad]
  | r :: R => by
    rw [List.map_cons, List.sum_cons, ← routeLoad_flatten demand R]
    simp [Spec.routeLoad]

theorem routeLoad_perm (demand : ℕ → ℚ) {l l' : List ℕ} (h : l.Perm l') :
    Spec.routeLoad demand l = Spec.routeLoad demand l' := (h.map demand).sum_eq

theorem sum_ge_of_all (f : List ℕ → ℚ) (b : ℚ) : ∀ R : List (List ℕ), (∀ r ∈ R, b ≤ f r) →
    R.length * b ≤ (R.map f).sum
  | [], _ => by simp
  | r :: R, h => by
    have h1 := sum_ge_of_all f b R fun q hq => h q (by simp [hq])
    have h2 := h r (by simp)
    rw [List.length_cons, List.map_cons, List.sum_cons]
    push_cast
    linarith

/-- **C45** (part). If no demand exceeds a sixth of the capacity, the fleet set at start-up admits a
solution within the capacities; this is what the 20 % margin buys. Missing: larger demands, for which
`FleetEx.C45_refuted` shows that the fleet can be too small. -/
theorem C45_fleet_suffices_partial (ctx : Ctx ℚ) (hn : 0 < ctx.n) (hc : 0 < ctx.cap)
    (h0 : 0 ≤ ctx.demand 0) (hd : ∀ c, 1 ≤ c → c < ctx.n → 0 ≤ ctx.demand c ∧ ctx.demand c ≤ ctx.cap / 6) :
    Spec.FleetAdmits ctx.n ctx.demand ctx.cap 0 (initialNumVehicles ctx) := by
  obtain ⟨r, R, h1, h2, h3⟩ := nextFit ctx.demand ctx.cap (ctx.cap / 6) hc.le (by linarith)
    (Spec.customers ctx.n) (fun c hcm => by
      unfold Spec.customers at hcm
      rw [List.mem_range'_1] at hcm
      exact (hd c hcm.1 (by omega)).2)
  refine ⟨r :: R, h1, ?_, fun q hq => by simpa using h2 q hq⟩
  have hr0 : 0 ≤ Spec.routeLoad ctx.demand r := by
    unfold Spec.routeLoad
    apply List.sum_nonneg
    intro x hx
    rw [List.mem_map] at hx
    obtain ⟨c, hcr, rfl⟩ := hx
    have : c ∈ Spec.customers ctx.n := h1.mem_iff.mp (by simp [hcr])
    unfold Spec.customers at this
    rw [List.mem_range'_1] at this
    exact (hd c this.1 (by omega)).1
  have hsum : Spec.routeLoad ctx.demand (Spec.customers ctx.n) =
      Spec.routeLoad ctx.demand r + (R.map (Spec.routeLoad ctx.demand)).sum := by
    rw [← routeLoad_perm ctx.demand h1, routeLoad_flatten]
    simp
  have hR := sum_ge_of_all (Spec.routeLoad ctx.demand) (ctx.cap - ctx.cap / 6) R h3
  have ht := totalDemand_rat ctx hn
  have hl := lowerBound_ge ctx hc
  have hv := numVehicles_ge ctx
  have key : (R.length : ℚ) * (ctx.cap - ctx.cap / 6) ≤ vehicleLowerBound ctx * ctx.cap := by linarith
  have key2 : (R.length : ℚ) ≤ 1.2 * vehicleLowerBound ctx := by
    have : ((R.length : ℚ) * (5 / 6)) * ctx.cap ≤ vehicleLowerBound ctx * ctx.cap := by
      calc ((R.length : ℚ) * (5 / 6)) * ctx.cap = (R.length : ℚ) * (ctx.cap - ctx.cap / 6) := by ring
        _ ≤ _ := key
    have := le_of_mul_le_mul_right this hc
    linarith
  have : ((R.length + 1 : ℕ) : ℚ) ≤ initialNumVehicles ctx := by push_cast; linarith
  simpa using (by exact_mod_cast this : R.length + 1 ≤ initialNumVehicles ctx)

theorem flatten_le_length : ∀ R : List (List ℕ), (∀ r ∈ R, r.length ≤ 1) → R.flatten.length ≤ R.length
  | [], _ => by simp
  | r :: R, h => by
    have h1 := flatten_le_length R fun q hq => h q (by simp [hq])
    have h2 := h r (by simp)
    rw [List.flatten_cons, List.length_append, List.length_cons]
    omega

/-- Folding with std's `max_by` rule yields an upper bound that is attained. -/
theorem foldMax : ∀ (l : List ℚ) (x : ℚ), x ≤ l.foldl (fun a b => if b <. a then a else b) x ∧
    (∀ y ∈ l, y ≤ l.foldl (fun a b => if b <. a then a else b) x) ∧
    (l.foldl (fun a b => if b <. a then a else b) x = x ∨ l.foldl (fun a b => if b <. a then a else b) x ∈ l) := by
  intro l
  induction l with
  | nil => intro x; simp
  | cons y l ih =>
    intro x
    rw [List.foldl_cons]
    obtain ⟨h1, h2, h3⟩ := ih (if y <. x then x else y)
    generalize l.foldl (fun a b => if b <. a then a else b) (if y <. x then x else y) = z at h1 h2 h3
    have hx : x ≤ z ∧ y ≤ z := by
      split at h1
      · rename_i hc
        simp at hc
        exact ⟨h1, by linarith⟩
      · rename_i hc
        simp at hc
        exact ⟨by linarith, h1⟩
    refine ⟨hx.1, fun w hw => ?_, ?_⟩
    · rcases List.mem_cons.mp hw with rfl | hw
      · exact hx.2
      · exact h2 w hw
    · rcases h3 with h3 | h3
      · split at h3
        · exact Or.inl h3
        · exact Or.inr (by simp [h3])
      · exact Or.inr (by simp [h3])

/-- **C37**, start. The largest demand used for the first penalty is that: no node has a larger one, and some
node has it. It is missing only without nodes. -/
theorem C37_max_demand (ctx : Ctx ℚ) :
    (ctx.n = 0 → maxDemand ctx = none) ∧
    (0 < ctx.n → ∃ q, maxDemand ctx = some q ∧ (∀ i < ctx.n, ctx.demand i ≤ q) ∧ ∃ i < ctx.n, ctx.demand i = q) := by
  refine ⟨fun h => by simp [maxDemand, h], fun h => ?_⟩
  have hmem : ∀ v, v ∈ (List.range ctx.n).map ctx.demand ↔ ∃ i < ctx.n, ctx.demand i = v := by simp
  unfold maxDemand
  generalize (List.range ctx.n).map ctx.demand = l at hmem
  cases l with
  | nil => exact absurd ((hmem (ctx.demand 0)).mpr ⟨0, h, rfl⟩) (by simp)
  | cons x l =>
    obtain ⟨h1, h2, h3⟩ := foldMax l x
    refine ⟨_, rfl, fun i hi => ?_, (hmem _).mp ?_⟩
    · rcases List.mem_cons.mp ((hmem _).mpr ⟨i, hi, rfl⟩) with e | e
      · rw [e]; exact h1
      · exact h2 _ e
    · rcases h3 with h3 | h3
      · rw [h3]; simp
      · exact List.mem_cons_of_mem _ h3

/-- `C37_max_demand` on three nodes with demands 0, 5, 3. -/
example : maxDemand (⟨3, fun _ _ => 0, fun i => if i = 0 then 0 else if i = 1 then 5 else 3, 10, 1, fun _ => 0,
    fun _ => 0⟩ : Ctx ℚ) = some 5 := by decide +kernel

/-- **C37**, start. The penalty set at start-up is the largest distance over the largest demand, kept
within `[0.0001, 10000]`; it is 100 when either is missing. -/
theorem C37_initial_penalty (distance demand : Option ℚ) :
    (1 / 10000 ≤ initialPenalty distance demand ∧ initialPenalty distance demand ≤ 10000) ∧
    (distance = none ∨ demand = none → initialPenalty distance demand = 100) ∧
    ∀ d q, distance = some d → demand = some q →
      (1 / 10000 ≤ d / q → d / q ≤ 10000 → initialPenalty distance demand = d / q) ∧
      (10000 < d / q → initialPenalty distance demand = 10000) ∧
      (d / q < 1 / 10000 → initialPenalty distance demand = 1 / 10000) := by
  have e2 : ((0.0001 : ℚ)) = 1 / 10000 := by norm_num
  have hval : ∀ d q : ℚ, initialPenalty (some d) (some q) = max (1 / 10000) (min 10000 (d / q)) := by
    intro d q
    simp [initialPenalty, e2]
  have hno : distance = none ∨ demand = none → initialPenalty distance demand = 100 := by
    rintro (rfl | rfl)
    · simp [initialPenalty]
    · cases distance <;> simp [initialPenalty]
  refine ⟨?_, hno, ?_⟩
  · cases distance with
    | none => rw [hno (.inl rfl)]; norm_num
    | some d =>
      cases demand with
      | none => rw [hno (.inr rfl)]; norm_num
      | some q =>
        rw [hval]
        exact ⟨le_max_left _ _, max_le (by norm_num) (min_le_left _ _)⟩
  · rintro d q rfl rfl
    rw [hval]
    refine ⟨fun h1 h2 => ?_, fun h => ?_, fun h => ?_⟩
    · rw [min_eq_right h2, max_eq_right h1]
    · rw [min_eq_left h.le, max_eq_right (by norm_num)]
    · rw [min_eq_right (by linarith), max_eq_left h.le]

/-- `C37_initial_penalty` on numbers: distance 1500 and demand 30 give 50, the limits cut in elsewhere. -/
example : initialPenalty (some (1500 : ℚ)) (some 30) = 50 ∧ initialPenalty (some (1500 : ℚ)) (some 0.1) = 10000 := by
  decide +kernel

namespace FleetEx

/-- Twenty customers that each fill slightly more than half a vehicle. -/
def ctx : Ctx ℚ where
  n := 21
  demand i := if i = 0 then 0 else 51
  cap := 100
  pen := 1
  dist _ _ := 1
  lng _ := 0
  lat _ := 0

theorem fleet : initialNumVehicles ctx = 16 := by decide +kernel

/-- `C44_fleet_size` on this instance: the bin-packing bound is 11 (total demand 1020, capacity 100). -/
example : ⌈(ctx.demand 0 + Spec.routeLoad ctx.demand (Spec.customers ctx.n)) / ctx.cap⌉.toNat = 11 ∧
    11 + 2 ≤ initialNumVehicles ctx ∧ (0 : ℚ) < ctx.cap := by
  refine ⟨by decide +kernel, by rw [fleet]; decide, by decide +kernel⟩

/-- C45 is false: every demand fits in a vehicle, yet the sixteen vehicles set at start-up cannot serve
the twenty customers, even with the tolerance the code grants. -/
theorem C45_refuted : (∀ c, 0 ≤ ctx.demand c ∧ ctx.demand c ≤ ctx.cap) ∧
    ¬ Spec.FleetAdmits ctx.n ctx.demand ctx.cap (1 / 1000000) (initialNumVehicles ctx) := by
  constructor
  · intro c
    unfold ctx
    dsimp only
    split <;> norm_num
  · rintro ⟨R, h1, h2, h3⟩
    rw [fleet] at h2
    have hall : ∀ r ∈ R, r.length ≤ 1 := by
      intro r hr
      have hl := h3 r hr
      have hmem : ∀ x ∈ r, ctx.demand x = 51 := by
        intro x hx
        have := h1.mem_iff.mp (List.mem_flatten.mpr ⟨r, hr, hx⟩)
        have hx0 : x ≠ 0 := by omega
        simp [ctx, hx0]
      match r, hmem, hl with
      | [], _, _ => simp
      | [_], _, _ => simp
      | a :: b :: l, hm, hl =>
        exfalso
        have ha := hm a (by simp)
        have hb := hm b (by simp)
        have hrest : 0 ≤ Spec.routeLoad ctx.demand l := by
          unfold Spec.routeLoad
          apply List.sum_nonneg
          intro x hx
          rw [List.mem_map] at hx
          obtain ⟨c, hc, rfl⟩ := hx
          rw [hm c (by simp [hc])]
          norm_num
        have e : Spec.routeLoad ctx.demand (a :: b :: l) =
            ctx.demand a + (ctx.demand b + Spec.routeLoad ctx.demand l) := by simp [Spec.routeLoad]
        rw [e, ha, hb] at hl
        have : ctx.cap = 100 := rfl
        rw [this] at hl
        norm_num at hl
        linarith
    have h4 := flatten_le_length R hall
    have h5 := h1.length_eq
    have h6 : (Spec.customers ctx.n).length = 20 := by decide
    omega

/-- The hypotheses of `C45_fleet_suffices_partial` with the bound attained: seven customers that each
fill a sixth of a vehicle. -/
example : (0 : ℕ) < 8 ∧ (0 : ℚ) < 60 ∧
    Spec.FleetAdmits 8 (fun i => if i = 0 then 0 else 10) 60 0
      (initialNumVehicles (⟨8, fun _ _ => 1, fun i => if i = 0 then 0 else 10, 60, 1, fun _ => 0, fun _ => 0⟩ : Ctx ℚ)) := by
  refine ⟨by norm_num, by norm_num, ?_⟩
  refine C45_fleet_suffices_partial ⟨8, fun _ _ => 1, fun i => if i = 0 then 0 else 10, 60, 1,
    fun _ => 0, fun _ => 0⟩ (by norm_num) (by norm_num) (by norm_num) ?_
  intro c h1 h2
  have : c ≠ 0 := by omega
  simp [this]
  norm_num

end FleetEx
end Verif
