import Verif.Lemmas.DblRecorded
import Verif.Props.Evaluate

/-!
# C01 in double precision

With whole demands and whole distances the evaluation of a complete solution makes no rounding error in lengths
and loads: feasibility is exact, without any tolerance, and the cost of a feasible solution is its length.
-/

namespace Verif
open F64 Dbl

section

variable {ρ : Rounding} {ctx : Ctx (Dbl ρ)} {q : ℕ → ℤ} {Q D : ℤ} {d : ℕ → ℕ → ℤ} {M : ℤ}

theorem foldl_whole {f : List ℕ → Dbl ρ} {z : List ℕ → ℤ} : ∀ (L : List (List ℕ)) (a : ℤ), 0 ≤ a →
    (∀ l ∈ L, f l = ofInt (z l) ∧ 0 ≤ z l) → a + (L.map z).sum ≤ 2 ^ 53 →
    L.foldl (fun c r => c +. f r) (ofInt a) = ofInt (a + (L.map z).sum) ∧ 0 ≤ (L.map z).sum
  | [], a, _, _, _ => by simp
  | l :: L, a, ha, hL, hb => by
    obtain ⟨h1, h2⟩ := hL l (by simp)
    rw [List.map_cons, List.sum_cons] at hb
    have h0 : 0 ≤ (L.map z).sum := List.sum_nonneg (by
      intro x hx
      obtain ⟨r, hr, rfl⟩ := List.mem_map.mp hx
      exact (hL r (by simp [hr])).2)
    obtain ⟨i1, i2⟩ := foldl_whole L (a + z l) (by omega) (fun r hr => hL r (by simp [hr])) (by omega)
    rw [List.foldl_cons, h1, ofInt_add (by rw [abs_of_nonneg (by omega)]; omega), i1, List.map_cons, List.sum_cons,
      add_assoc]
    exact ⟨rfl, by omega⟩

theorem sum_cast (z : List ℕ → ℤ) : ∀ L : List (List ℕ), ((L.map z).sum : ℚ) = (L.map fun r => (z r : ℚ)).sum
  | [] => by simp
  | l :: L => by
    rw [List.map_cons, List.sum_cons, List.map_cons, List.sum_cons, ← sum_cast z L]
    push_cast
    rfl

theorem whole_route (hw : Whole ctx q Q D) (hd : WholeDist ctx d M) {l : List ℕ} (hl : l.length + 1 ≤ ctx.n) :
    (routeVal ctx l).distance = ofInt (tripZ d l) ∧ (routeVal ctx l).overload = ofInt (loadZ q l - Q) :=
  ⟨hd.distance hl, hw.overload (by omega)⟩

/-- **C01**, in double precision. Demands and distances are whole, the routes visit every customer once, and the
penalty is a number. Then the evaluation does not panic, whatever was in the evaluation
object before, and reports the exact length and overload of every route; a solution is found feasible exactly
when no route is above the capacity at all, and then its cost is its length. -/
theorem C01_double (hw : Whole ctx q Q D) (hd : WholeDist ctx d M) (hn : 0 < ctx.n) {p : ℚ} (hp : ctx.pen = fin p)
    (e : SolEval (Dbl ρ)) {sol : List (List ℕ)} (hs : Spec.IsPartition ctx.n sol) :
    ∃ e', evaluate ctx e sol = some e' ∧
      e'.routes.map (·.distance) = sol.map (fun r => fin (Spec.routeDist (fun a b => (d a b : ℚ)) r)) ∧
      e'.routes.map (·.overload) = sol.map (fun r => fin (Spec.routeLoad (fun c => (q c : ℚ)) r - Q)) ∧
      (e'.feasible = true ↔ Spec.CapFeasible (fun c => (q c : ℚ)) Q 0 sol) ∧
      (e'.feasible = true → e'.cost = fin (sol.map (Spec.routeDist fun a b => (d a b : ℚ))).sum) := by
  have hmem : ∀ r ∈ sol, ∀ x ∈ r, x < ctx.n := by
    intro r hr x hx
    have := hs.mem_iff.mp (List.mem_flatten.mpr ⟨r, hr, hx⟩)
    omega
  obtain ⟨e', h, -, -, -⟩ := evalRoutes_some ctx ctx.n hn sol 0
    { e.reset sol.length ctx.n with cost := lit 0, feasible := true } hmem
    (by simp [SolEval.reset, resize_length]) (by simp [SolEval.reset, resize_length])
    (by simp [SolEval.reset, resize_length])
  have hg : Individual.Good (RR.ctxAt ctx ctx.pen) (⟨0, sol.flatten, sol, inf, e'⟩ : Individual (Dbl ρ)) :=
    ⟨hs, rfl, e, h⟩
  obtain ⟨v1, v2, v3⟩ := hg.vals
  have hval : ∀ r ∈ sol, (routeVal (RR.ctxAt ctx ctx.pen) r).distance = ofInt (tripZ d r) ∧
      (routeVal (RR.ctxAt ctx ctx.pen) r).overload = ofInt (loadZ q r - Q) := fun r hr => by
    have := hg.short hr
    exact whole_route (ctx := RR.ctxAt ctx ctx.pen) hw.at_ hd.at_ (show r.length + 1 ≤ ctx.n by
      have : r.length ≤ ctx.n - 1 := this
      omega)
  have hf : e'.feasible = true ↔ ∀ r ∈ sol, loadZ q r ≤ Q := by
    refine v2.trans (forall₂_congr fun r hr => ?_)
    rw [(hval r hr).2, approxGt_int, decide_eq_false_iff_not]
    omega
  refine ⟨e', h, ?_, ?_, ?_, fun hfe => ?_⟩
  · rw [show e'.routes = _ from v3, List.map_map]
    refine List.map_congr_left fun r hr => ?_
    rw [Function.comp_apply, (hval r hr).1, tripZ_cast]
    rfl
  · rw [show e'.routes = _ from v3, List.map_map]
    refine List.map_congr_left fun r hr => ?_
    rw [Function.comp_apply, (hval r hr).2, loadZ_cast]
    unfold ofInt
    push_cast
    rfl
  · rw [hf]
    unfold Spec.CapFeasible
    refine forall₂_congr fun r hr => ?_
    rw [loadZ_cast, add_zero, Int.cast_le]
  · have := (whole_cost hw hd hg (hf.mp hfe) (fun _ => by
      rcases pen_zero ctx.pen with h0 | ⟨h0, -⟩
      · exact h0.1
      · exfalso
        rw [hp] at h0
        unfold ofInt at h0
        rw [mul_fin, Int.cast_zero, mul_zero, show (ofRat 0 : Dbl ρ) = fin 0 from lit_zero] at h0
        cases h0)).1
    refine (show e'.cost = _ from this).trans ?_
    unfold ofInt
    congr 1
    rw [sum_cast]
    congr 1
    exact List.map_congr_left fun r _ => (tripZ_cast d r).symm

/-- With a whole penalty, and room for lengths and penalties below `2 ^ 53`, the cost is exact for every
complete solution, feasible or not. -/
theorem C01_double_cost (hw : Whole ctx q Q D) (hd : WholeDist ctx d M) (hn : 0 < ctx.n) {P : ℕ}
    (hp : ctx.pen = fin P) (e : SolEval (Dbl ρ)) {sol : List (List ℕ)} (hs : Spec.IsPartition ctx.n sol)
    (hb : 2 * (ctx.n * M) + P * (ctx.n * D) ≤ 2 ^ 53) :
    ∃ e', evaluate ctx e sol = some e' ∧
      e'.cost = fin (Spec.solCost (fun a b => (d a b : ℚ)) (fun c => (q c : ℚ)) Q P sol) := by
  have hP : (0 : ℤ) ≤ P := Int.natCast_nonneg _
  obtain ⟨e', h, -⟩ := C01_double hw hd hn hp e hs
  refine ⟨e', h, ?_⟩
  have hg : Individual.Good (RR.ctxAt ctx ctx.pen) (⟨0, sol.flatten, sol, inf, e'⟩ : Individual (Dbl ρ)) :=
    ⟨hs, rfl, e, h⟩
  obtain ⟨v1, -, -⟩ := hg.vals
  have hM := hd.M_nonneg
  have hD := hw.D_nonneg
  have hQ := hw.capPos
  -- bounds
  let z : List ℕ → ℤ := fun r => tripZ d r + P * max 0 (loadZ q r - Q)
  have hz0 : ∀ r, 0 ≤ z r := fun r => by
    have := (hd.trip_le r).1
    have : (0 : ℤ) ≤ P * max 0 (loadZ q r - Q) := mul_nonneg hP (le_max_left _ _)
    show 0 ≤ _ + _
    omega
  have hex : ∀ r, max 0 (loadZ q r - Q) ≤ r.length * D := fun r => by
    obtain ⟨a, b⟩ := loadZ_bounds hw.nonneg hw.le r
    exact max_le (a.trans b) (by omega)
  have hz1 : ∀ r, z r ≤ r.length * (2 * M + P * D) := fun r => by
    have a := (hd.trip_le r).2
    have b := mul_le_mul_of_nonneg_left (hex r) hP
    show _ + _ ≤ _
    calc tripZ d r + P * max 0 (loadZ q r - Q) ≤ 2 * (r.length * M) + P * (r.length * D) := add_le_add a b
      _ = _ := by ring
  have hsum : ∀ L : List (List ℕ), (L.map z).sum ≤ L.flatten.length * (2 * M + P * D) := by
    intro L
    induction L with
    | nil => simp
    | cons l L ih =>
      simp only [List.map_cons, List.sum_cons, List.flatten_cons, List.length_append]
      push_cast
      rw [add_mul]
      have := hz1 l
      omega
  have hlen : sol.flatten.length ≤ ctx.n := by
    have := hs.length_eq
    simp only [Spec.customers, List.length_range'] at this
    omega
  have hall : ∀ k : ℕ, k ≤ ctx.n → (k : ℤ) * (2 * M + P * D) ≤ 2 ^ 53 := fun k hk => by
    have h1 : (k : ℤ) * (2 * M + P * D) ≤ ctx.n * (2 * M + P * D) :=
      mul_le_mul_of_nonneg_right (by exact_mod_cast hk) (add_nonneg (by omega) (mul_nonneg hP hD))
    have h2 : (ctx.n : ℤ) * (2 * M + P * D) = 2 * (ctx.n * M) + P * (ctx.n * D) := by ring
    omega
  have hval : ∀ r ∈ sol, (routeVal (RR.ctxAt ctx ctx.pen) r).cost = ofInt (z r) ∧ 0 ≤ z r := by
    intro r hr
    refine ⟨?_, hz0 r⟩
    have hl : r.length ≤ ctx.n - 1 := hg.short hr
    obtain ⟨a, b⟩ := whole_route (ctx := RR.ctxAt ctx ctx.pen) hw.at_ hd.at_ (show r.length + 1 ≤ ctx.n by omega)
    have t := hd.trip_le r
    have zb := (hz1 r).trans (hall r.length (by omega))
    have p0 : (0 : ℤ) ≤ P * max 0 (loadZ q r - Q) := mul_nonneg hP (le_max_left _ _)
    have zb' : tripZ d r + P * max 0 (loadZ q r - Q) ≤ 2 ^ 53 := zb
    show (routeVal (RR.ctxAt ctx ctx.pen) r).distance +. ctx.pen *.
      F64.max (lit 0) (routeVal (RR.ctxAt ctx ctx.pen) r).overload = _
    rw [a, b, max_zero, hp]
    have m : (fin (P : ℚ) : Dbl ρ) *. ofInt (max 0 (loadZ q r - Q)) = ofInt (P * max 0 (loadZ q r - Q)) := by
      unfold ofInt
      rw [mul_fin, ← ofRat_int (k := P * max 0 (loadZ q r - Q)) (by rw [abs_of_nonneg p0]; omega)]
      congr 1
      push_cast
      rfl
    rw [m, ofInt_add (by rw [abs_of_nonneg (by omega)]; omega)]
  have hf := (foldl_whole sol 0 (le_refl _) hval (by
    have := (hsum sol).trans (hall _ hlen)
    omega)).1
  refine (show e'.cost = _ from v1).trans ?_
  rw [lit_zero', hf, zero_add]
  unfold ofInt Spec.solCost
  congr 1
  rw [sum_cast]
  congr 1
  refine List.map_congr_left fun r _ => ?_
  show ((tripZ d r + P * max 0 (loadZ q r - Q) : ℤ) : ℚ) = _
  unfold Spec.routeCost
  rw [tripZ_cast, loadZ_cast]
  push_cast
  rfl

end

namespace EvaluateDoubleEx

/-- Three customers on a line, two units each, a vehicle that takes three, and penalty 7. -/
def ctx : Ctx (Dbl nearestEven) :=
  ⟨4, fun a b => ofInt (if a = b then 0 else 5), fun _ => ofInt 2, ofInt 3, fin (7 : ℕ), fun _ => ofInt 0, fun _ => ofInt 0⟩

theorem loads : Whole ctx (fun _ => 2) 3 2 := ⟨fun _ => rfl, fun _ => by norm_num, fun _ => le_refl _, rfl, by norm_num, by decide⟩

theorem dists : WholeDist ctx (fun a b => if a = b then 0 else 5) 5 :=
  ⟨fun _ _ => rfl, fun _ _ => by split <;> norm_num, fun _ _ => by split <;> norm_num, rfl, by decide⟩

/-- Two customers on one route are one unit too many: the solution is not feasible, and its cost is 25 plus 7. -/
example : ∃ e', evaluate ctx SolEval.new [[2, 1], [], [3]] = some e' ∧ e'.feasible = false ∧ e'.cost = fin 32 := by
  have hs : Spec.IsPartition ctx.n [[2, 1], [], [3]] := by unfold Spec.IsPartition; decide
  obtain ⟨e', h, -, -, hf, -⟩ := C01_double loads dists (by decide) rfl SolEval.new hs
  obtain ⟨e2, h2, hc⟩ := C01_double_cost loads dists (by decide) rfl SolEval.new hs (by decide)
  rw [h, Option.some.injEq] at h2
  subst h2
  refine ⟨e', h, ?_, ?_⟩
  · rw [← Bool.not_eq_true, hf]
    intro hc
    have := hc [2, 1] (by simp)
    norm_num [Spec.routeLoad] at this
  · rw [hc]
    congr 1
    decide +kernel

/-- Served apart they are within the capacity; the cost is the length. -/
example : ∃ e', evaluate ctx SolEval.new [[2], [1], [3]] = some e' ∧ e'.feasible = true ∧ e'.cost = fin 30 := by
  have hs : Spec.IsPartition ctx.n [[2], [1], [3]] := by unfold Spec.IsPartition; decide
  obtain ⟨e', h, -, -, hf, hc⟩ := C01_double loads dists (by decide) rfl SolEval.new hs
  have hf' : e'.feasible = true := by
    rw [hf]
    intro r hr
    simp only [List.mem_cons, List.not_mem_nil, or_false] at hr
    rcases hr with rfl | rfl | rfl <;> norm_num [Spec.routeLoad]
  refine ⟨e', h, hf', ?_⟩
  rw [hc hf']
  congr 1
  decide +kernel

end EvaluateDoubleEx

end Verif
