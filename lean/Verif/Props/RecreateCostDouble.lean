import Verif.Props.RecreateDouble

/-!
# C23 in double precision: the recorded cost
-/

namespace Verif
open F64 Dbl

namespace RRSol

variable {ρ : Rounding}

/-- Penalized cost of a route in whole numbers. -/
def costZ (d : ℕ → ℕ → ℤ) (q : ℕ → ℤ) (Q P : ℤ) (l : List ℕ) : ℤ := tripZ d l + P * max 0 (loadZ q l - Q)

theorem costZ_cast (d : ℕ → ℕ → ℤ) (q : ℕ → ℤ) (Q P : ℤ) (l : List ℕ) :
    Spec.routeCost (fun a b => (d a b : ℚ)) (fun a => (q a : ℚ)) Q P l = costZ d q Q P l := by
  unfold Spec.routeCost costZ
  rw [tripZ_cast, loadZ_cast]
  push_cast
  rfl

section

variable {ctx : Ctx (Dbl ρ)} {q : ℕ → ℤ} {Q D M P : ℤ} {d : ℕ → ℕ → ℤ} (hw : Whole ctx q Q D) (hd : WholeDist ctx d M)
  (hP : 0 ≤ P)

include hw hd hP

theorem costZ_le (l : List ℕ) : 0 ≤ costZ d q Q P l ∧ P * max 0 (loadZ q l - Q) ≤ costZ d q Q P l ∧
    costZ d q Q P l ≤ l.length * (2 * M + P * D) := by
  obtain ⟨t0, t1⟩ := hd.trip_le l
  obtain ⟨l0, l1⟩ := loadZ_bounds hw.nonneg hw.le l
  have := hw.capPos
  have m0 : 0 ≤ max 0 (loadZ q l - Q) := le_max_left _ _
  have m1 : max 0 (loadZ q l - Q) ≤ l.length * D := max_le (by omega) (by omega)
  have p0 := mul_nonneg hP m0
  have p1 := mul_le_mul_of_nonneg_left m1 hP
  have e : (l.length : ℤ) * (2 * M + P * D) = 2 * (l.length * M) + P * (l.length * D) := by ring
  unfold costZ
  rw [e]
  exact ⟨by omega, by omega, by omega⟩

theorem costFold_int (hp : ctx.pen = ofInt P) : ∀ (rs : List (RRoute (Dbl ρ))) (a : ℤ), 0 ≤ a →
    a + ((rs.map (·.nodes)).flatten.length : ℤ) * (2 * M + P * D) ≤ 2 ^ 53 →
    (∀ rt ∈ rs, LoadExact q Q rt ∧ DistExact d rt) →
    rs.foldl (fun c r => c +. (r.distance +. F64.max (lit 0) r.overload *. ctx.pen)) (ofInt a) =
      ofInt (a + (rs.map fun r => costZ d q Q P r.nodes).sum)
  | [], a, _, _, _ => by simp
  | r :: rs, a, ha, hb, he => by
    obtain ⟨k1, k2⟩ := he r List.mem_cons_self
    obtain ⟨c0, c1, c2⟩ := costZ_le hw hd hP r.nodes
    have hM := hd.M_nonneg
    have hD : 0 ≤ D := (hw.nonneg 0).trans (hw.le 0)
    have hK : 0 ≤ 2 * M + P * D := by have := mul_nonneg hP hD; omega
    have e : (((r :: rs).map (·.nodes)).flatten.length : ℤ) * (2 * M + P * D) = r.nodes.length * (2 * M + P * D) +
        ((rs.map (·.nodes)).flatten.length : ℤ) * (2 * M + P * D) := by
      rw [List.map_cons, List.flatten_cons, List.length_append]
      push_cast
      ring
    rw [e] at hb
    have h0 : 0 ≤ ((rs.map (·.nodes)).flatten.length : ℤ) * (2 * M + P * D) := mul_nonneg (by omega) hK
    have m0 : 0 ≤ P * max 0 (loadZ q r.nodes - Q) := mul_nonneg hP (le_max_left _ _)
    have hv : r.distance +. F64.max (lit 0) r.overload *. ctx.pen = (ofInt (costZ d q Q P r.nodes) : Dbl ρ) := by
      have hm : F64.max (lit 0) r.overload *. ctx.pen = (ofInt (P * max 0 (loadZ q r.nodes - Q)) : Dbl ρ) := by
        rw [k1, hp, lit_zero']
        unfold ofInt
        rw [max_fin, mul_fin]
        have : Max.max ((0 : ℤ) : ℚ) ((loadZ q r.nodes - Q : ℤ) : ℚ) * (P : ℚ) = ((P * max 0 (loadZ q r.nodes - Q) : ℤ) : ℚ) := by
          push_cast
          ring
        rw [this, ofRat_int (by rw [abs_of_nonneg m0]; omega)]
      rw [hm, k2, ofInt_add (by
        show |costZ d q Q P r.nodes| ≤ _
        rw [abs_of_nonneg c0]
        omega)]
      rfl
    rw [List.foldl_cons, hv, ofInt_add (by rw [abs_of_nonneg (by omega)]; omega),
      costFold_int hp rs _ (by omega) (by omega) fun rt hrt => he rt (List.mem_cons_of_mem _ hrt), List.map_cons,
      List.sum_cons, add_assoc]

end

/-- **C23** in double precision, the cost: for whole distances, demands and penalty, `n (2 M + P D)` at most `2^53`, a
recreate step on a ruined solution returns one whose recorded cost is exactly its penalized cost. -/
theorem C23_double_cost {ctx : Ctx (Dbl ρ)} {q : ℕ → ℤ} {Q D M P : ℤ} {d : ℕ → ℕ → ℤ} (hw : Whole ctx q Q D)
    (hQ : Q < 2 ^ 52) (hd : WholeDist ctx d M) (hn : 2 ≤ ctx.n) (hp : ctx.pen = ofInt P) (hP : 0 ≤ P) (hP1 : P ≤ 2 ^ 44)
    (hs : ctx.n * (2 * M + P * D) ≤ 2 ^ 53)
    (order : ℕ → List ℕ → List ℕ) (hord : ∀ k l, (order k l).Perm l) (ω : Oracle) (s : RRSol (Dbl ρ))
    (hne : s.routes ≠ []) (hperm : (s.stops.flatten ++ s.unassigned).Perm (Spec.customers ctx.n))
    (he : ∀ rt ∈ s.routes, rt.distance = fin (Spec.routeDist (fun a b => (d a b : ℚ)) rt.nodes) ∧
      rt.overload = fin (Spec.routeLoad (fun a => (q a : ℚ)) rt.nodes - Q))
    (hl : LocsOn (fun r => r ∉ s.ruined) s.routes s.locs) (hlen : s.locs.length = ctx.n)
    (hr : ∀ r ∈ s.ruined, r < s.routes.length) :
    ∃ s', s.recreate ctx order ω = some s' ∧
      s'.cost = fin (Spec.solCost (fun a b => (d a b : ℚ)) (fun a => (q a : ℚ)) Q P (s'.routes.map (·.nodes))) := by
  obtain ⟨s', h1, h2, -, h3, -⟩ := C23_double hw hQ hd hn (p := P) hp (by exact_mod_cast hP) (by exact_mod_cast hP1) order
    hord ω s hne hperm he hl hlen hr
  refine ⟨s', h1, ?_⟩
  have hc : s'.cost = costOf ctx s'.routes := by
    unfold recreate evaluate reevaluate at h1
    simp only [Option.bind_eq_some_iff, Option.map_eq_some_iff] at h1
    obtain ⟨cs, -, y, -, s1, ⟨locs, -, rfl⟩, rfl⟩ := h1
    rfl
  have hE : ∀ rt ∈ s'.routes, LoadExact q Q rt ∧ DistExact d rt := fun rt hrt => by
    obtain ⟨a, b⟩ := h3 rt hrt
    unfold LoadExact DistExact ofInt
    rw [tripZ_cast] at a
    rw [loadZ_cast] at b
    exact ⟨by rw [b]; push_cast; rfl, a⟩
  have hM := hd.M_nonneg
  have hD : 0 ≤ D := (hw.nonneg 0).trans (hw.le 0)
  have hK : 0 ≤ 2 * M + P * D := by have := mul_nonneg hP hD; omega
  have hlen' : ((s'.routes.map (·.nodes)).flatten.length : ℤ) ≤ ctx.n := by
    have := h2.part.length_eq
    rw [Spec.length_customers] at this
    have e : s'.stops = s'.routes.map (·.nodes) := rfl
    rw [← e]
    omega
  have hb := mul_le_mul_of_nonneg_right hlen' hK
  have := costFold_int hw hd hP hp s'.routes 0 (le_refl _) (by omega) hE
  rw [hc]
  unfold costOf
  rw [← lit_zero'] at this
  rw [this, zero_add]
  unfold ofInt Spec.solCost
  congr 1
  rw [List.map_map]
  have : (Spec.routeCost (fun a b => (d a b : ℚ)) (fun a => (q a : ℚ)) Q P ∘ fun r : RRoute (Dbl ρ) => r.nodes) =
      fun r => (costZ d q Q P r.nodes : ℚ) := funext fun r => costZ_cast d q Q P r.nodes
  rw [this]
  generalize s'.routes = rs
  induction rs with
  | nil => simp
  | cons r rs ih => simp only [List.map_cons, List.sum_cons, Int.cast_add, ih]

end RRSol

namespace InsertDoubleEx

/-- The same instance with penalty 2. -/
example (ω : Oracle) := RRSol.C23_double_cost (ctx := RR.ctxAt ctx (ofInt 2)) whole.at_ (by norm_num) wholeDist.at_
  (by decide) (P := 2) rfl (by norm_num) (by norm_num) (by
    show ((5 : ℕ) : ℤ) * (2 * 4 + 2 * 1) ≤ 2 ^ 53
    norm_num) (fun _ => id) (fun _ _ => .refl _) ω ruined (by simp [ruined]) (by decide) (by
    intro rt hrt
    simp only [ruined, List.mem_cons, List.not_mem_nil, or_false] at hrt
    rcases hrt with rfl | rfl
    · constructor <;> norm_num [ofInt, Spec.routeDist, Spec.pathDist, Spec.routeLoad]
    · constructor <;> norm_num [ofInt, Spec.routeDist, Spec.pathDist, Spec.routeLoad]) (by
    intro r rt i x h1 h2 _
    have h3 := (List.getElem?_eq_some_iff.mp h2).1
    have : r = 0 ∨ r = 1 := by simp only [ruined, List.length_cons, List.length_nil] at h3; omega
    exact absurd (by rcases this with rfl | rfl <;> simp [ruined]) h1) (by decide) (by decide)

end InsertDoubleEx

end Verif
