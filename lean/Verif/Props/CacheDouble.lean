import Verif.Props.SwapStar
import Verif.Props.SolutionText
import Verif.Double

/-!
# C13 and the printed cost of C41 in double precision
-/

namespace Verif
open F64 Dbl

section

variable {ρ : Rounding}

/-- An exact cost up to the value standing for infinity, as a double. -/
def costD (ρ : Rounding) (q : ℚ) : Dbl ρ := if q < limit then fin q else inf false

theorem costD_lt {a b : ℚ} (_ : a ≤ limit) (hb : b ≤ limit) : (costD ρ a <. costD ρ b) = (a <. b) := by
  unfold costD
  rw [rat_lt]
  split <;> split <;> rename_i h1 h2
  · rfl
  · rw [decide_eq_true (by linarith)]; rfl
  · rw [decide_eq_false (by linarith)]; rfl
  · rw [decide_eq_false (by linarith)]; rfl

def locD (ρ : Rounding) (x : Loc ℚ) : Loc (Dbl ρ) := ⟨costD ρ x.cost, x.node⟩

def threeD (ρ : Rounding) (t : Three ℚ) : Three (Dbl ρ) := ⟨locD ρ t.l0, locD ρ t.l1, locD ρ t.l2, t.lastCalculated⟩

def ThreeBelow (t : Three ℚ) : Prop := t.l0.cost ≤ limit ∧ t.l1.cost ≤ limit ∧ t.l2.cost ≤ limit

theorem three_add {t : Three ℚ} {x : Loc ℚ} (h : ThreeBelow t) (hx : x.cost ≤ limit) :
    (threeD ρ t).add (locD ρ x) = threeD ρ (t.add x) ∧ ThreeBelow (t.add x) := by
  obtain ⟨h0, h1, h2⟩ := h
  unfold Three.add
  simp only [threeD, locD, costD_lt h0 hx, costD_lt h1 hx, costD_lt h2 hx]
  split
  · exact ⟨rfl, h0, h1, h2⟩
  · split
    · exact ⟨rfl, h0, h1, hx⟩
    · split
      · exact ⟨rfl, h0, hx, h1⟩
      · exact ⟨rfl, hx, h0, h1⟩

theorem three_foldl (L : List (Loc ℚ)) : ∀ t : Three ℚ, ThreeBelow t → (∀ x ∈ L, x.cost ≤ limit) →
    (L.map (locD ρ)).foldl Three.add (threeD ρ t) = threeD ρ (L.foldl Three.add t) := by
  induction L with
  | nil => intro t _ _; rfl
  | cons x L ih =>
    intro t h hL
    obtain ⟨e, h'⟩ := three_add (ρ := ρ) h (hL x List.mem_cons_self)
    rw [List.map_cons, List.foldl_cons, List.foldl_cons, e]
    exact ih _ h' fun y hy => hL y (List.mem_cons_of_mem _ hy)

/-- **C13** in double precision: as `C13_three_cheapest`, for any finite costs. -/
theorem C13_double (L : List (Loc (Dbl ρ))) (t : ℤ) (hL : ∀ x ∈ L, x.node.isSome ∧ ∃ q, x.cost = fin q ∧ q < limit) :
    ∃ l0 l1 l2 kept rest,
      L.foldl Three.add (⟨Loc.new, Loc.new, Loc.new, t⟩ : Three (Dbl ρ)) = ⟨l0, l1, l2, t⟩ ∧
      kept = [l0, l1, l2].take (min 3 L.length) ∧
      (∀ x ∈ [l0, l1, l2].drop (min 3 L.length), x.node = none) ∧
      (kept ++ rest).Perm L ∧
      kept.Pairwise (fun x y => ∃ a b : ℚ, x.cost = fin a ∧ y.cost = fin b ∧ a ≤ b) ∧
      ∀ x ∈ kept, ∀ y ∈ rest, ∃ a b : ℚ, x.cost = fin a ∧ y.cost = fin b ∧ a ≤ b := by
  obtain ⟨M, rfl, hM⟩ : ∃ M : List (Loc ℚ), M.map (locD ρ) = L ∧ ∀ x ∈ M, x.node.isSome ∧ x.cost < limit := by
    induction L with
    | nil => exact ⟨[], rfl, by simp⟩
    | cons x L ih =>
      obtain ⟨M, hM, hM'⟩ := ih fun y hy => hL y (List.mem_cons_of_mem _ hy)
      obtain ⟨h1, q, h2, h3⟩ := hL x List.mem_cons_self
      refine ⟨⟨q, x.node⟩ :: M, ?_, ?_⟩
      · rw [List.map_cons, hM]
        congr 1
        unfold locD costD
        rw [if_pos h3, ← h2]
      · intro y hy
        rcases List.mem_cons.mp hy with rfl | hy
        · exact ⟨h1, h3⟩
        · exact hM' y hy
  obtain ⟨l0, l1, l2, kept, rest, e, ek, hn, hp, hs, hr⟩ := C13_three_cheapest M t fun x hx => ⟨(hM x hx).1, (hM x hx).2.le⟩
  have hnew : (⟨Loc.new, Loc.new, Loc.new, t⟩ : Three (Dbl ρ)) = threeD ρ ⟨Loc.new, Loc.new, Loc.new, t⟩ := by
    have : (Loc.new : Loc (Dbl ρ)) = locD ρ Loc.new := by
      unfold locD costD Loc.new
      rw [if_neg (show ¬ (F64.inf : ℚ) < limit from lt_irrefl _)]
      rfl
    unfold threeD
    rw [this]
  have hcost : ∀ x ∈ kept ++ rest, (locD ρ x).cost = fin x.cost := fun x hx => by
    unfold locD costD
    rw [if_pos (hM x (hp.mem_iff.mp hx)).2]
  refine ⟨locD ρ l0, locD ρ l1, locD ρ l2, kept.map (locD ρ), rest.map (locD ρ), ?_, ?_, ?_, ?_, ?_, ?_⟩
  · rw [hnew, three_foldl M _ ⟨le_refl _, le_refl _, le_refl _⟩ fun x hx => (hM x hx).2.le, e]
    rfl
  · rw [ek, List.map_take, List.length_map]
    rfl
  · intro x hx
    rw [List.length_map, show [locD ρ l0, locD ρ l1, locD ρ l2] = [l0, l1, l2].map (locD ρ) from rfl, ← List.map_drop] at hx
    obtain ⟨y, hy, rfl⟩ := List.mem_map.mp hx
    exact hn y hy
  · rw [← List.map_append]
    exact hp.map _
  · rw [List.pairwise_map]
    refine List.Pairwise.imp_of_mem ?_ hs
    intro x y hx hy hxy
    exact ⟨_, _, hcost x (List.mem_append_left _ hx), hcost y (List.mem_append_left _ hy), hxy⟩
  · intro x hx y hy
    obtain ⟨x, hx', rfl⟩ := List.mem_map.mp hx
    obtain ⟨y, hy', rfl⟩ := List.mem_map.mp hy
    exact ⟨_, _, hcost x (List.mem_append_left _ hx'), hcost y (List.mem_append_right _ hy'), hr x hx' y hy'⟩

/-- **C41**, cost, in double precision: the printed cost is the nearest integer to a cost from 0 to `2^63`. -/
theorem C41_double_cost {q : ℚ} (h0 : 0 ≤ q) (h1 : q ≤ 2 ^ 63) :
    |((F64.toNat (F64.round (fin q : Dbl ρ)) : ℕ) : ℚ) - q| ≤ 1 / 2 := by
  have h := C41_cost_nearest q h0
  have hle : (F64.toNat (F64.round q) : ℕ) ≤ 2 ^ 64 - 1 := by
    obtain ⟨a, b⟩ := abs_le.mp h
    generalize (F64.toNat (F64.round q) : ℕ) = n at *
    have : (n : ℚ) ≤ ((2 ^ 64 - 1 : ℕ) : ℚ) := by
      have e : ((2 ^ 64 - 1 : ℕ) : ℚ) = 2 ^ 64 - 1 := by norm_num
      rw [e]
      linarith
    exact_mod_cast this
  have e : F64.toNat (F64.round (fin q : Dbl ρ)) = Min.min (F64.toNat (F64.round q)) (2 ^ 64 - 1) := rfl
  rw [e, min_eq_left hle]
  exact h

/-- **C41**, cost, in double precision, all costs: one above the largest 64-bit number, or infinite, is printed as that
number, and one that is not a number as 0. -/
theorem C41_double_cost_large {q : ℚ} (h : 2 ^ 64 ≤ q) :
    F64.toNat (F64.round (fin q : Dbl ρ)) = 2 ^ 64 - 1 ∧ F64.toNat (F64.round (inf false : Dbl ρ)) = 2 ^ 64 - 1 ∧
      F64.toNat (F64.round (nan : Dbl ρ)) = 0 := by
  refine ⟨?_, rfl, rfl⟩
  have h0 : 0 ≤ q := le_trans (by norm_num) h
  have e : F64.toNat (F64.round (fin q : Dbl ρ)) = Min.min (F64.toNat (F64.round q)) (2 ^ 64 - 1) := rfl
  rw [e]
  refine min_eq_right ?_
  obtain ⟨a, b⟩ := abs_le.mp (C41_cost_nearest q h0)
  generalize (F64.toNat (F64.round q) : ℕ) = n at *
  have : ((2 ^ 64 - 1 : ℕ) : ℚ) ≤ (n : ℚ) := by
    have e : ((2 ^ 64 - 1 : ℕ) : ℚ) = 2 ^ 64 - 1 := by norm_num
    rw [e]
    linarith
  exact_mod_cast this

end

namespace CacheDoubleEx

abbrev F := Dbl nearestEven

/-- Four positions; the one of cost 9/2 is left out. -/
example := C13_double (ρ := nearestEven)
  [⟨fin (9 / 2), some (.cust 1)⟩, ⟨fin 1, some (.cust 2)⟩, ⟨fin (-1), some (.cust 3)⟩, ⟨fin 2, some (.cust 4)⟩] 7 (by
    intro x hx
    simp only [List.mem_cons, List.not_mem_nil, or_false] at hx
    rcases hx with rfl | rfl | rfl | rfl <;> exact ⟨rfl, _, rfl, by decide +kernel⟩)

/-- Costs inside and outside the range of the two theorems on the printed cost. -/
example : (0 : ℚ) ≤ 5435 / 2 ∧ (5435 / 2 : ℚ) ≤ 2 ^ 63 ∧ (2 : ℚ) ^ 64 ≤ 2 ^ 70 := by norm_num

end CacheDoubleEx

end Verif
