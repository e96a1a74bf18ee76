import Verif.Lemmas.SwapStar
import Verif.Lemmas.MoveCost

/-!
# Over the rationals, the cost of the best SWAP* move is the change of the penalized cost
-/

namespace Verif
open F64 LS Spec

set_option linter.unusedSectionVars false

section
variable {ctx : Ctx ℚ} {s : LS ℚ} {R R' : List (List ℕ)}

theorem routeDist_insert (d : ℕ → ℕ → ℚ) (r : ℕ) (A B : List ℕ) (u : ℕ) :
    routeDist d (A ++ u :: B) = routeDist d (A ++ B) + (d (lastRef r A).number u +
      d u (headRef r B).number - d (lastRef r A).number (headRef r B).number) := by
  have e : A ++ u :: B = A ++ [u] ++ B := by simp
  rw [e, ← pdR_routeRefs d r, ← pdR_routeRefs d r, routeRefs_split3, routeRefs_split,
    pdR_join (getLast_append_some (last_map_cust (S := [u]) rfl)) (head_fin r B),
    pdR_join (getLast_start r A) (head_map_cust (S := [u]) rfl),
    pdR_join (getLast_start r A) (head_fin r B)]
  simp
  ring

theorem insCost_rat (r : ℕ) (A B : List ℕ) (u : ℕ) : insCost ctx (lastRef r A) u (headRef r B) =
    routeDist ctx.dist (A ++ u :: B) - routeDist ctx.dist (A ++ B) := by
  rw [routeDist_insert ctx.dist r, insCost]; simp

theorem remCost_rat (r : ℕ) (p q : List ℕ) (u : ℕ) : remCost ctx r p u q =
    routeDist ctx.dist (p ++ q) - routeDist ctx.dist (p ++ u :: q) := by
  rw [routeDist_insert ctx.dist r, remCost]; simp; ring

theorem Placed.cost_rat {r : ℕ} {p q A B : List ℕ} {v u : ℕ} {n : Ref} {c : ℚ}
    (h : Placed ctx r p v q u n c A B) :
    c = routeDist ctx.dist (A ++ u :: B) - routeDist ctx.dist (p ++ q) := by
  cases h with
  | inPlace => exact insCost_rat r _ _ u
  | before A B e hB =>
    subst e
    rw [← headRef_append (r := r) (q := q) hB, insCost_rat]; simp
  | after A B e hA =>
    subst e
    rw [← lastRef_append (r := r) (p := p) hA, insCost_rat]; simp

theorem penDiff_rat (o o' : ℚ) : penDiff s o o' = max 0 o' * s.pen - max 0 o * s.pen := by
  simp [penDiff, SwapStar.penaltyOf]

theorem routeLoad_insert (q : ℕ → ℚ) (A B : List ℕ) (u : ℕ) :
    routeLoad q (A ++ u :: B) = routeLoad q (A ++ B) + q u := by
  simp; ring

/-- The stored cost of a real best move is the change of the penalized cost. -/
theorem GoodBest.cost_rat (h : Repr ctx s R) (h0 : ctx.demand 0 = 0) {r1 r2 : ℕ} (hne : r1 ≠ r2)
    {b : BestSwap ℚ} (hg : GoodBest ctx s R r1 r2 b R') (hb : b ≠ SwapStar.best0) :
    b.cost = solCost ctx.dist ctx.demand ctx.cap s.pen R' -
      solCost ctx.dist ctx.demand ctx.cap s.pen R := by
  cases hg with
  | none => exact absurd rfl hb
  | relocU p q A B u h1 h2 =>
    rw [solCost_set_two hne h1 h2]
    simp only [route_over h h0 h1, route_over h h0 h2, penDiff_rat, remCost_rat, insCost_rat, rat_add,
      rat_sub, Spec.routeCost, routeLoad_insert]
    have t1 : routeLoad ctx.demand (p ++ q) + ctx.demand u - ctx.cap - ctx.demand u =
      routeLoad ctx.demand (p ++ q) - ctx.cap := by ring
    have t2 : routeLoad ctx.demand (A ++ B) - ctx.cap + ctx.demand u =
      routeLoad ctx.demand (A ++ B) + ctx.demand u - ctx.cap := by ring
    rw [t1, t2]
    ring
  | relocV p q A B v h1 h2 =>
    rw [solCost_set_two hne.symm h1 h2]
    simp only [route_over h h0 h1, route_over h h0 h2, penDiff_rat, remCost_rat, insCost_rat, rat_add,
      rat_sub, Spec.routeCost, routeLoad_insert]
    have t1 : routeLoad ctx.demand (p ++ q) + ctx.demand v - ctx.cap - ctx.demand v =
      routeLoad ctx.demand (p ++ q) - ctx.cap := by ring
    have t2 : routeLoad ctx.demand (A ++ B) - ctx.cap + ctx.demand v =
      routeLoad ctx.demand (A ++ B) + ctx.demand v - ctx.cap := by ring
    rw [t1, t2]
    ring
  | both p1 q1 p2 q2 A B C D u v pu pv cu cv h1 h2 hpu hpv =>
    have e1 := hpu.lists.1
    have e2 := hpv.lists.1
    rw [solCost_set_two hne h1 h2]
    simp only [route_over h h0 h1, route_over h h0 h2, penDiff_rat, remCost_rat, hpu.cost_rat,
      hpv.cost_rat, rat_add, rat_sub, Spec.routeCost, routeLoad_insert, ← e1, ← e2]
    have t1 : routeLoad ctx.demand (p1 ++ q1) + ctx.demand u - ctx.cap - ctx.demand u + ctx.demand v =
      routeLoad ctx.demand (p1 ++ q1) + ctx.demand v - ctx.cap := by ring
    have t2 : routeLoad ctx.demand (p2 ++ q2) + ctx.demand v - ctx.cap + ctx.demand u - ctx.demand v =
      routeLoad ctx.demand (p2 ++ q2) + ctx.demand u - ctx.cap := by ring
    rw [t1, t2]
    ring

/-- Distances between 0 and the largest finite number keep insertion costs below infinity. -/
theorem insertFinite_rat (hd : ∀ a b, 0 ≤ ctx.dist a b ∧ ctx.dist a b ≤ (maxv : ℚ)) :
    InsertFinite ctx := by
  intro a u b
  have h1 := hd a u
  have h2 := hd u b
  have h3 := hd a b
  simp only [rat_add, rat_sub, rat_lt, decide_eq_false_iff_not, not_lt]
  have : (inf : ℚ) = 2 * maxv := by
    rw [rat_inf, rat_maxv]; exact pow_succ' 2 1023
  rw [this]; linarith

end
end Verif
