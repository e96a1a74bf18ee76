import Verif.Props.LocalOpt

/-!
# C61: SWAP* misses no improving move
-/

namespace Verif
open F64 LS Spec

/-- **C61** (one call). When SWAP* on two different routes of a consistent state reports no improvement,
then no SWAP* move between them (a customer of one put anywhere into the other, or two customers exchanged
and each put anywhere into the other's route) lowers the penalized cost by more than `3e-6`: neither the
three cached insertion places nor the test that skips pairs of customers lose a better move. The
distances satisfy the triangle inequality. -/
theorem C61_swap_star_complete (ctx : Ctx ℚ) (s : LS ℚ) (R : List (List ℕ)) (h : Repr ctx s R)
    (h0 : ctx.demand 0 = 0) (hd : ∀ a b, 0 ≤ ctx.dist a b ∧ ctx.dist a b ≤ (maxv : ℚ))
    (htri : ∀ a b c, ctx.dist a c ≤ ctx.dist a b + ctx.dist b c)
    (r1 r2 : ℕ) (hne : r1 ≠ r2) (h1 : r1 < R.length) (h2 : r2 < R.length) (s' : LS ℚ)
    (e : SwapStar.run ctx r1 r2 s = some (s', false)) (R' : List (List ℕ))
    (heff : SwapStarEffect R r1 r2 R') :
    solCost ctx.dist ctx.demand ctx.cap s.pen R ≤
      solCost ctx.dist ctx.demand ctx.cap s.pen R' + 3 / 1000000 :=
  swapNoGain_of_false h h0 (insertFinite_rat hd) hne h1 h2 e htri R' heff

/-- **C61** (whole search). Whatever the earlier state, the random choices, the enabled moves and the
penalty: when the local search with SWAP* ends, no SWAP* move between two routes that have customers and
whose sectors overlap lowers the penalized cost by more than `3e-6`. In particular the test that skips pairs
of routes skips none that could be improved. -/
theorem C61_search_complete (atan2 : ℚ → ℚ → ℚ) (ctx : Ctx ℚ) (f : MoveFlags) (ω : Oracle) (fuel : ℕ)
    (penMult : ℚ) (s : LS ℚ) (x : Individual ℚ)
    (hd : ∀ a b, 0 ≤ ctx.dist a b ∧ ctx.dist a b ≤ (maxv : ℚ)) (h0 : ctx.demand 0 = 0)
    (hsym : ∀ a b, ctx.dist a b = ctx.dist b a)
    (htri : ∀ a b c, ctx.dist a c ≤ ctx.dist a b + ctx.dist b c) (hs : Ready s) (hn : NbrOK ctx s)
    (hp : IsPartition ctx.n x.phenotype) (hlen : x.phenotype.length = s.numRoutes) (s' : LS ℚ)
    (y : Individual ℚ) (hrun : LS.run atan2 ctx f ω fuel penMult s x = some (s', y))
    (hsw : f.swapStar = true) (r1 r2 : ℕ) (hne : r1 ≠ r2) (l1 l2 : List ℕ)
    (h1 : y.phenotype[r1]? = some l1) (h2 : y.phenotype[r2]? = some l2) (n1 : l1 ≠ []) (n2 : l2 ≠ [])
    (hov : (routeSector s.angle l1).overlaps (routeSector s.angle l2) = true) (T' : List (List ℕ))
    (heff : SwapStarEffect y.phenotype r1 r2 T') :
    solCost ctx.dist ctx.demand ctx.cap (ctx.pen * penMult) y.phenotype ≤
      solCost ctx.dist ctx.demand ctx.cap (ctx.pen * penMult) T' + 3 / 1000000 := by
  obtain ⟨R, k, hr, hperm, -, -, -, -, hsf, -⟩ := run_done hd h0 hsym hs hn hp hlen hrun
  exact SwapNoGain.perm hr.part hperm (hsf hsw) hne ⟨l1, l2, h1, h2, n1, n2, hov⟩ htri T' heff

namespace MoveEx

theorem ctxB_tri : ∀ a b c, ctxB.dist a c ≤ ctxB.dist a b + ctxB.dist b c := fun a b c =>
  abs_sub_le _ _ _

/-- The state after loading the routes `[1, 2], [3, 4], []` and what SWAP* reports on the first two. -/
def swapReport : Option Bool :=
  (loadIndividual ctxB { ind with phenotype := [[1, 2], [3, 4], []] } ((ls.reset).updatePenalty ctxB 1)).bind
    fun s => (SwapStar.run ctxB 0 1 s).map Prod.snd

/-- `C61_swap_star_complete` applies: SWAP* reports no improvement here, and there are SWAP* moves, among
them putting customer 1 between 3 and 4. -/
example : swapReport = some false ∧
    SwapStarEffect [[1, 2], [3, 4], []] 0 1 [[2], [3, 1, 4], []] :=
  ⟨by decide +kernel, .relocU 1 [] [2] [3] [4] rfl rfl⟩

/-- `C61_search_complete` applies: a run with SWAP* ends with two routes with customers whose sectors
overlap. -/
example : GapEx.routesAfter ctxB GapEx.allOn ls ind 3 = some [[1, 2], [3, 4], []] ∧
    GapEx.allOn.swapStar = true ∧
    (routeSector ls.angle [1, 2]).overlaps (routeSector ls.angle [3, 4]) = true :=
  ⟨by decide +kernel, rfl, by decide +kernel⟩

/-- Distances without triangle inequality: the depot is near 1 and 2, but far from the others. -/
def ctxN : Ctx ℚ where
  n := 6
  dist a b :=
    if a = b then 0
    else if a * b = 0 then (if a + b ≤ 2 then 1 else 100)
    else if a * b = 3 ∨ a * b = 8 then 50 else 1
  demand c := if c = 0 then 0 else if c ≤ 2 then 1 else if c = 3 then 8 else 4
  cap := 9
  pen := 10000
  lng c := c
  lat c := c

/-- What SWAP* reports on the routes `[1, 3], [2, 4, 5]`. -/
def reportN : Option Bool :=
  (loadIndividual ctxN { ind with phenotype := [[1, 3], [2, 4, 5]] }
    (LS.new ctxN 2 2 (fun _ => 0) [] 2 1)).bind fun s => (SwapStar.run ctxN 0 1 s).map Prod.snd

/-- The triangle inequality in `C61_swap_star_complete` cannot be dropped: here SWAP* reports no improvement
although exchanging 1 and 2 saves 98. Both removals alone make the routes longer, so the pair is skipped. -/
theorem C61_triangle_needed : reportN = some false ∧
    SwapStarEffect [[1, 3], [2, 4, 5]] 0 1 [[2, 3], [1, 4, 5]] ∧
    solCost ctxN.dist ctxN.demand ctxN.cap ctxN.pen [[2, 3], [1, 4, 5]] + 98 =
      solCost ctxN.dist ctxN.demand ctxN.cap ctxN.pen [[1, 3], [2, 4, 5]] :=
  ⟨by decide +kernel, .both 1 2 [] [3] [] [4, 5] [] [4, 5] [] [3] rfl rfl rfl rfl, by decide +kernel⟩

end MoveEx
end Verif
