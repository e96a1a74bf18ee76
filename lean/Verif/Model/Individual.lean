import Verif.Model.Evaluate
import Verif.Rng
import Verif.Sort
import Mathlib.Data.List.Sort

/-!
# Individuals

Models `/repo/src/solver/genetic/individual.rs`.
-/

namespace Verif
open F64

variable {α : Type} [F64 α]

/-- `Individual`; models `/repo/src/solver/genetic/individual.rs:7-19`. -/
structure Individual (α : Type) where
  number : ℕ
  genotype : List ℕ
  phenotype : List (List ℕ)
  fitness : α
  evaluation : SolEval α

namespace Individual

/-- `Individual::new`; models `/repo/src/solver/genetic/individual.rs:22-30`. -/
def new (genotype : List ℕ) (number : ℕ) : Individual α :=
  ⟨number, genotype, [], inf, SolEval.new⟩

/-- `Individual::empty`; models `/repo/src/solver/genetic/individual.rs:32-40`. -/
def empty : Individual α := ⟨0, [], [], inf, SolEval.new⟩

/-- `Individual::new_random`; models `/repo/src/solver/genetic/individual.rs:42-55`. -/
def newRandom (ctx : Ctx α) (numVehicles : ℕ) (ω : Oracle) (number : ℕ) : Individual α :=
  ⟨number, shuffle ω (List.range' 1 (ctx.n - 1)), List.replicate numVehicles [], inf, SolEval.new⟩

/-- `num_nonempty_routes`; models `/repo/src/solver/genetic/individual.rs:73-78`. -/
def numNonemptyRoutes (x : Individual α) : ℕ := (x.phenotype.filter (fun r => decide (0 < r.length))).length

/-- `Individual::evaluate`; models `/repo/src/solver/genetic/individual.rs:84-86`. -/
def evaluate (ctx : Ctx α) (x : Individual α) : Option (Individual α) :=
  (Verif.evaluate ctx x.evaluation x.phenotype).map fun e => { x with evaluation := e }

/-- `is_feasible`; models `/repo/src/solver/genetic/individual.rs:88-90`. -/
def isFeasible (x : Individual α) : Bool := x.evaluation.feasible

/-- `penalized_cost`; models `/repo/src/solver/genetic/individual.rs:92-94`. -/
def cost (x : Individual α) : α := x.evaluation.cost

/-- `successor` (indexing panics out of range); models
`/repo/src/solver/genetic/individual.rs:96-98`. -/
def successor (x : Individual α) (i : ℕ) : Option ℕ := x.evaluation.succs[i]?

/-- `predecessor`; models `/repo/src/solver/genetic/individual.rs:100-102`. -/
def predecessor (x : Individual α) (i : ℕ) : Option ℕ := x.evaluation.preds[i]?

/-- One round of the loop in `calculate_broken_pairs_distance`;
models `/repo/src/solver/genetic/individual.rs:109-121`. Simplification: the operands of `&&` are all
read (they are all in range or none of the arrays has been filled). -/
def brokenPairsAt (x y : Individual α) (i : ℕ) : Option ℕ :=
  match x.successor i, y.successor i, y.predecessor i, x.predecessor i, y.successor 0 with
  | some xs, some ys, some yp, some xp, some y0 =>
    some ((if xs ≠ ys ∧ xs ≠ yp then 1 else 0) + (if xp = 0 ∧ yp ≠ 0 ∧ y0 ≠ 0 then 1 else 0))
  | _, _, _, _, _ => none

/-- The loop `for index in 1..size` over the listed indices. -/
def brokenPairsLoop (x y : Individual α) : List ℕ → ℕ → Option ℕ
  | [], d => some d
  | i :: is, d =>
    match brokenPairsAt x y i with
    | none => none
    | some k => brokenPairsLoop x y is (d + k)

/-- `calculate_broken_pairs_distance`; models `/repo/src/solver/genetic/individual.rs:104-125`.
The distance is a natural number (it is an `i64` that is only incremented). -/
def brokenPairs (x y : Individual α) : Option ℕ :=
  brokenPairsLoop x y (List.range' 1 x.genotype.length) 0

/-- The polar angle of a route's barycentre seen from the depot, `10.0` for an empty route;
models `/repo/src/solver/genetic/individual.rs:131-146`. `atan2` is a parameter. -/
def routeAngle (atan2 : α → α → α) (ctx : Ctx α) (r : List ℕ) : α :=
  if r.length = 0 then lit 10 else
    let x := r.foldl (fun s i => s +. ctx.lng i) (lit 0)
    let y := r.foldl (fun s i => s +. ctx.lat i) (lit 0)
    let x := x /. lit r.length
    let y := y /. lit r.length
    atan2 (y -. ctx.lat 0) (x -. ctx.lng 0)

/-- Comparator of the sort: `a.partial_cmp(b)` is not `Greater`. -/
def angleLe (a b : α × List ℕ) : Bool := !(b.1 <. a.1)

/-- Writing the concatenated routes into the genotype; models
`/repo/src/solver/genetic/individual.rs:157-163` (`none` = index panic). -/
def writeGenotype : List ℕ → ℕ → List ℕ → Option (List ℕ)
  | [], _, g => some g
  | x :: xs, i, g =>
    match setIdx g i x with
    | none => none
    | some g => writeGenotype xs (i + 1) g

/-- `sort_routes`; models `/repo/src/solver/genetic/individual.rs:127-165`. The pairs carry the route
itself instead of its index (the index is only used to fetch the route). The std stable sort is
`stableSort`; `unwrap` on an incomparable (NaN) key panics, which happens as soon as two routes exist. -/
def sortRoutes (atan2 : α → α → α) (ctx : Ctx α) (x : Individual α) : Option (Individual α) :=
  let keyed := x.phenotype.map fun r => (routeAngle atan2 ctx r, r)
  if 2 ≤ keyed.length ∧ keyed.any (fun k => !(k.1 ≤. k.1)) then none else
    let phenotype := (stableSort angleLe keyed).map (·.2)
    match writeGenotype phenotype.flatten 0 x.genotype with
    | none => none
    | some g => some { x with phenotype := phenotype, genotype := g }

end Individual
end Verif
