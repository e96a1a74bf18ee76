import Mathlib.Data.Rat.Floor
import Verif.Spec
import Verif.SpecText

/-!
# Specification of a correct solution file

What the file written for an instance has to say, in terms of the numbers in the instance file.
-/

namespace Verif.Spec

/-- Rounding of a distance to the nearest integer, if asked for. -/
def roundedDist (rounded : Bool) (d : ℚ) : ℚ := if rounded then (⌊d + 1 / 2⌋ : ℤ) else d

/-- The distance between two of the listed nodes `(x, y, demand)` in the plane. -/
def planeDist (sqrt : ℚ → ℚ) (rounded : Bool) (nodes : List (ℚ × ℚ × ℚ)) (a b : ℕ) : ℚ :=
  match nodes[a]?, nodes[b]? with
  | some p, some q => roundedDist rounded (sqrt ((p.1 - q.1) ^ 2 + (p.2.1 - q.2.1) ^ 2))
  | _, _ => 0

/-- The distance between two nodes according to a lower-row matrix: row `i - 1` lists the distances of
node `i` to the nodes `0, …, i - 1`. -/
def lowerRowDist (rounded : Bool) (rows : List (List ℚ)) (a b : ℕ) : ℚ :=
  if a = b then 0 else
    match (rows[max a b - 1]?).bind fun row => row[min a b]? with
    | some d => roundedDist rounded d
    | none => 0

/-- The demand of one of the listed nodes. -/
def nodeDemand (nodes : List (ℚ × ℚ × ℚ)) (a : ℕ) : ℚ := (nodes[a]?.map fun p => p.2.2).getD 0

/-- The largest number of routes: 20 % and two vehicles above the number of vehicles of which the total
capacity is enough. -/
def fleetSize (nodes : List (ℚ × ℚ × ℚ)) (cap : ℚ) : ℤ :=
  ⌈(6 / 5 : ℚ) * ⌈(nodes.map fun p => p.2.2).sum / cap⌉ + 2⌉

/-- The text lists non-empty routes, at most as many as there are vehicles, that visit every customer
exactly once and exceed the capacity nowhere by more than `tol`. If the capacity is nowhere exceeded then
the stated cost is the total length of the routes up to rounding to an integer. -/
def CorrectFile (nodes : List (ℚ × ℚ × ℚ)) (cap : ℚ) (dist : ℕ → ℕ → ℚ) (tol : ℚ) (text : List Char) : Prop :=
  ∃ routes cost, readSolution text = some (routes, cost) ∧ (∀ r ∈ routes, r ≠ []) ∧
    IsPartition nodes.length routes ∧ (routes.length : ℤ) ≤ fleetSize nodes cap ∧
    CapFeasible (nodeDemand nodes) cap tol routes ∧
    (CapFeasible (nodeDemand nodes) cap 0 routes →
      |(cost : ℚ) - (routes.map (routeDist dist)).sum| ≤ 1 / 2)

/-- A stream of solutions: every text is a correct solution and the stated costs never go up. -/
def CorrectStream (nodes : List (ℚ × ℚ × ℚ)) (cap : ℚ) (dist : ℕ → ℕ → ℚ) (tol : ℚ)
    (texts : List (List Char)) : Prop :=
  (∀ t ∈ texts, CorrectFile nodes cap dist tol t) ∧
  texts.Pairwise fun t u => ∀ R N R' N', readSolution t = some (R, N) → readSolution u = some (R', N') → N' ≤ N

end Verif.Spec
