import Mathlib.Analysis.Real.Sqrt
import Verif.SpecFile

/-!
# Specification of a solution file without tolerances

Nothing here refers to the model of the code.
-/

namespace Verif.Spec

/-- The text lists non-empty routes, at most as many as there are vehicles, that visit every customer
exactly once and exceed the capacity nowhere; `ok` holds of the routes and the stated cost. -/
def FeasibleFile (nodes : List (ℚ × ℚ × ℚ)) (cap : ℚ) (ok : List (List ℕ) → ℕ → Prop) (text : List Char) : Prop :=
  ∃ routes cost, readSolution text = some (routes, cost) ∧ (∀ r ∈ routes, r ≠ []) ∧
    IsPartition nodes.length routes ∧ (routes.length : ℤ) ≤ fleetSize nodes cap ∧
    CapFeasible (nodeDemand nodes) cap 0 routes ∧ ok routes cost

/-- In addition the stated cost is the total length of the routes. -/
def ExactFile (nodes : List (ℚ × ℚ × ℚ)) (cap : ℚ) (dist : ℕ → ℕ → ℚ) : List Char → Prop :=
  FeasibleFile nodes cap fun routes cost => (cost : ℚ) = (routes.map (routeDist dist)).sum

/-- In addition the stated cost is the total length of the routes, rounded to an integer, up to an error
`err`. -/
def NearFile (nodes : List (ℚ × ℚ × ℚ)) (cap : ℚ) (dist : ℕ → ℕ → ℚ) (err : ℚ) : List Char → Prop :=
  FeasibleFile nodes cap fun routes cost => |(cost : ℚ) - (routes.map (routeDist dist)).sum| ≤ 1 / 2 + err

/-- A stream of solutions: every stated cost is the total length of the routes and each is less than all those
before it. -/
def ExactStream (nodes : List (ℚ × ℚ × ℚ)) (cap : ℚ) (dist : ℕ → ℕ → ℚ) (texts : List (List Char)) : Prop :=
  (∀ t ∈ texts, ExactFile nodes cap dist t) ∧
  texts.Pairwise fun t u => ∀ R N R' N', readSolution t = some (R, N) → readSolution u = some (R', N') → N' < N

/-- The distance of two of the listed nodes `(x, y, demand)` in the plane. -/
noncomputable def realDist (nodes : List (ℚ × ℚ × ℚ)) (a b : ℕ) : ℝ :=
  match nodes[a]?, nodes[b]? with
  | some p, some q => Real.sqrt (((p.1 - q.1) ^ 2 + (p.2.1 - q.2.1) ^ 2 : ℚ) : ℝ)
  | _, _ => 0

/-- That distance, rounded to the nearest integer. -/
noncomputable def nearestDist (nodes : List (ℚ × ℚ × ℚ)) (a b : ℕ) : ℚ := (⌊realDist nodes a b + 1 / 2⌋ : ℤ)

/-- Length of a path through the listed nodes. -/
noncomputable def realPath (nodes : List (ℚ × ℚ × ℚ)) : List ℕ → ℝ
  | a :: b :: l => realDist nodes a b + realPath nodes (b :: l)
  | _ => 0

/-- The stated cost is the total length of the round trips in the plane, rounded to an integer, up to an
error `err`. -/
def RealFile (nodes : List (ℚ × ℚ × ℚ)) (cap : ℚ) (err : ℝ) : List Char → Prop :=
  FeasibleFile nodes cap fun routes cost =>
    |(cost : ℝ) - (routes.map fun r => realPath nodes (0 :: (r ++ [0]))).sum| ≤ 1 / 2 + err

end Verif.Spec
