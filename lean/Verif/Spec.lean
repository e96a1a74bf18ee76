import Mathlib.Data.Rat.Defs
import Mathlib.Algebra.Order.Field.Rat
import Mathlib.Algebra.BigOperators.Group.List.Basic

/-!
# Specification vocabulary

Plain definitions a reader needs in order to read the theorems: what a complete solution is, and the
length, load and penalized cost of routes. Nothing here refers to the model of the code.
-/

namespace Verif.Spec

/-- The customers of an instance with `n` nodes (node 0 is the depot). -/
def customers (n : ℕ) : List ℕ := List.range' 1 (n - 1)

/-- The routes visit every customer `1, …, n-1` exactly once (and never the depot). -/
def IsPartition (n : ℕ) (routes : List (List ℕ)) : Prop :=
  routes.flatten.Perm (customers n)

/-- Length of a path through the listed nodes. -/
def pathDist (d : ℕ → ℕ → ℚ) : List ℕ → ℚ
  | a :: b :: l => d a b + pathDist d (b :: l)
  | _ => 0

/-- Length of the round trip depot → stops → depot. -/
def routeDist (d : ℕ → ℕ → ℚ) (r : List ℕ) : ℚ := pathDist d (0 :: (r ++ [0]))

/-- Total demand of the stops. -/
def routeLoad (q : ℕ → ℚ) (r : List ℕ) : ℚ := (r.map q).sum

/-- Penalized cost of a route: its length plus `pen` per unit of load above the capacity. -/
def routeCost (d : ℕ → ℕ → ℚ) (q : ℕ → ℚ) (cap pen : ℚ) (r : List ℕ) : ℚ :=
  routeDist d r + pen * max 0 (routeLoad q r - cap)

/-- Penalized cost of a list of routes. -/
def solCost (d : ℕ → ℕ → ℚ) (q : ℕ → ℚ) (cap pen : ℚ) (routes : List (List ℕ)) : ℚ :=
  (routes.map (routeCost d q cap pen)).sum

/-- No route exceeds the capacity by more than `tol`. -/
def CapFeasible (q : ℕ → ℚ) (cap tol : ℚ) (routes : List (List ℕ)) : Prop :=
  ∀ r ∈ routes, routeLoad q r ≤ cap + tol

end Verif.Spec
