import Verif.Model.Evaluate

/-!
# Context

Models the computations of `/repo/src/solver/context.rs` and the two aggregates of
`/repo/src/models/problem.rs` they read.
-/

namespace Verif
open F64

variable {α : Type} [F64 α]

/-- `total_demand` (over all nodes, the depot included); models `/repo/src/models/problem.rs:58-60`. -/
def totalDemand (ctx : Ctx α) : α := ((List.range ctx.n).map ctx.demand).foldl (· +. ·) (lit 0)

/-- `max_demand`: std's `max_by` keeps the last maximum; models `/repo/src/models/problem.rs:62-67`.
Simplification: `partial_cmp` on NaN, a panic, is left out. -/
def maxDemand (ctx : Ctx α) : Option α :=
  match (List.range ctx.n).map ctx.demand with
  | [] => none
  | x :: l => some (l.foldl (fun a b => if b <. a then a else b) x)

/-- `vehicle_lower_bound`; models `/repo/src/solver/context.rs:81-85`. -/
def vehicleLowerBound (ctx : Ctx α) : ℕ := ceilNat (totalDemand ctx /. ctx.cap)

/-- `initial_num_vehicles`; models `/repo/src/solver/context.rs:87-91`. -/
def initialNumVehicles (ctx : Ctx α) : ℕ :=
  ceilNat ((lit 1.2 : α) *. lit (vehicleLowerBound ctx) +. lit 2)

/-- `initial_penalty`; models `/repo/src/solver/context.rs:94-99`. -/
def initialPenalty (maxDistance maxDemand : Option α) : α :=
  match maxDistance, maxDemand with
  | some distance, some demand => F64.max (lit 0.0001) (F64.min (lit 10000) (distance /. demand))
  | _, _ => lit 100

/-- `terminate`; models `/repo/src/solver/context.rs:62-68`. `elapsed` is the clock reading in whole
seconds. -/
def terminateNow (timeLimit : ℕ) (maxIterations : Option ℕ) (elapsed iteration : ℕ) : Bool :=
  decide (timeLimit ≤ elapsed) || maxIterations.any (fun m => decide (m ≤ iteration))

end Verif
