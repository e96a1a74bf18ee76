import Verif.F64
import Verif.Spec

/-!
# Problem context and solution evaluation

Models `/repo/src/solver/evaluate.rs` and the parts of `/repo/src/solver/context.rs`,
`/repo/src/models/problem.rs` it reads.
-/

namespace Verif
open F64

variable {α : Type} [F64 α]

/-- What the algorithms read from `Context` (`/repo/src/solver/context.rs:9-17`): the number of nodes
`problem.dim()`, the distance matrix, demands, capacity, coordinates and the current capacity penalty.
Simplification: `dist`, `demand`, `lng`, `lat` are total functions; indices passed to them are in range
whenever the nodes are below `n`. -/
structure Ctx (α : Type) where
  n : ℕ
  dist : ℕ → ℕ → α
  demand : ℕ → α
  cap : α
  pen : α
  lng : ℕ → α
  lat : ℕ → α

/-- `v[i] = x` with Rust's bounds check (`none` = panic). -/
def setIdx {β : Type} (l : List β) (i : ℕ) (x : β) : Option (List β) :=
  if i < l.length then some (l.set i x) else none

/-- `Vec::resize`. -/
def resize {β : Type} (l : List β) (k : ℕ) (x : β) : List β :=
  l.take k ++ List.replicate (k - l.length) x

/-- `route_cost`; models `/repo/src/solver/evaluate.rs:5-7`. -/
def routeCost (distance overload penalty : α) : α :=
  distance +. penalty *. F64.max (lit 0) overload

/-- `RouteEvaluation`; models `/repo/src/solver/evaluate.rs:10-14`. -/
structure RouteEval (α : Type) where
  distance : α
  overload : α
  cost : α

/-- `RouteEvaluation::empty`; models `/repo/src/solver/evaluate.rs:21-27`. -/
def RouteEval.empty : RouteEval α := ⟨maxv, maxv, inf⟩

/-- `RouteEvaluation::is_feasible`; models `/repo/src/solver/evaluate.rs:17-19`. -/
def RouteEval.isFeasible (r : RouteEval α) : Bool := approxLte r.overload (lit 0)

/-- `SolutionEvaluation`; models `/repo/src/solver/evaluate.rs:31-43`. -/
structure SolEval (α : Type) where
  cost : α
  feasible : Bool
  routes : List (RouteEval α)
  preds : List ℕ
  succs : List ℕ

/-- `SolutionEvaluation::new`; models `/repo/src/solver/evaluate.rs:46-54`. -/
def SolEval.new : SolEval α := ⟨inf, false, [], [], []⟩

/-- `SolutionEvaluation::reset`; models `/repo/src/solver/evaluate.rs:60-64`. -/
def SolEval.reset (e : SolEval α) (numRoutes numNodes : ℕ) : SolEval α :=
  { e with
    routes := resize e.routes numRoutes RouteEval.empty
    preds := resize e.preds numNodes 0
    succs := resize e.succs numNodes 0 }

/-- State of the loop over the nodes of one route. -/
structure EvalAcc (α : Type) where
  last : ℕ
  load : α
  dist : α
  preds : List ℕ
  succs : List ℕ

/-- The inner loop over the nodes of a route; models `/repo/src/solver/evaluate.rs:88-101`. -/
def evalNodes (ctx : Ctx α) : List ℕ → EvalAcc α → Option (EvalAcc α)
  | [], a => some a
  | node :: rest, a =>
    match setIdx a.preds node a.last, setIdx a.succs a.last node with
    | some preds, some succs =>
      evalNodes ctx rest
        { last := node
          load := a.load +. ctx.demand node
          dist := a.dist +. ctx.dist a.last node
          preds := preds
          succs := succs }
    | _, _ => none

/-- The outer loop over the routes, `idx` being `route_index`;
models `/repo/src/solver/evaluate.rs:81-127`. The accumulated `cost` and `feasible` are the
fields of the evaluation (the code keeps them in locals and stores them at the end). -/
def evalRoutes (ctx : Ctx α) : List (List ℕ) → ℕ → SolEval α → Option (SolEval α)
  | [], _, e => some e
  | route :: rest, idx, e =>
    match evalNodes ctx route ⟨0, lit 0, lit 0, e.preds, e.succs⟩ with
    | none => none
    | some a =>
      match setIdx a.succs a.last 0 with
      | none => none
      | some succs =>
        let distance := a.dist +. ctx.dist a.last 0
        let overload := a.load -. ctx.cap
        let cost := routeCost distance overload ctx.pen
        match setIdx e.routes idx ⟨distance, overload, cost⟩ with
        | none => none
        | some routes =>
          evalRoutes ctx rest (idx + 1)
            { cost := e.cost +. cost
              feasible := if approxGt overload (lit 0) then false else e.feasible
              routes := routes
              preds := a.preds
              succs := succs }

/-- `SolutionEvaluation::evaluate`; models `/repo/src/solver/evaluate.rs:66-130`. -/
def evaluate (ctx : Ctx α) (e : SolEval α) (sol : List (List ℕ)) : Option (SolEval α) :=
  evalRoutes ctx sol 0 { e.reset sol.length ctx.n with cost := lit 0, feasible := true }

end Verif
