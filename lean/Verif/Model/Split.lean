import Verif.Model.Individual
import Mathlib.Data.List.DropRight

/-!
# Split

Models `/repo/src/solver/genetic/split.rs`. A giant tour `g` is the genotype; position `i` of the
dynamic programs is the customer `g[i-1]`, position `0` the depot.

Simplification: the raw matrices `path_cost` and `predecessors` and the vectors `nodes`,
`cum_distance`, `cum_load` are total functions. They have `num_vehicles + 1` rows / `dim` columns and
are only accessed at rows `≤ max_vehicles` and columns `< dim`.
-/

namespace Verif
open F64

variable {α : Type} [F64 α]

/-- The configuration values the split reads (`/repo/src/config.rs`). -/
structure SplitCfg (α : Type) where
  linear : Bool
  capacityFactor : α
  numVehicles : ℕ

/-- `Split` with `NodeSplit` flattened; models `/repo/src/solver/genetic/split.rs:66-100`. -/
structure Split (α : Type) where
  pathCost : ℕ → ℕ → α
  preds : ℕ → ℕ → ℕ
  demand : ℕ → α
  distDepot : ℕ → α
  distNext : ℕ → α
  cumDist : ℕ → α
  cumLoad : ℕ → α
  cap : α
  pen : α

/-- Write one cell of a matrix. -/
def setCell {β : Type} (m : ℕ → ℕ → β) (r c : ℕ) (x : β) : ℕ → ℕ → β :=
  fun r' c' => if r' = r ∧ c' = c then x else m r' c'

/-- Write one cell of a vector. -/
def setAt {β : Type} (v : ℕ → β) (i : ℕ) (x : β) : ℕ → β :=
  fun j => if j = i then x else v j

namespace Split

/-- `Split::new`; models `/repo/src/solver/genetic/split.rs:103-114` (all numbers start as zero). -/
def new (ctx : Ctx α) : Split α where
  pathCost _ _ := lit 0
  preds _ _ := 0
  demand _ := lit 0
  distDepot _ := lit 0
  distNext _ := lit 0
  cumDist _ := lit 0
  cumLoad _ := lit 0
  cap := ctx.cap
  pen := ctx.pen

/-- One round of the loop in `load`; models `/repo/src/solver/genetic/split.rs:120-133`. -/
def loadStep (ctx : Ctx α) (g : List ℕ) (s : Split α) (i : ℕ) : Option (Split α) :=
  match g[i - 1]? with
  | none => none
  | some node =>
    let next : Option α :=
      if i < ctx.n - 1 then (g[i]?).map (fun nx => ctx.dist node nx) else some (lit (-10 ^ 30))
    match next with
    | none => none
    | some dn =>
      let s := { s with
        demand := setAt s.demand i (ctx.demand node)
        distDepot := setAt s.distDepot i (ctx.dist node 0)
        distNext := setAt s.distNext i dn }
      some { s with
        cumDist := setAt s.cumDist i (s.cumDist (i - 1) +. s.distNext (i - 1))
        cumLoad := setAt s.cumLoad i (s.cumLoad (i - 1) +. s.demand i) }

/-- The loop of `load` over the listed positions. -/
def loadLoop (ctx : Ctx α) (g : List ℕ) : List ℕ → Split α → Option (Split α)
  | [], s => some s
  | i :: is, s =>
    match loadStep ctx g s i with
    | none => none
    | some s => loadLoop ctx g is s

/-- `load`; models `/repo/src/solver/genetic/split.rs:116-135`. -/
def load (ctx : Ctx α) (s : Split α) (g : List ℕ) : Option (Split α) :=
  loadLoop ctx g (List.range' 1 (ctx.n - 1)) { s with pen := ctx.pen }

/-- `reset(false)`; models `/repo/src/solver/genetic/split.rs:147-152`. -/
def resetRow0 (n : ℕ) (s : Split α) : Split α :=
  { s with pathCost := fun r c =>
      if r = 0 ∧ c = 0 then lit 0 else if r = 0 ∧ 1 ≤ c ∧ c < n then lit (10 ^ 30)
      else s.pathCost r c }

/-- `reset(true)`, `rows` being `num_vehicles + 1`; models
`/repo/src/solver/genetic/split.rs:139-146`. -/
def resetAll (rows n : ℕ) (s : Split α) : Split α :=
  { s with pathCost := fun r c =>
      if r = 0 ∧ c = 0 then lit 0 else if r < rows ∧ 1 ≤ c ∧ c < n then lit (10 ^ 30)
      else s.pathCost r c }

/-- `propagate`; models `/repo/src/solver/genetic/split.rs:156-162`. -/
def propagate (s : Split α) (i j k : ℕ) : α :=
  s.pathCost k i +. s.cumDist j -. s.cumDist (i + 1) +. s.distDepot (i + 1) +. s.distDepot j +.
    s.pen *. F64.max (lit 0) (s.cumLoad j -. s.cumLoad i -. s.cap)

/-- `dominates`; models `/repo/src/solver/genetic/split.rs:165-170`. -/
def dominates (s : Split α) (i j k : ℕ) : Bool :=
  s.pathCost k i +. s.distDepot (i + 1) +. s.cumDist (j + 1) -. s.cumDist (i + 1) +.
      s.pen *. (s.cumLoad j -. s.cumLoad i)
    <. s.pathCost k j +. s.distDepot (j + 1)

/-- `dominates_right`; models `/repo/src/solver/genetic/split.rs:173-178`. -/
def dominatesRight (s : Split α) (i j k : ℕ) : Bool :=
  approxLte (s.pathCost k j +. s.distDepot (j + 1))
    (s.pathCost k i +. s.distDepot (i + 1) +. s.cumDist (j + 1) -. s.cumDist (i + 1))

/-- The loop that pops the front of the queue; models
`/repo/src/solver/genetic/split.rs:219-227` and `:328-333`. -/
def popFront (s : Split α) (j k : ℕ) : List ℕ → List ℕ
  | a :: b :: q =>
    if approxGte (propagate s a j k) (propagate s b j k) then popFront s j k (b :: q)
    else a :: b :: q
  | q => q

/-- The queue update at position `i` reading row `k`; models
`/repo/src/solver/genetic/split.rs:213-227` and `:322-333`. The deque is a list, front first;
`none` = panic on an empty deque. -/
def updateQueue (s : Split α) (i k : ℕ) (q : List ℕ) : Option (List ℕ) :=
  match q.getLast? with
  | none => none
  | some back =>
    let q := if !(dominates s back i k) then q.rdropWhile (fun b => dominatesRight s b i k) ++ [i]
      else q
    some (popFront s (i + 1) k q)

/-- One position of the linear split, reading row `k`, writing row `w`; models
`/repo/src/solver/genetic/split.rs:208-228` (`k = w = 0`) and `:317-334` (`w = k + 1`). -/
def linearStep (n k w : ℕ) (s : Split α) (q : List ℕ) (i : ℕ) : Option (Split α × List ℕ) :=
  match q with
  | [] => none
  | front :: _ =>
    let s := { s with
      pathCost := setCell s.pathCost w i (propagate s front i k)
      preds := setCell s.preds w i front }
    if i < n - 1 then (updateQueue s i k q).map (fun q => (s, q)) else some (s, q)

/-- The loop of the unlimited linear split over the listed positions; models
`/repo/src/solver/genetic/split.rs:207-229`. -/
def linearLoop (n : ℕ) : List ℕ → Split α → List ℕ → Option (Split α)
  | [], s, _ => some s
  | i :: is, s, q =>
    match linearStep n 0 0 s q i with
    | none => none
    | some (s, q) => linearLoop n is s q

/-- The inner loop of the limited linear split, which leaves the loop on an empty queue; models
`/repo/src/solver/genetic/split.rs:313-335`. -/
def linearLimLoop (n k : ℕ) : List ℕ → Split α → List ℕ → Option (Split α)
  | [], s, _ => some s
  | i :: is, s, q =>
    if q = [] then some s else
      match linearStep n k (k + 1) s q i with
      | none => none
      | some (s, q) => linearLimLoop n k is s q

/-- The outer loop of the limited linear split over the listed rows; models
`/repo/src/solver/genetic/split.rs:309-336`. -/
def linearLimRows (n : ℕ) : List ℕ → Split α → Option (Split α)
  | [], s => some s
  | k :: ks, s =>
    match linearLimLoop n k (List.range' (k + 1) (n - (k + 1))) s [k] with
    | none => none
    | some s => linearLimRows n ks s

/-- Cost of reaching `tgt` by a route from `src` with the given load and length so far; models
`/repo/src/solver/genetic/split.rs:252-261` and `:362-371`. -/
def bellmanCost (ctx : Ctx α) (s : Split α) (k src node : ℕ) (load cost : α) : α :=
  let base := s.pathCost k src +. cost +. ctx.dist node 0
  if approxGt (load -. ctx.cap) (lit 0) then base +. (load -. ctx.cap) *. s.pen else base

/-- Keep the cheaper path; models `/repo/src/solver/genetic/split.rs:263-266` and `:373-378`. -/
def relax (s : Split α) (w tgt src : ℕ) (new : α) : Split α :=
  if new <. s.pathCost w tgt then
    { s with pathCost := setCell s.pathCost w tgt new, preds := setCell s.preds w tgt src }
  else s

/-- The inner `while` of the Bellman split; models `/repo/src/solver/genetic/split.rs:236-268`
(`k = w = 0`, `fits = approx_lte`) and `:346-380` (`w = k + 1`, `fits = <=`).
`fuel` is the number of positions left, `dim - to_index`. -/
def bellmanInner (ctx : Ctx α) (g : List ℕ) (fits : α → Bool) (k w src : ℕ) :
    ℕ → ℕ → α → α → Split α → Option (Split α)
  | 0, _, _, _, s => some s
  | fuel + 1, tgt, load, cost, s =>
    match g[tgt - 1]? with
    | none => none
    | some node =>
      if fits (load +. ctx.demand node) then
        let load := load +. ctx.demand node
        match (if tgt = src + 1 then some (ctx.dist 0 node)
            else (g[tgt - 2]?).map (fun p => cost +. ctx.dist p node)) with
        | none => none
        | some cost =>
          bellmanInner ctx g fits k w src fuel (tgt + 1) load cost
            (relax s w tgt src (bellmanCost ctx s k src node load cost))
      else some s

/-- The outer loop of the unlimited Bellman split; models
`/repo/src/solver/genetic/split.rs:232-269`. -/
def bellmanLoop (ctx : Ctx α) (g : List ℕ) (fits : α → Bool) : List ℕ → Split α → Option (Split α)
  | [], s => some s
  | i :: is, s =>
    match bellmanInner ctx g fits 0 0 i (ctx.n - (i + 1)) (i + 1) (lit 0) (lit 0) s with
    | none => none
    | some s => bellmanLoop ctx g fits is s

/-- The middle loop of the limited Bellman split; models
`/repo/src/solver/genetic/split.rs:339-381`. -/
def bellmanLimLoop (ctx : Ctx α) (g : List ℕ) (fits : α → Bool) (k : ℕ) :
    List ℕ → Split α → Option (Split α)
  | [], s => some s
  | i :: is, s =>
    if lit (10 ^ 29) <. s.pathCost k i then some s else
      match bellmanInner ctx g fits k (k + 1) i (ctx.n - (i + 1)) (i + 1) (lit 0) (lit 0) s with
      | none => none
      | some s => bellmanLimLoop ctx g fits k is s

/-- The outer loop of the limited Bellman split; models
`/repo/src/solver/genetic/split.rs:338-382`. -/
def bellmanLimRows (ctx : Ctx α) (g : List ℕ) (fits : α → Bool) :
    List ℕ → Split α → Option (Split α)
  | [], s => some s
  | k :: ks, s =>
    match bellmanLimLoop ctx g fits k (List.range' k (ctx.n - 1 - k)) s with
    | none => none
    | some s => bellmanLimRows ctx g fits ks s

/-- `genotype[begin..end]` as collected by `for index in begin..end`; empty when `begin ≥ end`
(an index beyond the genotype would panic; `end < dim` rules it out). -/
def segment (g : List ℕ) (b e : ℕ) : List ℕ := (g.take e).drop b

/-- The loop that reads the routes off the predecessors; models
`/repo/src/solver/genetic/split.rs:273-282`. `none` when `fuel` rounds did not reach the depot (the
code would loop on). -/
def extract (preds : ℕ → ℕ) (g : List ℕ) : ℕ → ℕ → List (List ℕ) → Option (List (List ℕ))
  | _, 0, acc => some acc
  | 0, _ + 1, _ => none
  | fuel + 1, e + 1, acc => extract preds g fuel (preds (e + 1))
      (acc ++ [segment g (preds (e + 1)) (e + 1)])

/-- Padding with empty routes; models `/repo/src/solver/genetic/split.rs:287-289`. -/
def pad (numVehicles : ℕ) (routes : List (List ℕ)) : List (List ℕ) :=
  routes ++ List.replicate (numVehicles - routes.length) []

/-- `split`; models `/repo/src/solver/genetic/split.rs:192-293`. Returns the new state, the routes and
whether they are at most `maxVehicles`. -/
def split (cfg : SplitCfg α) (ctx : Ctx α) (s : Split α) (g : List ℕ) (maxVehicles : ℕ) :
    Option (Split α × List (List ℕ) × Bool) :=
  let s := resetRow0 ctx.n s
  let run := if cfg.linear then linearLoop ctx.n (List.range' 1 (ctx.n - 1)) s [0]
    else bellmanLoop ctx g (fun x => approxLte x (ctx.cap *. cfg.capacityFactor))
      (List.range (ctx.n - 1)) s
  match run with
  | none => none
  | some s =>
    match extract (s.preds 0) g (ctx.n - 1) (ctx.n - 1) [] with
    | none => none
    | some routes => some (s, pad cfg.numVehicles routes, decide (routes.length ≤ maxVehicles))

/-- Search for the cheapest number of routes; models
`/repo/src/solver/genetic/split.rs:387-395`. -/
def bestCount (s : Split α) (last : ℕ) : List ℕ → α → ℕ → ℕ
  | [], _, v => v
  | k :: ks, c, v =>
    if s.pathCost k last <. c then bestCount s last ks (s.pathCost k last) k
    else bestCount s last ks c v

/-- Read `v` routes off the predecessor rows; models
`/repo/src/solver/genetic/split.rs:400-409`. Returns the final `end` and the routes. -/
def extractLim (preds : ℕ → ℕ → ℕ) (g : List ℕ) : ℕ → ℕ → List (List ℕ) → ℕ × List (List ℕ)
  | 0, e, acc => (e, acc)
  | v + 1, e, acc => extractLim preds g v (preds (v + 1) e)
      (segment g (preds (v + 1) e) e :: acc)

/-- `split_limited_fleet`; models `/repo/src/solver/genetic/split.rs:295-419`. -/
def splitLimited (cfg : SplitCfg α) (ctx : Ctx α) (s : Split α) (g : List ℕ) (maxVehicles : ℕ) :
    Option (Split α × List (List ℕ) × Bool) :=
  let s := resetAll (cfg.numVehicles + 1) ctx.n s
  let run := if cfg.linear then linearLimRows ctx.n (List.range maxVehicles) s
    else bellmanLimRows ctx g (fun x => x ≤. ctx.cap *. cfg.capacityFactor)
      (List.range maxVehicles) s
  match run with
  | none => none
  | some s =>
    let last := ctx.n - 1
    let v := bestCount s last (List.range' 1 (maxVehicles - 1)) (s.pathCost maxVehicles last)
      maxVehicles
    let (e, routes) := extractLim s.preds g v last []
    some (s, pad cfg.numVehicles routes, e == 0)

/-- `run`; models `/repo/src/solver/genetic/split.rs:180-189`. `lowerBound` is
`ctx.vehicle_lower_bound()`. -/
def run (atan2 : α → α → α) (cfg : SplitCfg α) (ctx : Ctx α) (lowerBound : ℕ) (s : Split α)
    (x : Individual α) (maxVehicles : ℕ) : Option (Split α × Individual α) :=
  let maxVehicles := max maxVehicles lowerBound
  match load ctx s x.genotype with
  | none => none
  | some s =>
    match split cfg ctx s x.genotype maxVehicles with
    | none => none
    | some (s, routes, ok) =>
      let res := if ok then some (s, routes) else
        (splitLimited cfg ctx s x.genotype maxVehicles).map (fun r => (r.1, r.2.1))
      match res with
      | none => none
      | some (s, routes) =>
        match Individual.sortRoutes atan2 ctx { x with phenotype := routes } with
        | none => none
        | some x => (x.evaluate ctx).map (fun x => (s, x))

end Split
end Verif
