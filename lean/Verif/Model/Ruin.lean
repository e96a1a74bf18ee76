import Verif.Model.Individual

/-!
# Ruin-and-recreate: solution representation and the two operators

Models `/repo/src/solver/improvement/ruin_recreate/{node,ruin,recreate}.rs` and the
`RuinRecreateSolution` of `/repo/src/solver/improvement/ruin_recreate/mod.rs`.
-/

namespace Verif
open F64

variable {α : Type} [F64 α]

/-- `Route`; models `/repo/src/solver/improvement/ruin_recreate/node.rs:37-47`. -/
structure RRoute (α : Type) where
  nodes : List ℕ
  distance : α
  overload : α

namespace RRoute

/-- `Route::empty`; models `/repo/src/solver/improvement/ruin_recreate/node.rs:50-56`. -/
def empty : RRoute α := ⟨[], lit 0, lit 0⟩

/-- The neighbour before position `index` (`none` = index panic); models
`/repo/src/solver/improvement/ruin_recreate/node.rs:58,82`. -/
def prevNode (r : RRoute α) (index : ℕ) : Option ℕ :=
  if index = 0 then some 0 else r.nodes[index - 1]?

/-- `remove`; models `/repo/src/solver/improvement/ruin_recreate/node.rs:57-79`. -/
def remove (ctx : Ctx α) (r : RRoute α) (index : ℕ) : Option (RRoute α × ℕ) :=
  (r.prevNode index).bind fun prev =>
  r.nodes[index]?.bind fun node =>
  (if index + 1 = r.nodes.length then some 0 else r.nodes[index + 1]?).map fun next =>
    (⟨r.nodes.eraseIdx index,
      r.distance +. (F64.neg (ctx.dist prev node) -. ctx.dist node next +. ctx.dist prev next),
      r.overload -. ctx.demand node⟩, node)

/-- `delta_distance`; models `/repo/src/solver/improvement/ruin_recreate/node.rs:81-94`. -/
def deltaDistance (ctx : Ctx α) (r : RRoute α) (index node : ℕ) : Option α :=
  (r.prevNode index).bind fun prev =>
  (if index = r.nodes.length then some 0 else r.nodes[index]?).map fun next =>
    F64.neg (ctx.dist prev next) +. ctx.dist prev node +. ctx.dist node next

/-- `add`; models `/repo/src/solver/improvement/ruin_recreate/node.rs:96-103` (`Vec::insert` panics
beyond the end, where `delta_distance` has already panicked). -/
def add (ctx : Ctx α) (r : RRoute α) (index node : ℕ) : Option (RRoute α) :=
  (r.deltaDistance ctx index node).map fun d =>
    ⟨r.nodes.insertIdx index node, r.distance +. d, r.overload +. ctx.demand node⟩

end RRoute

/-- `RuinRecreateSolution`; models `/repo/src/solver/improvement/ruin_recreate/mod.rs:23-29`.
`ruined` lists the elements of the hash set, each once; the order in which the set is iterated is a
parameter where the code iterates it. A location is `(route_index, node_index)`. -/
structure RRSol (α : Type) where
  routes : List (RRoute α)
  unassigned : List ℕ
  ruined : List ℕ
  locs : List (ℕ × ℕ)
  cost : α

/-- `HashSet::insert` on the list of elements. -/
def setInsert (l : List ℕ) (x : ℕ) : List ℕ := if x ∈ l then l else l ++ [x]

namespace RRSol

/-- `RuinRecreateSolution::new`; models `/repo/src/solver/improvement/ruin_recreate/mod.rs:32-47`. -/
def new (ctx : Ctx α) (numVehicles : ℕ) : RRSol α :=
  ⟨List.replicate numVehicles RRoute.empty, [], [], List.replicate ctx.n (0, 0), inf⟩

/-- `from`: copies cost, locations and routes and keeps the other two fields; models
`/repo/src/solver/improvement/ruin_recreate/mod.rs:49-57`. An index panic (the other solution has fewer
routes or locations) is `none`. -/
def copyFrom (s other : RRSol α) : Option (RRSol α) :=
  if s.locs.length ≤ other.locs.length ∧ s.routes.length ≤ other.routes.length then
    some { s with cost := other.cost, locs := other.locs.take s.locs.length,
                  routes := other.routes.take s.routes.length }
  else none

/-- Recording the position of every node of route `r`, from position `i` on; models the loops
`/repo/src/solver/improvement/ruin_recreate/mod.rs:76-78,103-106`. -/
def writeLocs (r : ℕ) : ℕ → List ℕ → List (ℕ × ℕ) → Option (List (ℕ × ℕ))
  | _, [], locs => some locs
  | i, x :: xs, locs => (setIdx locs x (r, i)).bind (writeLocs r (i + 1) xs)

/-- The loop of `load` over the routes, from route number `r` on; models
`/repo/src/solver/improvement/ruin_recreate/mod.rs:66-79`. -/
def loadRoutes : ℕ → List (List ℕ) → List (RouteEval α) → List (ℕ × ℕ) →
    Option (List (RRoute α) × List (ℕ × ℕ))
  | _, [], _, locs => some ([], locs)
  | _, _ :: _, [], _ => none
  | r, l :: ls, e :: es, locs =>
    (writeLocs r 0 l locs).bind fun locs =>
    (loadRoutes (r + 1) ls es locs).map fun p => (⟨l, e.distance, e.overload⟩ :: p.1, p.2)

/-- `load`; models `/repo/src/solver/improvement/ruin_recreate/mod.rs:59-80`. -/
def load (s : RRSol α) (x : Individual α) : Option (RRSol α) :=
  if x.phenotype.length = s.routes.length then
    (loadRoutes 0 x.phenotype x.evaluation.routes s.locs).map fun p =>
      { s with routes := p.1, locs := p.2 }
  else none

/-- `is_feasible`; models `/repo/src/solver/improvement/ruin_recreate/mod.rs:82-89`. -/
def isFeasible (s : RRSol α) : Bool :=
  approxEq (s.routes.foldl (fun t r => t +. F64.max (lit 0) r.overload) (lit 0)) (lit 0)

/-- The cost computed by `evaluate` and `reevaluate`; models
`/repo/src/solver/improvement/ruin_recreate/mod.rs:95-100,111-116`. -/
def costOf (ctx : Ctx α) (routes : List (RRoute α)) : α :=
  routes.foldl (fun c r => c +. (r.distance +. F64.max (lit 0) r.overload *. ctx.pen)) (lit 0)

/-- `reevaluate`; models `/repo/src/solver/improvement/ruin_recreate/mod.rs:110-117`. -/
def reevaluate (ctx : Ctx α) (s : RRSol α) : RRSol α := { s with cost := costOf ctx s.routes }

/-- The loop of `evaluate` over the updated routes; models
`/repo/src/solver/improvement/ruin_recreate/mod.rs:102-107`. -/
def relocate (routes : List (RRoute α)) : List ℕ → List (ℕ × ℕ) → Option (List (ℕ × ℕ))
  | [], locs => some locs
  | r :: rs, locs =>
    routes[r]?.bind fun rt => (writeLocs r 0 rt.nodes locs).bind (relocate routes rs)

/-- `evaluate`; models `/repo/src/solver/improvement/ruin_recreate/mod.rs:91-108`. -/
def evaluate (ctx : Ctx α) (updated : List ℕ) (s : RRSol α) : Option (RRSol α) :=
  (relocate s.routes updated s.locs).map fun locs => { reevaluate ctx s with locs := locs }

/-! ## Ruin -/

/-- Removing the nodes at the listed positions, one after the other; the removed nodes in that order. -/
def removeSeq (ctx : Ctx α) : List ℕ → RRoute α → Option (RRoute α × List ℕ)
  | [], r => some (r, [])
  | i :: is, r =>
    (r.remove ctx i).bind fun p => (removeSeq ctx is p.1).map fun q => (q.1, p.2 :: q.2)

/-- `start_index`: a position such that the `size` nodes from there on contain `nodeIndex` and end
within the route; models `/repo/src/solver/improvement/ruin_recreate/ruin.rs:49-56,77-85`
(`i32` differences clamped at zero are natural subtraction). -/
def startIndex (w : ℕ) (len nodeIndex size : ℕ) : Option ℕ :=
  let lo := nodeIndex + 1 - size
  let hi := min (len - size) nodeIndex
  if lo < hi then rangeUsize w lo (hi + 1) else some lo

/-- `while m < m_max && real() > alpha { m += 1 }`, `k` rounds at most; models
`/repo/src/solver/improvement/ruin_recreate/ruin.rs:68-70` with `alpha = 0.01` (`:22`). -/
def splitLen (ω : Oracle) : ℕ → ℕ → ℕ
  | 0, m => m
  | k + 1, m => if realDraw (ω k) > 1 / 100 then splitLen ω k (m + 1) else m

/-- The positions removed from a route of length `len`, in order: `lt` consecutive ones containing
`nodeIndex` (string procedure), or `lt` of `lt + m` consecutive ones (split string procedure).
Models `/repo/src/solver/improvement/ruin_recreate/ruin.rs:47-103`. Removing more nodes than there are
is `none`: the code then panics on the index or on the subtraction. The descending `while` loop is
written as the reversed range. -/
def ruinPositions (ω : Oracle) (len nodeIndex lt : ℕ) : Option (List ℕ) :=
  if len < lt then none
  else if realDraw (ω 0) < 1 / 2 then
    (startIndex (ω 1) len nodeIndex lt).map fun start => List.replicate lt start
  else
    let mMax := len - lt
    let m := if 0 < mMax then splitLen (ω.sub 0) (mMax - 1) 1 else 0
    (startIndex (ω 1) len nodeIndex (lt + m)).bind fun start =>
    (rangeUsize (ω 2) start (start + lt)).map fun mIndex =>
      (List.range' start (lt + m)).reverse.filter fun i => decide (mIndex + m ≤ i ∨ i < mIndex)

/-- `ruin_route`; models `/repo/src/solver/improvement/ruin_recreate/ruin.rs:35-105`. -/
def ruinRoute (ctx : Ctx α) (ω : Oracle) (s : RRSol α) (node route lt : ℕ) : Option (RRSol α) :=
  s.locs[node]?.bind fun loc =>
  s.routes[route]?.bind fun rt =>
  (ruinPositions ω rt.nodes.length loc.2 lt).bind fun is =>
  (removeSeq ctx is rt).map fun p =>
    { s with routes := s.routes.set route p.1, unassigned := s.unassigned ++ p.2,
             ruined := setInsert s.ruined route }

/-- `average_tour_cardinality`; models
`/repo/src/solver/improvement/ruin_recreate/ruin.rs:25-33`. -/
def averageCardinality (s : RRSol α) : α :=
  F64.round (s.routes.foldl (fun t r => t +. lit r.nodes.length) (lit 0) /. lit s.routes.length)

/-- `(real() * ltmax).floor() as usize + 1`, the drawn string length; models
`/repo/src/solver/improvement/ruin_recreate/ruin.rs:134-136`. -/
def stringLen (w : ℕ) (lsmax : α) (len : ℕ) : ℕ :=
  toNat (lit (realDraw w) *. F64.min lsmax (lit len)) + 1

/-- The loop over the neighbours of the seed customer; models
`/repo/src/solver/improvement/ruin_recreate/ruin.rs:126-144`. -/
def ruinLoop (ctx : Ctx α) (ω : Oracle) (lsmax : α) (ks : ℕ) : List ℕ → RRSol α → Option (RRSol α)
  | [], s => some s
  | v :: vs, s =>
    s.locs[v]?.bind fun loc =>
    if v ∈ s.unassigned ∨ loc.1 ∈ s.ruined then ruinLoop ctx ω lsmax ks vs s
    else
      s.routes[loc.1]?.bind fun rt =>
      (ruinRoute ctx (ω.sub (vs.length + 1)) s v loc.1
        (stringLen (ω (vs.length + 2)) lsmax rt.nodes.length)).bind fun s =>
      if ks ≤ s.ruined.length then some s else ruinLoop ctx ω lsmax ks vs s

/-- `AdjacentStringRemoval::run`; models
`/repo/src/solver/improvement/ruin_recreate/ruin.rs:109-145`. `nbrs` is
`matrix_provider.correlation.get`. -/
def ruin (ctx : Ctx α) (nbrs : ℕ → Option (List ℕ)) (cavg lmax : ℕ) (ω : Oracle) (s : RRSol α) :
    Option (RRSol α) :=
  let lsmax := F64.min s.averageCardinality (lit lmax)
  let ksmax := lit 4 *. lit cavg /. (lit 1 +. lsmax) -. lit 1
  let ks := toNat (lit (realDraw (ω 0)) *. ksmax) + 1
  (rangeUsize (ω 1) 1 ctx.n).bind fun seed =>
  (nbrs seed).bind fun vs => ruinLoop ctx (ω.sub 0) lsmax ks vs s

/-! ## Recreate -/

/-- `sort_by` with a key compared by `partial_cmp(..).expect(..)`: `le` is the comparison, an
incomparable key panics as soon as there are two elements. -/
def sortKey (key : ℕ → α) (le : α → α → Bool) (l : List ℕ) : Option (List ℕ) :=
  if 2 ≤ l.length ∧ l.any (fun x => !(key x ≤. key x)) then none
  else some (stableSort (fun a b => le (key a) (key b)) l)

/-- `sort_unassigned`; models `/repo/src/solver/improvement/ruin_recreate/recreate.rs:5-33,44-57`. -/
def sortUnassigned (ctx : Ctx α) (ω : Oracle) (l : List ℕ) : Option (List ℕ) :=
  (rangeUsize (ω 0) 0 11).bind fun number =>
    if number < 4 then some (shuffle (ω.sub 0) l)
    else if number < 8 then sortKey ctx.demand (fun a b => !(a <. b)) l
    else if number < 10 then sortKey (fun x => ctx.dist x 0) (fun a b => !(a <. b)) l
    else sortKey (fun x => ctx.dist x 0) (fun a b => !(b <. a)) l

/-- `best_route`, `best_distance` / `best_cost`, `best_node_index`. -/
structure BestIns (α : Type) where
  route : Option ℕ
  value : α
  index : ℕ

/-- The loop `for index in 0..=route.nodes.len()`; `f` turns the extra distance into the compared
value. Models `/repo/src/solver/improvement/ruin_recreate/recreate.rs:83-94,109-121`. -/
def scanPositions (ctx : Ctx α) (customer : ℕ) (f : α → α) (r : ℕ) (rt : RRoute α) :
    List ℕ → BestIns α → Option (BestIns α)
  | [], b => some b
  | i :: is, b =>
    (rt.deltaDistance ctx i customer).bind fun d =>
      scanPositions ctx customer f r rt is (if approxLt (f d) b.value then ⟨some r, f d, i⟩ else b)

/-- The search over the updated routes with room for the customer; models
`/repo/src/solver/improvement/ruin_recreate/recreate.rs:80-96`. -/
def scanFeasible (ctx : Ctx α) (customer : ℕ) (routes : List (RRoute α)) :
    List ℕ → BestIns α → Option (BestIns α)
  | [], b => some b
  | r :: rs, b =>
    routes[r]?.bind fun rt =>
      if approxLte (rt.overload +. ctx.demand customer) (lit 0) then
        (scanPositions ctx customer id r rt (List.range (rt.nodes.length + 1)) b).bind
          (scanFeasible ctx customer routes rs)
      else scanFeasible ctx customer routes rs b

/-- The search over all routes, from route number `r` on; models
`/repo/src/solver/improvement/ruin_recreate/recreate.rs:106-122`. -/
def scanAll (ctx : Ctx α) (customer : ℕ) : ℕ → List (RRoute α) → BestIns α → Option (BestIns α)
  | _, [], b => some b
  | r, rt :: rts, b =>
    (scanPositions ctx customer
      (fun d => d +. F64.max (lit 0) (rt.overload +. ctx.demand customer) *. ctx.pen) r rt
      (List.range (rt.nodes.length + 1)) b).bind (scanAll ctx customer (r + 1) rts)

/-- Inserting at the best place found; models
`/repo/src/solver/improvement/ruin_recreate/recreate.rs:99-100,124-125`. -/
def insertAt (ctx : Ctx α) (customer r i : ℕ) (routes : List (RRoute α)) (updated : List ℕ) :
    Option (List (RRoute α) × List ℕ) :=
  routes[r]?.bind fun rt => (rt.add ctx i customer).map fun rt =>
    (routes.set r rt, setInsert updated r)

/-- One round of the `while` loop; models
`/repo/src/solver/improvement/ruin_recreate/recreate.rs:73-126`. `order` is the order in which the hash
set of updated routes is iterated. -/
def insertCustomer (ctx : Ctx α) (order : List ℕ → List ℕ) (customer : ℕ)
    (routes : List (RRoute α)) (updated : List ℕ) : Option (List (RRoute α) × List ℕ) :=
  (scanFeasible ctx customer routes (order updated) ⟨none, maxv, 0⟩).bind fun b =>
    match b.route with
    | some r => insertAt ctx customer r b.index routes updated
    | none =>
      (scanAll ctx customer 0 routes ⟨none, maxv, 0⟩).bind fun b =>
        b.route.bind fun r => insertAt ctx customer r b.index routes updated

/-- The `while` loop over the unassigned customers. -/
def insertAll (ctx : Ctx α) (order : ℕ → List ℕ → List ℕ) :
    List ℕ → List (RRoute α) → List ℕ → Option (List (RRoute α) × List ℕ)
  | [], routes, updated => some (routes, updated)
  | c :: cs, routes, updated =>
    (insertCustomer ctx (order (cs.length + 1)) c routes updated).bind fun p =>
      insertAll ctx order cs p.1 p.2

/-- `GreedyBlink::run`; models `/repo/src/solver/improvement/ruin_recreate/recreate.rs:67-130`.
`order k` is the iteration order of the hash set while `k` customers are left (`order 0` is the one
used by the final `evaluate`). -/
def recreate (ctx : Ctx α) (order : ℕ → List ℕ → List ℕ) (ω : Oracle) (s : RRSol α) :
    Option (RRSol α) :=
  (sortUnassigned ctx ω s.unassigned).bind fun cs =>
  (insertAll ctx order cs s.routes s.ruined).bind fun p =>
  (evaluate ctx (order 0 p.2) { s with routes := p.1, unassigned := [] }).map fun s =>
    { s with ruined := [] }

end RRSol
end Verif
