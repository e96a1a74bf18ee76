import Verif.Model.Individual
import Verif.Model.LinkedList
import Verif.Model.Sector

/-!
# The state of the local search and its route bookkeeping

Models `LinkNode`/`LinkRoute` data (`/repo/src/solver/improvement/linked_list.rs`), the insertion cache
(`/repo/src/solver/improvement/preprocess.rs`) and `load_individual`, `update_route`, `reset`,
`update_individual` of `/repo/src/solver/improvement/local_search.rs`.
-/

namespace Verif
open F64

variable {α : Type} [F64 α]

/-- `LinkRoute` without its index and depot pointers (route `r` has depots `start r`, `fin r`);
models `/repo/src/solver/improvement/linked_list.rs:126-156`. -/
structure LRoute (α : Type) where
  num : ℕ
  lastModified : ℤ
  lastTestedSwapStar : ℤ
  sector : Sector
  distance : α
  load : α
  overload : α
  cost : α

/-- `LinkRoute::new`; models `/repo/src/solver/improvement/linked_list.rs:159-173`. -/
def LRoute.new : LRoute α := ⟨0, 0, 0, Sector.new, maxv, maxv, maxv, inf⟩

/-- `InsertLocation`; models `/repo/src/solver/improvement/preprocess.rs:7-10`. -/
structure Loc (α : Type) where
  cost : α
  node : Option Ref

/-- `InsertLocation::new` / `reset`; models `/repo/src/solver/improvement/preprocess.rs:13-23`. -/
def Loc.new : Loc α := ⟨inf, none⟩

/-- `ThreeBestInserts`; models `/repo/src/solver/improvement/preprocess.rs:28-31`. -/
structure Three (α : Type) where
  l0 : Loc α
  l1 : Loc α
  l2 : Loc α
  lastCalculated : ℤ

/-- `ThreeBestInserts::new`; models `/repo/src/solver/improvement/preprocess.rs:34-39`. -/
def Three.new : Three α := ⟨Loc.new, Loc.new, Loc.new, 0⟩

/-- `ThreeBestInserts::reset`; models `/repo/src/solver/improvement/preprocess.rs:41-45`. -/
def Three.reset (t : Three α) : Three α := ⟨Loc.new, Loc.new, Loc.new, t.lastCalculated⟩

/-- `ThreeBestInserts::add`; models `/repo/src/solver/improvement/preprocess.rs:52-65`. -/
def Three.add (t : Three α) (loc : Loc α) : Three α :=
  if t.l2.cost <. loc.cost then t
  else if t.l1.cost <. loc.cost then { t with l2 := loc }
  else if t.l0.cost <. loc.cost then { t with l2 := t.l1, l1 := loc }
  else { t with l2 := t.l1, l1 := t.l0, l0 := loc }

/-- `LocalSearch`; models `/repo/src/solver/improvement/local_search.rs:15-40`. The fields of the
nodes, routes and the insertion matrix are stored as functions of the node, route and (route, node).
`move_count`, an `i32`, is an unbounded integer; the hash set `empty_routes` is a list. -/
structure LS (α : Type) where
  heap : Heap
  rt : Ref → Option ℕ
  pos : Ref → ℕ
  lastTested : ℕ → ℤ
  cumD : Ref → α
  cumL : Ref → α
  delRem : Ref → α
  angle : ℕ → ℤ
  route : ℕ → LRoute α
  numRoutes : ℕ
  inserts : ℕ → ℕ → Three α
  moveCount : ℤ
  empty : List ℕ
  customers : List ℕ
  corr : List ℕ
  corrCols : ℕ
  granularity : ℕ
  pen : α

namespace LS

/-- `LocalSearch::new`; models `/repo/src/solver/improvement/local_search.rs:43-96`. The penalty and
the angles (`problem.get_angle`) and the cloned correlation matrix are arguments. -/
def new (ctx : Ctx α) (numVehicles granularity : ℕ) (angle : ℕ → ℤ) (corr : List ℕ) (corrCols : ℕ)
    (penMult : α) : LS α where
  heap := ⟨fun _ => none, fun _ => none⟩
  rt := fun _ => none
  pos := fun _ => 0
  lastTested := fun _ => 0
  cumD := fun _ => lit 0
  cumL := fun _ => lit 0
  delRem := fun _ => lit 0
  angle := angle
  route := fun _ => LRoute.new
  numRoutes := numVehicles
  inserts := fun _ _ => Three.new
  moveCount := 0
  empty := []
  customers := List.range' 1 (ctx.n - 1)
  corr := corr
  corrCols := corrCols
  granularity := granularity
  pen := ctx.pen *. penMult

/-- More than the number of link nodes; bounds every traversal of a well formed list. -/
def fuel (ctx : Ctx α) (s : LS α) : ℕ := ctx.n + 2 * s.numRoutes + 2

/-- The local variables of `update_route`. -/
structure Scan (α : Type) where
  prev : Ref
  dist : α
  load : α
  position : ℕ
  num : ℕ
  sector : Sector
  rt : Ref → Option ℕ
  pos : Ref → ℕ
  cumD : Ref → α
  cumL : Ref → α

/-- One round of the loop of `update_route`; models
`/repo/src/solver/improvement/local_search.rs:319-338`. -/
def scanNode (ctx : Ctx α) (angle : ℕ → ℤ) (r : ℕ) (a : Scan α) (x : Ref) : Scan α :=
  { prev := x
    dist := a.dist +. ctx.dist a.prev.number x.number
    load := a.load +. ctx.demand x.number
    position := a.position + 1
    num := if x.isDepot then a.num else a.num + 1
    sector := if x.isDepot then a.sector else a.sector.extend (angle x.number)
    rt := Function.update a.rt x (some r)
    pos := Function.update a.pos x a.position
    cumD := Function.update a.cumD x (a.dist +. ctx.dist a.prev.number x.number)
    cumL := Function.update a.cumL x (a.load +. ctx.demand x.number) }

/-- Start of the scan; models `/repo/src/solver/improvement/local_search.rs:299-315`. -/
def scanInit (s : LS α) (r : ℕ) : Scan α :=
  { prev := .start r, dist := lit 0, load := lit 0, position := 1, num := 0, sector := Sector.new
    rt := Function.update s.rt (.start r) (some r)
    pos := Function.update s.pos (.start r) 0
    cumD := s.cumD, cumL := s.cumL }

/-- The writes after the loop; models `/repo/src/solver/improvement/local_search.rs:341-364`. -/
def storeScan (ctx : Ctx α) (r : ℕ) (s : LS α) (a : Scan α) : LS α :=
  { s with
    heap := ⟨Function.update s.heap.succ (.fin r) none, Function.update s.heap.pred (.start r) none⟩
    rt := a.rt, pos := a.pos, cumD := a.cumD, cumL := a.cumL
    route := Function.update s.route r
      { num := a.num
        lastModified := s.moveCount
        lastTestedSwapStar := (s.route r).lastTestedSwapStar
        sector := a.sector
        distance := a.dist
        load := a.load
        overload := a.load -. ctx.cap
        cost := routeCost a.dist (a.load -. ctx.cap) s.pen }
    empty := if a.num = 0 then (if r ∈ s.empty then s.empty else s.empty ++ [r])
      else s.empty.filter (· ≠ r) }

/-- `update_route`; models `/repo/src/solver/improvement/local_search.rs:294-366`. The loop does not
change links, so the visited nodes are collected first; `none` = the traversal does not end. -/
def updateRoute (ctx : Ctx α) (r : ℕ) (s : LS α) : Option (LS α) :=
  (s.heap.walk (s.fuel ctx) (s.heap.succ (.start r))).map fun l =>
    storeScan ctx r s (l.foldl (scanNode ctx s.angle r) (scanInit s r))

/-- Linking up the nodes of a route; models `/repo/src/solver/improvement/local_search.rs:106-117`. -/
def linkRoute (r : ℕ) : Ref → List ℕ → Heap → Heap
  | prev, [], h => h.link prev (.fin r)
  | prev, c :: l, h => linkRoute r (.cust c) l (h.link prev (.cust c))

/-- One round of the loop of `load_individual`; out-of-range indices panic (`none`). Models
`/repo/src/solver/improvement/local_search.rs:104-127`. -/
def loadRoute (ctx : Ctx α) (r : ℕ) (l : List ℕ) (s : LS α) : Option (LS α) :=
  if r < s.numRoutes ∧ ∀ c ∈ l, c < ctx.n then
    updateRoute ctx r
      { s with
        heap := linkRoute r (.start r) l s.heap
        route := Function.update s.route r { s.route r with lastTestedSwapStar := -1 }
        inserts := Function.update s.inserts r
          (fun _ => ⟨Loc.new, Loc.new, Loc.new, -1⟩) }
  else none

/-- The loop of `load_individual` from route `r` on. -/
def loadRoutes (ctx : Ctx α) : ℕ → List (List ℕ) → LS α → Option (LS α)
  | _, [], s => some s
  | r, l :: ls, s => (loadRoute ctx r l s).bind fun s => loadRoutes ctx (r + 1) ls s

/-- `load_individual`; models `/repo/src/solver/improvement/local_search.rs:102-129`. -/
def loadIndividual (ctx : Ctx α) (x : Individual α) (s : LS α) : Option (LS α) :=
  loadRoutes ctx 0 x.phenotype s

/-- `reset`; models `/repo/src/solver/improvement/local_search.rs:131-136`. -/
def reset (s : LS α) : LS α := { s with moveCount := 0, lastTested := fun _ => -1 }

/-- `update_penalty`; models `/repo/src/solver/improvement/local_search.rs:98-100`. -/
def updatePenalty (ctx : Ctx α) (penMult : α) (s : LS α) : LS α :=
  { s with pen := ctx.pen *. penMult }

/-- The customers met from the start depot to null; models
`/repo/src/solver/improvement/local_search.rs:274-282`. -/
def readRoute (ctx : Ctx α) (s : LS α) (r : ℕ) : Option (List ℕ) :=
  (s.heap.walk (s.fuel ctx) (some (.start r))).map fun l =>
    (l.filter fun x => !x.isDepot).map Ref.number

/-- The loop of `update_individual` over the routes `r, r+1, …` (`k` of them): genotype and phenotype.
Models `/repo/src/solver/improvement/local_search.rs:273-285`. -/
def writeRoutes (ctx : Ctx α) (s : LS α) : ℕ → ℕ → List ℕ → List (List ℕ) →
    Option (List ℕ × List (List ℕ))
  | _, 0, g, p => some (g, p)
  | r, k + 1, g, p =>
    (readRoute ctx s r).bind fun l => (setIdx p r l).bind fun p => writeRoutes ctx s (r + 1) k (g ++ l) p

/-- `update_individual`; models `/repo/src/solver/improvement/local_search.rs:267-291`. -/
def updateIndividual (atan2 : α → α → α) (ctx : Ctx α) (s : LS α) (x : Individual α) :
    Option (Individual α) :=
  (writeRoutes ctx s 0 s.numRoutes [] x.phenotype).bind fun gp =>
    (Individual.sortRoutes atan2 ctx { x with genotype := gp.1, phenotype := gp.2 }).bind fun x =>
      x.evaluate ctx

end LS
end Verif
