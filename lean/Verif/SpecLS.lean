import Verif.Model.LocalSearch
import Verif.Lemmas.Segs

/-!
# What it means for a local-search state to hold a list of routes
-/

namespace Verif
open F64

variable {α : Type} [F64 α]

/-- The nodes of route `r` with customers `l`, in order: start depot, customers, end depot. -/
def routeRefs (r : ℕ) (l : List ℕ) : List Ref := .start r :: (l.map .cust ++ [.fin r])

/-- The nodes of all routes. -/
def allRefs (R : List (List ℕ)) : List (List Ref) := R.mapIdx routeRefs

/-- The linked lists in the heap are exactly the routes `R`: all nodes are distinct, consecutive nodes
are linked in both directions, and the ends are null. -/
structure Encodes (h : Heap) (R : List (List ℕ)) : Prop where
  segs : Segs h (allRefs R)
  pred0 : ∀ r < R.length, h.pred (.start r) = none
  succ0 : ∀ r < R.length, h.succ (.fin r) = none

/-- Distance accumulated along nodes, added from left to right. -/
def distFrom (ctx : Ctx α) : Ref → α → List Ref → α
  | _, acc, [] => acc
  | prev, acc, x :: l => distFrom ctx x (acc +. ctx.dist prev.number x.number) l

/-- Load accumulated along nodes. -/
def loadFrom (ctx : Ctx α) (acc : α) (l : List Ref) : α :=
  l.foldl (fun a x => a +. ctx.demand x.number) acc

/-- The sector of a route: start anew and extend by the angle of each customer in turn. -/
def routeSector (angle : ℕ → ℤ) (l : List ℕ) : Sector :=
  l.foldl (fun S c => S.extend (angle c)) Sector.new

/-- The stored data of route `r` and its nodes belong to the customers `l`. -/
structure RouteData (ctx : Ctx α) (s : LS α) (r : ℕ) (l : List ℕ) : Prop where
  rt : ∀ x ∈ routeRefs r l, s.rt x = some r
  start : s.pos (.start r) = 0 ∧ s.cumD (.start r) = lit 0 ∧ s.cumL (.start r) = lit 0
  node : ∀ P x Q, l.map Ref.cust ++ [Ref.fin r] = P ++ x :: Q →
    s.pos x = P.length + 1 ∧ s.cumD x = distFrom ctx (.start r) (lit 0) (P ++ [x]) ∧
      s.cumL x = loadFrom ctx (lit 0) (P ++ [x])
  num : (s.route r).num = l.length
  distance : (s.route r).distance = distFrom ctx (.start r) (lit 0) (l.map .cust ++ [.fin r])
  load : (s.route r).load = loadFrom ctx (lit 0) (l.map .cust ++ [.fin r])
  overload : (s.route r).overload = (s.route r).load -. ctx.cap
  cost : (s.route r).cost = routeCost (s.route r).distance (s.route r).overload s.pen
  sector : (s.route r).sector = routeSector s.angle l

/-- All insertion positions of customer `u` in route `r` with customers `l`: after each node, with the
added distance. -/
def insertLocs (ctx : Ctx α) (r : ℕ) (l : List ℕ) (u : ℕ) : List (Loc α) :=
  (routeRefs r l).zipWith (fun a b =>
    ⟨ctx.dist a.number u +. ctx.dist u b.number -. ctx.dist a.number b.number, some a⟩)
    (routeRefs r l).tail

/-- The cache entry is what adding all insertion positions to an empty entry gives. -/
def Cached (ctx : Ctx α) (r : ℕ) (l : List ℕ) (u : ℕ) (t : Three α) : Prop :=
  t = (insertLocs ctx r l u).foldl Three.add ⟨Loc.new, Loc.new, Loc.new, t.lastCalculated⟩

/-- The state holds the routes `R`, and the stored data of the routes satisfying `D` is up to date. -/
structure ReprOn (ctx : Ctx α) (D : ℕ → Prop) (s : LS α) (R : List (List ℕ)) : Prop where
  enc : Encodes s.heap R
  len : R.length = s.numRoutes
  part : Spec.IsPartition ctx.n R
  cums : ∀ r < R.length, s.cumD (.start r) = lit 0 ∧ s.cumL (.start r) = lit 0
  data : ∀ r l, D r → R[r]? = some l → RouteData ctx s r l
  empty : ∀ r, D r → (r ∈ s.empty ↔ R[r]? = some [])
  stamps : ∀ r < R.length, (s.route r).lastModified ≤ s.moveCount
  cacheLe : ∀ r < R.length, ∀ u, (s.inserts r u).lastCalculated ≤ s.moveCount
  cache : ∀ r l u, D r → R[r]? = some l →
    (s.route r).lastModified ≤ (s.inserts r u).lastCalculated → Cached ctx r l u (s.inserts r u)
  cacheLt : ∀ r < R.length, ¬ D r → ∀ u, (s.inserts r u).lastCalculated < s.moveCount

/-- The state holds the routes `R` with all data up to date. -/
abbrev Repr (ctx : Ctx α) (s : LS α) (R : List (List ℕ)) : Prop := ReprOn ctx (fun _ => True) s R

end Verif
