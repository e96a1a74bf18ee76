import Verif.Model.LocalSearch

/-!
# The local-search moves (`improvement/moves/*.rs`)

`delta` returns `none` when a null pointer is dereferenced. `perform` first rewires the heap and then
updates the touched routes.
-/

namespace Verif
open F64

variable {α : Type} [F64 α]

/-- The implementors of `Move`; `/repo/src/solver/improvement/moves/mod.rs:17-21`. -/
inductive MoveKind
  | relocateSingle | relocateDouble | relocateDoubleReverse
  | swapOneWithOne | swapTwoWithOne | swapTwoWithTwo
  | twoOptIntraReverse | twoOptInterReverse | twoOptInter
  deriving DecidableEq

/-- The configuration flags that enable moves; `/repo/src/config.rs` (`relocate_single`, …). -/
structure MoveFlags where
  relocateSingle : Bool
  relocateDouble : Bool
  relocateDoubleReverse : Bool
  swapOneWithOne : Bool
  swapTwoWithOne : Bool
  swapTwoWithTwo : Bool
  twoOptIntraReverse : Bool
  twoOptInterReverse : Bool
  twoOptInter : Bool
  swapStar : Bool

/-- `neighborhood_moves`; models `/repo/src/solver/improvement/moves/mod.rs:38-68`. -/
def MoveFlags.neighbor (f : MoveFlags) : List MoveKind :=
  (if f.relocateSingle then [.relocateSingle] else []) ++
  (if f.relocateDouble then [.relocateDouble] else []) ++
  (if f.relocateDoubleReverse then [.relocateDoubleReverse] else []) ++
  (if f.swapOneWithOne then [.swapOneWithOne] else []) ++
  (if f.swapTwoWithOne then [.swapTwoWithOne] else []) ++
  (if f.swapTwoWithTwo then [.swapTwoWithTwo] else []) ++
  (if f.twoOptIntraReverse then [.twoOptIntraReverse] else []) ++
  (if f.twoOptInterReverse then [.twoOptInterReverse] else []) ++
  (if f.twoOptInter then [.twoOptInter] else [])

/-- `depot_moves`; models `/repo/src/solver/improvement/moves/mod.rs:70-88`. -/
def MoveFlags.depot (f : MoveFlags) : List MoveKind :=
  (if f.relocateSingle then [.relocateSingle] else []) ++
  (if f.relocateDouble then [.relocateDouble] else []) ++
  (if f.relocateDoubleReverse then [.relocateDoubleReverse] else []) ++
  (if f.twoOptInterReverse then [.twoOptInterReverse] else []) ++
  (if f.twoOptInter then [.twoOptInter] else [])

/-- `empty_route_moves`; models `/repo/src/solver/improvement/moves/mod.rs:90-105`. -/
def MoveFlags.emptyRoute (f : MoveFlags) : List MoveKind :=
  (if f.relocateSingle then [.relocateSingle] else []) ++
  (if f.relocateDouble then [.relocateDouble] else []) ++
  (if f.relocateDoubleReverse then [.relocateDoubleReverse] else []) ++
  (if f.twoOptInter then [.twoOptInter] else [])

namespace LS

/-- `new_cost - old_cost`, the common tail of the `delta` functions; models for instance
`/repo/src/solver/improvement/moves/relocation.rs:46-51`. -/
def costDelta (s : LS α) (r1 r2 : ℕ) (d1 o1 d2 o2 : α) : α :=
  (routeCost d1 o1 s.pen +. routeCost d2 o2 s.pen) -. ((s.route r1).cost +. (s.route r2).cost)

/-- `ls.update_route(r1); if r1.index != r2.index { ls.update_route(r2) }`; models for instance
`/repo/src/solver/improvement/moves/relocation.rs:69-73`. -/
def updateRoutes (ctx : Ctx α) (r1 r2 : ℕ) (s : LS α) : Option (LS α) :=
  (updateRoute ctx r1 s).bind fun s => if r1 ≠ r2 then updateRoute ctx r2 s else some s

/-- `ls.update_route(r1); ls.update_route(r2)`; models
`/repo/src/solver/improvement/moves/two_opt.rs:106-107`. -/
def updateBoth (ctx : Ctx α) (r1 r2 : ℕ) (s : LS α) : Option (LS α) :=
  (updateRoute ctx r1 s).bind fun s => updateRoute ctx r2 s

end LS

namespace Move
open LS

/-- `RelocateSingle::delta`; models `/repo/src/solver/improvement/moves/relocation.rs:10-52`. -/
def relocateSingleDelta (ctx : Ctx α) (s : LS α) (u v : Ref) : Option α :=
  (s.heap.pred u).bind fun up => (s.heap.succ u).bind fun x => (s.heap.succ v).bind fun y =>
  (s.rt u).bind fun r1 => (s.rt v).bind fun r2 =>
  if y.number = u.number then some (lit 0) else
    let d1 := (s.route r1).distance -. ctx.dist up.number u.number -. ctx.dist u.number x.number
      +. ctx.dist up.number x.number
    let d2 := (s.route r2).distance -. ctx.dist v.number y.number +. ctx.dist v.number u.number
      +. ctx.dist u.number y.number
    let o1 := if r1 ≠ r2 then (s.route r1).overload +. F64.neg (ctx.demand u.number)
      else (s.route r1).overload
    let o2 := if r1 ≠ r2 then (s.route r2).overload +. ctx.demand u.number
      else (s.route r2).overload
    some (costDelta s r1 r2 d1 o1 d2 o2)

/-- `RelocateSingle::perform`; models `/repo/src/solver/improvement/moves/relocation.rs:54-74`. -/
def relocateSinglePerform (ctx : Ctx α) (s : LS α) (u v : Ref) : Option (LS α) :=
  (s.rt u).bind fun r1 => (s.rt v).bind fun r2 =>
  (s.heap.pred u).bind fun up => (s.heap.succ u).bind fun x => (s.heap.succ v).bind fun y =>
  updateRoutes ctx r1 r2 { s with heap := ((s.heap.link up x).link v u).link u y }

/-- `RelocateDouble::delta`; models `/repo/src/solver/improvement/moves/relocation.rs:83-135`. -/
def relocateDoubleDelta (ctx : Ctx α) (s : LS α) (u v : Ref) : Option α :=
  (s.heap.pred u).bind fun up => (s.heap.succ u).bind fun x =>
  if x.isDepot then some (lit 0) else
  (s.heap.succ x).bind fun xn => (s.heap.succ v).bind fun y =>
  (s.rt u).bind fun r1 => (s.rt v).bind fun r2 =>
  if u.number = y.number ∨ v.number = x.number then some (lit 0) else
    let d1 := (s.route r1).distance -. ctx.dist up.number u.number -. ctx.dist u.number x.number
      -. ctx.dist x.number xn.number +. ctx.dist up.number xn.number
    let d2 := (s.route r2).distance -. ctx.dist v.number y.number +. ctx.dist v.number u.number
      +. ctx.dist u.number x.number +. ctx.dist x.number y.number
    let o1 := if r1 ≠ r2 then
        (s.route r1).overload +. (F64.neg (ctx.demand u.number) -. ctx.demand x.number)
      else (s.route r1).overload
    let o2 := if r1 ≠ r2 then (s.route r2).overload +. (ctx.demand u.number +. ctx.demand x.number)
      else (s.route r2).overload
    some (costDelta s r1 r2 d1 o1 d2 o2)

/-- `RelocateDouble::perform`; models `/repo/src/solver/improvement/moves/relocation.rs:137-158`. -/
def relocateDoublePerform (ctx : Ctx α) (s : LS α) (u v : Ref) : Option (LS α) :=
  (s.rt u).bind fun r1 => (s.rt v).bind fun r2 =>
  (s.heap.pred u).bind fun up => (s.heap.succ u).bind fun x => (s.heap.succ x).bind fun xn =>
  (s.heap.succ v).bind fun y =>
  updateRoutes ctx r1 r2 { s with heap := ((s.heap.link up xn).link v u).link x y }

/-- `RelocateDoubleReverse::delta`; models
`/repo/src/solver/improvement/moves/relocation.rs:167-219`. -/
def relocateDoubleReverseDelta (ctx : Ctx α) (s : LS α) (u v : Ref) : Option α :=
  (s.heap.pred u).bind fun up => (s.heap.succ u).bind fun x =>
  if x.isDepot then some (lit 0) else
  (s.heap.succ x).bind fun xn => (s.heap.succ v).bind fun y =>
  (s.rt u).bind fun r1 => (s.rt v).bind fun r2 =>
  if u.number = y.number ∨ v.number = x.number then some (lit 0) else
    let d1 := (s.route r1).distance -. ctx.dist up.number u.number -. ctx.dist u.number x.number
      -. ctx.dist x.number xn.number +. ctx.dist up.number xn.number
    let d2 := (s.route r2).distance -. ctx.dist v.number y.number +. ctx.dist v.number x.number
      +. ctx.dist x.number u.number +. ctx.dist u.number y.number
    let o1 := if r1 ≠ r2 then
        (s.route r1).overload +. (F64.neg (ctx.demand u.number) -. ctx.demand x.number)
      else (s.route r1).overload
    let o2 := if r1 ≠ r2 then (s.route r2).overload +. (ctx.demand u.number +. ctx.demand x.number)
      else (s.route r2).overload
    some (costDelta s r1 r2 d1 o1 d2 o2)

/-- `RelocateDoubleReverse::perform`; models
`/repo/src/solver/improvement/moves/relocation.rs:221-247`. -/
def relocateDoubleReversePerform (ctx : Ctx α) (s : LS α) (u v : Ref) : Option (LS α) :=
  (s.rt u).bind fun r1 => (s.rt v).bind fun r2 =>
  (s.heap.pred u).bind fun up => (s.heap.succ u).bind fun x => (s.heap.succ x).bind fun xn =>
  (s.heap.succ v).bind fun y =>
  updateRoutes ctx r1 r2
    { s with heap := (((s.heap.link up xn).link v x).link x u).link u y }

/-- `SwapOneWithOne::delta`; models `/repo/src/solver/improvement/moves/swap.rs:10-58`. -/
def swapOneWithOneDelta (ctx : Ctx α) (s : LS α) (u v : Ref) : Option α :=
  (s.heap.pred u).bind fun up => (s.heap.succ u).bind fun x =>
  (s.heap.pred v).bind fun vp => (s.heap.succ v).bind fun y =>
  (s.rt u).bind fun r1 => (s.rt v).bind fun r2 =>
  if u.number = y.number ∨ u.number = vp.number then some (lit 0) else
    let d1 := (s.route r1).distance -. ctx.dist up.number u.number -. ctx.dist u.number x.number
      +. ctx.dist up.number v.number +. ctx.dist v.number x.number
    let d2 := (s.route r2).distance -. ctx.dist vp.number v.number -. ctx.dist v.number y.number
      +. ctx.dist vp.number u.number +. ctx.dist u.number y.number
    let o1 := if r1 ≠ r2 then
        (s.route r1).overload +. (F64.neg (ctx.demand u.number) +. ctx.demand v.number)
      else (s.route r1).overload
    let o2 := if r1 ≠ r2 then (s.route r2).overload +. (ctx.demand u.number -. ctx.demand v.number)
      else (s.route r2).overload
    some (costDelta s r1 r2 d1 o1 d2 o2)

/-- `SwapOneWithOne::perform`; models `/repo/src/solver/improvement/moves/swap.rs:60-86`. -/
def swapOneWithOnePerform (ctx : Ctx α) (s : LS α) (u v : Ref) : Option (LS α) :=
  (s.rt u).bind fun r1 => (s.rt v).bind fun r2 =>
  (s.heap.pred u).bind fun up => (s.heap.succ u).bind fun x =>
  (s.heap.pred v).bind fun vp => (s.heap.succ v).bind fun y =>
  updateRoutes ctx r1 r2
    { s with heap := (((s.heap.link up v).link v x).link vp u).link u y }

/-- `SwapTwoWithOne::delta`; models `/repo/src/solver/improvement/moves/swap.rs:95-151`. -/
def swapTwoWithOneDelta (ctx : Ctx α) (s : LS α) (u v : Ref) : Option α :=
  (s.heap.pred u).bind fun up => (s.heap.succ u).bind fun x =>
  if x.isDepot then some (lit 0) else
  (s.heap.succ x).bind fun xn =>
  (s.heap.pred v).bind fun vp => (s.heap.succ v).bind fun y =>
  (s.rt u).bind fun r1 => (s.rt v).bind fun r2 =>
  if u.number = vp.number ∨ x.number = vp.number ∨ u.number = y.number then some (lit 0) else
    let d1 := (s.route r1).distance -. ctx.dist up.number u.number -. ctx.dist u.number x.number
      -. ctx.dist x.number xn.number +. ctx.dist up.number v.number +. ctx.dist v.number xn.number
    let d2 := (s.route r2).distance -. ctx.dist vp.number v.number -. ctx.dist v.number y.number
      +. ctx.dist vp.number u.number +. ctx.dist u.number x.number +. ctx.dist x.number y.number
    let o1 := if r1 ≠ r2 then
        (s.route r1).overload +.
          (F64.neg (ctx.demand u.number) -. ctx.demand x.number +. ctx.demand v.number)
      else (s.route r1).overload
    let o2 := if r1 ≠ r2 then
        (s.route r2).overload +. (ctx.demand u.number +. ctx.demand x.number -. ctx.demand v.number)
      else (s.route r2).overload
    some (costDelta s r1 r2 d1 o1 d2 o2)

/-- `SwapTwoWithOne::perform`; models `/repo/src/solver/improvement/moves/swap.rs:153-180`. -/
def swapTwoWithOnePerform (ctx : Ctx α) (s : LS α) (u v : Ref) : Option (LS α) :=
  (s.rt u).bind fun r1 => (s.rt v).bind fun r2 =>
  (s.heap.pred u).bind fun up => (s.heap.succ u).bind fun x => (s.heap.succ x).bind fun xn =>
  (s.heap.pred v).bind fun vp => (s.heap.succ v).bind fun y =>
  updateRoutes ctx r1 r2
    { s with heap := (((s.heap.link up v).link v xn).link vp u).link x y }

/-- `SwapTwoWithTwo::delta`; models `/repo/src/solver/improvement/moves/swap.rs:189-256`. -/
def swapTwoWithTwoDelta (ctx : Ctx α) (s : LS α) (u v : Ref) : Option α :=
  (s.heap.pred u).bind fun up => (s.heap.succ u).bind fun x =>
  if x.isDepot then some (lit 0) else
  (s.heap.succ x).bind fun xn =>
  (s.heap.pred v).bind fun vp => (s.heap.succ v).bind fun y =>
  if y.isDepot then some (lit 0) else
  (s.heap.succ y).bind fun yn =>
  (s.rt u).bind fun r1 => (s.rt v).bind fun r2 =>
  if u.number = y.number ∨ v.number = x.number ∨ y.number = up.number ∨ v.number = xn.number then
    some (lit 0) else
    let d1 := (s.route r1).distance -. ctx.dist up.number u.number -. ctx.dist u.number x.number
      -. ctx.dist x.number xn.number +. ctx.dist up.number v.number +. ctx.dist v.number y.number
      +. ctx.dist y.number xn.number
    let d2 := (s.route r2).distance -. ctx.dist vp.number v.number -. ctx.dist v.number y.number
      -. ctx.dist y.number yn.number +. ctx.dist vp.number u.number +. ctx.dist u.number x.number
      +. ctx.dist x.number yn.number
    let o1 := if r1 ≠ r2 then
        (s.route r1).overload +. (F64.neg (ctx.demand u.number) -. ctx.demand x.number
          +. ctx.demand v.number +. ctx.demand y.number)
      else (s.route r1).overload
    let o2 := if r1 ≠ r2 then
        (s.route r2).overload +. (ctx.demand u.number +. ctx.demand x.number
          -. ctx.demand v.number -. ctx.demand y.number)
      else (s.route r2).overload
    some (costDelta s r1 r2 d1 o1 d2 o2)

/-- `SwapTwoWithTwo::perform`; models `/repo/src/solver/improvement/moves/swap.rs:258-286`. -/
def swapTwoWithTwoPerform (ctx : Ctx α) (s : LS α) (u v : Ref) : Option (LS α) :=
  (s.rt u).bind fun r1 => (s.rt v).bind fun r2 =>
  (s.heap.pred u).bind fun up => (s.heap.succ u).bind fun x => (s.heap.succ x).bind fun xn =>
  (s.heap.pred v).bind fun vp => (s.heap.succ v).bind fun y => (s.heap.succ y).bind fun yn =>
  updateRoutes ctx r1 r2
    { s with heap := (((s.heap.link up v).link y xn).link vp u).link x yn }

/-- `TwoOptIntraReverse::delta`; models `/repo/src/solver/improvement/moves/two_opt.rs:10-37`. -/
def twoOptIntraReverseDelta (ctx : Ctx α) (s : LS α) (u v : Ref) : Option α :=
  (s.rt u).bind fun r1 => (s.rt v).bind fun r2 =>
  if r1 ≠ r2 then some (lit 0) else
  (s.heap.succ u).bind fun x => (s.heap.succ v).bind fun y =>
  if s.pos v < s.pos u ∨ x.number = v.number then some (lit 0) else
    some (F64.neg (ctx.dist u.number x.number) -. ctx.dist v.number y.number
      +. ctx.dist u.number v.number +. ctx.dist x.number y.number)

/-- `TwoOptIntraReverse::perform`; models `/repo/src/solver/improvement/moves/two_opt.rs:39-47`. -/
def twoOptIntraReversePerform (ctx : Ctx α) (s : LS α) (u v : Ref) : Option (LS α) :=
  (s.rt u).bind fun r1 => (s.heap.succ u).bind fun x => (s.heap.succ v).bind fun y =>
  (s.heap.backwardReverse (s.fuel ctx) v (some x) none).bind fun h =>
  updateRoute ctx r1 { s with heap := (h.link u v).link x y }

/-- `TwoOptInterReverse::delta`; models `/repo/src/solver/improvement/moves/two_opt.rs:56-86`. -/
def twoOptInterReverseDelta (ctx : Ctx α) (s : LS α) (u v : Ref) : Option α :=
  (s.rt u).bind fun r1 => (s.rt v).bind fun r2 =>
  if r1 = r2 then some (lit 0) else
  (s.heap.succ u).bind fun x => (s.heap.succ v).bind fun y =>
    let d1 := s.cumD u +. s.cumD v +. ctx.dist u.number v.number
    let d2 := (s.route r1).distance -. s.cumD x +. (s.route r2).distance -. s.cumD y
      +. ctx.dist x.number y.number
    let o1 := s.cumL u +. s.cumL v -. ctx.cap
    let o2 := (s.route r1).load -. s.cumL u +. (s.route r2).load -. s.cumL v -. ctx.cap
    some (costDelta s r1 r2 d1 o1 d2 o2)

/-- The tail `if !v.is_depot() { backward_reverse … } else { v = r1.end }; link(u, v)` of
`TwoOptInterReverse::perform`; models `/repo/src/solver/improvement/moves/two_opt.rs:93-98`. -/
def interReverseHead (fuel : ℕ) (r1 : ℕ) (u v : Ref) (h : Heap) : Option Heap :=
  if v.isDepot then some (h.link u (.fin r1))
  else (h.backwardReverse fuel v none (some (.fin r1))).map fun h => h.link u v

/-- `if !x.is_depot() { forward_reverse … } else { x = r2.start }; link(x, y)`; models
`/repo/src/solver/improvement/moves/two_opt.rs:99-104`. -/
def interReverseTail (fuel : ℕ) (r2 : ℕ) (x y : Ref) (h : Heap) : Option Heap :=
  if x.isDepot then some (h.link (.start r2) y)
  else (h.forwardReverse fuel x none (some (.start r2))).map fun h => h.link x y

/-- `TwoOptInterReverse::perform`; models `/repo/src/solver/improvement/moves/two_opt.rs:88-108`. -/
def twoOptInterReversePerform (ctx : Ctx α) (s : LS α) (u v : Ref) : Option (LS α) :=
  (s.rt u).bind fun r1 => (s.rt v).bind fun r2 =>
  (s.heap.succ u).bind fun x => (s.heap.succ v).bind fun y =>
  (interReverseHead (s.fuel ctx) r1 u v s.heap).bind fun h =>
  (interReverseTail (s.fuel ctx) r2 x y h).bind fun h =>
  updateBoth ctx r1 r2 { s with heap := h }

/-- `TwoOptInter::delta`; models `/repo/src/solver/improvement/moves/two_opt.rs:117-147`. -/
def twoOptInterDelta (ctx : Ctx α) (s : LS α) (u v : Ref) : Option α :=
  (s.rt u).bind fun r1 => (s.rt v).bind fun r2 =>
  if r1 = r2 then some (lit 0) else
  (s.heap.succ u).bind fun x => (s.heap.succ v).bind fun y =>
    let d1 := s.cumD u +. (s.route r2).distance -. s.cumD y +. ctx.dist u.number y.number
    let d2 := s.cumD v +. (s.route r1).distance -. s.cumD x +. ctx.dist v.number x.number
    let o1 := s.cumL u +. (s.route r2).load -. s.cumL v -. ctx.cap
    let o2 := s.cumL v +. (s.route r1).load -. s.cumL u -. ctx.cap
    some (costDelta s r1 r2 d1 o1 d2 o2)

/-- `TwoOptInter::perform`; models `/repo/src/solver/improvement/moves/two_opt.rs:149-160`. -/
def twoOptInterPerform (ctx : Ctx α) (s : LS α) (u v : Ref) : Option (LS α) :=
  (s.rt u).bind fun r1 => (s.rt v).bind fun r2 =>
  (s.heap.succ u).bind fun x => (s.heap.succ v).bind fun y =>
  (((s.heap.link u y).link v x).replaceEndDepot (s.fuel ctx) v (.fin r2)).bind fun h =>
  (h.replaceEndDepot (s.fuel ctx) u (.fin r1)).bind fun h =>
  updateBoth ctx r1 r2 { s with heap := h }

end Move

/-- Dynamic dispatch of `Move::delta`. -/
def MoveKind.delta (ctx : Ctx α) (s : LS α) (u v : Ref) : MoveKind → Option α
  | .relocateSingle => Move.relocateSingleDelta ctx s u v
  | .relocateDouble => Move.relocateDoubleDelta ctx s u v
  | .relocateDoubleReverse => Move.relocateDoubleReverseDelta ctx s u v
  | .swapOneWithOne => Move.swapOneWithOneDelta ctx s u v
  | .swapTwoWithOne => Move.swapTwoWithOneDelta ctx s u v
  | .swapTwoWithTwo => Move.swapTwoWithTwoDelta ctx s u v
  | .twoOptIntraReverse => Move.twoOptIntraReverseDelta ctx s u v
  | .twoOptInterReverse => Move.twoOptInterReverseDelta ctx s u v
  | .twoOptInter => Move.twoOptInterDelta ctx s u v

/-- Dynamic dispatch of `Move::perform`. -/
def MoveKind.perform (ctx : Ctx α) (s : LS α) (u v : Ref) : MoveKind → Option (LS α)
  | .relocateSingle => Move.relocateSinglePerform ctx s u v
  | .relocateDouble => Move.relocateDoublePerform ctx s u v
  | .relocateDoubleReverse => Move.relocateDoubleReversePerform ctx s u v
  | .swapOneWithOne => Move.swapOneWithOnePerform ctx s u v
  | .swapTwoWithOne => Move.swapTwoWithOnePerform ctx s u v
  | .swapTwoWithTwo => Move.swapTwoWithTwoPerform ctx s u v
  | .twoOptIntraReverse => Move.twoOptIntraReversePerform ctx s u v
  | .twoOptInterReverse => Move.twoOptInterReversePerform ctx s u v
  | .twoOptInter => Move.twoOptInterPerform ctx s u v

end Verif
