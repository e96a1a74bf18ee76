import Verif.Model.Moves

/-!
# SWAP* (`improvement/moves/swap_star.rs` and the insertion cache of `local_search.rs`)

The traversals do not change links, so each `while !is_depot` loop is modelled by a recursion over the
list of customers it visits (`Heap.walkCust`).
-/

namespace Verif
open F64

variable {α : Type} [F64 α]

namespace LS

/-- The loop over the customers `v` of route 2 that adds insertion positions of `u`; models
`/repo/src/solver/improvement/local_search.rs:413-426`. -/
def addInserts (ctx : Ctx α) (h : Heap) (u : ℕ) : List Ref → Three α → Option (Three α)
  | [], t => some t
  | v :: vs, t =>
    (h.succ v).bind fun y =>
      addInserts ctx h u vs (t.add
        ⟨ctx.dist v.number u +. ctx.dist u y.number -. ctx.dist v.number y.number, some v⟩)

/-- Computing the cache entry of customer `u` for route `r2`; models
`/repo/src/solver/improvement/local_search.rs:393-426`. -/
def calcInserts (ctx : Ctx α) (s : LS α) (r2 u : ℕ) : Option (Three α) :=
  (s.heap.succ (.start r2)).bind fun v0 =>
  (s.heap.walkCust (s.fuel ctx) (some v0)).bind fun vs =>
  addInserts ctx s.heap u vs
    (Three.add ⟨Loc.new, Loc.new, Loc.new, s.moveCount⟩
      ⟨ctx.dist 0 u +. ctx.dist u v0.number -. ctx.dist 0 v0.number, some (.start r2)⟩)

/-- Refreshing the cache entry if the route changed since; models
`/repo/src/solver/improvement/local_search.rs:391-427`. -/
def refreshInserts (ctx : Ctx α) (r2 : ℕ) (u : ℕ) (s : LS α) : Option (LS α) :=
  if (s.inserts r2 u).lastCalculated < (s.route r2).lastModified then
    (calcInserts ctx s r2 u).map fun t =>
      { s with inserts := Function.update s.inserts r2 (Function.update (s.inserts r2) u t) }
  else some s

/-- The loop over the customers of route 1; models
`/repo/src/solver/improvement/local_search.rs:378-429`. -/
def preprocessLoop (ctx : Ctx α) (r2 : ℕ) : List Ref → LS α → Option (LS α)
  | [], s => some s
  | u :: us, s =>
    (s.heap.pred u).bind fun up => (s.heap.succ u).bind fun x =>
    let removal :=
      ctx.dist up.number x.number -. ctx.dist up.number u.number -. ctx.dist u.number x.number
    (refreshInserts ctx r2 u.number { s with delRem := Function.update s.delRem u removal }).bind
      fun s => preprocessLoop ctx r2 us s

/-- `preprocess_insertions`; models `/repo/src/solver/improvement/local_search.rs:369-430`. -/
def preprocess (ctx : Ctx α) (r1 r2 : ℕ) (s : LS α) : Option (LS α) :=
  (s.heap.walkCust (s.fuel ctx) (s.heap.succ (.start r1))).bind fun us => preprocessLoop ctx r2 us s

/-- Neither directly before nor directly after `v`; models
`/repo/src/solver/improvement/local_search.rs:453-454`. -/
def notAdjacent (h : Heap) (v node : Ref) : Option Bool :=
  (h.succ node).map fun sn => decide (node.number ≠ v.number ∧ sn.number ≠ v.number)

/-- Choosing among the three cached positions: node, cost, found. Models
`/repo/src/solver/improvement/local_search.rs:446-464` (`none` = null dereference). -/
def pickInsert (h : Heap) (t : Three α) (v : Ref) : Option (Ref × α × Bool) :=
  t.l0.node.bind fun n0 => (notAdjacent h v n0).bind fun f0 =>
  if f0 then some (n0, t.l0.cost, true) else
  match t.l1.node with
  | none => some (n0, t.l0.cost, false)
  | some n1 =>
    (notAdjacent h v n1).bind fun f1 =>
    if f1 then some (n1, t.l1.cost, true) else
    match t.l2.node with
    | none => some (n1, t.l1.cost, false)
    | some n2 => some (n2, t.l2.cost, true)

/-- `cheapest_insert_and_removal`; models `/repo/src/solver/improvement/local_search.rs:434-483`. -/
def cheapestInsert (ctx : Ctx α) (s : LS α) (u v : Ref) : Option (Ref × α) :=
  (s.rt v).bind fun r2 => (pickInsert s.heap (s.inserts r2 u.number) v).bind fun p =>
  (s.heap.pred v).bind fun vp => (s.heap.succ v).map fun y =>
    let inPlace := ctx.dist vp.number u.number +. ctx.dist u.number y.number
      -. ctx.dist vp.number y.number
    if !p.2.2 || approxLt inPlace p.2.1 then (vp, inPlace) else (p.1, p.2.1)

end LS

/-- `BestSwapStar`; models `/repo/src/solver/improvement/moves/swap_star.rs:6-14`. -/
structure BestSwap (α : Type) where
  cost : α
  u : Option Ref
  v : Option Ref
  posU : Option Ref
  posV : Option Ref

namespace SwapStar
open LS

/-- `BestSwapStar::new`; models `/repo/src/solver/improvement/moves/swap_star.rs:17-25`. -/
def best0 : BestSwap α := ⟨inf, none, none, none, none⟩

/-- `0f64.max(overload) * penalty`. -/
def penaltyOf (s : LS α) (o : α) : α := F64.max (lit 0) o *. s.pen

/-- One pair of the double loop; models `/repo/src/solver/improvement/moves/swap_star.rs:56-96`. -/
def pairStep (ctx : Ctx α) (s : LS α) (r1 r2 : ℕ) (u v : Ref) (best : BestSwap α) :
    Option (BestSwap α) :=
  let p1 := penaltyOf s ((s.route r1).overload -. ctx.demand u.number +. ctx.demand v.number)
    -. penaltyOf s (s.route r1).overload
  let p2 := penaltyOf s ((s.route r2).overload +. ctx.demand u.number -. ctx.demand v.number)
    -. penaltyOf s (s.route r2).overload
  if approxLte (s.delRem u +. s.delRem v +. p1 +. p2) (lit 0) then
    (cheapestInsert ctx s u v).bind fun iu => (cheapestInsert ctx s v u).map fun iv =>
      let cost := s.delRem u +. p1 +. iu.2 +. s.delRem v +. p2 +. iv.2
      if cost <. best.cost then ⟨cost, some u, some v, some iu.1, some iv.1⟩ else best
  else some best

/-- The inner loop over `v`. -/
def pairLoopV (ctx : Ctx α) (s : LS α) (r1 r2 : ℕ) (u : Ref) : List Ref → BestSwap α →
    Option (BestSwap α)
  | [], b => some b
  | v :: vs, b => (pairStep ctx s r1 r2 u v b).bind fun b => pairLoopV ctx s r1 r2 u vs b

/-- The double loop; models `/repo/src/solver/improvement/moves/swap_star.rs:52-99`. -/
def pairLoop (ctx : Ctx α) (s : LS α) (r1 r2 : ℕ) (vs : List Ref) : List Ref → BestSwap α →
    Option (BestSwap α)
  | [], b => some b
  | u :: us, b => (pairLoopV ctx s r1 r2 u vs b).bind fun b => pairLoop ctx s r1 r2 vs us b

/-- Relocations of `u` into the route of `v`; models
`/repo/src/solver/improvement/moves/swap_star.rs:103-123`. -/
def relocU (ctx : Ctx α) (s : LS α) (r1 r2 : ℕ) : List Ref → BestSwap α → BestSwap α
  | [], b => b
  | u :: us, b =>
    let ins := (s.inserts r2 u.number).l0
    let p1 := penaltyOf s ((s.route r1).overload -. ctx.demand u.number)
      -. penaltyOf s (s.route r1).overload
    let p2 := penaltyOf s ((s.route r2).overload +. ctx.demand u.number)
      -. penaltyOf s (s.route r2).overload
    let cost := s.delRem u +. ins.cost +. p1 +. p2
    relocU ctx s r1 r2 us
      (if approxLt cost b.cost then ⟨cost, some u, none, ins.node, none⟩ else b)

/-- Relocations of `v` into the route of `u`; models
`/repo/src/solver/improvement/moves/swap_star.rs:127-147`. -/
def relocV (ctx : Ctx α) (s : LS α) (r1 r2 : ℕ) : List Ref → BestSwap α → BestSwap α
  | [], b => b
  | v :: vs, b =>
    let ins := (s.inserts r1 v.number).l0
    let p1 := penaltyOf s ((s.route r1).overload +. ctx.demand v.number)
      -. penaltyOf s (s.route r1).overload
    let p2 := penaltyOf s ((s.route r2).overload -. ctx.demand v.number)
      -. penaltyOf s (s.route r2).overload
    let cost := s.delRem v +. ins.cost +. p1 +. p2
    relocV ctx s r1 r2 vs
      (if approxLt cost b.cost then ⟨cost, none, some v, none, ins.node⟩ else b)

/-- The search for the best move after preprocessing; models
`/repo/src/solver/improvement/moves/swap_star.rs:52-147`. -/
def bestMove (ctx : Ctx α) (s : LS α) (r1 r2 : ℕ) : Option (BestSwap α) :=
  (s.heap.walkCust (s.fuel ctx) (s.heap.succ (.start r1))).bind fun us =>
  (s.heap.walkCust (s.fuel ctx) (s.heap.succ (.start r2))).bind fun vs =>
  (pairLoop ctx s r1 r2 vs us best0).map fun b => relocV ctx s r1 r2 vs (relocU ctx s r1 r2 us b)

/-- `if !pos.is_null() { insert_node(node, pos) }`; models
`/repo/src/solver/improvement/moves/swap_star.rs:157-163`. -/
def insertAt (node pos : Option Ref) (h : Heap) : Option Heap :=
  match pos with
  | none => some h
  | some p => node.bind fun n => h.insertNode n p

/-- Performing the best move; models `/repo/src/solver/improvement/moves/swap_star.rs:154-169`. -/
def performBest (ctx : Ctx α) (r1 r2 : ℕ) (b : BestSwap α) (s : LS α) : Option (LS α) :=
  (insertAt b.u b.posU s.heap).bind fun h => (insertAt b.v b.posV h).bind fun h =>
  updateBoth ctx r1 r2 { s with moveCount := s.moveCount + 1, heap := h }

/-- `SwapStar::run`; models `/repo/src/solver/improvement/moves/swap_star.rs:35-170`. -/
def run (ctx : Ctx α) (r1 r2 : ℕ) (s : LS α) : Option (LS α × Bool) :=
  (preprocess ctx r1 r2 s).bind fun s => (preprocess ctx r2 r1 s).bind fun s =>
  (bestMove ctx s r1 r2).bind fun b =>
  if approxGte b.cost (lit 0) then some (s, false)
  else (performBest ctx r1 r2 b s).map fun s => (s, true)

end SwapStar
end Verif
