import Mathlib.Data.Nat.Notation
import Mathlib.Logic.Function.Basic

/-!
# Doubly linked routes (`improvement/linked_list.rs`)

A node is named by a reference instead of a raw pointer: a customer, the start depot or the end depot
of a route. Only the two link fields live in the `Heap`; the other fields of `LinkNode` are in
`Verif.Model.LocalSearch`. A null pointer is `none`.
-/

namespace Verif

/-- A pointer to a `LinkNode`: an element of `nodes`, `start_depots` or `end_depots`
(`/repo/src/solver/improvement/local_search.rs:31-33`). -/
inductive Ref
  | cust (n : ℕ)
  | start (r : ℕ)
  | fin (r : ℕ)
  deriving DecidableEq

/-- `LinkNode::number` (`/repo/src/solver/improvement/local_search.rs:49,62-63`). -/
def Ref.number : Ref → ℕ
  | .cust n => n
  | .start _ => 0
  | .fin _ => 0

/-- `LinkNode::is_depot`; models `/repo/src/solver/improvement/linked_list.rs:37-39`. -/
def Ref.isDepot (x : Ref) : Bool := x.number == 0

/-- The link fields of all nodes. -/
structure Heap where
  succ : Ref → Option Ref
  pred : Ref → Option Ref

namespace Heap

/-- `LinkNode::link_nodes`; models `/repo/src/solver/improvement/linked_list.rs:42-46`. -/
def link (a b : Ref) (h : Heap) : Heap :=
  ⟨Function.update h.succ a (some b), Function.update h.pred b (some a)⟩

/-- `LinkNode::insert_node` (`none` = a null pointer is dereferenced); models
`/repo/src/solver/improvement/linked_list.rs:49-57`. -/
def insertNode (one two : Ref) (h : Heap) : Option Heap :=
  match h.pred one, h.succ one, h.succ two with
  | some prev, some next, some twoNext =>
    some (((h.link prev next).link two one).link one twoNext)
  | _, _, _ => none

/-- The loop of `forward_reverse`; `src` is `from_node`, `node` the current node. Models
`/repo/src/solver/improvement/linked_list.rs:66-82`; `none` when the fuel runs out. -/
def forwardReverseLoop (toNode newFirst : Option Ref) : ℕ → Ref → Option Ref → Heap → Option Heap
  | 0, _, _, _ => none
  | _ + 1, _, none, h => some h
  | fuel + 1, src, some node, h =>
    let next := h.succ node
    let h' := match next, newFirst with
      | none, some first => h.link first src
      | _, _ => h.link node src
    if toNode.any (fun t => node.number == t.number) then some h'
    else forwardReverseLoop toNode newFirst fuel node next h'

/-- `LinkNode::forward_reverse`; models `/repo/src/solver/improvement/linked_list.rs:60-83`. -/
def forwardReverse (fuel : ℕ) (src : Ref) (toNode newFirst : Option Ref) (h : Heap) : Option Heap :=
  forwardReverseLoop toNode newFirst fuel src (h.succ src) h

/-- The loop of `backward_reverse`; models `/repo/src/solver/improvement/linked_list.rs:92-108`. -/
def backwardReverseLoop (toNode newLast : Option Ref) : ℕ → Ref → Option Ref → Heap → Option Heap
  | 0, _, _, _ => none
  | _ + 1, _, none, h => some h
  | fuel + 1, src, some node, h =>
    let next := h.pred node
    let h' := match next, newLast with
      | none, some last => h.link src last
      | _, _ => h.link src node
    if toNode.any (fun t => node.number == t.number) then some h'
    else backwardReverseLoop toNode newLast fuel node next h'

/-- `LinkNode::backward_reverse`; models `/repo/src/solver/improvement/linked_list.rs:86-109`. -/
def backwardReverse (fuel : ℕ) (src : Ref) (toNode newLast : Option Ref) (h : Heap) : Option Heap :=
  backwardReverseLoop toNode newLast fuel src (h.pred src) h

/-- The loop of `replace_end_depot`; models
`/repo/src/solver/improvement/linked_list.rs:114-121`. -/
def replaceEndLoop (endDepot : Ref) : ℕ → Ref → Option Ref → Heap → Option Heap
  | 0, _, _, _ => none
  | _ + 1, _, none, h => some h
  | fuel + 1, src, some next, h =>
    let h' := match h.succ next with
      | none => h.link src endDepot
      | some _ => h
    replaceEndLoop endDepot fuel next (h'.succ next) h'

/-- `LinkNode::replace_end_depot`; models `/repo/src/solver/improvement/linked_list.rs:112-122`. -/
def replaceEndDepot (fuel : ℕ) (src endDepot : Ref) (h : Heap) : Option Heap :=
  replaceEndLoop endDepot fuel src (h.succ src) h

/-- The nodes met by `while !node.is_null() { …; node = (*node).successor }`. -/
def walk (h : Heap) : ℕ → Option Ref → Option (List Ref)
  | 0, _ => none
  | _ + 1, none => some []
  | fuel + 1, some x => (walk h fuel (h.succ x)).map (x :: ·)

/-- The nodes met by `while !(*node).is_depot() { …; node = (*node).successor }`; dereferencing null
is `none`. -/
def walkCust (h : Heap) : ℕ → Option Ref → Option (List Ref)
  | 0, _ => none
  | _ + 1, none => none
  | fuel + 1, some x => if x.isDepot then some [] else (walkCust h fuel (h.succ x)).map (x :: ·)

end Heap
end Verif
