import Mathlib.Data.Nat.Notation
import Mathlib.Data.List.Forall2

/-!
# Specification vocabulary for instance files

What it means for a text to be a CVRPLIB-style instance file, independent of the parser.
-/

namespace Verif.Spec

/-- Blank, tab or colon. -/
def Blank (c : Char) : Prop := c = ' ' ∨ c = '\t' ∨ c = ':'

/-- The line consists of the given non-empty words, in this order, with at least one blank between
neighbouring words and any number of blanks in front and at the end. -/
inductive LaidOut : List Char → List (List Char) → Prop
  | blank {s : List Char} : (∀ c ∈ s, Blank c) → LaidOut s []
  | word {s w rest : List Char} {ws : List (List Char)} :
      (∀ c ∈ s, Blank c) → w ≠ [] → (∀ c ∈ w, ¬ Blank c) → (∀ c, rest.head? = some c → Blank c) →
      LaidOut rest ws → LaidOut (s ++ w ++ rest) (w :: ws)

/-- The text consists of the given lines, each ended by `\n` or by `\r\n`. -/
inductive TextOf : List Char → List (List Char) → Prop
  | nil : TextOf [] []
  | lf {line text : List Char} {lines : List (List Char)} :
      '\n' ∉ line → '\r' ∉ line → TextOf text lines → TextOf (line ++ '\n' :: text) (line :: lines)
  | crlf {line text : List Char} {lines : List (List Char)} :
      '\n' ∉ line → '\r' ∉ line → TextOf text lines →
      TextOf (line ++ '\r' :: '\n' :: text) (line :: lines)

/-- A key line followed by body lines (no body lines for plain header entries). -/
structure Block where
  key : List Char
  args : List (List Char)
  body : List (List (List Char))

/-- The word lines of a block. -/
def Block.lines (b : Block) : List (List (List Char)) := (b.key :: b.args) :: b.body

/-- The keys with a meaning. -/
def reservedKeys : List (List Char) :=
  ["DIMENSION".toList, "CAPACITY".toList, "EDGE_WEIGHT_TYPE".toList, "EDGE_WEIGHT_FORMAT".toList,
    "NODE_COORD_SECTION".toList, "DEMAND_SECTION".toList, "EDGE_WEIGHT_SECTION".toList]

/-- The lines are a sequence of blocks, in any order; reserved keys occur at most once and no body
line (nor a line before the first block) starts with one. -/
structure BlockFile (lines : List (List (List Char))) (pre : List (List (List Char)))
    (blocks : List Block) : Prop where
  lines_eq : lines = pre ++ (blocks.map Block.lines).flatten
  pre_plain : ∀ line ∈ pre, ∀ w, line.head? = some w → w ∉ reservedKeys
  body_plain : ∀ b ∈ blocks, ∀ line ∈ b.body, ∀ w, line.head? = some w → w ∉ reservedKeys
  once : ((blocks.map Block.key).filter (fun k => k ∈ reservedKeys)).Nodup

/-- The blocks describe an instance with capacity `cap` and the listed nodes `(x, y, demand)`:
dimension, capacity, one coordinate line and one demand line per node, in node order. `num w x` says that
the word `w` denotes the number `x`, `nat w n` that it denotes the natural number `n`. -/
structure Describes {α : Type} (num : List Char → α → Prop) (nat : List Char → ℕ → Prop)
    (blocks : List Block) (cap : α) (nodes : List (α × α × α)) : Prop where
  dimension : ∃ b ∈ blocks, b.key = "DIMENSION".toList ∧ ∃ w, b.args[0]? = some w ∧ nat w nodes.length
  capacity : ∃ b ∈ blocks, b.key = "CAPACITY".toList ∧ ∃ w, b.args[0]? = some w ∧ num w cap
  coords : ∃ b ∈ blocks, b.key = "NODE_COORD_SECTION".toList ∧ ∀ (i : ℕ) (p : α × α × α), nodes[i]? = some p →
    ∃ line x y, b.body[i]? = some line ∧ line[1]? = some x ∧ line[2]? = some y ∧ num x p.1 ∧ num y p.2.1
  demands : ∃ b ∈ blocks, b.key = "DEMAND_SECTION".toList ∧ ∀ (i : ℕ) (p : α × α × α), nodes[i]? = some p →
    ∃ line w, b.body[i]? = some line ∧ line[1]? = some w ∧ num w p.2.2

/-- The blocks announce Euclidean distances. -/
def Euclidean (blocks : List Block) : Prop :=
  ∃ b ∈ blocks, b.key = "EDGE_WEIGHT_TYPE".toList ∧ b.args[0]? = some "EUC_2D".toList

/-- The blocks announce an explicit lower-row matrix with the given rows (the row of node `i ≥ 1`
holds its weights to the nodes before it; there is no row for the first node). -/
structure ExplicitRows {α : Type} (num : List Char → α → Prop) (blocks : List Block)
    (rows : List (List α)) : Prop where
  type : ∃ b ∈ blocks, b.key = "EDGE_WEIGHT_TYPE".toList ∧ b.args[0]? = some "EXPLICIT".toList
  format : ∃ b ∈ blocks, b.key = "EDGE_WEIGHT_FORMAT".toList ∧ b.args[0]? = some "LOWER_ROW".toList
  weights : ∃ b ∈ blocks, b.key = "EDGE_WEIGHT_SECTION".toList ∧ ∀ (i : ℕ) (row : List α), rows[i]? = some row →
    ∃ line, b.body[i]? = some line ∧ List.Forall₂ num line row

end Verif.Spec
