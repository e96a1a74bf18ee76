import Mathlib.Data.Nat.Notation
import Mathlib.Data.List.Basic
import Mathlib.Data.Option.Basic

/-!
# Reading an instance file (`utils/parser.rs`)

Texts are lists of characters. The standard library's number parser for `f64` is a parameter `num`
(a partial function from words to numbers); the one for `usize` is modelled. A panic is `none`.
-/

namespace Verif

/-- One node of the instance (`/repo/src/models/problem.rs:3-14`). -/
structure PNode (α : Type) where
  id : ℕ
  lng : α
  lat : α
  demand : α

/-- What parsing an instance yields: nodes, vehicle capacity and the optional explicit matrix
(`/repo/src/utils/parser.rs:43-46`; the vehicle id is the constant 0). -/
structure Parsed (α : Type) where
  nodes : List (PNode α)
  cap : α
  matrix : Option (List (List α))

/-- The lines of a text as `BufRead::lines` yields them: cut at `\n`, one `\r` before the cut is
dropped, an empty remainder after the last `\n` is no line. `cur` is the current line, reversed.
Models std as used at `/repo/src/utils/parser.rs:91` (read errors are left out). -/
def bufLines : List Char → List Char → List (List Char)
  | [], cur => if cur = [] then [] else [cur.reverse]
  | c :: rest, cur =>
    if c = '\n' then
      (match cur with
        | '\r' :: cur' => cur'.reverse
        | _ => cur.reverse) :: bufLines rest []
    else bufLines rest (c :: cur)

/-- The separators of `/repo/src/utils/parser.rs:97`. -/
def isSep (c : Char) : Bool := c == ' ' || c == '\t' || c == ':'

/-- `line.split(&[' ', '\t', ':'][..])` (std's `split`); `cur` is the current piece, reversed.
Models `/repo/src/utils/parser.rs:96-97`. -/
def splitSeps : List Char → List Char → List (List Char)
  | [], cur => [cur.reverse]
  | c :: rest, cur => if isSep c then cur.reverse :: splitSeps rest [] else splitSeps rest (c :: cur)

/-- The words of one line, empty pieces filtered out; models `/repo/src/utils/parser.rs:96-102`. -/
def lineWords (line : List Char) : List (List Char) := (splitSeps line []).filter (fun w => w ≠ [])

/-- `read_file`; models `/repo/src/utils/parser.rs:88-106`. -/
def readFile (text : List Char) : List (List (List Char)) := (bufLines text []).map lineWords

/-- Drop an optional leading `+`. -/
def stripPlus : List Char → List Char
  | [] => []
  | c :: rest => if c = '+' then rest else c :: rest

/-- `str::parse::<usize>`: an optional `+`, then at least one digit, below `2 ^ 64` (std). -/
def parseUsize (w : List Char) : Option ℕ :=
  let ds := stripPlus w
  if ds ≠ [] ∧ ds.all Char.isDigit then
    let n := ds.foldl (fun n c => n * 10 + (c.toNat - 48)) 0
    if n < 2 ^ 64 then some n else none
  else none

/-- The first line whose first word is `key`: that line and the lines after it. This is the loop
`for (line_number, line) in lines.iter().enumerate() { if !line.is_empty() && line[0] == key … }` shared
by all `parse_*` functions, `/repo/src/utils/parser.rs:108-201` (`none` = the final `panic!`). -/
def findKey (key : List Char) : List (List (List Char)) → Option (List (List Char) × List (List (List Char)))
  | [] => none
  | line :: rest => if line.head? = some key then some (line, rest) else findKey key rest

/-- `parse_dimension`; models `/repo/src/utils/parser.rs:108-115`. -/
def parseDimension (lines : List (List (List Char))) : Option ℕ :=
  (findKey "DIMENSION".toList lines).bind fun p => p.1[1]?.bind parseUsize

/-- `parse_capacity`; models `/repo/src/utils/parser.rs:117-124`. -/
def parseCapacity {α : Type} (num : List Char → Option α) (lines : List (List (List Char))) : Option α :=
  (findKey "CAPACITY".toList lines).bind fun p => p.1[1]?.bind num

/-- `parse_edge_weight_type`: `some false` for `EUC_2D`, `some true` for `EXPLICIT`; models
`/repo/src/utils/parser.rs:10-26, 126-138`. -/
def parseEdgeWeightType (lines : List (List (List Char))) : Option Bool :=
  (findKey "EDGE_WEIGHT_TYPE".toList lines).bind fun p => p.1[1]?.bind fun w =>
    if w = "EUC_2D".toList then some false else if w = "EXPLICIT".toList then some true else none

/-- `parse_edge_weight_format`; models `/repo/src/utils/parser.rs:28-41, 140-152`. -/
def parseEdgeWeightFormat (lines : List (List (List Char))) : Option Unit :=
  (findKey "EDGE_WEIGHT_FORMAT".toList lines).bind fun p => p.1[1]?.bind fun w =>
    if w = "LOWER_ROW".toList then some () else none

/-- `parse_coords`; models `/repo/src/utils/parser.rs:154-169`. -/
def parseCoords {α : Type} (num : List Char → Option α) (lines : List (List (List Char))) (number : ℕ) :
    Option (List (α × α)) :=
  (findKey "NODE_COORD_SECTION".toList lines).bind fun p =>
    (p.2.take number).mapM fun line =>
      (line[1]?.bind num).bind fun x => (line[2]?.bind num).map fun y => (x, y)

/-- `parse_demands`; models `/repo/src/utils/parser.rs:171-183`. -/
def parseDemands {α : Type} (num : List Char → Option α) (lines : List (List (List Char))) (number : ℕ) :
    Option (List α) :=
  (findKey "DEMAND_SECTION".toList lines).bind fun p =>
    (p.2.take number).mapM fun line => line[1]?.bind num

/-- `parse_lower_row_matrix`; models `/repo/src/utils/parser.rs:185-201` (`number - 1` with
`number = 0` overflows and is `none`). -/
def parseLowerRow {α : Type} (num : List Char → Option α) (lines : List (List (List Char))) (number : ℕ) :
    Option (List (List α)) :=
  (findKey "EDGE_WEIGHT_SECTION".toList lines).bind fun p =>
    if number = 0 then none
    else (p.2.take (number - 1)).mapM fun line => line.mapM num

/-- `create_nodes`; models `/repo/src/utils/parser.rs:203-214`. -/
def createNodes {α : Type} (coords : List (α × α)) (demands : List α) : List (PNode α) :=
  (coords.zip demands).mapIdx fun i p => ⟨i + 1, p.1.1, p.1.2, p.2⟩

/-- `ProblemParser::parse` after the file was read; models `/repo/src/utils/parser.rs:56-86`. -/
def parseInstance {α : Type} (num : List Char → Option α) (text : List Char) : Option (Parsed α) := do
  let lines := readFile text
  let dimension ← parseDimension lines
  let capacity ← parseCapacity num lines
  let coords ← parseCoords num lines dimension
  let demands ← parseDemands num lines dimension
  let nodes := createNodes coords demands
  let explicit ← parseEdgeWeightType lines
  if explicit then
    let _ ← parseEdgeWeightFormat lines
    let matrix ← parseLowerRow num lines dimension
    some ⟨nodes, capacity, some matrix⟩
  else some ⟨nodes, capacity, none⟩

end Verif
