import Verif.Model.Evaluate

/-!
# Matrices (`models/matrix.rs`)

Raw memory accesses outside the allocation are undefined behaviour in the code; here they are `none`.
An access inside the allocation but beyond the row end silently reaches the next row, as in the code.
-/

namespace Verif
open F64

/-- `Matrix<T>`; models `/repo/src/models/matrix.rs:14-22`. `cells` is the allocation. Simplification:
an allocation of size zero is an empty list (calling `alloc_zeroed` with size zero is undefined
behaviour by the documentation of `std::alloc`; the lazy distance matrix does it). -/
structure RawMatrix (β : Type) where
  rows : ℕ
  cols : ℕ
  cells : List β

namespace RawMatrix
variable {β : Type}

/-- `Matrix::new` (zeroed memory; `zero` is the value of zero bytes); models
`/repo/src/models/matrix.rs:25-35`. -/
def new (zero : β) (rows cols : ℕ) : RawMatrix β := ⟨rows, cols, List.replicate (rows * cols) zero⟩

/-- `get`; models `/repo/src/models/matrix.rs:47-50`. -/
def get (m : RawMatrix β) (row col : ℕ) : Option β := m.cells[row * m.cols + col]?

/-- `set`, and a write through `get_mut`; models `/repo/src/models/matrix.rs:52-64`. -/
def set (m : RawMatrix β) (row col : ℕ) (x : β) : Option (RawMatrix β) :=
  if row * m.cols + col < m.cells.length then
    some { m with cells := m.cells.set (row * m.cols + col) x }
  else none

/-- `slice` / `slice_mut`; models `/repo/src/models/matrix.rs:66-81`. -/
def slice (m : RawMatrix β) (row col number : ℕ) : Option (List β) :=
  if row * m.cols + col + number ≤ m.cells.length then
    some ((m.cells.drop (row * m.cols + col)).take number)
  else none

/-- `for i in 0..rows { for j in 0..cols { m.set(i, j, f(i, j)) } }`, the loop shared by `init`,
`from_mapping` and `clone`; `f` may panic. -/
def fill (m : RawMatrix β) (rows cols : ℕ) (f : ℕ → ℕ → Option β) : Option (RawMatrix β) :=
  (List.range rows).foldlM (fun m i =>
    (List.range cols).foldlM (fun m j => (f i j).bind fun x => m.set i j x) m) m

/-- `init`; models `/repo/src/models/matrix.rs:37-45`. -/
def init (zero x : β) (rows cols : ℕ) : Option (RawMatrix β) :=
  (new zero rows cols).fill rows cols fun _ _ => some x

/-- `from_mapping`; models `/repo/src/models/matrix.rs:83-92`. -/
def fromMapping (zero : β) (m : RawMatrix β) (mapping : List ℕ) : Option (RawMatrix β) :=
  (new zero mapping.length mapping.length).fill mapping.length mapping.length fun i j =>
    (mapping[i]?).bind fun a => (mapping[j]?).bind fun b => m.get a b

/-- `clone`; models `/repo/src/models/matrix.rs:107-117`. -/
def clone (zero : β) (m : RawMatrix β) : Option (RawMatrix β) :=
  (new zero m.rows m.cols).fill m.rows m.cols fun i j => m.get i j

/-- `get_max`: std's `max_by` keeps the last maximum; no entry is a panic. Models
`/repo/src/models/matrix.rs:94-104` (`partial_cmp` on NaN, a panic, is left out). -/
def getMax {α : Type} [F64 α] (m : RawMatrix α) : Option α :=
  (m.slice 0 0 (m.rows * m.cols)).bind fun l =>
    match l with
    | [] => none
    | x :: l => some (l.foldl (fun a b => if b <. a then a else b) x)

end RawMatrix

variable {α : Type} [F64 α]

/-- `Coordinate`; models `/repo/src/models/problem.rs:3-7`. -/
structure Coord (α : Type) where
  lng : α
  lat : α

/-- `euclidian`; models `/repo/src/models/matrix.rs:149-151`. The square root is a parameter. -/
def euclid (sqrt : α → α) (a b : Coord α) : α :=
  sqrt ((b.lng -. a.lng) *. (b.lng -. a.lng) +. (b.lat -. a.lat) *. (b.lat -. a.lat))

/-- `if rounded { distance.round() }`. -/
def roundIf (rounded : Bool) (d : α) : α := if rounded then F64.round d else d

/-- `DistanceMatrix`; models `/repo/src/models/matrix.rs:269-276`. -/
structure DistMatrix (α : Type) where
  locations : List (Coord α)
  storage : RawMatrix α
  precomputed : Bool
  rounded : Bool
  maxDistance : Option α

/-- Storing one distance in both directions and updating the maximum; models
`/repo/src/models/matrix.rs:200-215` and `:229-246`. -/
def addDistance (rounded : Bool) (st : RawMatrix α × Option α) (e : ℕ × ℕ × α) :
    Option (RawMatrix α × Option α) :=
  (st.1.set e.1 e.2.1 (roundIf rounded e.2.2)).bind fun m =>
  (m.set e.2.1 e.1 (roundIf rounded e.2.2)).map fun m =>
    (m, match st.2 with
      | some mx => if approxGt (roundIf rounded e.2.2) mx then some (roundIf rounded e.2.2) else some mx
      | none => some (roundIf rounded e.2.2))

/-- The distances of an explicit matrix in the order of the loops; models
`/repo/src/models/matrix.rs:198-199`. -/
def inputEntries (input : List (List α)) : List (ℕ × ℕ × α) :=
  input.zipIdx.flatMap fun p => p.1.zipIdx.map fun q => (p.2 + 1, q.2, q.1)

/-- The pairs `i < j` with their Euclidean distance in the order of the loops; models
`/repo/src/models/matrix.rs:227-229` (the indices are in range, so no panic). -/
def euclidEntries (sqrt : α → α) (locs : List (Coord α)) : List (ℕ × ℕ × α) :=
  locs.zipIdx.flatMap fun p => (locs.zipIdx.drop (p.2 + 1)).map fun q =>
    (p.2, q.2, euclid sqrt p.1 q.1)

/-- `DistanceMatrixBuilder::build`; models `/repo/src/models/matrix.rs:193-262`. -/
def buildDist (sqrt : α → α) (locs : List (Coord α)) (precompute rounded : Bool)
    (input : Option (List (List α))) : Option (DistMatrix α) :=
  match input with
  | some input =>
    ((inputEntries input).foldlM (addDistance rounded)
      (RawMatrix.new (lit 0) locs.length locs.length, none)).map fun st =>
        ⟨locs, st.1, true, rounded, st.2⟩
  | none =>
    if precompute then
      ((euclidEntries sqrt locs).foldlM (addDistance rounded)
        (RawMatrix.new (lit 0) locs.length locs.length, none)).map fun st =>
          ⟨locs, st.1, true, rounded, st.2⟩
    else some ⟨locs, RawMatrix.new (lit 0) 0 0, false, rounded, none⟩

namespace DistMatrix

/-- `get`; models `/repo/src/models/matrix.rs:305-317`. -/
def get (sqrt : α → α) (d : DistMatrix α) (row col : ℕ) : Option α :=
  if d.precomputed then d.storage.get row col
  else (d.locations[row]?).bind fun a => (d.locations[col]?).map fun b =>
    roundIf d.rounded (euclid sqrt a b)

/-- The iteration of the lazy `get_vec`; models `/repo/src/models/matrix.rs:326-343` (`size - 1` with
`size = 0` is not reached: `get` panics before). -/
def lazyVec (sqrt : α → α) (d : DistMatrix α) : ℕ → ℕ → ℕ → Option (List α)
  | _, _, 0 => some []
  | row, col, k + 1 =>
    (d.get sqrt row col).bind fun x =>
      (if col < d.locations.length - 1 then lazyVec sqrt d row (col + 1) k
        else lazyVec sqrt d (row + 1) 0 k).map fun l => x :: l

/-- `get_vec`; models `/repo/src/models/matrix.rs:319-345`. -/
def getVec (sqrt : α → α) (d : DistMatrix α) (row col number : ℕ) : Option (List α) :=
  if d.precomputed then d.storage.slice row col number else d.lazyVec sqrt row col number

/-- `from_mapping`; models `/repo/src/models/matrix.rs:355-379`. -/
def fromMapping (sqrt : α → α) (d : DistMatrix α) (mapping : List ℕ) : Option (DistMatrix α) :=
  (mapping.mapM fun i => d.locations[i]?).bind fun locs =>
  ((RawMatrix.new (lit 0) mapping.length mapping.length).fill mapping.length mapping.length fun i j =>
    (mapping[i]?).bind fun a => (mapping[j]?).bind fun b => d.get sqrt a b).bind fun st =>
  if d.precomputed then st.getMax.map fun mx => ⟨locs, st, true, d.rounded, some mx⟩
  else some ⟨locs, st, true, d.rounded, none⟩

end DistMatrix

/-- `CorrelationMatrix`; models `/repo/src/models/matrix.rs:384-388`. -/
structure Correlation where
  storage : RawMatrix ℕ
  width : ℕ

/-- The candidates of row `i` as (node, distance) pairs before sorting; models
`/repo/src/models/matrix.rs:396-400`. -/
def corrCandidates (l : List α) (i : ℕ) : List (α × ℕ) :=
  l.zipIdx.filter fun p => 0 < p.2 ∧ p.2 ≠ i

/-- Writing consecutive entries of row `i`. -/
def writeRow (m : RawMatrix ℕ) (i : ℕ) (l : List ℕ) : Option (RawMatrix ℕ) :=
  l.zipIdx.foldlM (fun m p => m.set i p.2 p.1) m

/-- `CorrelationMatrix::new`; models `/repo/src/models/matrix.rs:391-413`. The external crate's
`sorted_by` is the parameter `sort` (`lazysort` does not promise stability); `size - 2` below zero is a
panic. -/
def buildCorr (sqrt : α → α) (sort : List (α × ℕ) → List (α × ℕ)) (d : DistMatrix α) :
    Option Correlation :=
  if d.locations.length < 2 then none else
    ((List.range d.locations.length).foldlM (fun m i =>
      (d.getVec sqrt i 0 d.locations.length).bind fun l =>
        writeRow m i (((sort (corrCandidates l i)).take
          (min 200 (d.locations.length - 2))).map Prod.snd))
      (RawMatrix.new 0 d.locations.length (min 200 (d.locations.length - 2)))).map fun m =>
        ⟨m, min 200 (d.locations.length - 2)⟩

/-- `CorrelationMatrix::top_slice`; models `/repo/src/models/matrix.rs:419-429`. -/
def Correlation.topSlice (c : Correlation) (index number : ℕ) : Option (List ℕ) :=
  c.storage.slice index 0 number

/-- `CorrelationMatrix::get`; models `/repo/src/models/matrix.rs:415-417`. -/
def Correlation.get (c : Correlation) (index : ℕ) : Option (List ℕ) := c.topSlice index c.width

end Verif
