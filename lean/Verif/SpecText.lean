import Mathlib.Data.Nat.Notation

/-!
# Specification vocabulary for texts

Plain definitions used to state what a text contains, independent of the model of the code: reading a
decimal number, splitting at a separator, and reading a solution file back.
-/

namespace Verif.Spec

/-- The pieces between the occurrences of `sep`. -/
def splitOn (sep : Char) : List Char → List (List Char)
  | [] => [[]]
  | c :: l =>
    if c = sep then [] :: splitOn sep l
    else match splitOn sep l with
      | [] => [[c]]
      | p :: ps => (c :: p) :: ps

/-- Read a non-empty string of decimal digits. -/
def readNat (l : List Char) : Option ℕ :=
  if l ≠ [] ∧ l.all Char.isDigit then some (l.foldl (fun n c => 10 * n + (c.toNat - 48)) 0) else none

/-- Read the line `Route #k: c1 c2 …`, insisting on the number `k`. -/
def readRoute (k : ℕ) (line : List Char) : Option (List ℕ) :=
  match splitOn ':' line with
  | [head, tail] =>
    if head.take 7 = "Route #".toList ∧ readNat (head.drop 7) = some k then
      match splitOn ' ' tail with
      | [] :: w :: words => (w :: words).mapM readNat
      | _ => none
    else none
  | _ => none

/-- Read route lines numbered from `k`, then `Cost N` and the final line end. -/
def readLines : ℕ → List (List Char) → Option (List (List ℕ) × ℕ)
  | _, [] => none
  | _, [_] => none
  | k, line :: next :: rest =>
    if next = [] ∧ rest = [] then
      if line.take 5 = "Cost ".toList then (readNat (line.drop 5)).map fun c => ([], c) else none
    else
      match readRoute k line, readLines (k + 1) (next :: rest) with
      | some r, some (rs, c) => some (r :: rs, c)
      | _, _ => none

/-- Read a solution file: the routes in order and the cost. -/
def readSolution (text : List Char) : Option (List (List ℕ) × ℕ) := readLines 1 (splitOn '\n' text)

end Verif.Spec
