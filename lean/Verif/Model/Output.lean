import Verif.F64
import Verif.Spec

/-!
# The solution text (`HistoricSolution`'s `Display`, `write_solution_file`)
-/

namespace Verif

/-- A decimal digit. -/
def digitChar (d : ℕ) : Char := Char.ofNat (48 + d)

/-- Decimal rendering of an unsigned integer (`{}` formatting of `usize`/`u64`, part of std; used by
`/repo/src/solver/history.rs:33,35,41`). -/
def decimal (n : ℕ) : List Char :=
  if n < 10 then [digitChar n] else decimal (n / 10) ++ [digitChar (n % 10)]
termination_by n
decreasing_by omega

/-- One route line without its line end: `Route #k:` followed by ` c` per stop; models
`/repo/src/solver/history.rs:33-36`. -/
def routeLine (k : ℕ) (route : List ℕ) : List Char :=
  route.foldl (fun s stop => s ++ ([' '] ++ decimal stop)) ("Route #".toList ++ decimal k ++ [':'])

/-- The loop over the routes with `route_number`; models `/repo/src/solver/history.rs:30-40`. -/
def routeLines : ℕ → List (List ℕ) → List Char
  | _, [] => []
  | k, route :: rest =>
    if route.length > 0 then routeLine k route ++ ['\n'] ++ routeLines (k + 1) rest
    else routeLines k rest

/-- `Display for HistoricSolution`; models `/repo/src/solver/history.rs:28-45`
(`cost.round() as u64` saturates at 0; the saturation at `u64::MAX` is left out). -/
def renderSolution {α : Type} [F64 α] (routes : List (List ℕ)) (cost : α) : List Char :=
  routeLines 1 routes ++ "Cost ".toList ++ decimal (F64.toNat (F64.round cost))

/-- `write_solution_file`: `none` when no path is configured and no file is touched, else the contents
of the truncated file: the solution and a line end (`writeln!`), or nothing when no solution was
recorded; models `/repo/src/utils/serializer.rs:6-19` (I/O errors are left out). -/
def solutionFile {α : Type} [F64 α] (hasPath : Bool) (last : Option (List (List ℕ) × α)) :
    Option (List Char) :=
  if hasPath then
    some (match last with
      | none => []
      | some s => renderSolution s.1 s.2 ++ ['\n'])
  else none

end Verif
