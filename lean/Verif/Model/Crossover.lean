import Verif.Model.Individual

/-!
# Ordered crossover

Models `crossover` and `crossover_ox` of `/repo/src/solver/genetic/genetic.rs:62-139`.
-/

namespace Verif

/-- `wrap_index`; models `/repo/src/solver/genetic/genetic.rs:93-100`. -/
def wrapIndex (index length : ℕ) : ℕ := if index = length then 0 else index

/-- The loop that walks from `start` to `end` collecting the genes kept from parent one; models
`/repo/src/solver/genetic/genetic.rs:111-123`. The code loops without bound; the model stops with
`none` when `fuel` runs out (or on an index panic), and the theorems show this does not happen. -/
def oxZone (g : List ℕ) (stop : ℕ) : ℕ → ℕ → List ℕ → Option (ℕ × List ℕ)
  | 0, _, _ => none
  | fuel + 1, index, added =>
    match g[index]? with
    | none => none
    | some gene =>
      if index = stop then some (wrapIndex (index + 1) g.length, gene :: added)
      else oxZone g stop fuel (wrapIndex (index + 1) g.length) (gene :: added)

/-- The loop over the genes of parent two; models `/repo/src/solver/genetic/genetic.rs:126-136`. -/
def oxFill : List ℕ → List ℕ → ℕ → List ℕ → Option (List ℕ)
  | [], g, _, _ => some g
  | gene :: rest, g, index, added =>
    if gene ∈ added then oxFill rest g index added
    else
      match setIdx g index gene with
      | none => none
      | some g' => oxFill rest g' (wrapIndex (index + 1) g.length) (gene :: added)

/-- `crossover_ox`, as far as the genotype of the child is concerned; models
`/repo/src/solver/genetic/genetic.rs:84-139`. -/
def crossoverOx (p1 p2 : List ℕ) (start stop : ℕ) : Option (List ℕ) :=
  match oxZone p1 stop p1.length start [] with
  | none => none
  | some (index, added) => oxFill p2 p1 index added

/-- The loop drawing an end different from the start; models
`/repo/src/solver/genetic/genetic.rs:72-78`. `none` when `fuel` draws did not suffice (the code has no
bound and would go on drawing) or when the range is empty (panic). -/
def drawEnd (ω : Oracle) (len start : ℕ) : ℕ → ℕ → Option ℕ
  | 0, _ => none
  | fuel + 1, k =>
    match rangeUsize (ω k) 0 len with
    | none => none
    | some e => if start = e then drawEnd ω len start fuel (k + 1) else some e

/-- `crossover`; models `/repo/src/solver/genetic/genetic.rs:62-82`; `fuel` bounds the number of
draws for the end position. -/
def crossover (ω : Oracle) (fuel : ℕ) (p1 p2 : List ℕ) : Option (List ℕ) :=
  match rangeUsize (ω 0) 0 p1.length with
  | none => none
  | some start =>
    match drawEnd ω p1.length start fuel 1 with
    | none => none
    | some stop => crossoverOx p1 p2 start stop

end Verif
