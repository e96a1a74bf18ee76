import Verif.Model.Individual

/-!
# Population

Models `/repo/src/solver/genetic/population.rs`. The hash map with the diversity vectors is a partial
function from individual numbers; `remove_diversity` treats every vector of the map on its own, so the
iteration order of the map does not matter. `Vec::binary_search` of the standard library is a parameter:
it gets the comparison results of all elements with the sought one and returns an index (the code uses
`Ok` and `Err` alike).
-/

namespace Verif
open F64

variable {α : Type} [F64 α]

/-- The settings a population reads (`/repo/src/config.rs:31-37`). -/
structure PopCfg where
  minSize : ℕ
  lambda : ℕ
  numElites : ℕ
  numClosest : ℕ
  tournamentSize : ℕ

/-- `Diversity`; models `/repo/src/solver/genetic/population.rs:9-13`. The distance is an `i64` that is
never negative. -/
structure Diversity where
  distance : ℕ
  target : ℕ
deriving DecidableEq

/-- Result of `binary_search` given the comparisons `element.cmp(sought)`. -/
abbrev BSearch := List Ordering → ℕ

/-- `Ord for Individual`: equal when the costs are equal up to the tolerance, else the order of the costs
(`none`: the costs cannot be compared, which panics); models
`/repo/src/solver/genetic/individual.rs:168-189`. -/
def Individual.cmp (x y : Individual α) : Option Ordering :=
  if approxEq x.cost y.cost then some .eq
  else if x.cost <. y.cost then some .lt
  else if y.cost <. x.cost then some .gt
  else if x.cost ≤. y.cost then some .eq
  else none

/-- `SubPopulation`; models `/repo/src/solver/genetic/population.rs:44-55`. -/
structure SubPop (α : Type) where
  pop : List (Individual α)
  div : ℕ → Option (List Diversity)
  focus : Bool
  maxInd : ℕ

namespace SubPop

/-- `SubPopulation::new`; models `/repo/src/solver/genetic/population.rs:58-70`. -/
def new (cfg : PopCfg) : SubPop α := ⟨[], fun _ => none, false, cfg.minSize + cfg.lambda⟩

/-- `add_diversity` on the map; models `/repo/src/solver/genetic/population.rs:313-328`. The index of the
binary search is at most the length (see `BSearchOK`), so the insertion cannot panic. -/
def addDiv (bs : BSearch) (key : ℕ) (d : Diversity) (m : ℕ → Option (List Diversity)) :
    ℕ → Option (List Diversity) := fun k =>
  if k = key then
    match m key with
    | some v => some (v.insertIdx (bs (v.map fun e => compare e.distance d.distance)) d)
    | none => some [d]
  else m k

/-- The loop of `update_diversity` over the other individuals; models
`/repo/src/solver/genetic/population.rs:234-247`. -/
def addDivs (bs : BSearch) (x : Individual α) : List (Individual α) →
    (ℕ → Option (List Diversity)) → Option (ℕ → Option (List Diversity))
  | [], m => some m
  | o :: os, m =>
    match o.brokenPairs x with
    | none => none
    | some d =>
      addDivs bs x os (addDiv bs x.number ⟨d, o.number⟩ (addDiv bs o.number ⟨d, x.number⟩ m))

/-- `update_diversity`; models `/repo/src/solver/genetic/population.rs:232-248`. -/
def updateDiversity (bs : BSearch) (index : ℕ) (s : SubPop α) : Option (SubPop α) :=
  match s.pop[index]? with
  | none => none
  | some x => (addDivs bs x (s.pop.eraseIdx index) s.div).map fun m => { s with div := m }

/-- `individual_is_clone` (panics without a vector or with an empty one); models
`/repo/src/solver/genetic/population.rs:221-230`. -/
def isClone (s : SubPop α) (x : Individual α) : Option Bool :=
  match s.div x.number with
  | none => none
  | some v => v[0]?.map fun d => d.distance == 0

/-- The inner loop of `remove_diversity`: drops the first entry for the number. -/
def dropEntry (number : ℕ) (v : List Diversity) : List Diversity :=
  v.eraseP fun d => d.target == number

/-- `remove_diversity`; models `/repo/src/solver/genetic/population.rs:330-343`. -/
def removeDiv (number : ℕ) (m : ℕ → Option (List Diversity)) : ℕ → Option (List Diversity) := fun k =>
  if k = number then none else (m k).map (dropEntry number)

/-- `average_broken_pairs_distance`; models `/repo/src/solver/genetic/population.rs:345-365`. Called
for members only, so the population is not empty. -/
def average (s : SubPop α) (x : Individual α) (num : ℕ) : Option α :=
  let k := Nat.min num (s.pop.length - 1)
  match s.div x.number with
  | none => some (lit 0)
  | some v => if k ≤ v.length then
      some (lit (((v.take k).map (·.distance)).sum : ℕ) /. lit k) else none

/-- The averages of the individuals in order (`diversity_sorted` before sorting, the index being the
position); models `/repo/src/solver/genetic/population.rs:266-276`. -/
def averages (s : SubPop α) (num : ℕ) : List (Individual α) → ℕ → Option (List (α × ℕ))
  | [], _ => some []
  | x :: xs, i =>
    match s.average x num with
    | none => none
    | some a => (averages s num xs (i + 1)).map fun l => (a, i) :: l

/-- Descending order of the averages. -/
def divLe (a b : α × ℕ) : Bool := !(a.1 <. b.1)

/-- The biased fitness of the individual at position `index` and diversity position `divIndex`; models
`/repo/src/solver/genetic/population.rs:282-306`. -/
def biasedFitness (focus : Bool) (len numElites divIndex index : ℕ) : α :=
  let factor := lit len -. lit 1
  let elite := lit 1 -. lit numElites /. lit len
  let divRank := lit divIndex /. factor
  let fitRank := lit index /. factor
  if focus then
    if index < numElites then fitRank else fitRank *. elite +. divRank
  else
    if len ≤ numElites then fitRank else fitRank +. elite *. divRank

/-- Writing the fitness values; models `/repo/src/solver/genetic/population.rs:287-310`. -/
def writeFitness (focus : Bool) (len numElites : ℕ) : List (α × ℕ) → ℕ → List (Individual α) →
    List (Individual α)
  | [], _, pop => pop
  | (_, index) :: rest, k, pop =>
    writeFitness focus len numElites rest (k + 1)
      (pop.modify index fun x => { x with fitness := biasedFitness focus len numElites k index })

/-- `update_fitness`; models `/repo/src/solver/genetic/population.rs:250-311`. The std stable sort is
`stableSort`; `unwrap` on an average that is not comparable to itself (NaN) panics. -/
def updateFitness (cfg : PopCfg) (s : SubPop α) : Option (SubPop α) :=
  if s.pop.length = 1 then
    some { s with pop := s.pop.modify 0 fun x => { x with fitness := lit 0 } }
  else
    match s.averages cfg.numClosest s.pop 0 with
    | none => none
    | some l =>
      if 2 ≤ l.length ∧ l.any (fun a => !(a.1 ≤. a.1)) then none else
        some { s with pop := writeFitness s.focus s.pop.length cfg.numElites (stableSort divLe l) 0 s.pop }

/-- `remove_individual`; models `/repo/src/solver/genetic/population.rs:168-178`. -/
def remove (cfg : PopCfg) (index : ℕ) (s : SubPop α) : Option (SubPop α) :=
  match s.pop[index]? with
  | none => none
  | some x =>
    updateFitness cfg { s with pop := s.pop.eraseIdx index, div := removeDiv x.number s.div }

/-- State of the scan for the worst individual. -/
structure Worst (α : Type) where
  index : ℕ
  clone : Bool
  fitness : α

/-- The scan of `natural_selection`; models `/repo/src/solver/genetic/population.rs:194-210`. -/
def scanWorst (s : SubPop α) : List (Individual α) → ℕ → Worst α → Option (Worst α)
  | [], _, w => some w
  | x :: xs, i, w =>
    match s.isClone x with
    | none => none
    | some c =>
      if (c && !w.clone) || (w.clone == c && (w.fitness ≤. x.fitness)) then
        scanWorst s xs (i + 1) ⟨i, c, x.fitness⟩
      else scanWorst s xs (i + 1) w

/-- `natural_selection`; models `/repo/src/solver/genetic/population.rs:188-219`. -/
def naturalSelection (cfg : PopCfg) (s : SubPop α) : Option (SubPop α) :=
  match s.scanWorst (s.pop.drop 1) 1 ⟨1, false, lit (-1)⟩ with
  | none => none
  | some w => s.remove cfg w.index

/-- `while self.population.len() > min_population_size`, with fuel (running out of fuel is `none`);
models `/repo/src/solver/genetic/population.rs:101-103`. -/
def selectLoop (cfg : PopCfg) : ℕ → SubPop α → Option (SubPop α)
  | 0, _ => none
  | k + 1, s =>
    if cfg.minSize < s.pop.length then (s.naturalSelection cfg).bind (selectLoop cfg k) else some s

/-- The comparisons made by the binary search over the population. -/
def compareAll (x : Individual α) : List (Individual α) → Option (List Ordering)
  | [] => some []
  | y :: ys =>
    match y.cmp x with
    | none => none
    | some o => (compareAll x ys).map fun os => o :: os

/-- `Vec::insert`: panics beyond the end. -/
def insertAt {β : Type} (i : ℕ) (x : β) (l : List β) : Option (List β) :=
  if i ≤ l.length then some (l.insertIdx i x) else none

/-- `add_individual`; models `/repo/src/solver/genetic/population.rs:76-105`. Simplification: a
comparison that would panic does so whether or not the binary search probes that element. -/
def add (cfg : PopCfg) (bs : BSearch) (x : Individual α) (s : SubPop α) : Option (SubPop α) :=
  (compareAll x s.pop).bind fun os =>
  (insertAt (bs os) x s.pop).bind fun pop =>
  (updateDiversity bs (bs os) { s with pop := pop }).bind fun s =>
  (if 1 < s.pop.length then (s.pop[bs os]?).bind s.isClone else some false).bind fun clone =>
  (if clone then s.remove cfg (bs os) else s.updateFitness cfg).bind fun s =>
  if s.maxInd ≤ s.pop.length then selectLoop cfg (s.pop.length + 1) s else some s

end SubPop

/-- `Population`; models `/repo/src/solver/genetic/population.rs:368-379`. -/
structure Population (α : Type) where
  total : ℕ
  feasible : SubPop α
  infeasible : SubPop α
  history : List Bool

namespace Population

/-- `Population::new`; models `/repo/src/solver/genetic/population.rs:382-389`. -/
def new (cfg : PopCfg) : Population α := ⟨0, .new cfg, .new cfg, List.replicate 100 true⟩

/-- `size`; models `/repo/src/solver/genetic/population.rs:391-393`. -/
def size (p : Population α) : ℕ := p.feasible.pop.length + p.infeasible.pop.length

/-- `add_individual`; models `/repo/src/solver/genetic/population.rs:395-414`. -/
def add (cfg : PopCfg) (bs : BSearch) (x : Individual α) (updateHistory : Bool) (p : Population α) :
    Option (Population α) :=
  let x := { x with number := p.total }
  let h := if updateHistory then (p.history ++ [x.isFeasible]).drop 1 else p.history
  if x.isFeasible then
    (p.feasible.add cfg bs x).map fun s => { p with feasible := s, history := h, total := p.total + 1 }
  else
    (p.infeasible.add cfg bs x).map fun s => { p with infeasible := s, history := h, total := p.total + 1 }

/-- The member at an index into both subpopulations; models
`/repo/src/solver/genetic/population.rs:437-445`. -/
def member (p : Population α) (index : ℕ) : Option (Individual α) :=
  if index < p.feasible.pop.length then p.feasible.pop[index]?
  else p.infeasible.pop[index - p.feasible.pop.length]?

/-- The loop over the contestants; models `/repo/src/solver/genetic/population.rs:435-453`. -/
def contest (p : Population α) : List ℕ → Option (Individual α) → Option (Option (Individual α))
  | [], w => some w
  | i :: is, w =>
    match p.member i with
    | none => none
    | some x =>
      match w with
      | none => contest p is (some x)
      | some y => contest p is (if x.fitness <. y.fitness then some x else some y)

/-- The drawn indices; models `/repo/src/solver/genetic/population.rs:429-432`. -/
def draws (p : Population α) (ω : Oracle) : ℕ → Option (List ℕ)
  | 0 => some []
  | k + 1 => (rangeUsize (ω k) 0 p.size).bind fun i => (draws p ω k).map fun l => i :: l

/-- `get_parent` and `tournament`; models `/repo/src/solver/genetic/population.rs:416-456`. -/
def parent (cfg : PopCfg) (p : Population α) (ω : Oracle) : Option (Individual α) :=
  (p.draws ω cfg.tournamentSize).bind fun l => (p.contest l none).bind id

/-- Re-evaluating all individuals. -/
def evaluateAll (ctx : Ctx α) : List (Individual α) → Option (List (Individual α))
  | [] => some []
  | x :: xs => (x.evaluate ctx).bind fun y => (evaluateAll ctx xs).map fun ys => y :: ys

/-- The part of `update_penalty` that touches the population: the infeasible individuals are re-evaluated
and sorted; models `/repo/src/solver/genetic/genetic.rs:167-171`. `sort` is the std stable sort with the
order `Individual.cmp` (which need not be a total order); it may panic. -/
def reprice (sort : List (Individual α) → Option (List (Individual α))) (ctx : Ctx α)
    (p : Population α) : Option (Population α) :=
  (evaluateAll ctx p.infeasible.pop).bind fun l =>
  (sort l).map fun l => { p with infeasible := { p.infeasible with pop := l } }

end Population
end Verif
