import Verif.Model.Genetic
import Verif.Model.Matrix

/-!
# Decomposition

Models `/repo/src/solver/genetic/decomposition.rs`. Printed output is left out.
-/

namespace Verif
open F64

variable {α : Type} [F64 α]

/-- What the decomposed algorithm reads besides the settings of the genetic algorithm:
`decomposed_problem_min_size` and `rr_gamma` of the configuration (`/repo/src/config.rs:24,73`), the
distance matrix of the context, and the square root and sort of its library functions. -/
structure DecompEnv (α : Type) where
  ga : GAEnv α
  size : ℕ
  gamma : α
  matrix : DistMatrix α
  sqrt : α → α
  corrSort : List (α × ℕ) → List (α × ℕ)

/-- `Context::from_mapping`, the data read by the algorithms; models
`/repo/src/solver/context.rs:101-114` and `/repo/src/models/problem.rs:77-85`. Simplification: the
distances are those of the original context, which is what the copied matrix holds
(`C46_sub_matrix`). -/
def subCtx (ctx : Ctx α) (mapping : List ℕ) : Ctx α where
  n := mapping.length
  dist i j := ctx.dist (mapping.getD i 0) (mapping.getD j 0)
  demand i := ctx.demand (mapping.getD i 0)
  cap := ctx.cap
  pen := ctx.pen
  lng i := ctx.lng (mapping.getD i 0)
  lat i := ctx.lat (mapping.getD i 0)

namespace Decomp

/-- `route_for_customer[customer] = route_number` for the customers of one route. -/
def writeRoute (r : ℕ) : List ℕ → List ℕ → Option (List ℕ)
  | [], m => some m
  | c :: cs, m => (setIdx m c r).bind (writeRoute r cs)

/-- `route_for_customer`, from route number `r` on; models
`/repo/src/solver/genetic/decomposition.rs:185-190`. -/
def routeOf : ℕ → List (List ℕ) → List ℕ → Option (List ℕ)
  | _, [], m => some m
  | r, l :: ls, m => (writeRoute r l m).bind (routeOf (r + 1) ls)

/-- The loop over the neighbours; the two hash sets are lists without repetition. Models
`/repo/src/solver/genetic/decomposition.rs:212-224`. -/
def select (size : ℕ) (routeFor : List ℕ) (phenotype : List (List ℕ)) :
    List ℕ → List ℕ → List ℕ → Option (List ℕ × List ℕ)
  | [], customers, routes => some (customers, routes)
  | v :: vs, customers, routes =>
    if size ≤ customers.length then some (customers, routes) else
      routeFor[v]?.bind fun r => phenotype[r]?.bind fun route =>
        if r ∈ routes then select size routeFor phenotype vs customers routes
        else select size routeFor phenotype vs (route.foldl setInsert customers) (setInsert routes r)

/-- Renumbering the customers of one route; models
`/repo/src/solver/genetic/decomposition.rs:235-239`. -/
def renumberRoute : List ℕ → ℕ → List ℕ → Option (List ℕ × ℕ × List ℕ)
  | [], i, mapping => some ([], i, mapping)
  | c :: cs, i, mapping =>
    (setIdx mapping i c).bind fun mapping =>
      (renumberRoute cs (i + 1) mapping).map fun p => (i :: p.1, p.2)

/-- Renumbering all routes; models `/repo/src/solver/genetic/decomposition.rs:233-240`. -/
def renumber : List (List ℕ) → ℕ → List ℕ → Option (List (List ℕ) × List ℕ)
  | [], _, mapping => some ([], mapping)
  | l :: ls, i, mapping =>
    (renumberRoute l i mapping).bind fun p =>
      (renumber ls p.2.1 p.2.2).map fun q => (p.1 :: q.1, q.2)

/-- The routes whose number (from `r` on) is not selected; models
`/repo/src/solver/genetic/decomposition.rs:259-270`. -/
def unselected (routes : List ℕ) : ℕ → List (List ℕ) → List (List ℕ)
  | _, [] => []
  | r, l :: ls => if r ∈ routes then unselected routes (r + 1) ls else l :: unselected routes (r + 1) ls

/-- `((len as f64 / 10.0) + 2.0).round() as usize`; models
`/repo/src/solver/genetic/decomposition.rs:243`. -/
def extraRoutes (α : Type) [F64 α] (k : ℕ) : ℕ := toNat (F64.round ((lit k : α) /. lit 10 +. lit 2))

/-- `decompose_global`: the sub-solution, the mapping, and the global solution without the selected
routes; models `/repo/src/solver/genetic/decomposition.rs:184-272`. `w` is the draw of the seed
customer, `order` the iteration order of the hash set of selected routes, `nbrs` is
`matrix_provider.correlation.get`. -/
def decomposeGlobal (ctx : Ctx α) (nbrs : ℕ → Option (List ℕ)) (size w : ℕ)
    (order : List ℕ → List ℕ) (x : Individual α) : Option (Individual α × List ℕ × Individual α) :=
  (routeOf 0 x.phenotype (List.replicate ctx.n 0)).bind fun routeFor =>
  (rangeUsize w 0 x.genotype.length).bind fun seed =>
  (nbrs seed).bind fun vs =>
  (select size routeFor x.phenotype (seed :: vs) [] []).bind fun sel =>
  ((order sel.2).mapM fun r => x.phenotype[r]?).bind fun routes =>
  (renumber routes 1 (List.replicate (sel.1.length + 1) 0)).map fun p =>
    ({ Individual.empty with
        genotype := p.1.flatten
        phenotype := p.1 ++ List.replicate (extraRoutes α p.1.length) [] },
      p.2,
      { x with
        genotype := x.genotype.filter fun c => decide (c ∉ sel.1)
        phenotype := unselected sel.2 0 x.phenotype })

/-- `Decomposition::new`: sub-solution, mapping and reduced global solution; models
`/repo/src/solver/genetic/decomposition.rs:137-149` (the sub-context is `subCtx`). -/
def new (atan2 : α → α → α) (ctx : Ctx α) (nbrs : ℕ → Option (List ℕ)) (size w : ℕ)
    (order : List ℕ → List ℕ) (x : Individual α) : Option (Individual α × List ℕ × Individual α) :=
  (decomposeGlobal ctx nbrs size w order x).bind fun d =>
  (Individual.sortRoutes atan2 (subCtx ctx d.2.1) d.1).bind fun s =>
  (s.evaluate (subCtx ctx d.2.1)).map fun s => (s, d.2)

/-- The routes of the sub-solution with the original customer numbers, empty ones left out; models
`/repo/src/solver/genetic/decomposition.rs:170-178`. -/
def mapBack (mapping : List ℕ) : List (List ℕ) → Option (List (List ℕ))
  | [] => some []
  | l :: ls =>
    (l.mapM fun c => mapping[c]?).bind fun r =>
      (mapBack mapping ls).map fun rs => if r = [] then rs else r :: rs

/-- `finish`; models `/repo/src/solver/genetic/decomposition.rs:169-182`. -/
def finish (atan2 : α → α → α) (ctx : Ctx α) (mapping : List ℕ) (sub x : Individual α) :
    Option (Individual α) :=
  (mapBack mapping sub.phenotype).bind fun rs =>
  (Individual.sortRoutes atan2 ctx
    { x with phenotype := x.phenotype ++ rs, genotype := (x.phenotype ++ rs).flatten }).bind fun x =>
  x.evaluate ctx

/-- The settings of the sub-run: the matrices are rebuilt, the penalty is the present one, elite
education is off and the run is limited to 2000 iterations; models
`/repo/src/solver/context.rs:101-114`, `/repo/src/models/matrix.rs:463-470` and
`/repo/src/solver/genetic/decomposition.rs:152-157`. -/
def subEnv (env : DecompEnv α) (ctx : Ctx α) (pen : α) (mapping : List ℕ) : Option (GAEnv α) :=
  (env.matrix.fromMapping env.sqrt mapping).bind fun d =>
  (buildCorr env.sqrt env.corrSort d).map fun c =>
    { env.ga with
      rr := { env.ga.rr with nbrs := c.get }
      lowerBound := vehicleLowerBound (subCtx ctx mapping)
      angle := fun i => env.ga.angle (mapping.getD i 0)
      corr := c.storage.cells
      corrCols := c.width
      rrIterations := toNat (F64.round (env.gamma *. lit (mapping.length - 1 : ℕ)))
      initialPen := pen
      maxIterations := some 2000
      eliteEducation := false }

/-- `run`: the best solution of the sub-run (`none` also if the listed choices do not bring the run to
its end); models `/repo/src/solver/genetic/decomposition.rs:151-167`. -/
def run (env : GAEnv α) (ctx : Ctx α) (ω : Oracle) (chs : List (GAChoice α)) (sub : Individual α) :
    Option (Individual α) :=
  (GA.addInitial env sub (GA.new env ctx ω)).bind fun g =>
  (GA.steps env ctx chs g).bind fun g =>
    if g.state = .terminated then g.bestSolution else none

end Decomp

/-- `State`; models `/repo/src/solver/genetic/decomposition.rs:14-19`. -/
inductive DGAState where
  | notInitialized
  | cycle
  | terminated
deriving DecidableEq

/-- `DecomposedGeneticAlgorithm`; models `/repo/src/solver/genetic/decomposition.rs:21-25`. The cells of
the context live in `ga`, as for the genetic algorithm. -/
structure DGA (α : Type) where
  state : DGAState
  global : Individual α
  ga : GA α

/-- The nondeterminism of one `iterate` call: the choices of the global algorithm, per round of the loop
of `create_global_solution` and of the sub-run. -/
structure DGAChoice (α : Type) where
  ga : GAChoice α
  rounds : ℕ → GAChoice α
  order : List ℕ → List ℕ
  sub : List (GAChoice α)

/-- `best_cost`; models `/repo/src/solver/improvement/ruin_recreate/mod.rs:269-274`. -/
def RR.bestCost (st : RR α) : α := (st.best.map (·.cost)).getD inf

namespace DGA

/-- `DecomposedGeneticAlgorithm::new`; models `/repo/src/solver/genetic/decomposition.rs:28-34`. -/
def new (env : DecompEnv α) (ctx : Ctx α) (ω : Oracle) : DGA α where
  state := .notInitialized
  global := Individual.newRandom ctx env.ga.split.numVehicles (ω.sub 0) 0
  ga := GA.new env.ga ctx (ω.sub 1)

/-- The loop of `create_global_solution`; `k` numbers the rounds, `none` also when the fuel runs out.
Models `/repo/src/solver/genetic/decomposition.rs:51-61`. -/
def polish (env : DecompEnv α) (ctx : Ctx α) (ch : ℕ → GAChoice α) : ℕ → ℕ → GA α → Option (GA α)
  | 0, _, _ => none
  | fuel + 1, k, g =>
    (RR.runToEnd env.ga.rr ctx (ch k).rr (ch k).fuel 0
      { g.rr with acceptance := g.rr.acceptance.reset ((ch k).clock 0) }).bind fun rr =>
    (RR.getBest env.ga.rr ctx rr g.child).bind fun x =>
      if approxGte rr.bestCost g.rr.bestCost then some { g with rr := rr, child := x }
      else polish env ctx ch fuel (k + 1) { g with rr := rr, child := x }

/-- `create_global_solution`; models `/repo/src/solver/genetic/decomposition.rs:36-66`. -/
def createGlobal (env : DecompEnv α) (ctx : Ctx α) (ch : DGAChoice α) (s : DGA α) :
    Option (Individual α × GA α) :=
  (GA.runSplit env.ga ctx env.ga.split.numVehicles
    { s.ga with
      rr := { s.ga.rr with pen := s.ga.rr.pen *. lit 1000000 }
      child := Individual.newRandom ctx env.ga.split.numVehicles (ch.ga.ω.sub 0) 0 }).bind fun g =>
  (GA.educate env.ga ctx ch.ga (ch.ga.ω.sub 1) g).bind fun g =>
  (RR.load ctx (ch.ga.clock 1) g.child
    { g.rr with acceptance := .iteration (IterSchedule.new (lit 10) 100000) }).bind fun rr =>
  (polish env ctx ch.rounds ch.ga.fuel 0 { g with rr := rr }).bind fun g =>
  (g.child.evaluate (RR.ctxAt ctx (g.rr.pen /. lit 1000000))).map fun x =>
    (x, { g with rr := { g.rr with pen := g.rr.pen /. lit 1000000 } })

/-- Splitting off a subproblem, solving it and writing it back; models
`/repo/src/solver/genetic/decomposition.rs:88-94`. -/
def solveSub (env : DecompEnv α) (ctx : Ctx α) (ch : DGAChoice α) (s : DGA α) : Option (Individual α) :=
  (Decomp.new env.ga.rr.atan2 (RR.ctxAt ctx s.ga.rr.pen) env.ga.rr.nbrs env.size (ch.ga.ω.sub 2 0)
    ch.order s.global).bind fun d =>
  (Decomp.subEnv env ctx s.ga.rr.pen d.2.1).bind fun e =>
  (Decomp.run e (subCtx ctx d.2.1) (ch.ga.ω.sub 3) ch.sub d.1).bind fun y =>
  Decomp.finish env.ga.rr.atan2 (RR.ctxAt ctx s.ga.rr.pen) d.2.1 y d.2.2

/-- The rest of the cycle: ruin and recreate on the whole solution; models
`/repo/src/solver/genetic/decomposition.rs:99-110`. -/
def improve (env : DecompEnv α) (ctx : Ctx α) (ch : DGAChoice α) (x : Individual α) (s : DGA α) :
    Option (DGA α) :=
  let g := GA.updateBest { s.ga with child := x }
  (RR.load ctx (ch.ga.clock 1) g.child
    { g.rr with acceptance := g.rr.acceptance.reset (ch.ga.clock 0) }).bind fun rr =>
  (RR.runToEnd env.ga.rr ctx ch.ga.rr ch.ga.fuel 0 rr).bind fun rr =>
  (RR.getBest env.ga.rr ctx rr g.child).map fun y =>
    let g := GA.updateBest { g with rr := rr, child := y }
    { s with ga := g, global := g.child }

/-- `iterate`; models `/repo/src/solver/genetic/decomposition.rs:70-121`. -/
def iterate (env : DecompEnv α) (ctx : Ctx α) (ch : DGAChoice α) (s : DGA α) : Option (DGA α) :=
  if terminateNow env.ga.timeLimit env.ga.maxIterations ch.ga.elapsed s.ga.ctxIteration then
    some { s with state := .terminated }
  else
    match s.state with
    | .notInitialized => (createGlobal env ctx ch s).map fun p =>
        { s with state := .cycle, global := p.1, ga := p.2 }
    | .cycle => (solveSub env ctx ch s).bind fun x => improve env ctx ch x s
    | .terminated => some s

/-- `Solver::run` for as many `iterate` calls as choices are given; models
`/repo/src/solver/solver.rs:24-29`. -/
def steps (env : DecompEnv α) (ctx : Ctx α) : List (DGAChoice α) → DGA α → Option (DGA α)
  | [], s => some s
  | ch :: chs, s =>
    if s.state = .terminated then some s else (iterate env ctx ch s).bind (steps env ctx chs)

end DGA
end Verif
