import Verif.Model.Config
import Verif.Model.Decomposition
import Verif.Model.Output

/-!
# The whole program

Models `/repo/src/main.rs`: reading the instance, building the context, running the solver and writing the
solution file. Log output and errors of the file system are left out; the contents of the instance file
are an argument and the contents of the solution file the result.
-/

namespace Verif
open F64

variable {α : Type} [F64 α]

/-- The settings the program reads after the configuration file and the command line were applied
(`/repo/src/config.rs:11-86`). Left out are fields that are never read (`bks`, `dynamic_granularity`,
`granularity_min`, `rr_final_temp`, `rr_diversify`, `elite_education_final_temp`), fields that
`Context::new` overwrites (`num_vehicles`, `penalty_capacity`) and the choice of the random seed
(`deterministic`, `seed`): every stream of draws is allowed. `hasPath` says that `solution_path` is set. -/
structure Settings (α : Type) where
  hasPath : Bool
  timeLimit : ℕ
  maxIterations : Option ℕ
  maxStagnation : ℕ
  logInterval : ℕ
  precomputeLimit : ℕ
  rounded : Bool
  decomposeLimit : ℕ
  decomposedSize : ℕ
  pop : PopCfg
  initialIndividuals : ℕ
  target : α
  repairProbability : α
  splitFactor : α
  linearSplit : Bool
  granularity : ℕ
  lsEnabled : Bool
  moves : MoveFlags
  penaltyInterval : ℕ
  incMultiplier : α
  decMultiplier : α
  cavg : ℕ
  lmax : ℕ
  rrMutation : Bool
  rrProbability : α
  rrGamma : α
  rrStartTemp : α
  eliteEducation : Bool
  eliteLimit : ℕ
  eliteGamma : α
  eliteTemp : α
  eliteTimeBased : Bool
  eliteFraction : α

/-- The library routines: the `f64` parser, the elementary functions, `angle y x` for
`((y.atan2(x) / PI * 32768.0).round() as i32).rem_euclid(65536)` (`/repo/src/models/problem.rs:69-75`), binary
search, and the two sorts. -/
structure Lib (α : Type) where
  num : List Char → Option α
  sqrt : α → α
  atan2 : α → α → α
  exp : α → α
  ln : α → α
  angle : α → α → ℤ
  bs : BSearch
  sort : List (Individual α) → Option (List (Individual α))
  corrSort : List (α × ℕ) → List (α × ℕ)

namespace Program

/-- The coordinates of the nodes; models `/repo/src/models/matrix.rs:441`. -/
def locations (p : Parsed α) : List (Coord α) := p.nodes.map fun v => ⟨v.lng, v.lat⟩

/-- `MatrixProvider::new`, the two matrices; models `/repo/src/models/matrix.rs:439-461` (`len() - 1` of
an instance without nodes overflows). -/
def matrices (lib : Lib α) (cfg : Settings α) (p : Parsed α) : Option (DistMatrix α × Correlation) :=
  if p.nodes.length = 0 then none else
    (buildDist lib.sqrt (locations p) (decide (p.nodes.length - 1 < cfg.precomputeLimit)) cfg.rounded
      p.matrix).bind fun d => (buildCorr lib.sqrt lib.corrSort d).map fun c => (d, c)

/-- What the algorithms read from the context, without the penalty; models
`/repo/src/solver/context.rs:20-43`. Simplification: reading outside the instance gives 0, where the
code panics or reads another cell (see `Ctx`). -/
def context (lib : Lib α) (p : Parsed α) (d : DistMatrix α) : Ctx α where
  n := p.nodes.length
  dist a b := if a < p.nodes.length ∧ b < p.nodes.length then (d.get lib.sqrt a b).getD (lit 0) else lit 0
  demand a := (p.nodes[a]?.map (·.demand)).getD (lit 0)
  cap := p.cap
  pen := lit 0
  lng a := (p.nodes[a]?.map (·.lng)).getD (lit 0)
  lat a := (p.nodes[a]?.map (·.lat)).getD (lit 0)

/-- What the genetic algorithm reads: the settings, the fleet size and initial penalty of
`Context::setup`, and the lengths of the schedules. Models `/repo/src/solver/context.rs:45-48,74-99`,
`/repo/src/models/problem.rs:69-75`, `/repo/src/solver/improvement/ruin_recreate/mod.rs:147-171` and
`/repo/src/solver/improvement/local_search.rs:83-84`. Simplification: a duration is a number of seconds. -/
def gaEnv (lib : Lib α) (cfg : Settings α) (ctx : Ctx α) (d : DistMatrix α) (c : Correlation) : GAEnv α where
  rr := ⟨cfg.cavg, cfg.lmax, initialNumVehicles ctx, cfg.incMultiplier, cfg.decMultiplier, c.get, lib.atan2,
    lib.exp, lib.ln⟩
  split := ⟨cfg.linearSplit, cfg.splitFactor, initialNumVehicles ctx⟩
  pop := cfg.pop
  moves := cfg.moves
  lowerBound := vehicleLowerBound ctx
  bs := lib.bs
  sort := lib.sort
  granularity := cfg.granularity
  angle i := lib.angle (ctx.lat i -. ctx.lat 0) (ctx.lng i -. ctx.lng 0)
  corr := c.storage.cells
  corrCols := c.width
  lsEnabled := cfg.lsEnabled
  rrMutation := cfg.rrMutation
  rrProbability := cfg.rrProbability
  rrStartTemp := cfg.rrStartTemp
  rrIterations := toNat (F64.round (cfg.rrGamma *. lit (ctx.n - 1 : ℕ)))
  repairProbability := cfg.repairProbability
  target := cfg.target
  penaltyInterval := cfg.penaltyInterval
  logInterval := cfg.logInterval
  initialIndividuals := cfg.initialIndividuals
  maxStagnation := cfg.maxStagnation
  maxIterations := cfg.maxIterations
  timeLimit := cfg.timeLimit
  initialPen := initialPenalty d.maxDistance (maxDemand ctx)
  eliteEducation := cfg.eliteEducation
  eliteLimit := cfg.eliteLimit
  eliteTemp := cfg.eliteTemp
  eliteIterations := toNat (F64.round (cfg.eliteGamma *. lit (ctx.n - 1 : ℕ)))
  eliteTimeBased := cfg.eliteTimeBased
  eliteDuration := lit cfg.timeLimit *. cfg.eliteFraction

/-- What the decomposed algorithm reads. -/
def decompEnv (lib : Lib α) (cfg : Settings α) (ctx : Ctx α) (d : DistMatrix α) (c : Correlation) :
    DecompEnv α :=
  ⟨gaEnv lib cfg ctx d c, cfg.decomposedSize, cfg.rrGamma, d, lib.sqrt, lib.corrSort⟩

/-- `write_solution_file` after a run with history `h`; models `/repo/src/utils/serializer.rs:6-19` and
`last_entry` (`/repo/src/solver/history.rs:137-139`). -/
def written (cfg : Settings α) (h : History α) : Option (List Char) :=
  solutionFile cfg.hasPath (h.entries.getLast?.map fun e => (e.routes, e.cost))

/-- The solver on a built context: with decomposition for large instances, without it for the others,
until it is terminated. The result is the search history, `none` a panic or lists of choices that end
before the run does. Models `/repo/src/main.rs:35-52` and `/repo/src/solver/solver.rs:24-29`. -/
def solve (lib : Lib α) (cfg : Settings α) (ctx : Ctx α) (d : DistMatrix α) (c : Correlation) (ω : Oracle)
    (chs : List (GAChoice α)) (dchs : List (DGAChoice α)) : Option (History α) :=
  if cfg.decomposeLimit ≤ ctx.n - 1 then
    (DGA.steps (decompEnv lib cfg ctx d c) ctx dchs (DGA.new (decompEnv lib cfg ctx d c) ctx ω)).bind fun s =>
      if s.state = .terminated then some s.ga.rr.hist else none
  else
    (GA.steps (gaEnv lib cfg ctx d c) ctx chs (GA.new (gaEnv lib cfg ctx d c) ctx ω)).bind fun g =>
      if g.state = .terminated then some g.rr.hist else none

/-- `main` on the text of the instance file: the contents of the solution file (inner `none` when no
path is set); models `/repo/src/main.rs:10-54`. -/
def main (lib : Lib α) (cfg : Settings α) (text : List Char) (ω : Oracle) (chs : List (GAChoice α))
    (dchs : List (DGAChoice α)) : Option (Option (List Char)) :=
  (parseInstance lib.num text).bind fun p =>
  (matrices lib cfg p).bind fun m =>
  (solve lib cfg (context lib p m.1) m.1 m.2 ω chs dchs).map (written cfg)

end Program
end Verif
