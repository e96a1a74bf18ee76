import Verif.Model.Context
import Verif.Model.Crossover
import Verif.Model.Population
import Verif.Model.RuinRecreate
import Verif.Model.Search
import Verif.Model.Split

/-!
# The genetic algorithm

Models `/repo/src/solver/genetic/genetic.rs` and the loop of `/repo/src/solver/solver.rs`. Log output,
history messages and the fields `diversified_start`, `diversify` and `diversity`, which are never read by
the search, are left out.
-/

namespace Verif
open F64

variable {α : Type} [F64 α]

/-- `State`; models `/repo/src/solver/genetic/genetic.rs:8-15`. -/
inductive GAState where
  | created
  | elite
  | init
  | cycle
  | terminated
deriving DecidableEq

/-- The settings the genetic algorithm reads (`/repo/src/config.rs:11-86`), the immutable data of the
context, and the library functions. `sort` and `bs` are the std sort and binary search of the
population. -/
structure GAEnv (α : Type) where
  rr : RREnv α
  split : SplitCfg α
  pop : PopCfg
  moves : MoveFlags
  lowerBound : ℕ
  bs : BSearch
  sort : List (Individual α) → Option (List (Individual α))
  granularity : ℕ
  angle : ℕ → ℤ
  corr : List ℕ
  corrCols : ℕ
  lsEnabled : Bool
  rrMutation : Bool
  rrProbability : α
  rrStartTemp : α
  rrIterations : ℕ
  repairProbability : α
  target : α
  penaltyInterval : ℕ
  logInterval : ℕ
  initialIndividuals : ℕ
  maxStagnation : ℕ
  maxIterations : Option ℕ
  timeLimit : ℕ
  initialPen : α
  eliteEducation : Bool
  eliteLimit : ℕ
  eliteTemp : α
  eliteIterations : ℕ
  eliteTimeBased : Bool
  eliteDuration : α

/-- The nondeterminism of one `iterate` call: random draws, the choices of every ruin-and-recreate
round (search call, round), the clock, the whole seconds elapsed at the start of the call, and `fuel`,
the number of rounds granted to loops the code does not bound. -/
structure GAChoice (α : Type) where
  ω : Oracle
  rr : ℕ → ℕ → RRChoice α
  clock : ℕ → α
  elapsed : ℕ
  fuel : ℕ

/-- `GeneticAlgorithm` (`/repo/src/solver/genetic/genetic.rs:17-36`) together with the iteration counter
of the context. The capacity penalty and the search history, cells of the context, are the fields `pen`
and `hist` of `rr`. -/
structure GA (α : Type) where
  state : GAState
  pop : Population α
  ls : LS α
  rr : RR α
  split : Split α
  iterations : ℕ
  nextPenaltyUpdate : ℕ
  nextLog : ℕ
  child : Individual α
  numInitialized : ℕ
  bestSolution : Option (Individual α)
  bestIteration : ℕ
  currentBest : α
  ctxIteration : ℕ

/-- `while !self.rr.complete() { self.rr.search(); }`; `i` numbers the searches, `none` also when the
fuel runs out. Models `/repo/src/solver/genetic/genetic.rs:185-187`. -/
def RR.runToEnd (env : RREnv α) (ctx : Ctx α) (ch : ℕ → ℕ → RRChoice α) : ℕ → ℕ → RR α → Option (RR α)
  | 0, _, _ => none
  | fuel + 1, i, st =>
    if st.acceptance.completed then some st
    else (search env ctx (ch i) st).bind (runToEnd env ctx ch fuel (i + 1))

/-- `get_diversity`; models `/repo/src/solver/genetic/population.rs:114-131`. -/
def SubPop.getDiversity (cfg : PopCfg) (s : SubPop α) : Option α :=
  let size := Nat.min s.pop.length cfg.minSize
  ((s.pop.take size).foldlM (fun t x => (s.average x size).map fun a => t +. a) (lit 0)).map fun t =>
    if 0 < size then t /. lit size else lit (-1)

namespace GA

/-- `GeneticAlgorithm::new` in a new context; models `/repo/src/solver/genetic/genetic.rs:39-60` and
`/repo/src/solver/context.rs:32-42`. -/
def new (env : GAEnv α) (ctx : Ctx α) (ω : Oracle) : GA α where
  state := .created
  pop := Population.new env.pop
  ls := LS.new (RR.ctxAt ctx env.initialPen) env.split.numVehicles env.granularity env.angle env.corr
    env.corrCols (lit 1)
  rr := RR.new ctx env.split.numVehicles env.rrStartTemp env.rrIterations env.initialPen History.new
  split := Split.new (RR.ctxAt ctx env.initialPen)
  iterations := 0
  nextPenaltyUpdate := 0
  nextLog := 0
  child := Individual.newRandom ctx env.split.numVehicles ω 0
  numInitialized := 0
  bestSolution := none
  bestIteration := 0
  currentBest := inf
  ctxIteration := 0

/-- The fraction of feasible individuals in the recent history; models
`/repo/src/solver/genetic/genetic.rs:145-151`. -/
def feasibleFraction (p : Population α) : α := lit (p.history.count true) /. lit p.history.length

/-- The new penalty; models `/repo/src/solver/genetic/genetic.rs:153-165`. -/
def nextPenalty (env : GAEnv α) (fraction pen : α) : α :=
  let pen :=
    if fraction <. env.target -. lit 0.05 then pen *. env.rr.incMultiplier
    else if env.target +. lit 0.05 <. fraction then pen *. env.rr.decMultiplier
    else pen
  F64.max (lit 0.0001) (F64.min (lit 10000000) pen)

/-- `update_penalty`; models `/repo/src/solver/genetic/genetic.rs:141-172`. -/
def updatePenalty (env : GAEnv α) (ctx : Ctx α) (g : GA α) : Option (GA α) :=
  let pen := nextPenalty env (feasibleFraction g.pop) g.rr.pen
  (g.pop.reprice env.sort (RR.ctxAt ctx pen)).map fun p =>
    { g with
      pop := p
      nextPenaltyUpdate := g.nextPenaltyUpdate + env.penaltyInterval
      rr := { g.rr with pen := pen } }

/-- `update_best`; models `/repo/src/solver/genetic/genetic.rs:245-264`. -/
def updateBest (g : GA α) : GA α :=
  if g.child.isFeasible && approxLt g.child.cost g.currentBest then
    let g := { g with bestIteration := g.iterations, currentBest := g.child.cost }
    if approxLt g.currentBest g.rr.hist.bestCost then
      { g with bestSolution := some g.child, rr := { g.rr with hist := g.rr.hist.add g.child } }
    else g
  else g

/-- `if ls_enabled { self.ls.run(ctx, child, factor) }`; models
`/repo/src/solver/genetic/genetic.rs:177-179,194-196`. -/
def localSearch (env : GAEnv α) (ctx : Ctx α) (ω : Oracle) (fuel : ℕ) (factor : α) (g : GA α) :
    Option (GA α) :=
  if env.lsEnabled then
    (LS.run env.rr.atan2 (RR.ctxAt ctx g.rr.pen) env.moves ω fuel factor g.ls g.child).map fun p =>
      { g with ls := p.1, child := p.2 }
  else some g

/-- The ruin-and-recreate mutation; models `/repo/src/solver/genetic/genetic.rs:182-189`. -/
def mutate (env : GAEnv α) (ctx : Ctx α) (ch : GAChoice α) (w : ℕ) (g : GA α) : Option (GA α) :=
  if env.rrMutation && (lit (realDraw w) <. env.rrProbability) then
    (RR.load ctx (ch.clock 0) g.child g.rr).bind fun rr =>
    (RR.runToEnd env.rr ctx ch.rr ch.fuel 0 rr).bind fun rr =>
    (RR.getBest env.rr ctx rr g.child).map fun x => { g with rr := rr, child := x }
  else some g

/-- `self.population.add_individual(ctx, individual, update_history)`. -/
def addToPop (env : GAEnv α) (x : Individual α) (updateHistory : Bool) (g : GA α) : Option (GA α) :=
  (g.pop.add env.pop env.bs x updateHistory).map fun p => { g with pop := p }

/-- The repair step; models `/repo/src/solver/genetic/genetic.rs:192-203`. -/
def repair (env : GAEnv α) (ctx : Ctx α) (ω : Oracle) (fuel : ℕ) (w : ℕ) (g : GA α) : Option (GA α) :=
  if !g.child.isFeasible && (lit (realDraw w) <. env.repairProbability) then
    (localSearch env ctx ω fuel (lit 10) g).bind fun g' =>
    (if g'.child.isFeasible then addToPop env g'.updateBest.child false g'.updateBest
      else some g').map fun g' => { g' with child := g.child }
  else some g

/-- `educate`; models `/repo/src/solver/genetic/genetic.rs:174-207`. -/
def educate (env : GAEnv α) (ctx : Ctx α) (ch : GAChoice α) (ω : Oracle) (g : GA α) : Option (GA α) :=
  (localSearch env ctx (ω.sub 0) ch.fuel (lit 1) g).bind fun g =>
  (mutate env ctx ch (ω.sub 1 0) g).bind fun g =>
  (repair env ctx (ω.sub 3) ch.fuel (ω.sub 2 0) g).map updateBest

/-- `self.split.run(ctx, &mut self.child, max_routes)`. -/
def runSplit (env : GAEnv α) (ctx : Ctx α) (maxRoutes : ℕ) (g : GA α) : Option (GA α) :=
  (Split.run env.rr.atan2 env.split (RR.ctxAt ctx g.rr.pen) env.lowerBound g.split g.child
    maxRoutes).map fun p => { g with split := p.1, child := p.2 }

/-- `log`, as far as it changes the state or can panic; models
`/repo/src/solver/genetic/genetic.rs:209-243` (`iterations - best_iteration` below zero is an overflow). -/
def log (env : GAEnv α) (g : GA α) : Option (GA α) :=
  if g.bestIteration ≤ g.iterations then
    (g.pop.feasible.getDiversity env.pop).bind fun _ =>
    (g.pop.infeasible.getDiversity env.pop).map fun _ =>
      { g with nextLog := g.nextLog + env.logInterval }
  else none

/-- `reset`; models `/repo/src/solver/genetic/genetic.rs:266-277`. -/
def reset (env : GAEnv α) (g : GA α) : GA α :=
  { g with
    pop := Population.new env.pop
    nextPenaltyUpdate := g.iterations
    nextLog := g.iterations
    currentBest := inf
    bestIteration := g.iterations
    numInitialized := 0
    state := .created }

/-- `create_initial_individual`: the educated individual and the state, in which the child is the old
one; models `/repo/src/solver/genetic/genetic.rs:289-297`. -/
def createInitial (env : GAEnv α) (ctx : Ctx α) (ch : GAChoice α) (g : GA α) :
    Option (Individual α × GA α) :=
  (runSplit env ctx env.split.numVehicles
    { g with child := Individual.newRandom ctx env.split.numVehicles (ch.ω.sub 0) g.numInitialized }).bind
    fun g' => (educate env ctx ch (ch.ω.sub 1) g').map fun g' => (g'.child, { g' with child := g.child })

/-- `add_initial`; models `/repo/src/solver/genetic/genetic.rs:279-287`. -/
def addInitial (env : GAEnv α) (x : Individual α) (g : GA α) : Option (GA α) :=
  (addToPop env x false g).map fun g => updateBest { g with child := x }

/-- `setup_mutation`; models `/repo/src/solver/improvement/ruin_recreate/mod.rs:166-171`. -/
def setupMutation (env : GAEnv α) (rr : RR α) : RR α :=
  { rr with
    acceptance := .iteration (IterSchedule.new env.rrStartTemp env.rrIterations)
    updatePenalty := false }

/-- `setup_elite_education`; models `/repo/src/solver/improvement/ruin_recreate/mod.rs:147-160`. Simplification:
`Duration::from_secs_f64` (`:151`) panics on a negative, infinite or NaN duration and rounds to nanoseconds;
here every duration is taken as it is. -/
def setupElite (env : GAEnv α) (now : α) (rr : RR α) : RR α :=
  { rr with
    acceptance := if env.eliteTimeBased then .time (TimeSchedule.new now env.eliteTemp env.eliteDuration)
      else .iteration (IterSchedule.new env.eliteTemp env.eliteIterations)
    updatePenalty := true }

/-- The branch `State::Created`; models `/repo/src/solver/genetic/genetic.rs:306-321`. -/
def stepCreated (env : GAEnv α) (ctx : Ctx α) (ch : GAChoice α) (g : GA α) : Option (GA α) :=
  if env.eliteEducation && decide (env.eliteLimit < ctx.n - 1) then
    (runSplit env ctx env.split.numVehicles { g with state := .elite }).bind fun g =>
    (educate env ctx ch ch.ω g).bind fun g =>
    (RR.load ctx (ch.clock 2) g.child (setupElite env (ch.clock 1) g.rr)).map fun rr =>
      { g with rr := rr }
  else some { g with state := .init }

/-- The branch `State::EliteEducation`; models `/repo/src/solver/genetic/genetic.rs:322-335`. -/
def stepElite (env : GAEnv α) (ctx : Ctx α) (ch : GAChoice α) (g : GA α) : Option (GA α) :=
  if g.rr.acceptance.completed then
    (RR.getBest env.rr ctx g.rr g.child).bind fun x =>
    (addToPop env x false (updateBest { g with state := .init, child := x })).bind fun g =>
      log env { g with rr := { setupMutation env g.rr with pen := env.initialPen } }
  else (RR.search env.rr ctx (ch.rr 0) g.rr).map fun rr => { g with rr := rr }

/-- The branch `State::Initialization`; models `/repo/src/solver/genetic/genetic.rs:336-345`. -/
def stepInit (env : GAEnv α) (ctx : Ctx α) (ch : GAChoice α) (g : GA α) : Option (GA α) :=
  if g.numInitialized < env.initialIndividuals then
    (createInitial env ctx ch g).bind fun p =>
    (addToPop env p.1 true p.2).map fun g => { g with numInitialized := g.numInitialized + 1 }
  else some { g with state := .cycle }

/-- A new child from two parents, split and educated; models
`/repo/src/solver/genetic/genetic.rs:350-359`. -/
def breed (env : GAEnv α) (ctx : Ctx α) (ch : GAChoice α) (g : GA α) : Option (GA α) :=
  (g.pop.parent env.pop (ch.ω.sub 0)).bind fun p1 =>
  (g.pop.parent env.pop (ch.ω.sub 1)).bind fun p2 =>
  (crossover (ch.ω.sub 2) ch.fuel p1.genotype p2.genotype).bind fun genotype =>
  (runSplit env ctx p1.numNonemptyRoutes
    { g with child := Individual.new genotype g.pop.total }).bind fun g =>
  educate env ctx ch (ch.ω.sub 3) g

/-- The end of a cycle: penalty update, log and restart; models
`/repo/src/solver/genetic/genetic.rs:365-383`. -/
def finishCycle (env : GAEnv α) (ctx : Ctx α) (g : GA α) : Option (GA α) :=
  (if g.nextPenaltyUpdate ≤ g.iterations then updatePenalty env ctx g else some g).bind fun g =>
  (if g.nextLog ≤ g.iterations then log env g else some g).bind fun g =>
  if g.bestIteration ≤ g.iterations then
    let g := if env.maxStagnation < g.iterations - g.bestIteration then reset env g else g
    some { g with iterations := g.iterations + 1 }
  else none

/-- The branch `State::Cycle`; models `/repo/src/solver/genetic/genetic.rs:346-384`. -/
def stepCycle (env : GAEnv α) (ctx : Ctx α) (ch : GAChoice α) (g : GA α) : Option (GA α) :=
  (breed env ctx ch { g with ctxIteration := g.ctxIteration + 1 }).bind fun g =>
  (addToPop env g.child true g).bind (finishCycle env ctx)

/-- `iterate`; models `/repo/src/solver/genetic/genetic.rs:301-387`. -/
def iterate (env : GAEnv α) (ctx : Ctx α) (ch : GAChoice α) (g : GA α) : Option (GA α) :=
  if terminateNow env.timeLimit env.maxIterations ch.elapsed g.ctxIteration then
    some { g with state := .terminated }
  else
    match g.state with
    | .created => stepCreated env ctx ch g
    | .elite => stepElite env ctx ch g
    | .init => stepInit env ctx ch g
    | .cycle => stepCycle env ctx ch g
    | .terminated => some g

/-- `Solver::run` for as many `iterate` calls as choices are given; models
`/repo/src/solver/solver.rs:24-29` and `terminated` (`/repo/src/solver/genetic/genetic.rs:388-390`). -/
def steps (env : GAEnv α) (ctx : Ctx α) : List (GAChoice α) → GA α → Option (GA α)
  | [], g => some g
  | ch :: chs, g =>
    if g.state = .terminated then some g else (iterate env ctx ch g).bind (steps env ctx chs)

end GA
end Verif
