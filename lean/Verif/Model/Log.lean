import Verif.Model.Program

/-! # The log line of the genetic algorithm -/

namespace Verif
open F64

variable {α : Type} [F64 α]

/-- `get_average_cost`; models `/repo/src/solver/genetic/population.rs:133-150`. -/
def SubPop.averageCost (cfg : PopCfg) (s : SubPop α) : α :=
  let size := Nat.min s.pop.length cfg.minSize
  let total := (s.pop.take size).foldl (fun t x => t +. x.cost) (lit 0)
  if 0 < size then total /. lit size else lit (-1)

/-- `get_best_cost`; models `/repo/src/solver/genetic/population.rs:152-166`. -/
def SubPop.bestCost (s : SubPop α) : α :=
  match s.pop[0]? with
  | some x => x.cost
  | none => lit 0

/-- The numbers of one log line, in the order in which they are printed. Simplification: the elapsed time, the texts
between the numbers and the number of digits are left out. Models
`/repo/src/solver/genetic/genetic.rs:209-243`. -/
structure LogLine (α : Type) where
  iterations : ℕ
  sinceBest : ℕ
  feasSize : ℕ
  feasBest : α
  feasAverage : α
  infSize : ℕ
  infBest : α
  infAverage : α
  feasDiversity : α
  infDiversity : α
  fraction : α
  pen : α

/-- The log line that `log` writes, `none` if it panics; models `/repo/src/solver/genetic/genetic.rs:209-243` and
`history_fraction` (`/repo/src/solver/genetic/population.rs:420-423`). `ctx.problem.dim() - 1` is at least one, as
there is a customer. -/
def GA.logLine (env : GAEnv α) (ctx : Ctx α) (g : GA α) : Option (LogLine α) :=
  if g.bestIteration ≤ g.iterations then
    (g.pop.feasible.getDiversity env.pop).bind fun df =>
    (g.pop.infeasible.getDiversity env.pop).map fun di =>
      { iterations := g.iterations
        sinceBest := g.iterations - g.bestIteration
        feasSize := g.pop.feasible.pop.length
        feasBest := g.pop.feasible.bestCost
        feasAverage := g.pop.feasible.averageCost env.pop
        infSize := g.pop.infeasible.pop.length
        infBest := g.pop.infeasible.bestCost
        infAverage := g.pop.infeasible.averageCost env.pop
        feasDiversity := df /. lit (ctx.n - 1 : ℕ)
        infDiversity := di /. lit (ctx.n - 1 : ℕ)
        fraction := lit (g.pop.history.count true) /. lit g.pop.history.length
        pen := g.rr.pen }
  else none

/-- The line that a step in the state `Cycle` logs, if it logs one; `none` if it panics before or in `log`. Models
`/repo/src/solver/genetic/genetic.rs:346-376` (as `stepCycle` and `finishCycle`, up to the call of `log`). -/
def GA.cycleLog (env : GAEnv α) (ctx : Ctx α) (ch : GAChoice α) (g : GA α) : Option (Option (LogLine α)) :=
  (breed env ctx ch { g with ctxIteration := g.ctxIteration + 1 }).bind fun g =>
  (addToPop env g.child true g).bind fun g =>
  (if g.nextPenaltyUpdate ≤ g.iterations then updatePenalty env ctx g else some g).bind fun g =>
  if g.nextLog ≤ g.iterations then (logLine env ctx g).map some else some none

/-- The line that ends elite education; models `/repo/src/solver/genetic/genetic.rs:325-334`. -/
def GA.eliteLog (env : GAEnv α) (ctx : Ctx α) (g : GA α) : Option (Option (LogLine α)) :=
  if g.rr.acceptance.completed then
    (RR.getBest env.rr ctx g.rr g.child).bind fun x =>
    (addToPop env x false (updateBest { g with state := .init, child := x })).bind fun g =>
      (logLine env ctx { g with rr := { setupMutation env g.rr with pen := env.initialPen } }).map some
  else some none

/-- The line that one call of `iterate` logs, if any; models `/repo/src/solver/genetic/genetic.rs:301-387`. -/
def GA.stepLog (env : GAEnv α) (ctx : Ctx α) (ch : GAChoice α) (g : GA α) : Option (Option (LogLine α)) :=
  if terminateNow env.timeLimit env.maxIterations ch.elapsed g.ctxIteration then some none
  else
    match g.state with
    | .elite => eliteLog env ctx g
    | .cycle => cycleLog env ctx ch g
    | _ => some none

/-- All lines of a run, from the first to the last; models `/repo/src/solver/solver.rs:24-29`. -/
def GA.lines (env : GAEnv α) (ctx : Ctx α) : List (GAChoice α) → GA α → Option (List (LogLine α))
  | [], _ => some []
  | ch :: chs, g =>
    if g.state = .terminated then some []
    else
      (stepLog env ctx ch g).bind fun line =>
      (iterate env ctx ch g).bind fun g =>
      (lines env ctx chs g).map fun ls => line.toList ++ ls

/-- The log lines of the program on an instance that is not decomposed; models `/repo/src/main.rs:10-54` as
`Program.main` and `Program.solve` do. -/
def Program.lines (lib : Lib α) (cfg : Settings α) (text : List Char) (ω : Oracle) (chs : List (GAChoice α)) :
    Option (List (LogLine α)) :=
  (parseInstance lib.num text).bind fun p =>
  (matrices lib cfg p).bind fun m =>
  if cfg.decomposeLimit ≤ (context lib p m.1).n - 1 then none
  else GA.lines (gaEnv lib cfg (context lib p m.1) m.1 m.2) (context lib p m.1) chs
    (GA.new (gaEnv lib cfg (context lib p m.1) m.1 m.2) (context lib p m.1) ω)

end Verif
