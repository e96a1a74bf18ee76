import Verif.Model.Program

/-!
# What the `dimacs` build prints

With the feature `dimacs` every solution that is recorded is printed at once. The lines that decomposition
prints in between (`/repo/src/solver/genetic/decomposition.rs:84-98,136,150`, not controlled by the
feature) are left out.
-/

namespace Verif
open F64

variable {α : Type} [F64 α]

/-- The texts printed by `add`, one for everything recorded, each with the line end of `println!`; models
`/repo/src/solver/history.rs:28-45,106-111`. The histories of subproblems print nothing
(`/repo/src/solver/context.rs:102-104`), so this is taken of the history of the run only. -/
def History.printed (h : History α) : List (List Char) :=
  h.log.map fun e => renderSolution e.routes e.cost ++ ['\n']

namespace Program

/-- The search history after the listed calls of `iterate`, whether the run is over or not; models
`/repo/src/main.rs:35-52` and `/repo/src/solver/solver.rs:24-29` like `solve`. -/
def progress (lib : Lib α) (cfg : Settings α) (ctx : Ctx α) (d : DistMatrix α) (c : Correlation) (ω : Oracle)
    (chs : List (GAChoice α)) (dchs : List (DGAChoice α)) : Option (History α) :=
  if cfg.decomposeLimit ≤ ctx.n - 1 then
    (DGA.steps (decompEnv lib cfg ctx d c) ctx dchs (DGA.new (decompEnv lib cfg ctx d c) ctx ω)).map
      fun s => s.ga.rr.hist
  else
    (GA.steps (gaEnv lib cfg ctx d c) ctx chs (GA.new (gaEnv lib cfg ctx d c) ctx ω)).map fun g => g.rr.hist

/-- The solutions the `dimacs` build has printed after the listed calls of `iterate`; models
`/repo/src/main.rs:10-52`. -/
def output (lib : Lib α) (cfg : Settings α) (text : List Char) (ω : Oracle) (chs : List (GAChoice α))
    (dchs : List (DGAChoice α)) : Option (List (List Char)) :=
  (parseInstance lib.num text).bind fun p =>
  (matrices lib cfg p).bind fun m =>
  (progress lib cfg (context lib p m.1) m.1 m.2 ω chs dchs).map History.printed

end Program
end Verif
