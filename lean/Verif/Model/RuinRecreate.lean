import Verif.Model.Ruin
import Verif.Model.Schedule
import Verif.Model.History

/-!
# The ruin-and-recreate search

Models `RuinRecreate` of `/repo/src/solver/improvement/ruin_recreate/mod.rs:120-292`.
-/

namespace Verif
open F64

variable {α : Type} [F64 α]

/-- The settings and external functions the search reads: `average_ruin_cardinality`,
`max_ruin_string_length`, the two penalty multipliers and `num_vehicles` of the configuration, the
neighbour lists, and the functions `atan2`, `exp`, `ln`. -/
structure RREnv (α : Type) where
  cavg : ℕ
  lmax : ℕ
  numVehicles : ℕ
  incMultiplier : α
  decMultiplier : α
  nbrs : ℕ → Option (List ℕ)
  atan2 : α → α → α
  exp : α → α
  ln : α → α

/-- The nondeterminism of one ruin-and-recreate round: random draws, iteration order of the hash set
and the clock reading. -/
structure RRChoice (α : Type) where
  ω : Oracle
  order : ℕ → List ℕ → List ℕ
  now : α

/-- `RuinRecreate` (`/repo/src/solver/improvement/ruin_recreate/mod.rs:120-129`), together with the two
shared cells it writes: the capacity penalty of the configuration and the search history. -/
structure RR (α : Type) where
  solution : RRSol α
  current : RRSol α
  best : Option (RRSol α)
  acceptance : Acceptance α
  updatePenalty : Bool
  pen : α
  hist : History α

namespace RR

/-- The context with the current penalty. -/
def ctxAt (ctx : Ctx α) (pen : α) : Ctx α := { ctx with pen := pen }

/-- `for (route_number, route) in routes { phenotype[route_number] = … }` (`none` = index panic);
models `/repo/src/solver/improvement/ruin_recreate/mod.rs:283-286`. -/
def overwrite (routes phenotype : List (List ℕ)) : Option (List (List ℕ)) :=
  if routes.length ≤ phenotype.length then some (routes ++ phenotype.drop routes.length) else none

/-- `update_individual`; models `/repo/src/solver/improvement/ruin_recreate/mod.rs:276-291`. -/
def updateIndividual (atan2 : α → α → α) (ctx : Ctx α) (s : RRSol α) (x : Individual α) :
    Option (Individual α) :=
  if s.unassigned.length = 0 then
    (overwrite (s.routes.map (·.nodes)) x.phenotype).bind fun ph =>
    (Individual.sortRoutes atan2 ctx
      { x with genotype := (s.routes.map (·.nodes)).flatten, phenotype := ph }).bind fun x =>
        x.evaluate ctx
  else none

/-- `load`; models `/repo/src/solver/improvement/ruin_recreate/mod.rs:173-186`. The current solution is
copied before the evaluation. -/
def load (ctx : Ctx α) (now : α) (x : Individual α) (st : RR α) : Option (RR α) :=
  (st.solution.load x).bind fun sol =>
  (sol.evaluate (ctxAt ctx st.pen) (List.range sol.routes.length)).map fun sol' =>
    { st with
      solution := sol'
      current := sol
      acceptance := st.acceptance.reset now
      best := some sol' }

/-- `update_best`; models `/repo/src/solver/improvement/ruin_recreate/mod.rs:192-207`. -/
def updateBest (env : RREnv α) (ctx : Ctx α) (ω : Oracle) (st : RR α) : Option (RR α) :=
  let st := { st with best := some st.current }
  if st.current.isFeasible && approxLt st.current.cost st.hist.bestCost then
    (updateIndividual env.atan2 (ctxAt ctx st.pen) st.current
      (Individual.newRandom ctx env.numVehicles ω 0)).map fun x =>
        { st with hist := st.hist.add x }
  else some st

/-- The test before `update_best`; models
`/repo/src/solver/improvement/ruin_recreate/mod.rs:242-248`. -/
def improvesBest (st : RR α) : Bool :=
  match st.best with
  | some b => approxLt st.current.cost b.cost
  | none => true

/-- One ruin-and-recreate round (without the penalty update); models
`/repo/src/solver/improvement/ruin_recreate/mod.rs:234-252`. -/
def round (env : RREnv α) (ctx : Ctx α) (ch : RRChoice α) (st : RR α) : Option (RR α) :=
  let costBefore := st.current.cost
  (st.current.ruin (ctxAt ctx st.pen) env.nbrs env.cavg env.lmax (ch.ω.sub 0)).bind fun cur =>
  (cur.recreate (ctxAt ctx st.pen) ch.order (ch.ω.sub 1)).bind fun cur =>
  let st := { st with current := cur }
  (if st.acceptance.accept env.ln (ch.ω.sub 2 0) cur.cost costBefore then
      (if st.improvesBest then updateBest env ctx (ch.ω.sub 3) st else some st).bind fun st =>
      (st.solution.copyFrom st.current).map fun sol => { st with solution := sol }
    else some st).bind fun st =>
  (st.current.copyFrom st.solution).map fun cur =>
    { st with current := cur, acceptance := st.acceptance.update env.exp ch.now }

/-- The penalty update at the last round of a search; models
`/repo/src/solver/improvement/ruin_recreate/mod.rs:213-232`. -/
def penaltyUpdate (env : RREnv α) (ctx : Ctx α) (st : RR α) : RR α :=
  if st.updatePenalty then
    let pen := if st.solution.isFeasible then st.pen *. env.decMultiplier
      else st.pen *. env.incMultiplier
    { st with
      pen := pen
      best := st.best.map (RRSol.reevaluate (ctxAt ctx pen))
      solution := st.solution.reevaluate (ctxAt ctx pen)
      current := st.current.reevaluate (ctxAt ctx pen) }
  else st

/-- The loop of `search`; `k` rounds are left, the last of them is the one with the penalty update.
Models `/repo/src/solver/improvement/ruin_recreate/mod.rs:211-256`. -/
def searchLoop (env : RREnv α) (ctx : Ctx α) (ch : ℕ → RRChoice α) : ℕ → RR α → Option (RR α)
  | 0, st => some st
  | k + 1, st =>
    (round env ctx (ch k) (if k = 0 then penaltyUpdate env ctx st else st)).bind fun st =>
      if st.acceptance.completed then some st else searchLoop env ctx ch k st

/-- `search`; models `/repo/src/solver/improvement/ruin_recreate/mod.rs:209-257`. -/
def search (env : RREnv α) (ctx : Ctx α) (ch : ℕ → RRChoice α) (st : RR α) : Option (RR α) :=
  searchLoop env ctx ch 1000 st

/-- `get_best_solution`; models `/repo/src/solver/improvement/ruin_recreate/mod.rs:263-267`. -/
def getBest (env : RREnv α) (ctx : Ctx α) (st : RR α) (x : Individual α) : Option (Individual α) :=
  match st.best with
  | some b => updateIndividual env.atan2 (ctxAt ctx st.pen) b x
  | none => some x

/-- `get_solution`; models `/repo/src/solver/improvement/ruin_recreate/mod.rs:259-261`. -/
def getSolution (env : RREnv α) (ctx : Ctx α) (st : RR α) (x : Individual α) : Option (Individual α) :=
  updateIndividual env.atan2 (ctxAt ctx st.pen) st.solution x

/-- `new` followed by nothing else; models `/repo/src/solver/improvement/ruin_recreate/mod.rs:132-145`
(`setup_mutation` included: `iterations` is `(rr_gamma * num_customers).round()`). -/
def new (ctx : Ctx α) (numVehicles : ℕ) (startTemp : α) (iterations : ℕ) (pen : α) (hist : History α) :
    RR α :=
  ⟨RRSol.new ctx numVehicles, RRSol.new ctx numVehicles, none,
    .iteration (IterSchedule.new startTemp iterations), false, pen, hist⟩

end RR
end Verif
