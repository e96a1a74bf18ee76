import Verif.Model.Launch
import Verif.Props.Config

/-!
# Specification vocabulary for the settings of a run

What the user asked for: the command line, then `config.yml`, then the default.
-/

namespace Verif.Spec
open F64

variable {α : Type} [F64 α]

/-- The value asked for: the one in `config.yml`, or else the default. -/
def asked (yml : Mapping (Yaml α)) (key : String) : Option (Yaml α) := (valueOf yml key).or (valueOf defaultConfig key)

/-- The whole-number settings and their keys. -/
def natSettings : List (String × (Settings α → ℕ)) :=
  [("log_interval", Settings.logInterval), ("precompute_distance_size_limit", Settings.precomputeLimit),
   ("decompose_limit", Settings.decomposeLimit), ("decomposed_problem_min_size", Settings.decomposedSize),
   ("min_population_size", fun c => c.pop.minSize), ("population_lambda", fun c => c.pop.lambda),
   ("num_elites", fun c => c.pop.numElites), ("num_diversity_closest", fun c => c.pop.numClosest),
   ("tournament_size", fun c => c.pop.tournamentSize), ("initial_individuals", Settings.initialIndividuals),
   ("local_search_granularity", Settings.granularity), ("penalty_update_interval", Settings.penaltyInterval),
   ("average_ruin_cardinality", Settings.cavg), ("max_ruin_string_length", Settings.lmax),
   ("elite_education_problem_size_limit", Settings.eliteLimit)]

/-- The real settings and their keys. -/
def realSettings : List (String × (Settings α → α)) :=
  [("feasibility_proportion_target", Settings.target), ("repair_probability", Settings.repairProbability),
   ("split_capacity_factor", Settings.splitFactor), ("penalty_inc_multiplier", Settings.incMultiplier),
   ("penalty_dec_multiplier", Settings.decMultiplier), ("rr_probability", Settings.rrProbability),
   ("rr_gamma", Settings.rrGamma), ("rr_start_temp", Settings.rrStartTemp),
   ("elite_education_gamma", Settings.eliteGamma), ("elite_education_start_temp", Settings.eliteTemp),
   ("elite_education_time_fraction", Settings.eliteFraction)]

/-- The switches and their keys. -/
def flagSettings : List (String × (Settings α → Bool)) :=
  [("linear_split", Settings.linearSplit), ("ls_enabled", Settings.lsEnabled), ("rr_mutation", Settings.rrMutation),
   ("elite_education", Settings.eliteEducation), ("elite_education_time_based", Settings.eliteTimeBased),
   ("relocate_single", fun c => c.moves.relocateSingle), ("relocate_double", fun c => c.moves.relocateDouble),
   ("relocate_double_reverse", fun c => c.moves.relocateDoubleReverse),
   ("swap_one_with_one", fun c => c.moves.swapOneWithOne), ("swap_two_with_one", fun c => c.moves.swapTwoWithOne),
   ("swap_two_with_two", fun c => c.moves.swapTwoWithTwo),
   ("two_opt_intra_reverse", fun c => c.moves.twoOptIntraReverse),
   ("two_opt_inter_reverse", fun c => c.moves.twoOptInterReverse), ("two_opt_inter", fun c => c.moves.twoOptInter),
   ("swap_star", fun c => c.moves.swapStar)]

/-- The settings are those asked for. -/
structure AsAsked (yml : Mapping (Yaml α)) (cl : CommandLine) (cfg : Settings α) : Prop where
  nats : ∀ p ∈ natSettings, asked yml p.1 = some (.int (p.2 cfg))
  reals : ∀ p ∈ realSettings, asked yml p.1 = some (.real (p.2 cfg)) ∨
    ∃ z : ℤ, asked yml p.1 = some (.int z) ∧ p.2 cfg = lit z
  flags : ∀ p ∈ flagSettings, asked yml p.1 = some (.bool (p.2 cfg))
  iterations : asked yml "max_iterations" = some ((cfg.maxIterations.map fun k : ℕ => Yaml.int k).getD .null)
  /-- `-i` limits the iterations without improvement. -/
  stagnation : match cl.i with
    | none => asked yml "max_iterations_without_improvement" = some (.int cfg.maxStagnation)
    | some w => parseUsize w.toList = some cfg.maxStagnation
  /-- `-t`, by default 10: `config.yml` has no say. -/
  time : parseUsize (cl.t.getD "10").toList = some cfg.timeLimit
  /-- There is always a solution file. -/
  path : cfg.hasPath = true
  /-- Distances are always rounded, whatever `-r` and `config.yml` say. -/
  rounding : cfg.rounded = true

end Verif.Spec
