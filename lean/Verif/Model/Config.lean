import Verif.Model.Parser

/-!
# Configuration and command line (`config.rs`, `cli.rs`)

A configuration is seen through its serialised form: a mapping from the 57 field names to YAML
values. The type `V` of YAML values and serde's conversion of one field (`fieldOf key v`: the stored
value of field `key` read from `v`, `none` when the value has the wrong type) are parameters.
-/

namespace Verif

/-- The field names of `Config`, in declaration order (`/repo/src/config.rs:13-84`). -/
def configKeys : List String :=
  ["instance_path", "solution_path", "time_limit", "bks", "max_iterations",
   "max_iterations_without_improvement", "num_vehicles", "log_interval",
   "precompute_distance_size_limit", "round_distances", "decompose_limit",
   "decomposed_problem_min_size", "deterministic", "seed", "min_population_size",
   "initial_individuals", "population_lambda", "num_elites", "num_diversity_closest",
   "feasibility_proportion_target", "tournament_size", "repair_probability", "split_capacity_factor",
   "linear_split", "local_search_granularity", "dynamic_granularity", "granularity_min", "ls_enabled",
   "relocate_single", "relocate_double", "relocate_double_reverse", "swap_one_with_one",
   "swap_two_with_one", "swap_two_with_two", "two_opt_intra_reverse", "two_opt_inter_reverse",
   "two_opt_inter", "swap_star", "penalty_capacity", "penalty_update_interval",
   "penalty_inc_multiplier", "penalty_dec_multiplier", "average_ruin_cardinality",
   "max_ruin_string_length", "rr_mutation", "rr_probability", "rr_gamma", "rr_final_temp",
   "rr_start_temp", "rr_diversify", "elite_education", "elite_education_problem_size_limit",
   "elite_education_gamma", "elite_education_final_temp", "elite_education_start_temp",
   "elite_education_time_based", "elite_education_time_fraction"]

/-- A mapping as an association list (serde_yaml's `Mapping`: unique keys, insertion order). -/
abbrev Mapping (V : Type) := List (String × V)

/-- `config.get_mut(key)` followed by the assignment; nothing happens for an absent key.
Models `/repo/src/config.rs:202-204`. -/
def assignKey {V : Type} (m : Mapping V) (key : String) (v : V) : Mapping V :=
  m.map fun p => if p.1 = key then (p.1, v) else p

/-- `serde_yaml::from_value` on the patched mapping: every field is converted, any failure panics;
models `/repo/src/config.rs:210`. -/
def deserialize {V : Type} (fieldOf : String → V → Option V) (m : Mapping V) : Option (Mapping V) :=
  m.mapM fun p => (fieldOf p.1 p.2).map fun v => (p.1, v)

/-- `Config::update` with a YAML mapping; models `/repo/src/config.rs:196-211` (keys that are not
strings are never known keys and are left out; `values` that are not a mapping panic). -/
def configUpdate {V : Type} (fieldOf : String → V → Option V) (config : Mapping V) (values : Mapping V) :
    Option (Mapping V) :=
  deserialize fieldOf (values.foldl (fun c p => assignKey c p.1 p.2) config)

/-- The options a user typed (`none` = not given). -/
structure CommandLine where
  instancePath : String
  o : Option String
  i : Option String
  t : Option String
  r : Option String

/-- `Args` (`/repo/src/cli.rs:4-10`). -/
structure Args where
  instancePath : String
  solutionPath : Option String
  timeLimit : Option ℕ
  maxIterations : Option ℕ
  rounded : Bool

/-- `matches.value_of("iterations").map(parse)`: there is no default; models
`/repo/src/cli.rs:60-62`. -/
def parseIterations : Option String → Option (Option ℕ)
  | none => some none
  | some w => (parseUsize w.toList).map some

/-- `Args::parse`: clap fills options with a `default_value` when they are absent, and `is_present`
is then true as well (documented clap 2 behaviour). An unparsable number panics.
Models `/repo/src/cli.rs:14-77`. -/
def parseArgs (cl : CommandLine) : Option Args :=
  (parseIterations cl.i).bind fun maxIterations =>
  (parseUsize (cl.t.getD "10").toList).map fun timeLimit =>
    ⟨cl.instancePath, some (cl.o.getD "output.sol"), some timeLimit, maxIterations,
      (some (cl.r.getD "true")).isSome⟩

/-- The fields of `Config` touched by the command line, and all the others. -/
structure CliConfig (R : Type) where
  instancePath : String
  solutionPath : Option String
  timeLimit : ℕ
  maxIterations : Option ℕ
  maxIterationsWithoutImprovement : ℕ
  roundDistances : Bool
  rest : R

/-- `Config::update_from_args`; models `/repo/src/config.rs:214-224`. -/
def updateFromArgs {R : Type} (c : CliConfig R) (a : Args) : CliConfig R :=
  let c := { c with instancePath := a.instancePath, solutionPath := a.solutionPath }
  let c := match a.maxIterations with
    | some m => { c with maxIterationsWithoutImprovement := m }
    | none => c
  let c := match a.timeLimit with
    | some t => { c with timeLimit := t }
    | none => c
  { c with roundDistances := a.rounded }

end Verif
