import Verif.Model.Program

/-!
# Starting the program

Models `/repo/src/main.rs:22-52` from the configuration file and the command line on: `Config::default`,
`Config::load_yaml_file`, `Config::update_from_args` and the fields of `Config` that the program reads. Reading
YAML text is left out: the argument is the mapping it holds. That the file `config.yml` exists is assumed.
-/

namespace Verif
open F64

variable {α : Type} [F64 α]

/-- A YAML value as far as it can be the value of a field; `other` is any other value. -/
inductive Yaml (α : Type) where
  | null
  | bool (b : Bool)
  | int (z : ℤ)
  | real (x : α)
  | str (s : String)
  | other

/-- The types of the fields: `u64` and `usize`, `f64`, `bool`, `Option<u64>`, `String`, `Option<String>`. -/
inductive FieldKind where
  | nat
  | real
  | flag
  | optNat
  | text
  | optText
deriving DecidableEq

/-- The fields of `Config` and their types, in order; models `/repo/src/config.rs:13-84`. -/
def fieldKinds : List (String × FieldKind) :=
  [("instance_path", .text), ("solution_path", .optText), ("time_limit", .nat), ("bks", .real),
   ("max_iterations", .optNat), ("max_iterations_without_improvement", .nat), ("num_vehicles", .nat),
   ("log_interval", .nat), ("precompute_distance_size_limit", .nat), ("round_distances", .flag),
   ("decompose_limit", .nat), ("decomposed_problem_min_size", .nat), ("deterministic", .flag), ("seed", .nat),
   ("min_population_size", .nat), ("initial_individuals", .nat), ("population_lambda", .nat),
   ("num_elites", .nat), ("num_diversity_closest", .nat), ("feasibility_proportion_target", .real),
   ("tournament_size", .nat), ("repair_probability", .real), ("split_capacity_factor", .real),
   ("linear_split", .flag), ("local_search_granularity", .nat), ("dynamic_granularity", .flag),
   ("granularity_min", .nat), ("ls_enabled", .flag), ("relocate_single", .flag), ("relocate_double", .flag),
   ("relocate_double_reverse", .flag), ("swap_one_with_one", .flag), ("swap_two_with_one", .flag),
   ("swap_two_with_two", .flag), ("two_opt_intra_reverse", .flag), ("two_opt_inter_reverse", .flag),
   ("two_opt_inter", .flag), ("swap_star", .flag), ("penalty_capacity", .real),
   ("penalty_update_interval", .nat), ("penalty_inc_multiplier", .real), ("penalty_dec_multiplier", .real),
   ("average_ruin_cardinality", .nat), ("max_ruin_string_length", .nat), ("rr_mutation", .flag),
   ("rr_probability", .real), ("rr_gamma", .real), ("rr_final_temp", .real), ("rr_start_temp", .real),
   ("rr_diversify", .flag), ("elite_education", .flag), ("elite_education_problem_size_limit", .nat),
   ("elite_education_gamma", .real), ("elite_education_final_temp", .real),
   ("elite_education_start_temp", .real), ("elite_education_time_based", .flag),
   ("elite_education_time_fraction", .real)]

/-- serde's conversion of a value to a field: integers are accepted as `f64`, nothing else is converted (library;
used at `/repo/src/config.rs:210`). -/
def convert : FieldKind → Yaml α → Option (Yaml α)
  | .nat, .int z => if 0 ≤ z ∧ z < 2 ^ 64 then some (.int z) else none
  | .optNat, .null => some .null
  | .optNat, .int z => if 0 ≤ z ∧ z < 2 ^ 64 then some (.int z) else none
  | .real, .int z => some (.real (lit z))
  | .real, .real x => some (.real x)
  | .flag, .bool b => some (.bool b)
  | .text, .str s => some (.str s)
  | .optText, .null => some .null
  | .optText, .str s => some (.str s)
  | _, _ => none

/-- The conversion of the value of a field. -/
def convertField (key : String) (v : Yaml α) : Option (Yaml α) := (fieldKinds.lookup key).bind fun k => convert k v

/-- `Config::default`; models `/repo/src/config.rs:89-167`. -/
def defaultConfig : Mapping (Yaml α) :=
  [("instance_path", .str ""), ("solution_path", .null), ("time_limit", .int 60), ("bks", .real inf),
   ("max_iterations", .null), ("max_iterations_without_improvement", .int 20000), ("num_vehicles", .int 1000000),
   ("log_interval", .int 100), ("precompute_distance_size_limit", .int 2000), ("round_distances", .bool true),
   ("decompose_limit", .int 3000), ("decomposed_problem_min_size", .int 200), ("deterministic", .bool false),
   ("seed", .int 1), ("min_population_size", .int 25), ("initial_individuals", .int 100),
   ("population_lambda", .int 40), ("num_elites", .int 4), ("num_diversity_closest", .int 5),
   ("feasibility_proportion_target", .real (lit 0.2)), ("tournament_size", .int 2),
   ("repair_probability", .real (lit 0.5)), ("split_capacity_factor", .real (lit 1.5)),
   ("linear_split", .bool true), ("local_search_granularity", .int 20), ("dynamic_granularity", .bool false),
   ("granularity_min", .int 10), ("ls_enabled", .bool true), ("relocate_single", .bool true),
   ("relocate_double", .bool true), ("relocate_double_reverse", .bool false), ("swap_one_with_one", .bool true),
   ("swap_two_with_one", .bool true), ("swap_two_with_two", .bool true), ("two_opt_intra_reverse", .bool true),
   ("two_opt_inter_reverse", .bool true), ("two_opt_inter", .bool true), ("swap_star", .bool true),
   ("penalty_capacity", .real (lit 100)), ("penalty_update_interval", .int 10),
   ("penalty_inc_multiplier", .real (lit 1.2)), ("penalty_dec_multiplier", .real (lit 0.85)),
   ("average_ruin_cardinality", .int 10), ("max_ruin_string_length", .int 10), ("rr_mutation", .bool true),
   ("rr_probability", .real (lit 1)), ("rr_gamma", .real (lit 1)), ("rr_final_temp", .real (lit 1)),
   ("rr_start_temp", .real (lit 10)), ("rr_diversify", .bool true), ("elite_education", .bool false),
   ("elite_education_problem_size_limit", .int 1), ("elite_education_gamma", .real (lit 1000)),
   ("elite_education_final_temp", .real (lit 1)), ("elite_education_start_temp", .real (lit 50)),
   ("elite_education_time_based", .bool false), ("elite_education_time_fraction", .real (lit 0.02))]

/-- The shipped configuration file; models `/repo/config.yml:1-94`. -/
def shippedYml : Mapping (Yaml α) :=
  [("time_limit", .int 600), ("deterministic", .bool false), ("seed", .int 1),
   ("max_iterations_without_improvement", .int 20000), ("precompute_distance_size_limit", .int 3000),
   ("round_distances", .bool true), ("decompose_limit", .int 3000), ("decomposed_problem_min_size", .int 150),
   ("min_population_size", .int 25), ("initial_individuals", .int 100), ("population_lambda", .int 40),
   ("local_search_granularity", .int 20), ("feasibility_proportion_target", .real (lit 0.2)),
   ("num_diversity_closest", .int 5), ("num_elites", .int 4), ("elite_education", .bool true),
   ("rr_mutation", .bool true), ("average_ruin_cardinality", .int 10), ("max_ruin_string_length", .int 10),
   ("ruin_alpha", .real (lit 0.01)), ("blink_probability", .real (lit 0.01)), ("rr_final_temp", .int 1),
   ("elite_education_final_temp", .int 1), ("rr_start_temp", .int 10), ("elite_education_start_temp", .int 50),
   ("rr_gamma", .real (lit 1)), ("elite_education_gamma", .real (lit 1000)),
   ("elite_education_problem_size_limit", .int 500), ("elite_education_time_based", .bool false),
   ("elite_education_time_fraction", .real (lit 0.05))]

/-- The field of a configuration. -/
def Mapping.get {V : Type} (m : Mapping V) (key : String) : Option V := m.lookup key

/-- A field of type `u64` or `usize`. -/
def Mapping.nat (m : Mapping (Yaml α)) (key : String) : Option ℕ :=
  (Mapping.get m key).bind fun | .int z => some z.toNat | _ => none

/-- A field of type `f64`. -/
def Mapping.real (m : Mapping (Yaml α)) (key : String) : Option α :=
  (Mapping.get m key).bind fun | .real x => some x | _ => none

/-- A field of type `bool`. -/
def Mapping.flag (m : Mapping (Yaml α)) (key : String) : Option Bool :=
  (Mapping.get m key).bind fun | .bool b => some b | _ => none

/-- A field of type `Option<u64>`. -/
def Mapping.optNat (m : Mapping (Yaml α)) (key : String) : Option (Option ℕ) :=
  (Mapping.get m key).bind fun | .int z => some (some z.toNat) | .null => some none | _ => none

/-- A field of type `String`. -/
def Mapping.text (m : Mapping (Yaml α)) (key : String) : Option String :=
  (Mapping.get m key).bind fun | .str s => some s | _ => none

/-- A field of type `Option<String>`. -/
def Mapping.optText (m : Mapping (Yaml α)) (key : String) : Option (Option String) :=
  (Mapping.get m key).bind fun | .str s => some (some s) | .null => some none | _ => none

/-- The fields that the command line touches, and the whole configuration (`/repo/src/config.rs:13-84`). -/
def cliFields (m : Mapping (Yaml α)) : Option (CliConfig (Mapping (Yaml α))) := do
  some ⟨← Mapping.text m "instance_path", ← Mapping.optText m "solution_path", ← Mapping.nat m "time_limit",
    ← Mapping.optNat m "max_iterations", ← Mapping.nat m "max_iterations_without_improvement",
    ← Mapping.flag m "round_distances", m⟩

/-- The switches of the moves (`/repo/src/config.rs:53-63`). -/
def moveFlags (m : Mapping (Yaml α)) : Option MoveFlags := do
  some ⟨← Mapping.flag m "relocate_single", ← Mapping.flag m "relocate_double",
    ← Mapping.flag m "relocate_double_reverse", ← Mapping.flag m "swap_one_with_one",
    ← Mapping.flag m "swap_two_with_one", ← Mapping.flag m "swap_two_with_two",
    ← Mapping.flag m "two_opt_intra_reverse", ← Mapping.flag m "two_opt_inter_reverse",
    ← Mapping.flag m "two_opt_inter", ← Mapping.flag m "swap_star"⟩

/-- The settings the program reads (`/repo/src/config.rs:13-84`); `none` cannot happen after deserialisation. -/
def settingsOf (c : CliConfig (Mapping (Yaml α))) : Option (Settings α) := do
  let m := c.rest
  some
    { hasPath := c.solutionPath.isSome
      timeLimit := c.timeLimit
      maxIterations := c.maxIterations
      maxStagnation := c.maxIterationsWithoutImprovement
      logInterval := ← Mapping.nat m "log_interval"
      precomputeLimit := ← Mapping.nat m "precompute_distance_size_limit"
      rounded := c.roundDistances
      decomposeLimit := ← Mapping.nat m "decompose_limit"
      decomposedSize := ← Mapping.nat m "decomposed_problem_min_size"
      pop := ⟨← Mapping.nat m "min_population_size", ← Mapping.nat m "population_lambda",
        ← Mapping.nat m "num_elites", ← Mapping.nat m "num_diversity_closest", ← Mapping.nat m "tournament_size"⟩
      initialIndividuals := ← Mapping.nat m "initial_individuals"
      target := ← Mapping.real m "feasibility_proportion_target"
      repairProbability := ← Mapping.real m "repair_probability"
      splitFactor := ← Mapping.real m "split_capacity_factor"
      linearSplit := ← Mapping.flag m "linear_split"
      granularity := ← Mapping.nat m "local_search_granularity"
      lsEnabled := ← Mapping.flag m "ls_enabled"
      moves := ← moveFlags m
      penaltyInterval := ← Mapping.nat m "penalty_update_interval"
      incMultiplier := ← Mapping.real m "penalty_inc_multiplier"
      decMultiplier := ← Mapping.real m "penalty_dec_multiplier"
      cavg := ← Mapping.nat m "average_ruin_cardinality"
      lmax := ← Mapping.nat m "max_ruin_string_length"
      rrMutation := ← Mapping.flag m "rr_mutation"
      rrProbability := ← Mapping.real m "rr_probability"
      rrGamma := ← Mapping.real m "rr_gamma"
      rrStartTemp := ← Mapping.real m "rr_start_temp"
      eliteEducation := ← Mapping.flag m "elite_education"
      eliteLimit := ← Mapping.nat m "elite_education_problem_size_limit"
      eliteGamma := ← Mapping.real m "elite_education_gamma"
      eliteTemp := ← Mapping.real m "elite_education_start_temp"
      eliteTimeBased := ← Mapping.flag m "elite_education_time_based"
      eliteFraction := ← Mapping.real m "elite_education_time_fraction" }

namespace Program

/-- The settings after the configuration file and the command line were read; models `/repo/src/main.rs:22-28`. -/
def configure (yml : Mapping (Yaml α)) (cl : CommandLine) : Option (Settings α) :=
  (configUpdate convertField defaultConfig yml).bind fun m =>
  (cliFields m).bind fun c =>
  (parseArgs cl).bind fun a => settingsOf (updateFromArgs c a)

/-- The program from the start: `yml` is the mapping in `config.yml`, `text` the contents of the instance file; the
result is the contents of the solution file (inner `none`: no path is set). Models `/repo/src/main.rs:10-54`. -/
def launch (lib : Lib α) (yml : Mapping (Yaml α)) (cl : CommandLine) (text : List Char) (ω : Oracle)
    (chs : List (GAChoice α)) (dchs : List (DGAChoice α)) : Option (Option (List Char)) :=
  (configure yml cl).bind fun cfg => main lib cfg text ω chs dchs

end Program
end Verif
