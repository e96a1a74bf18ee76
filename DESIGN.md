# Formal model of martsime/hybridcvrp in Lean 4

## Layout

* `properties.jsonl` – the properties (C01 …); generated by `tools/gen_properties.py`.
* `lean/Verif/Spec.lean` – the independent specification vocabulary (partition of the customers,
  length / load / penalized cost of a route, feasibility). It mentions no model definition.
  `SpecText.lean` (reading a solution text), `SpecInstance.lean` (instances and their text form),
  `SpecFile.lean` (a correct solution file), `SpecDouble.lean` (the same without tolerances), `SpecLS.lean` (what it means for the linked lists to hold given
  routes), `SpecMoves.lean` (what each
  move does to a list of routes) and `SpecSearch.lean` (what a usable neighbour table is) continue it.
* `lean/Verif/Model/*.lean` – the model, one file per Rust file (or group), each definition citing
  the lines of `/repo` it models.
* `lean/Verif/Lemmas/*.lean` – helper lemmas (`Population`, `PopInv`, `Nbrs`, `Fitness` carry the
  invariants of the population; `GeneticInv` the invariant of the whole genetic loop, `DecompRun` and
  `DecompSub` that of runs with decomposition).
* `lean/Verif/Props/*.lean` – the property theorems, with non-vacuity witnesses next to them.
* `MANIFEST.json` – property → theorem names; `seeded/LOG.jsonl` – mutation log.

## Trusted base

* Lean 4.33.0's kernel and the elaborator's translation of the statements.
* Axioms: at most `propext`, `Classical.choice`, `Quot.sound` (no own axioms, no `sorry`, no
  `native_decide`, no `bv_decide`). `vcheck` audits this.
* The hand translation Rust → Lean. It is line by line, but not mechanically checked.
* Mathlib as a library of checked definitions and lemmas.

## Modelling decisions

**Numbers.** The code computes with `f64`. The model is generic in a type `α` with the operations the
code uses (class `F64`, no laws). *Structural* theorems (nothing lost, no panic, sorted, …) are proved
for every `F64 α`, hence for any arithmetic at all, including IEEE with NaN and rounding. *Numeric*
theorems (exact deltas, optimality, monotone costs) are proved for the instance `F64 ℚ`: exact
arithmetic without rounding, with EPSILON = 1e-6 and the 1e30 / infinity sentinels kept. The gap
(rounding error of IEEE doubles) is not covered by these, and is named again in each note of
`MANIFEST.json`. *Double precision* theorems (C70–C74) are proved for the instance `F64 (Dbl ρ)` of
`Double.lean`: NaN, two infinities and finite numbers, every operation the exact result rounded by `ρ`, overflow
to infinity, saturating casts. `ρ` is any monotone, odd, idempotent rounding that keeps the representable
numbers; `nearestEven` is proved to be one. Simplifications: one zero instead of two; the finite numbers of
`Dbl ρ` are all rationals, a superset of the doubles, so the theorems cover more inputs than exist. The square
root is a parameter with the contract `SqrtOK` (same side of every double as the exact root), which the
correctly rounded root of the machine meets and `someSqrt` shows to be satisfiable. `Lemmas/Any*.lean` carry
the run invariants over to any arithmetic under a short list of laws, `Lemmas/Dbl*.lean` prove the laws. The cooling schedule uses `ℝ` because it needs `exp` and `ln`.

**Panics and undefined behaviour.** Index panics, `unwrap` on `None`, integer underflow and `assert!`
failures are `none` in `Option`; "never panics" is "returns `some`". Machine integers are `Nat`/`Int`;
wrap-around at 2^64 is not modelled (sizes are far below), subtraction underflow on `usize` is
modelled as a panic where it can occur.

**Randomness and clocks.** Every random draw is read from an arbitrary oracle stream; quantifying over
all streams covers all executions. Clock readings are arbitrary values (the elapsed fraction given to the
time schedule, the answer of the time-limit test). Iteration order of a hash set / hash map is an
arbitrary permutation.

**Library routines with a contract.** `binary_search_by` is a parameter `BSearch` that sees only the
answers of the comparator, constrained by `BSearchOK`: on a run of `Less` followed by no `Less` it
returns an index where insertion keeps the order. Both published std algorithms (before and after Rust
1.82) are modelled in `Model/BinarySearch.lean` and proved to meet it. The sort in `update_penalty`
is a parameter constrained to return a permutation (`SortPerm`) and, where order matters, a sorted one
(`SortOK`); `costSort` (`stableSort`) is proved to meet it. The sort of neighbour rows is likewise any
sorting routine.

**The whole loop.** `Model/Genetic.lean` ties the parts together: `GA.iterate` is one call of the solver's
`iterate`, with all nondeterminism of the call in a `GAChoice`. `GA.Reach` is the set of states of all
executions; `GA.Valid` lists what the run-level theorems ask of instance and configuration. The capacity
penalty and the search history are cells shared through the context; in the model they live in the
ruin-and-recreate state. `History.log` is a ghost list of everything ever recorded.

**Decomposition.** `Model/Decomposition.lean` models splitting, sub-run and writing back; `DGA.iterate` is
one `iterate` call of the decomposed solver. The sub-run is a whole `GA` run with its own environment
(`Decomp.subEnv`) on the sub-context `subCtx`, whose distances are read off the original ones;
`C46_sub_matrix` shows that the matrix copied by the code holds exactly these. A sub-run whose listed
choices end before it does is `none`.

**The program.** `Model/Program.lean` is `main`: parse, build matrices and context, choose the algorithm, run
until terminated, write the file. `Settings` are the options the code reads, `Lib` the library routines. A
list of choices that ends before the run does gives `none`. `SpecFile.lean` says what a correct file is.

**Starting.** `Model/Launch.lean` puts the configuration in front: the defaults of `config.rs`, the shipped
`config.yml` (`shippedYml`), serde's typing of the fields, the command line. The input is the mapping that the
YAML text holds. `SpecLaunch.lean` says which settings were asked for.

**Stable sort.** `sort_by` is `stableSort` (insertion sort, so that the kernel can evaluate runs);
`stableSort_eq` shows it is Lean's merge sort on every total preorder.

**Raw pointers.** `Matrix<T>` and the linked list are modelled as finite maps with explicit bounds
conditions (raw reads out of bounds are `none` in the matrix model; the linked list is a heap with
`succ`/`pred` pointers, `null` = `none`).

**Not modelled.** The text of log messages (the numbers of the genetic algorithm's log line are modelled in `Model/Log.lean`, C90), the wall clock (its readings are inputs; the run model takes the time for elite education as the product of limit and fraction,
which C94 compares with the code's `Duration` and its panics), terminal output other than the solutions printed with
the feature `dimacs` (C79; decomposition prints lines of its own between them, which are left out), the memory allocator (only the sizes it is asked for, C95), threads (there
are none), `src/wasm/mod.rs` (it does not type-check against the present crate: integer versus f64
fields, wrong constructor arity, an undefined constant), clap's and serde_yaml's own parsing of text, the
`fastrand` generator's distribution, IEEE rounding outside C01 (`Props/EvaluateDouble.lean`), C13 and the printed cost of C41 (`Props/CacheDouble.lean`), C17 and the largest demand of C37 (`Props/NearestDouble.lean`), C18 and C27 (`Props/ScheduleDouble.lean`, `Props/CoolingDouble.lean`), C20 (`Props/MaxDouble.lean`), C22 (`Props/RuinDouble.lean`), C23 (`Props/RecreateDouble.lean`; the recorded cost for whole penalties, `Props/RecreateCostDouble.lean`), C24 (`Props/InsertDouble.lean` where an open route has room, `Props/FallbackDouble.lean` where none has, there with the costs as the program rounds them), C35 (`Props/TournamentDouble.lean`), C44, C45 (`Props/FleetSufficesDouble.lean`), C53 (`Props/ComparisonDouble.lean`), C70–C74, C78, C84, C85, C87, C88, C90 (`Props/LogDouble.lean`), C92–C94, C96
(and the theorems stated for any arithmetic).

## Plan per property

| id | model | proof |
|----|-------|-------|
| C01 | `evaluate` loop over routes with accumulators | induction over routes; equality with `Spec` sums over any `α` that is a commutative ring or at ℚ |
| C02 | same loop, predecessor/successor arrays | induction with "written once" invariant |
| C03 | `sort_routes` as stable sort by the comparator | permutation lemma of `stableSort`; empties have angle sentinel |
| C04 | `split` linear/Bellman with deque and stale predecessor matrix | invariant pred[i] < i for arbitrary arithmetic |
| C05 | same, ℚ | Bellman induction; deque dominance for linear; all four variants (linear / Bellman, unlimited / limited) shown optimal among the consecutive splits they range over |
| C06 | `split_limited_fleet`, `run` | reachability of finite potentials, at ℚ |
| C07 | `crossover_ox` loop | loop invariant, count of used genes |
| C08 | heap with links, moves as link sequences | segment lemmas on list representation |
| C09 | delta formulas at ℚ | case split on relative positions |
| C10 | `search` loop with fuel and oracle | loop invariant (representation + cost) |
| C11 | same | potential: number of accepted moves ≤ cost / 1e-6 |
| C12 | swap_star | representation lemmas + cache invariant |
| C13 | `ThreeBestInserts::add` | induction over the sequence |
| C14, C15 | guards in `search` | unreachable-branch theorem: refutes the expectation |
| C16, C21 | raw matrix | index arithmetic; counterexample for small instances |
| C17 | correlation rows | sortedness/permutation of sort, take |
| C18–C20 | distance matrix builder | case analysis, induction |
| C22–C25 | ruin/recreate loops with oracle | loop invariants over ω |
| C26 | `load` then `search` | counterexample: the first reference cost is stale |
| C27, C28 | schedules over ℝ; acceptance also in `Dbl ρ` | monotonicity of exp; monotone rounding of the threshold; counterexamples for the time schedule and for draw 0 at temperature 0 |
| C29–C36 | population operations | invariants over operation sequences |
| C37 | penalty update, initial penalty | clamp bounds |
| C38–C40 | history, genetic loop | invariants over operation sequences; counterexample for C40 |
| C41 | Display to `String`, with a separate reader | round trip by induction |
| C42, C43, C55 | iterate state machine | invariant / counterexample on one customer |
| C44, C45 | fleet size arithmetic | ceil inequalities; explicit counterexample instance; C45 also in `Dbl ρ`, where the rounded 1.2 loses at most one vehicle and the exact proof leaves one spare |
| C46, C47 | decomposition mapping | round trip; counterexample for C47 |
| C56–C58 | decomposed run | invariant of the outer loop on top of that of the genetic loop |
| C59 | `search` with the last-tested and last-modified numbers | invariant: a pair examined after its routes last changed has no gain; a move changes the two routes involved only |
| C61 | SWAP* run, `search` with the SWAP* stamps | the chosen place and pair are minimal up to the tolerance; invariant: a stamp equal to the move count means all later routes were tried in vain |
| C62 | `Program.main`: parser, matrices, context set-up, both solvers, serializer | C51, C18/C19, C16/C17, C37, C38/C39, C56 and C41 chained; the spec reads distances from the instance numbers |
| C63, C64 | `iterate` with fuel for the unbounded loops | every part returns from some fuel on (`EndsIn`); a measure over state, schedule and counters for the number of calls; counterexamples without initial individuals and for the growing penalty |
| C65 | `educate` in the genetic loop | invariant over all members, from C59, C61 and the cost bound of C25 |
| C66 | `Program.main` | C64 and C62 chained; the bounds of C64 are derived from bounds on the instance file |
| C67 | `update_best` in the genetic loop | invariant: every member within the capacity costs at least the best recorded cost, up to the two tolerances |
| C68 | `iterate`, `update_penalty`, `reset` | invariant relating `next_penalty_update` to the iteration of the latest restart; the spec speaks of divisibility only |
| C69 | `educate` | case analysis along the code |
| C70–C72 | `Program.main` at `Dbl ρ` | loads and whole distances are sums below 2^53, hence exact; other sums by counting roundings on a grid; roots of whole numbers stay away from halves by more than the grid |
| C73 | `LS.run` at `Dbl ρ` | every cached number and every delta is compared with its exact shadow, with a bound on the number of roundings; an accepted move then lowers the exact cost by 2^-21. Refuted for larger data: at every state of a three-customer instance some move reports a gain (local optimality in any arithmetic, `Lemmas/AnyLocalOpt.lean`), and no run of the program on such a file ends (`Props/ProgramHang.lean`) |
| C74 | `LS.run` at `Dbl ρ` | the final state is quiet for the reported gains (any arithmetic); reported and exact gain differ by the roundings counted for C73 |
| C75 | `DGA.iterate` | rounds of `create_global_solution` each lower a non-negative cost by 1e-6; the subproblem inherits `Robust`, so its run ends within 2001 phases; `load` decides the rest |
| C76 | `Population.parent`, `selectLoop`, `updateFitness` | a property of subpopulations kept by insertions holds in every reachable state (`GA.iterate_both`); 0/0 is NaN in `Dbl` |
| C77 | `neighborhood_moves`, `depot_moves`, `empty_route_moves`, `search` | accepted moves carry the switch that enables them (`Accepted`, `Steps`) through the whole search; membership in the three lists compared with the switches |
| C78 | `iterate`, `main` in double precision | totality of every part in any arithmetic given side conditions (`RR.Calm`, `GA.Calm`), which double precision meets (`DblCalm`); the routes of a fleet are finitely many, so a search that accepts more moves than there are plans repeats one (`SearchCycle`); in elite education the penalty grows by at most 1.2 per 1000 rounds and stays below 2^900 (`DblGrowth`) |
| C79 | `SearchHistory::add` with the feature `dimacs` (`History.printed`, `Program.output`) | every recorded solution meets what C62 asks of the last one; recorded costs fall and rounding is monotone; records are only appended |
| C80 | `AdjacentStringRemoval::run` (`RRSol.ruin`) | the positions removed are a run of consecutive ones, or two runs around a kept part; the loop marks a route at each string; bounds and onto-ness of floor(u·x)+1 for a draw u |
| C81 | `sort_unassigned`, `GreedyBlink::run` (`sortUnassigned`, `recreate`) | stable insertion sort keeps ties in order; Fisher–Yates reaches every order; C24 for each insertion, chained (`Spec.Greedy`) |
| C82 | `State::Created`, `State::EliteEducation`, both schedules (`stepCreated`, `iterate`, `searchLoop`) | the counter after j calls is min N (1000 j); between two calls the clock was read at most 100 rounds ago, so a call past the end completes the schedule |
| C83 | `update_fitness`, `add_individual`, `update_penalty` (`updateFitness`, `SubPop.add`, `reprice`) | the place of an element in a list sorted by a strict order is the number of elements before it; a sorted row of the diversity table is the merge sort of the distances; the last step of every insertion is `update_fitness` |
| C84 | as C79, in double precision; from the command line on `Program.launchOutput` (`Model/LaunchOutput.lean`) | every entry of the log was recorded in a state in which its cost beat the best one (`HistLog`); with whole distances the incremental and the recomputed cost are the same integer; `C70`–`C72` for every entry |
| C85 | `Program.launch`: `Config::default`, `config.yml`, command line, `main` | `C86` for the sizes, then `C71`/`C72`/`C66`/`C78`; small instances: the first local search is `none` whatever the matrices hold (`Lemmas/Small.lean`), so the history stays new |
| C86 | `Program.configure`, fields with their types (`fieldKinds`, `convert`), `defaultConfig` | `C49` gives the value of every key; inversion of the record that is read; presence of every field for the converse |
| C87 | population at any number type, `Dbl ρ` | invariant: no recorded distance is zero (a new individual whose first entry is zero is removed at once); the gap between the fitness of an elite and of the last member is at least 2^-48, the roundings together at most 8·2^-53 |
| C88 | as C67, in double precision (`Program.held`) | invariant in any arithmetic (`GA.AnySeen`): every feasible member was offered to `update_best`, so a recorded cost is no worse; with whole numbers the comparison with tolerance is the exact one, and feasible costs are whole lengths |
| C89 | a plan (`IsPlan`, `PlanFor`) and the condition that overloaded solutions are dearer (`OverloadDear`) | the draws that shuffle the customers into the order of the plan (C54); the split of that order costs no more than the plan (C05), local search and ruin and recreate never make it dearer, so by the condition the result is feasible and recorded (C67); kernel-checked optimum of a small instance |
| C90 | `Model/Log.lean`: the numbers of every line logged (`GA.logLine`, `stepLog`, `lines`), against means and distances defined apart (`Spec.LogOK`) | population invariant (diversity table, no clones, history of 100) at the moment of the log; a first customer of a route counts at most once, so a distance is below twice the number of customers |
| C91 | `Spec.LogDue`, on the iteration of the latest restart (`GA.Run`); `GA.lines` | invariant on where `next_log_interval` stands relative to the restart, per state (`GA.LogTimes`) |
| C92 | population in `Dbl ρ` (`Program.held`) | as C29, with the comparison of whole costs shown exact; a cost that is not a number cannot be compared, so it is alone in its subpopulation |
| C93 | `nextPenalty` in `Dbl ρ`, against `Spec.PenaltyNear` | clamp of every double, NaN included; rounding moves numbers up to 4096 by at most 2^-40, from monotonicity and the representable grid; frame of a crossover iteration in any arithmetic (`GA.cycle_pen`); the default target by evaluating all 101 shares |
| C94 | `Model/Duration.lean`: `Duration::from_secs_f64` and `as_secs_f64` in `Dbl ρ`; the conversion to nanoseconds is a parameter | error bounds of four roundings from the representable grid; case analysis for the panics |
| C95 | `RawMatrix` as the allocation (its list of cells), `buildDist`, `buildCorr`, `fromMapping`, `Program.matrices` | writes keep the number of cells and both dimensions (`SameSize`), by induction over the writes; witnesses evaluated by the kernel |
| C96 | `vehicleLowerBound`, `initialNumVehicles` in `Dbl ρ`, any context | saturating casts; numbers up to 2^66 lose at most 2^13 by rounding, which the factor 1.2 makes up for; witness evaluated by the kernel |
| C60 | `create_global_solution` | induction over the rounds |
| C48 | sector arithmetic modulo 65536 | omega; counterexample at angle 0 |
| C49, C50 | Config records | key-wise case analysis; counterexample for `-r false` |
| C51 | parser on token lists | round trip by induction |
| C52 | recreate with two hash orders; the whole program on two lists of choices | counterexample: two orders, two solution files; without ties between routes the first cheapest position is order-independent; without ruin and recreate the hash order is never read |
| C53, C54 | comparisons, in ℚ and in `Dbl ρ`; oracle RNG | linear arithmetic, monotone rounding of the tolerance; witnesses evaluated by the kernel; permutation lemmas |

Properties that the code violates (C14, C15, C16, C26, C27 at temperature 0, C28 for the time schedule, C34, C40, C45, C47,
C48 at angle 0, C50, C52, C53 by rounding, C63, C73, C90, C93, C94, C95, C96) are kept as stated; the refutation is proved as `…_refuted` and the part that does hold as
`…_partial`.

## Findings

What the proofs turned up about the code, refuted properties first.

* C14: the depot branch of the local search evaluates the pair (u, v) again instead of (u, depot), so it
  never changes anything; moves next to the depot are missed.
* C15: with SWAP* off the loop counter stays 0, so moves into empty routes are never tried; with it on the
  search can stop after the first pass.
* C16: fewer than granularity + 2 nodes reads the neighbour matrix out of bounds; granularity 0 panics.
* C26: `RuinRecreate::load` clones the working solution before evaluating it, so the first acceptance test
  of a run uses the cost of an earlier solution (or infinity).
* C28: `TimeSchedule::reset` keeps the completion flag and the temperature.
* C29: the insertion search uses the tolerant comparison, which is not transitive; the order can drift
  by more than the tolerance (about half the steps of a chain of costs closer than 1e-6).
* C34: the broken-pairs distance compares with `successors[0]` (first stop of the last route, 0 when that
  route is empty). [[1],[2]] is at distance 0 from [[1,2],[]] but not the other way round; the cheaper
  solution is then dropped as a clone.
* C40: `RuinRecreate::update_best` writes the search history itself; afterwards `GeneticAlgorithm::update_best`
  sees no improvement, so `best_solution` stays `None` or older than the recorded best. A decomposition
  that then calls `best_solution.unwrap()` panics.
* C63: elite education multiplies the penalty after every 1000 rounds without bounds (the genetic loop clamps
  it) and resets it to the initial value at the end. While no solution is feasible it is raised each time; after
  about 4000 times 1000 rounds it is beyond the largest float, no position is cheaper than `f64::MAX`, and
  recreate panics with "No best route found". With the default gamma this takes about 4000 customers.
* C63: `initial_individuals = 0` is accepted and makes the first crossover panic.
* `RuinRecreate` keeps a `&'static` pointer to the `Context` local variable it was built from; the context
  is moved afterwards, so the pointer dangles until the next `load`.
* C45: the fleet bound is 1.2 times the bin-packing bound plus 2; twenty customers that each need slightly
  more than half a vehicle get 16 vehicles, so no feasible solution exists within the fleet.
* C47: `finish` leaves out empty routes, so the global solution has another number of routes as soon as the
  sub-run uses more or fewer vehicles than before; `load` then fails its `assert_eq!`. Every improvement that
  saves a vehicle ends the program. `run` also unwraps a missing best solution when the part is infeasible
  and the time is up.
* C61: without the triangle inequality SWAP* misses moves: it skips a pair of customers when taking both out
  alone saves nothing.
* C58: runs with decomposition never count iterations; `max_iterations` has no effect on them.
* A `decomposed_problem_min_size` of 0 makes a subproblem without customers, and its matrix set-up panics. With 1, a seed
  on a route of its own gives a subproblem of one customer, whose neighbour matrix is an allocation of size zero
  (`C95_decomposition_refuted`); from 2 on this does not happen (`C95_decomposition`).
* C73: the tolerance of the local search is absolute (1e-6). With distances of about 1.7e10 that differ in the
  sixth decimal place (or 4.5e15 that differ by 1) a 2-opt move that turns the end of a route around seems to gain
  because of rounding, and so does the move back: the local search, and with it the program, never ends. The time
  limit is only tested between iterations.
* C85 (`C85_small_refuted`): with the shipped configuration (granularity 20) no run on an instance with 21 nodes or
  fewer can find a solution: the first local search reads beyond the neighbour lists (C16), and a run that is over
  before it leaves an empty file. The shipped file also has two keys that no field has (`ruin_alpha`,
  `blink_probability`), which are silently ignored, and its time limit never counts because `-t` has a default (C50).
  `HGSRR-DIMACS.sh` passes `-r` without a value, although the option takes one.
* C48: a sector started at angle 0 forgets the 0 when it is extended.
* C50: `-t` has a default that overrides the configured time limit; `-r` is true whatever its value.
* C52: `RuinRecreateSolution::new` makes its hash set with `RandomState::new()` instead of the seeded state.
  When two routes are equally good places for a customer, recreate takes the one the set yields first, so two
  runs of the program with the same seed can end differently.
* C76: `min_population_size = 0` makes survivor selection panic; `num_diversity_closest = 0` divides by zero,
  the average is NaN and the sort's `unwrap` panics; `tournament_size = 0` panics at the first crossover.
* The fitness of the infeasible subpopulation is stale between a penalty update and the next insertion.
* Feasibility of one route (`RouteEvaluation`) and of a solution (`SolutionEvaluation`) differ when the
  overload is exactly 1e-6.
* `max_demand` includes the depot's demand; `GreedyBlink`'s recreate fallback charges the whole resulting
  overload, not the increase.
* `CorrelationMatrix` underflows (size − 2) for a problem with one node; `Matrix::new(0, 0)` (lazy
  distances) allocates zero bytes. The lazy matrix has no maximum, so the initial penalty is always 100.
* The constant for e^-2 in the schedule is too large by 8e-18; with temperature 0 and a draw of 0 the
  acceptance threshold is NaN.
* The seed customer of a decomposition is never the last customer of the genotype.
* C68: `reset` stores the iteration number before it is incremented, so after a restart the first interval
  between two penalty updates is one iteration shorter than configured.
* C83 (`C83_stale_refuted`): `GeneticAlgorithm::update_penalty` re-evaluates and re-sorts the infeasible individuals
  but does not call `update_fitness`, so until the next infeasible individual is inserted the tournaments use ranks
  that belong to the old penalty; in the witness an individual of cost 240 beats one of cost 150.
* C90 (`C90_diversity_nan_refuted`, `C90_diversity_above_one_refuted`): the logged diversity is not a fraction. With
  one individual left after a clone was removed `average_broken_pairs_distance` divides 0 by 0 (NaN); an empty
  subpopulation gives −1 divided by the number of customers; and a customer can count twice, so the value can exceed 1.
  `calculate_broken_pairs_distance` also reads `successor(0)` where the published distance reads the successor of the
  customer, so whether first customers count depends on whether the other plan's last route is empty.
* C93 (`C93_threshold_refuted`): with the default target 0.2 the penalty is raised when exactly 15 of the latest 100
  outcomes were feasible, because `0.2 - 0.05` is slightly more than 0.15 in double precision; on the other side 25
  of 100 leaves it alone, so the band is not symmetric.
* C94 (`C94_duration_refuted`): `elite_education_time_fraction` is not checked; a negative or non-finite one aborts the
  program in `Duration::from_secs_f64` when a time-based elite education starts.
* C95 (`C95_allocations_refuted`): without an explicit matrix and with at least `precompute_distance_size_limit`
  customers (2000 by default, 3000 in `config.yml`) `Matrix::new(0, 0)` calls `alloc_zeroed` with size zero, which its
  documentation declares undefined behaviour; so does the matrix of neighbours of an instance with one customer.
* C96 (`C96_fleet_refuted`): the capacity is not checked; with capacity zero the fleet is 2^64 − 1, and `num_vehicles + 1`
  in `Split::new` overflows (a panic where overflow is checked; where it wraps, a matrix without rows is allocated, as in
  C95, before the local search asks for a vector of 2^64 − 1 depots). With a positive load, a capacity that is negative or not a number gives a fleet of two.
* C53 (`C53_mirror_refuted`, `C53_trichotomy_refuted`): in doubles `approx_lt(a, b)` rounds `b - 1e-6` and `approx_gt(b, a)`
  rounds `a + 1e-6`, so near 2 one can hold without the other; and two numbers that differ by slightly more than 1e-6 can be
  neither less nor equal nor greater. Whole numbers below 2^52 are compared exactly (`C53_double_int`).
* C27 (`C27_double_refuted`): with temperature 0 (a start temperature of 0 is accepted as a setting) the draw 0 makes the
  threshold `0 * ln(0)`, which is not a number, and an improving candidate is rejected. Every other draw accepts it.
  In doubles the temperature never rises and is never negative, but it need not fall strictly (`C27_double_strict_refuted`).
* C80: `average_tour_cardinality` divides by all routes of the solution, empty ones included, so with a fleet larger
  than needed the strings are shorter than in the published method (which averages over the tours).
* C79: decomposition prints progress lines and the whole configuration to the standard output whether or not the
  feature `dimacs` is on (`decomposition.rs:84-98,136,150`), so with decomposition the printed solutions are mixed
  with other lines.
