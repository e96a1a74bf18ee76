#!/usr/bin/env python3
"""Regenerates /verif/properties.jsonl (kept as a script so that the long texts stay reviewable)."""
import json, os
P = []
def p(title, statement, quantifier, why, *anchors):
    P.append(dict(id="C%02d" % (len(P) + 1), title=title, statement=statement,
                  quantifier=quantifier, why_tests_cant=why, anchors=list(anchors)))

S = "src/solver/"
G = S + "genetic/"
I = S + "improvement/"
RR = I + "ruin_recreate/"

p("Evaluation reports the true cost",
  "After evaluating a list of routes, each route's reported distance is the length of depot -> stops in order -> depot, its overload is its total demand minus the capacity, its penalized cost is distance + penalty*max(0, overload), the solution's penalized cost is the sum over routes, and the solution is reported feasible exactly when no route exceeds the capacity by more than 1e-6.",
  "every instance, every list of routes, every penalty, every previous content of the evaluation object",
  "The set of route lists is infinite and the object is reused between individuals, so stale fields from an earlier evaluation matter.",
  S + "evaluate.rs: SolutionEvaluation::evaluate, route_cost, RouteEvaluation::is_feasible")
p("Evaluation reports true neighbours",
  "After evaluating a solution in which every customer occurs exactly once, the predecessor and successor reported for every customer are its actual neighbours on its route, with the depot 0 at both ends.",
  "every valid solution, every previous content of the evaluation object",
  "Predecessor/successor arrays are resized and overwritten in place, so an omitted write only shows up for particular earlier contents.",
  S + "evaluate.rs: SolutionEvaluation::evaluate", G + "individual.rs: successor, predecessor")
p("Sorting routes loses nothing",
  "sort_routes only permutes the routes of an individual (no customer is lost, duplicated or moved to another route, and customers keep their order within the route), rewrites the giant tour to the concatenation of the sorted routes, and puts empty routes last.",
  "every individual whose giant tour is a permutation of the customers on its routes, every choice of coordinates",
  "Ties, NaN-free angle comparisons and empty routes produce unboundedly many orders; a sample cannot cover them.",
  G + "individual.rs: Individual::sort_routes")
p("Split never loses a customer",
  "Splitting a giant tour into routes without a fleet bound always terminates and yields routes whose concatenation (last route first) is exactly the giant tour, for both the linear and the Bellman variant, whatever floating-point values occur and whatever stale data earlier splits left in the object.",
  "every giant tour, every distance/demand/penalty value (arbitrary arithmetic), every reachable earlier state of the split object",
  "The predecessor matrix is reused across calls, so correctness depends on the whole history of earlier calls.",
  G + "split.rs: Split::split, Split::load, Split::reset")
p("Split is optimal",
  "With non-negative demands, the unlimited-fleet split returns a segmentation of the giant tour whose penalized cost is minimal among all segmentations into consecutive routes: exactly minimal for the Bellman variant among routes of load at most the capacity factor times the capacity, and within the accumulated 1e-6 tolerances of minimal for the linear variant.",
  "every giant tour and every instance with non-negative demands, symmetric distances",
  "Optimality ranges over exponentially many segmentations of every tour.",
  G + "split.rs: Split::split, propagate, dominates, dominates_right")
p("Split respects the fleet limit",
  "Split::run on a permutation of the customers returns at most max(max_vehicles, bin-packing lower bound) non-empty routes, padded with empty routes to exactly the fleet size, which together visit every customer exactly once, provided costs stay below the 1e29 sentinel.",
  "every giant tour, every fleet limit not above the fleet size, every earlier state of the split object",
  "The bounded-fleet dynamic program silently ignores its own failure flag, so only a proof over all inputs excludes dropped customers.",
  G + "split.rs: Split::run, Split::split_limited_fleet")
p("Crossover children are complete",
  "Ordered crossover of two parents that are permutations of the same customers yields a permutation of those customers, keeps parent one's genes in the (cyclic) crossover zone at the same positions, and fills the remaining positions, starting right after the zone and wrapping around, with the other genes in parent two's order.",
  "every pair of parents of equal gene set, every start and end position",
  "There are n^2 zones for each of (n!)^2 parent pairs.",
  G + "genetic.rs: GeneticAlgorithm::crossover_ox, crossover")
p("Local-search moves keep the customer set",
  "Performing any local-search move (the three relocations, the three swaps, the three 2-opt variants) on the doubly linked routes whenever its evaluation is not the no-op 0 keeps the linked lists well formed and every customer in exactly one route.",
  "every well-formed linked-list state, every pair of nodes the search may pass, every move",
  "Pointer surgery has corner cases (adjacent nodes, route ends, empty routes, same route) that combine without bound.",
  I + "moves/relocation.rs", I + "moves/swap.rs", I + "moves/two_opt.rs", I + "linked_list.rs: link_nodes, backward_reverse, forward_reverse, replace_end_depot")
p("Move deltas are exact",
  "Whenever a local-search move reports a non-trivial delta, performing the move changes the total penalized cost of the solution by exactly that delta (in exact arithmetic, for symmetric distances).",
  "every well-formed local-search state with up-to-date route data, every move and node pair",
  "Each delta formula must agree with the real change for all relative positions of the two nodes.",
  I + "moves/*.rs: Move::delta, Move::perform", I + "local_search.rs: update_route")
p("Local search never worsens or corrupts a solution",
  "LocalSearch::run on an individual that visits every customer exactly once returns an individual that still does, with as many routes, whose penalized cost under the search's penalty is not larger than before.",
  "every valid individual, every sequence of random choices, every earlier state of the local-search object, every enabled subset of moves",
  "The search is a loop of unbounded length with random neighbour order over pointer structures.",
  I + "local_search.rs: LocalSearch::run, search, load_individual, update_individual")
p("Local search terminates",
  "LocalSearch::run terminates: every accepted move lowers the total penalized cost by at least 1e-6 and costs are bounded below, so only finitely many moves can be accepted.",
  "every valid individual, every sequence of random choices, non-negative distances and penalty (exact arithmetic)",
  "Termination is a statement about all executions; a test can only see finitely many finish.",
  I + "local_search.rs: search")
p("SWAP* keeps the customer set and its cost prediction is exact",
  "Running SWAP* on two distinct non-empty routes keeps every customer in exactly one route, and when it reports success the total penalized cost has changed by exactly the cost of the chosen move, which is at most -1e-6.",
  "every well-formed local-search state, every pair of distinct non-empty routes, every cache content consistent with the modification stamps",
  "Correctness depends on the insertion cache being valid after every possible history of earlier moves.",
  I + "moves/swap_star.rs: SwapStar::run", I + "local_search.rs: preprocess_insertions, cheapest_insert_and_removal")
p("Three best insertions are the three cheapest",
  "After any sequence of additions, the insertion cache holds the three cheapest added locations in ascending cost order (fewer if fewer were added).",
  "every sequence of added insertion locations of every length",
  "Ordered insertion into a fixed-size array has to be right for all sequences including ties.",
  I + "preprocess.rs: ThreeBestInserts::add, reset")
p("Dedicated depot moves are tried after the depot",
  "When the neighbour v directly follows a depot, the search also evaluates moves that place u directly after that depot.",
  "every local-search state",
  "Whether a guarded code path can ever be effective is a statement about all states.",
  I + "local_search.rs: search (depot moves)")
p("Local search can always use empty routes",
  "Whatever moves are enabled, after its first pass the local search also tries to relocate customers into an empty route.",
  "every configuration and every local-search state",
  "Reachability of the branch depends on the configuration and the loop counter over all iterations.",
  I + "local_search.rs: search (empty_route moves, loop_count)")
p("Neighbour lists are read in bounds",
  "The local search only reads neighbour-list entries that belong to the customer it is examining, and never reads outside the correlation matrix.",
  "every instance size and every granularity setting",
  "An out-of-bounds raw read is undefined behaviour that usually does not fail a test.",
  "src/models/matrix.rs: Matrix::slice, Matrix::slice_mut, CorrelationMatrix::top_slice_mut", I + "local_search.rs: search")
p("Neighbour lists hold the nearest customers",
  "For every node the correlation list has min(200, nodes-2) entries, all distinct customers different from the node itself and from the depot, in non-decreasing distance, and every customer left out is at least as far away as every customer kept.",
  "every distance matrix, every node",
  "Ranges over all matrices and ties.",
  "src/models/matrix.rs: CorrelationMatrix::new, get")
p("Distance matrix is symmetric with zero diagonal",
  "For Euclidean instances the distance matrix is symmetric, zero on the diagonal, and returns the same value whether it is precomputed or evaluated lazily, entry by entry and in bulk.",
  "every list of locations, both rounding settings, all index pairs, all bulk ranges inside the matrix",
  "The size switch between the two representations means small tests never exercise the lazy one.",
  "src/models/matrix.rs: DistanceMatrixBuilder::build, DistanceMatrix::get, get_vec")
p("Explicit distances are read as a lower triangle",
  "For an explicit lower-row matrix with rows of length 1, 2, ..., n-1 the distance between nodes i > j is the j-th number of the (i-1)-th row (rounded if rounding is on), in both directions, and zero between a node and itself.",
  "every lower-row matrix of every size",
  "Index arithmetic must be right for all sizes.",
  "src/models/matrix.rs: DistanceMatrixBuilder::build (input)", "src/utils/parser.rs: parse_lower_row_matrix")
p("Reported maximum distance",
  "The builder's maximum distance is attained by some pair of nodes and no pair exceeds it by more than 1e-6.",
  "every list of locations or lower-row matrix with at least two nodes",
  "Tolerance drift in a running maximum could accumulate with the number of entries.",
  "src/models/matrix.rs: DistanceMatrixBuilder::build, max")
p("Raw matrix behaves like a two-dimensional array",
  "For indices within rows and columns, reading a cell returns the value last written to that cell (zero if none), writing one cell does not change another, slices list consecutive cells, and cloning or remapping copies cell by cell.",
  "every matrix size, every sequence of writes, every in-range index",
  "The type is a raw pointer with unchecked index arithmetic.",
  "src/models/matrix.rs: Matrix::new, init, get, set, slice, from_mapping, clone")
p("Ruin keeps every customer accounted for",
  "A ruin step moves customers from routes to the unassigned list: it never panics, no customer is lost or duplicated, each ruined route loses exactly the drawn string length (at least 1, at most its length), other routes are untouched, and the incrementally maintained route distances and overloads stay exact.",
  "every consistent ruin-and-recreate solution, every sequence of random draws",
  "Index arithmetic on i32/usize with random draws has rare extreme cases.",
  RR + "ruin.rs: AdjacentStringRemoval::run, ruin_route", RR + "node.rs: Route::remove")
p("Recreate reinserts every customer",
  "A recreate step inserts every unassigned customer exactly once, leaves the unassigned list and the ruined set empty, never takes a customer out of a route, keeps route distances and overloads exact, and afterwards every recorded customer location is right.",
  "every consistent solution, every order of the unassigned list, every iteration order of the hash set, every random draw",
  "Greedy insertion over hash-set order and unbounded list lengths.",
  RR + "recreate.rs: GreedyBlink::run, sort_unassigned", RR + "node.rs: Route::add, delta_distance", RR + "mod.rs: RuinRecreateSolution::evaluate")
p("Recreate respects capacity when a ruined route has room",
  "If some ruined (or already refilled) route can take the customer within capacity, recreate inserts it into such a route at a position whose extra distance is minimal up to 1e-6; only otherwise may it overload a route.",
  "every consistent solution, every customer, every hash-set order",
  "The choice depends on all routes and all positions.",
  RR + "recreate.rs: GreedyBlink::run")
p("Ruin-and-recreate returns a complete solution no worse than the one loaded",
  "After loading a valid individual and running any number of ruin-and-recreate rounds at a fixed penalty, the returned best individual visits every customer exactly once and its penalized cost is at most the loaded individual's.",
  "every valid individual, every number of rounds, every random draw, every acceptance decision",
  "The guarantee is about every execution of a randomized loop.",
  RR + "mod.rs: RuinRecreate::load, search, update_best, get_best_solution, update_individual")
p("Acceptance starts from the loaded solution",
  "The first ruin-and-recreate move after loading an individual is accepted or rejected by comparison with the cost of that individual.",
  "every loaded individual and every earlier history of the object",
  "Only a particular earlier history exposes a stale reference cost.",
  RR + "mod.rs: RuinRecreate::load, search")
p("Simulated-annealing acceptance",
  "A candidate that improves the cost by more than 1e-6 is always accepted; a worse candidate is accepted only if the loss is smaller than temperature times -ln(u) for the uniform draw u; the temperature of the iteration schedule starts at the start temperature, decreases strictly, stays non-negative until the schedule completes, and the schedule completes after exactly the configured number of updates.",
  "every schedule length from 1 to 10^15, every iteration, all costs and draws",
  "Monotonicity and sign of a transcendental cooling curve over all lengths.",
  RR + "schedule.rs: IterationSchedule, TemperatureAcceptance::accept")
p("Resetting a schedule restarts it",
  "After reset, an acceptance schedule behaves like a freshly created one: not completed, at its start temperature, with zero iterations.",
  "every schedule and every history of updates",
  "Needs a history in which the schedule has completed before it is reused.",
  RR + "schedule.rs: IterationSchedule::reset, TimeSchedule::reset")
p("Subpopulations stay sorted and bounded",
  "After every insertion, removal or penalty update each subpopulation is sorted by penalized cost (up to the 1e-6 comparison tolerance; exactly for integer costs) and holds fewer than min_population_size + population_lambda individuals (never more than min_population_size if lambda is zero).",
  "every sequence of insertions, removals and penalty updates",
  "It is an invariant over all histories.",
  G + "population.rs: SubPopulation::add_individual, remove_individual, natural_selection", G + "genetic.rs: update_penalty")
p("Natural selection never removes the best individual",
  "Survivor selection never removes the individual at rank 0 and never panics while at least two individuals are present.",
  "every subpopulation state reachable by any history",
  "Depends on fitness values and clone flags over all histories.",
  G + "population.rs: SubPopulation::natural_selection, add_individual")
p("Elite individuals survive",
  "When there are more individuals than elites and none of the individuals is a clone, survivor selection never removes one of the num_elites cheapest individuals.",
  "every subpopulation with up-to-date biased fitness",
  "An inequality between rank sums for every population size and diversity order.",
  G + "population.rs: SubPopulation::update_fitness, natural_selection")
p("Diversity table is complete and consistent",
  "After any history the diversity table holds, for each member of a subpopulation of at least two, exactly one entry per other member, sorted by distance, with the same distance recorded for both directions; members removed leave no entry behind; looking up a member for the clone test never panics.",
  "every sequence of insertions and removals",
  "An invariant over all histories of a hash map of vectors.",
  G + "population.rs: update_diversity, add_diversity, remove_diversity, individual_is_clone")
p("Exact duplicates are not kept",
  "Adding an individual whose routes equal those of a member of the subpopulation leaves the subpopulation's members unchanged.",
  "every subpopulation state, every duplicate",
  "Depends on the broken-pairs distance over all solutions.",
  G + "population.rs: add_individual, individual_is_clone", G + "individual.rs: calculate_broken_pairs_distance")
p("Only duplicates are rejected as clones",
  "Two individuals at broken-pairs distance zero have the same routes up to route order and direction, and the distance is symmetric.",
  "every pair of individuals",
  "Needs a search over pairs of solutions.",
  G + "individual.rs: calculate_broken_pairs_distance")
p("Parents come from the population",
  "Tournament selection returns a member of one of the two subpopulations with the lowest biased fitness among the drawn contestants, and never indexes out of range when the population is not empty.",
  "every population, every tournament size of at least one, every random draw",
  "Index offsetting between two vectors for all sizes.",
  G + "population.rs: tournament, get_parent")
p("Individuals enter the right subpopulation",
  "Every member of the feasible subpopulation is feasible and every member of the infeasible one is not; every individual gets a number no current member has; the feasibility history always holds exactly the latest 100 entries.",
  "every history of insertions",
  "An invariant over all histories.",
  G + "population.rs: Population::add_individual, feasible_history")
p("Penalty stays positive and bounded",
  "After every penalty update of the genetic cycle the capacity penalty lies in [0.0001, 10000000], and it moves up only when the recent feasible fraction is below target - 0.05 and down only when it is above target + 0.05.",
  "every history of feasibility outcomes and every initial penalty",
  "An invariant over all histories.",
  G + "genetic.rs: update_penalty", S + "context.rs: initial_penalty, reset_penalty")
p("History is strictly improving",
  "Each solution recorded in the search history is cheaper by more than 1e-6 than the previously recorded one, the recorded best cost is the cost of the last entry, and only the last entry keeps its routes.",
  "every run, every interleaving of genetic and ruin-and-recreate updates",
  "An invariant over all executions of two independent writers.",
  S + "history.rs: SearchHistory::add, last_entry", G + "genetic.rs: update_best", RR + "mod.rs: update_best")
p("Every recorded solution is a feasible complete solution",
  "Every solution recorded in the search history visits every customer exactly once, uses at most num_vehicles routes, no route exceeds the capacity by more than 1e-6, and its recorded cost is its true penalized cost (the true total distance when no route is over capacity).",
  "every instance, every configuration with linear split, every random draw, every point of the run",
  "End-to-end invariant over every execution of the solver.",
  G + "genetic.rs: iterate, educate, update_best", S + "history.rs", RR + "mod.rs: update_best")
p("Best individual equals the recorded best",
  "Whenever the search history records a best solution, the genetic algorithm's best_solution is that solution.",
  "every execution",
  "Needs a particular interleaving of two writers.",
  G + "genetic.rs: update_best, best_solution", RR + "mod.rs: update_best", G + "decomposition.rs: Decomposition::run")
p("Solution file can be read back",
  "The solution text has one line 'Route #k: c1 c2 ...' per non-empty route, numbered consecutively from 1, followed by 'Cost N'; reading it back yields exactly the non-empty routes in order and the rounded cost.",
  "every list of routes and every cost",
  "A round-trip law over all solutions.",
  S + "history.rs: Display for HistoricSolution", "src/utils/serializer.rs: write_solution_file")
p("Termination is honoured and permanent",
  "Once the iteration limit or the time limit is reached, the next iterate call terminates the solver without changing the population or the history; after that it stays terminated; with max_iterations = m at most m crossover iterations are ever performed.",
  "every execution, every clock behaviour",
  "A statement about all states and all clocks.",
  G + "genetic.rs: iterate, terminated", S + "context.rs: terminate, next_iteration", S + "solver.rs: Solver::run")
p("Crossover zone selection terminates",
  "Choosing the crossover zone terminates for every instance with at least two customers, given that the random source eventually returns a different value.",
  "every instance size, every random stream",
  "Non-termination cannot be observed by a finite test.",
  G + "genetic.rs: crossover")
p("Fleet size covers the lower bound",
  "The fleet size set at start-up is at least the bin-packing lower bound plus two, so its total capacity is at least the total demand.",
  "every instance with positive capacity and non-negative demands",
  "Arithmetic over all demands.",
  S + "context.rs: vehicle_lower_bound, initial_num_vehicles")
p("A solvable instance gets a sufficient fleet",
  "If every demand fits in a vehicle, the fleet size set at start-up admits at least one feasible solution.",
  "every instance with all demands at most the capacity",
  "Existence of a packing over all instances.",
  S + "context.rs: initial_num_vehicles")
p("Decomposition keeps the global solution complete",
  "Splitting a valid global solution into a subproblem and writing any valid sub-solution back yields a valid global solution, whose cost is the cost of the untouched routes plus the cost of the sub-solution.",
  "every valid global solution, every seed customer, every valid sub-solution, every hash order",
  "Index renaming in both directions over all solutions.",
  G + "decomposition.rs: Decomposition::new, decompose_global, finish", S + "context.rs: from_mapping")
p("Decomposition cycle can continue",
  "After writing a sub-solution back, the global ruin-and-recreate phase can load the global solution.",
  "every valid global solution and every valid sub-solution",
  "Fails only when the sub-solver changes the number of used routes.",
  G + "decomposition.rs: iterate, finish", RR + "mod.rs: RuinRecreateSolution::load (assert_eq)")
p("Circle sectors enclose their customers",
  "After extending a sector by a sequence of angles every one of those angles is enclosed, and two sectors overlap exactly when some angle is enclosed by both.",
  "every sequence of angles in [0, 65536)",
  "65536 angles per step, unbounded sequences, wrap-around.",
  "src/models/circle_sector.rs: CircleSector::extend, is_enclosed, overlaps")
p("Config files only change the keys they name",
  "Applying a YAML mapping to the configuration replaces exactly the known keys it mentions, ignores unknown keys, keeps every other setting, and applying it twice is the same as once.",
  "every configuration, every YAML mapping",
  "Ranges over all mappings.",
  "src/config.rs: Config::update, load_yaml_file")
p("Command-line options take effect only when given",
  "A command-line option changes the configuration exactly when it is given on the command line: '-r false' turns rounding off, and without '-t' the configured time limit is kept.",
  "every configuration and every command line",
  "Default values interact with every configuration.",
  "src/cli.rs: Args::parse", "src/config.rs: update_from_args")
p("Instance parsing",
  "Parsing the lines of a well-formed instance yields exactly the written dimension, capacity, coordinates and demands, in file order, with node ids 1..n, whatever the order of header lines and whatever blank-separated layout is used.",
  "every well-formed instance",
  "A round-trip law over all instances.",
  "src/utils/parser.rs: ProblemParser::parse, read_file, parse_coords, parse_demands, create_nodes")
p("Deterministic mode is deterministic",
  "In deterministic mode the search result depends only on the instance, the configuration and the seed.",
  "every instance, every seed, every hash seed of the process",
  "Hash-order dependence changes between processes, not within one test.",
  RR + "mod.rs: RuinRecreateSolution::new (RandomState::new)", RR + "recreate.rs: GreedyBlink::run", "src/utils/random.rs: random_state")
p("Tolerant comparisons are consistent",
  "approx_lt, approx_eq and approx_gt are mutually exclusive, approx_lt and approx_gt mirror each other, exactly one of the three holds unless the difference is exactly 1e-6, and on integers they agree with the exact comparisons.",
  "every pair of (exact) numbers",
  "All pairs of numbers.",
  "src/utils/comparison.rs: FloatCompare")
p("Random helpers",
  "Shuffling permutes its input, ranges stay in [lower, upper), and sampling k elements from a vector returns k of its elements without reusing a position.",
  "every input and every random stream",
  "All streams.",
  "src/utils/random.rs: shuffle, range_usize, sample_from_vec")
p("Bookkeeping of the genetic loop",
  "best_iteration never exceeds the iteration counter (so the stagnation test never underflows), the restart happens exactly after more than max_iterations_without_improvement stagnant iterations, and a restart empties both subpopulations but keeps the recorded history.",
  "every execution",
  "An invariant over all executions.",
  G + "genetic.rs: iterate, reset, update_best")
p("Runs with decomposition keep valid solutions",
  "At every point of a run with decomposition the global solution, once made, visits every customer exactly once with num_vehicles routes and carries its true penalized cost, the penalty is the initial one, and everything recorded in the search history is a complete feasible solution cheaper than all before it.",
  "every instance, every configuration within stated bounds, every random draw, hash order and clock, every point of the run",
  "End-to-end invariant over every execution, through sub-runs of up to 2000 iterations.",
  G + "decomposition.rs: iterate, create_global_solution", S + "context.rs: from_mapping")
p("A decomposition cycle does not make a feasible solution worse",
  "A cycle that starts from a feasible global solution ends with one of at most the same penalized cost (exactly for whole-number demands, else up to 1e-6 of the penalty per vehicle).",
  "every reachable cycle, every random draw, hash order and clock",
  "Composition of two whole searches and two renamings.",
  G + "decomposition.rs: iterate, Decomposition::run, finish")
p("What ends a run with decomposition",
  "The iteration counter is never advanced in a run with decomposition, so an iterate call ends the run exactly when the time limit is reached or the iteration limit is 0; after that nothing changes.",
  "every execution, every clock, every iteration limit",
  "A statement about runs of any length.",
  G + "decomposition.rs: iterate", S + "context.rs: terminate, next_iteration")
p("The local search ends in a local optimum",
  "When the local search ends, no enabled move of any customer towards any of its neighbours lowers the penalized cost of the result by more than 1e-6: skipping pairs whose routes did not change since they were last examined skips no improving pair.",
  "every instance, individual, earlier state, set of enabled moves, penalty and random stream",
  "Needs all pairs at the end of all runs; a wrongly skipped pair shows only in rare orders of accepted moves.",
  S + "improvement/local_search.rs: search, run")
p("When building the first decomposed solution stops",
  "create_global_solution repeats ruin and recreate as long as a round lowers the best cost by at least 1e-6 and stops at the first round that does not, so the number of rounds is bounded by the first cost.",
  "every execution, every random draw, hash order and clock",
  "A bound on the number of rounds of every run.",
  G + "decomposition.rs: create_global_solution")
p("SWAP* misses no improving move",
  "When SWAP* on two routes reports no improvement, no SWAP* move between them (a customer relocated to any place of the other route, or two customers exchanged and each put at any place of the other route) lowers the penalized cost by more than 3e-6 when the distances satisfy the triangle inequality: caching three insertion places per customer and skipping unpromising pairs lose nothing. When the local search with SWAP* ends, this holds for every pair of non-empty routes with overlapping sectors.",
  "every consistent state, every pair of routes; every run, random stream and penalty",
  "The pruning is sound only by an argument over all moves; a lost move shows as a slightly worse result, never as an error.",
  S + "improvement/moves/swap_star.rs: run", S + "improvement/local_search.rs: search, cheapest_insert_and_removal")
p("The written solution file is correct",
  "When the program is started on the text of an instance file (planar or with an explicit lower-row matrix), ends, and writes a non-empty solution file, the file lists non-empty routes that visit every customer of the instance file exactly once, at most as many as the fleet bound, each within the capacity (up to 1e-6; exactly for whole-number demands and capacity), and if no route exceeds the capacity the stated cost is the total length of the listed routes under the distances of the instance file, rounded to an integer.",
  "every well-formed instance text, every set of options the neighbour lists can serve, with and without decomposition, every random draw, hash order and clock",
  "Composition of parser, matrices, search and serializer over all runs; a test checks one file of one run.",
  "src/main.rs: main", "src/solver/context.rs: Context::new, setup", "src/utils/serializer.rs: write_solution_file")

p("An iterate call does not panic",
  "In every state of every run of the genetic algorithm the next iterate call returns: no index is out of bounds, no unwrap fails, no assertion fails, and no inner loop runs forever.",
  "every instance with at least two customers, every configuration the program accepts, every reachable state, every random draw, hash order and clock",
  "Absence of panics over all reachable states; the failing states need thousands of rounds or unusual settings.",
  G + "genetic.rs: iterate", RR + "recreate.rs: GreedyBlink::run", RR + "mod.rs: search, update_penalty")
p("Runs end within a bounded number of calls",
  "A run with iteration limit m is over after at most (m + 1) * (elite iterations + initial individuals + 4) iterate calls, and a run whose clock reaches the time limit is over with the next call; none of the calls before panics.",
  "every instance and configuration within stated bounds, every random draw, hash order and clock",
  "A bound on the length of every run.",
  G + "genetic.rs: iterate", S + "context.rs: terminate")

p("Every member of the population is educated",
  "With local search on, mutation and elite education off, every member of both subpopulations is at every point of a run a local optimum for a penalty the loop can have (or ten times that, for repaired individuals): no enabled move of a customer towards a customer of its neighbour list lowers the penalized cost by more than 1e-6. With SWAP* enabled and distances that satisfy the triangle inequality, no SWAP* move between two routes whose sectors overlap lowers it by more than 3e-6 either. With mutation on, every member costs no more than such a local optimum.",
  "every instance, configuration within stated bounds, reachable state, random draw, hash order and clock",
  "All members of all reachable populations; a skipped or misplaced education step shows only as slower convergence.",
  G + "genetic.rs: educate, create_initial_individual, iterate", S + "improvement/local_search.rs: run")

p("The program ends and writes a solution",
  "Started on an instance below the decomposition limit with an iteration limit and the settings of C64, the program returns without a panic, writes a solution file exactly when a path is given, and the file, if not empty, is correct in the sense of C62.",
  "every well-formed planar or explicit instance text within stated bounds, every random draw, hash order and clock",
  "Termination and absence of panics of the whole program on all inputs.",
  "src/main.rs: main", "src/solver/solver.rs: Solver::run", G + "genetic.rs: iterate")
p("No feasible solution is lost",
  "If the population holds a solution within the capacity at any point of a run, then from that point on a solution is recorded whose cost is at most the length of that one plus 2e-6 (at most its length for whole numbers), also across restarts and penalty changes.",
  "every instance and configuration, reachable state, random draw, hash order and clock",
  "Relates the reported solution to all solutions seen in all populations of the run; a forgotten update shows as a slightly worse result.",
  G + "genetic.rs: update_best, educate, add_initial, reset", S + "genetic/population.rs: add_individual")

p("When the penalty is updated",
  "With an interval k >= 1 the genetic loop updates the capacity penalty in the crossover iterations 0, k, 2k, ... until the first restart, and after a restart in iteration s in the iterations s + 1, s + k, s + 2k, ...; in no other iteration does the penalty change.",
  "every run, restart pattern, random draw, hash order and clock",
  "A statement about all iterations of all runs; the schedule interacts with restarts.",
  G + "genetic.rs: iterate, update_penalty, reset")
p("What repair adds to the population",
  "Education adds an individual to the population only if the educated child is over capacity and the repair draw hits; then a local search with ten times the penalty starts from the child and its result is added exactly when it is within the capacity, without an entry in the history of outcomes. The child itself goes on unrepaired.",
  "every state, child, random draw, number type",
  "Needs all states; an inverted condition changes only how often solutions are repaired.",
  G + "genetic.rs: educate")

p("The written solution file is correct in double precision",
  "The program computing in IEEE double precision (rounding, NaN and infinities included), started on a planar instance file with whole demands and capacity: a non-empty solution file lists non-empty routes that visit every customer once, at most as many as the fleet bound, none above the capacity by any amount, and the stated cost differs from the length of the routes under the computed distances by at most 1/2 plus 3 n 2^m / 2^53 where 2^m bounds four times n times the largest distance. With whole coordinates and unrounded distances the same holds for the real length in the plane, plus n / 2^28.",
  "every well-formed planar instance text within stated magnitudes, every monotone rounding that does not round 1.2 up (nearest-even among them), every root meeting its contract, with and without decomposition, every random draw, hash order and clock",
  "Accumulated rounding errors over all runs and instances; a test sees one instance whose errors happen to cancel.",
  "src/main.rs: main", "src/solver/evaluate.rs: evaluate", "src/models/matrix.rs: euclidian")
p("The stated cost is exact for benchmark instances",
  "On a planar instance file with whole coordinates up to 2^22, whole demands, up to 2^27 nodes and rounded distances, the program in double precision states exactly the sum over the routes of the distances in the plane, each the integer nearest to the real distance.",
  "every such instance text, option, run and rounding",
  "That no root is ever rounded across a half needs an argument over all pairs of points.",
  "src/models/matrix.rs: euclidian, DistanceMatrixBuilder::build", "src/utils/serializer.rs: write_solution_file")
p("The stated cost is exact for explicit matrices of whole numbers",
  "On an instance file with an explicit lower-row matrix of whole numbers (or any numbers, with rounding on) the program in double precision states exactly the length of its routes in the matrix of the file; for other matrices up to 1/2 plus 3 n 2^m / 2^53 as in C70.",
  "every such instance text, option, run and rounding",
  "Accumulated rounding errors over all runs and instances.",
  "src/main.rs: main", "src/models/matrix.rs: DistanceMatrixBuilder::build", "src/utils/serializer.rs: write_solution_file")

p("The local search ends in double precision",
  "The local search computing in IEEE double precision ends: no sequence of moves is accepted over and over because rounding errors look like gains, and the exact penalized cost of the result is not higher than before.",
  "every instance, distances of any size, start solution, move set, random draw and hash order",
  "Endless runs need distances whose rounding errors exceed the fixed tolerance 1e-6; no test uses such sizes, and on the sizes tested the search always ends.",
  S + "improvement/local_search.rs: run, search", "src/utils/comparison.rs: approx_lt", S + "improvement/moves/two_opt.rs: delta")

p("The result of the local search is a local optimum in double precision",
  "When the local search computing in IEEE double precision ends, no enabled move of a customer towards a customer of its neighbour list lowers the exact penalized cost of the result by more than 1e-6 plus 8 n + 24 roundings of numbers of the size 2^K of a tour (24 roundings for whole distances): neither the rounding of the cached route data nor the skipping of pairs with unchanged routes hides an improvement.",
  "every instance within stated magnitudes, start solution, move set, random draw, hash order and monotone rounding",
  "Quantifies over all runs and all moves at the end of each; a wrongly skipped pair shows only as a slightly worse solution.",
  S + "improvement/local_search.rs: run, search", S + "improvement/moves/two_opt.rs: delta", S + "improvement/moves/relocation.rs: delta")

p("A call of the decomposed algorithm never hangs, and panics for exactly two reasons",
  "The call that makes the global solution returns: its rounds of ruin and recreate come to an end. In every later call the sub-run ends too, and the call returns exactly when the sub-run has a best solution that uses as many routes as were split off; it has one whenever the global solution is feasible. With a single vehicle that can carry everything, whole runs return and end at the time limit.",
  "every reachable state, random draw, hash order and clock reading, settings within the stated bounds",
  "Quantifies over all runs; the loop of create_global_solution has no bound in the code, and the panic depends on how many routes the best sub-solution happens to use.",
  S + "genetic/decomposition.rs: create_global_solution, iterate, Decomposition::run", S + "improvement/ruin_recreate/mod.rs: load")

p("Settings of zero stop the run at their first use",
  "With tournament_size 0 no iteration is ever completed: the first call in the crossover phase panics, and a run that ends was ended by the clock before that. With min_population_size 0 no subpopulation ever holds population_lambda members: the insertion that would reach this number panics. With num_diversity_closest 0 no subpopulation ever holds two members: the average over no neighbours is not a number, and the sort panics.",
  "every instance, execution, random draw, hash order and clock reading; for the last part every rounding of double precision",
  "Quantifies over all executions: that no run with such a setting gets further cannot be observed on samples, and the configuration is accepted without a check.",
  S + "genetic/population.rs: tournament, natural_selection, update_fitness, average_broken_pairs_distance, add_individual", "src/config.rs: Config")

p("The local search makes only moves that the settings enable",
  "A run of the local search changes the routes only by a chain of moves each of which the settings enable (SWAP* by its own setting). With nothing enabled the routes stay as they are up to their order; with only the reversal within a route enabled no customer changes its route. The list tried for a customer and its neighbours holds exactly the enabled moves, and the list tried for an empty route exactly the enabled moves that can fill one.",
  "every instance, setting of the ten switches, earlier state, random draw and any arithmetic with finite distances",
  "A swapped or doubled switch in one of the three lists makes a disabled move happen; it shows only if a test compares routes under each of 1024 settings.",
  S + "improvement/moves/mod.rs: neighborhood_moves, depot_moves, empty_route_moves", S + "improvement/local_search.rs: search")

p("In double precision only moves going round in a circle keep the program from ending",
  "In double precision every iterate call of a run without decomposition, and with elite education of at most 3 million counted rounds, returns, without a panic (no NaN reaches a comparison that unwraps it, no index leaves its range, no draw loop starves), and the program returns and writes its solution once the clock has reached the time limit; the only exception is a local search whose accepted moves can go round in a circle, back to the same routes. Without the local search, or with data of the sizes of C73, there is no such circle.",
  "every rounding of double precision, instance with whole demands and moderate distances, reachable state, random draw, hash order and clock reading",
  "Quantifies over all executions and all roundings; an endless loop cannot be told from a slow run by a test, and the absence of panics in the sorts depends on no NaN or infinity arising in any run.",
  S + "genetic/genetic.rs: iterate", S + "improvement/local_search.rs: search", "src/main.rs: main")

p("Every solution printed while the program runs is correct and never costs more than those before it",
  "With the feature dimacs each new best solution is printed when it is found. At any time between two iterate calls each printed solution lists non-empty routes, at most as many as the fleet bound, that visit every customer of the instance file exactly once within the capacity (up to 1e-6, exactly with whole demands), with the right cost; the stated costs never go up; more calls only add to what was printed; and the solution file of a finished run is the last printed solution, empty if there was none.",
  "every instance text in one of the two formats, option, random draw, hash order, clock reading and point of the run, with and without decomposition",
  "Quantifies over all executions and all points of them; a wrong intermediate solution is printed only on rare paths (for example by ruin and recreate at a changed penalty) and tests look at the last one.",
  S + "history.rs: add, Display for HistoricSolution", S + "context.rs: from_mapping", "src/utils/serializer.rs: write_solution_file")

p("A ruin takes short strings of stops out of a few routes near the seed",
  "With L the smaller of the rounded average number of stops per route (empty routes counted) and the largest string length, a ruin draws a number of strings between 1 and K = (4*average removed + L) / (1 + L) - 1 (at least 1), and every number in this range can be drawn. It ruins that many routes, or else every route that holds a customer of the seed's list. Each ruined route loses one string of at most max 1 L consecutive stops, or a longer string of which an inner part stays, around a customer of the seed's list; no other route is touched, and at most max (max 1 L) (4*average removed - 1) stops are taken out. Any length up to the smaller of L and the length of the route can occur.",
  "every instance, consistent solution, list of neighbours, setting and random draw",
  "The numbers come from nested float formulas with a random factor; a bound off by one shows only for draws at the edge of their range.",
  S + "improvement/ruin_recreate/ruin.rs: AdjacentStringRemoval::run, ruin_route, average_tour_cardinality")

p("A recreate step puts the removed customers back greedily in one of four orders",
  "The removed customers are put back one after the other, each at a place that is best at that moment up to 1e-6: by extra length among the opened routes with room for it, and if there is none by extra length plus penalty among all routes; a route that receives a customer is open from then on. The order is random for 4 of 11 draws and then can be any order, by falling demand for 4, by falling distance from the depot for 2 and by rising distance for 1; in these three, equal customers keep the order in which they were removed.",
  "every instance with numbers below f64::MAX, ruined solution, hash order and random draw",
  "A reversed comparison in one of the sorts or a place that is only nearly best still gives a correct solution; the guarantee is about all states of all insertions.",
  S + "improvement/ruin_recreate/recreate.rs: sort_unassigned, GreedyBlink::run")

p("Elite education lasts as long as the settings say",
  "The call in the state Created enters elite education exactly when it is switched on and there are more customers than its limit. Counted in rounds it makes round(gamma * customers) rounds of ruin and recreate, at most 1000 in a call, lasts for exactly the calls needed for them, and the next call goes on to the initial individuals. Counted by the clock it goes on as long as the clock shows less than time limit * fraction since its start, and is over at the latest with the call after the first one that lies wholly behind that. The call that ends it sets the penalty back to the one at start-up and leaves the record of outcomes as it is. A run that terminates meanwhile is excepted.",
  "every instance, setting, reachable state, random draw, hash order and clock reading",
  "Depends on the interplay of a schedule that is advanced inside a loop of 1000 rounds, a flag that is refreshed only every 100 rounds, and the state machine around it.",
  S + "genetic/genetic.rs: iterate", S + "improvement/ruin_recreate/mod.rs: setup_elite_education, search", S + "improvement/ruin_recreate/schedule.rs: IterationSchedule, TimeSchedule")

p("The fitness of every individual is up to date",
  "At any time the fitness of each individual is its cost rank in its subpopulation, scaled to 0 to 1, plus (if there are more individuals than elites) its diversity rank, scaled to 0 to 1, times the share of the individuals that are not elites. The diversity of an individual is its mean broken pairs distance to the num_diversity_closest closest other members (all others if there are fewer), ranked downwards, with ties broken by cost rank; a single individual has fitness 0.",
  "every history of insertions and changes of the penalty, every population size and setting with num_diversity_closest at least 1",
  "Relates cached numbers to the whole content of the population for all histories; an off-by-one in a rank or a forgotten refresh changes only which parents are drawn.",
  S + "genetic/population.rs: update_fitness, average_broken_pairs_distance, add_individual", S + "genetic/genetic.rs: update_penalty")

p("In double precision every printed solution is right and strictly cheaper than those before it",
  "Built with the feature dimacs and computed in double precision: after any number of calls, every printed solution visits every customer exactly once and exceeds the capacity nowhere, without tolerance. If the distances are whole numbers (a rounded plane with whole coordinates up to 2^22, or a matrix that is whole or rounded) its stated cost is the total length of its routes and is strictly less than every cost printed before; for other distances it is right up to an explicit rounding error. The solution file equals the last printed solution, or is empty if none was printed, and more calls only add to the output.",
  "every instance text, setting, number of calls, random draw, hash order and clock reading; every rounding that does not round 1.2 up, so the machine's",
  "The cost that is compared is computed incrementally by ruin and recreate while the printed one is computed anew; that the two agree in floating point for all runs is not visible in any single one.",
  S + "history.rs: SearchHistory::add", S + "genetic/genetic.rs: update_best", S + "improvement/ruin_recreate/mod.rs: search")

p("Started from the command line the program leaves a correct solution file",
  "Started with a configuration file whose granularity and decomposition sizes suit the instance, in particular with the one that is shipped, and with any command line, a run that ends leaves a solution file; unless the time was up before the first solution it holds a feasible solution with the exact cost under distances rounded to the nearest whole number. With the shipped file and a clock that passes the time limit the run ends. This should hold for every instance, however small.",
  "every instance text with whole numbers, configuration file, command line, random draw, hash order and clock reading",
  "Joins the defaults in the code, the configuration file, the command line and every part of the solver; whether a default suits every instance is a statement about all instances.",
  "src/main.rs: main", "src/config.rs: default, load_yaml_file, update_from_args", "config.yml", S + "improvement/local_search.rs: search")

p("Every setting takes effect",
  "Each setting the solver reads is the value in the configuration file under its key, or the default if the key is absent; -i sets the limit on iterations without improvement, -t the time limit (10 seconds without it), and distances are always rounded. The program starts exactly when every value given for a known key has the type of that key and the numbers after -i and -t can be read; unknown keys are ignored.",
  "every configuration file with distinct keys and every command line",
  "A key that is misspelt, read into a neighbouring field or overwritten later shows only in runs that depend on just that setting; the statement covers all settings and all values.",
  "src/config.rs: Config, default, load_yaml_file, update, update_from_args", "src/cli.rs: parse", "src/main.rs: main")

p("The population holds no clones, keeps its elites and picks the fittest contestant, also in double precision",
  "Any two members of a subpopulation have different routes and none passes the clone test. In exact and in double precision, inserting an individual keeps the first num_elites members of the subpopulation, the new one counted in, whatever survivor selection removes; no insertion panics, and afterwards the cheapest member is the former cheapest or the new one. The fitness of every member is a finite number, and the parent a tournament returns has the lowest one among the contestants.",
  "every history of insertions and changes of the penalty, every random draw, every rounding; at most as many elites as the least size, in double precision fewer than 2^24 members",
  "A rounding error in the biased fitness could put an elite behind the last member only for particular sizes and ranks; the absence of clones is an invariant over all histories.",
  S + "genetic/population.rs: add_individual, natural_selection, update_fitness, individual_is_clone, tournament")

p("No feasible solution is lost, in double precision",
  "Computed in double precision with whole demands and whole (or rounded) distances: a solution that is in the feasible subpopulation after some call respects the capacity without tolerance, and whatever is done later - survivor selection, restarts, education - the solution printed last and written at the end is at most as long as it, without tolerance. The costs of all members are numbers. With decomposition the same holds for the solution put together from a solved subproblem and for the improved one of every cycle.",
  "every instance text, setting, number of calls before and after, random draw, hash order and clock reading; every rounding that does not round 1.2 up",
  "The best solution is kept apart from the population and compared through a cost that is computed incrementally and with tolerance; a lost solution is invisible in the output of any single run.",
  S + "genetic/genetic.rs: update_best, educate, reset", S + "genetic/population.rs: add_individual", S + "history.rs: SearchHistory::add", S + "genetic/decomposition.rs: iterate")

p("No plan is out of reach",
  "For every plan within the capacity and the fleet there are draws for the order of the customers of one initial individual after which, whatever else is drawn, the reported solution is no longer than the plan (with whole numbers exactly, otherwise up to the tolerances of the code), provided that no overloaded solution is as cheap as the plan at the penalty in force. Hence under that condition the program has a run that writes a shortest plan.",
  "every plan, state in which an initial individual is due, setting, later random draw, hash order and clock reading; for whole programs every instance text with whole numbers",
  "That the shuffle, the split and the education together leave no plan unreachable is a statement about all plans and about the existence of draws; a test that never sees a plan cannot tell bad luck from impossibility.",
  S + "genetic/genetic.rs: create_initial_individual, educate, update_best", S + "genetic/individual.rs: new_random", S + "genetic/split.rs: run", S + "history.rs: SearchHistory::add")

p("The log line describes the population",
  "Every line that a run logs can be written without a panic and describes the population at that moment: the numbers of feasible and infeasible individuals, the cost of the first of each (with whole numbers the least feasible cost, and no more than the average beside it), the mean cost of the first min_population_size, the share of feasible individuals among the latest 100, the penalty in force (between 0.0001 and 10000000), and as diversity the mean distance to the nearest others as a fraction between 0 and 1 of the number of customers. The iterations in the lines never decrease.",
  "every instance, setting with min_population_size at least 1, number of calls, random draw, hash order and clock reading",
  "The log is not returned to any caller; that the diversity is a fraction depends on the table of distances being right and on how many individuals are left, over all histories of insertions and removals.",
  S + "genetic/genetic.rs: log, iterate", S + "genetic/population.rs: get_diversity, get_average_cost, get_best_cost, history_fraction, average_broken_pairs_distance", S + "genetic/individual.rs: calculate_broken_pairs_distance")

p("When a line is logged",
  "With a log interval k of at least 1, a run without elite education logs a line in crossover iteration 0 and every k iterations; after a restart in iteration s in iteration s + 1 and then whenever k divides the number of iterations since s. With elite education one line is logged at its end, in iteration 0 or s + 1, and in the crossover iterations whose distance from 0 or s is a positive multiple of k. Nothing else is logged by the genetic algorithm, every line names its iteration, and no two lines name the same one unless there is elite education and k is 1.",
  "every setting with a positive interval, number of calls and of restarts, random draw, hash order and clock reading, every arithmetic",
  "The next time is kept in a counter that three places move and that a restart sets back to the iteration before the next one; how the three interact shows only over whole runs with restarts.",
  S + "genetic/genetic.rs: iterate, log, reset")

p("The feasible subpopulation is in order of length, in double precision",
  "Computed in double precision with whole demands and whole (or rounded) distances: after any history of insertions, removals, restarts and changes of the penalty that does not panic, the members of the feasible subpopulation are complete plans within the capacity without tolerance, in ascending order of their exact lengths. So the first is a shortest one, and the best cost in the log is its length exactly.",
  "every history and every penalty, also an infinite one; for whole programs every instance text, setting, number of calls, random draw, hash order and clock reading; every rounding that does not round 1.2 up",
  "The place of an individual is found by a binary search that compares costs with tolerance; the order, on which the elites and the ranks rest, is an invariant over all histories, and with other costs it fails (C29).",
  S + "genetic/population.rs: add_individual, get_best_cost, natural_selection", S + "genetic/individual.rs: Ord for Individual")

p("The penalty in double precision",
  "Computed in double precision, the penalty outside elite education is a finite number between 0.0001 (rounded) and 10000000 at every point of every run, whatever the multipliers and the target are. It changes only in the crossover iterations in which an update is due (every penalty_update_interval iterations, counted from the start or the latest restart); then it is raised by one rounded multiplication if the share of feasible outcomes among the latest 100 is below the target minus 0.05, lowered likewise if it is above the target plus 0.05, and kept otherwise.",
  "every rounding, setting, number of calls and of restarts, random draw, hash order and clock reading",
  "Whether a share that equals a threshold counts as below it depends on the rounding of target - 0.05 and of the share; the range has to survive products that overflow or are not numbers, over runs of any length.",
  S + "genetic/genetic.rs: update_penalty, iterate", S + "context.rs: initial_penalty")

p("The time for elite education",
  "With every setting the start of a time-based elite education succeeds, and the schedule it gets lasts the time limit times the configured fraction, up to two nanoseconds: the detour over a whole number of nanoseconds and the roundings of the product, the quotient and the sum lose no more.",
  "every time limit and fraction, every rounding, truncation as well as rounding to nanoseconds",
  "The conversion aborts on numbers it cannot hold and loses digits on those it can; which settings are affected is a statement about all pairs of a limit and a fraction.",
  S + "improvement/ruin_recreate/mod.rs: setup_elite_education", S + "improvement/ruin_recreate/schedule.rs: TimeSchedule::new")

p("The allocations of matrices",
  "No matrix is allocated with size zero, which alloc_zeroed declares undefined behaviour, and every matrix is freed with the size it was allocated with: this holds for the distances and neighbour lists of every instance and of every subproblem, and for matrices with an initial value, copies and remapped ones after any writes that stay inside.",
  "every instance, setting, mapping and sequence of writes, every arithmetic",
  "Undefined behaviour does not show in a test; an allocation of size zero usually returns some pointer. The size given to dealloc is computed anew from two public fields.",
  "src/models/matrix.rs: Matrix::new, Matrix::init, Drop for Matrix, DistanceMatrixBuilder::build, DistanceMatrix::from_mapping, CorrelationMatrix::new, MatrixProvider::new")

p("The size of the fleet, whatever the instance says",
  "Computed in double precision with saturating casts, the fleet of every instance has at least two vehicles and at least as many as the lower bound says, also if demands or the capacity are zero, negative, infinite or not a number; so the tables of Split and of the local search have cells. The number of vehicles plus one, the number of rows of the tables of Split, fits in 64 bits.",
  "every instance and every rounding",
  "The parser checks neither the capacity nor the demands; which fleet comes out of a division by zero, a saturating cast and three roundings is a statement about all pairs of a load and a capacity.",
  S + "context.rs: vehicle_lower_bound, initial_num_vehicles", S + "genetic/split.rs: Split::new", S + "improvement/local_search.rs: LocalSearch::new")

out = os.path.join(os.path.dirname(os.path.abspath(__file__)), "..", "properties.jsonl")
with open(out, "w") as f:
    for q in P:
        f.write(json.dumps(q, ensure_ascii=False) + "\n")
print(len(P))
