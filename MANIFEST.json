{
 "claims": [
  {
   "property": "C01",
   "status": "proved",
   "theorems": [
    "Verif.C01_evaluate_exact",
    "Verif.C01_evaluate_stale_independent",
    "Verif.C01_double",
    "Verif.C01_double_cost"
   ],
   "note": "Exact arithmetic for the cost; the independence of stale contents holds for every number type. In double precision for whole demands and distances: lengths, loads and feasibility are exact, the cost is exact for feasible solutions and, with a whole penalty, for all."
  },
  {
   "property": "C02",
   "status": "proved",
   "theorems": [
    "Verif.C02_neighbours_exact"
   ],
   "note": "Every number type."
  },
  {
   "property": "C03",
   "status": "proved",
   "theorems": [
    "Verif.C03_sort_routes_perm",
    "Verif.C03_sort_routes"
   ],
   "note": "Every number type for the permutation part."
  },
  {
   "property": "C04",
   "status": "proved",
   "theorems": [
    "Verif.C04_split_keeps_tour"
   ],
   "note": "Every number type, both variants, any reachable Split object."
  },
  {
   "property": "C05",
   "status": "proved",
   "theorems": [
    "Verif.C05_linear_optimal",
    "Verif.C05_bellman_optimal",
    "Verif.C05_run_linear_optimal",
    "Verif.C05_run_bellman_optimal"
   ],
   "note": "Exact arithmetic. Linear: within 1e-6 per customer of minimal. Bellman: exactly minimal when no load lies in (cap, cap+1e-6], otherwise within pen*1e-6 per route. The run theorems also cover the pass with limited fleet."
  },
  {
   "property": "C06",
   "status": "proved",
   "theorems": [
    "Verif.C06_split_run"
   ],
   "note": "Exact arithmetic; the linear variant below the 1e30 sentinel."
  },
  {
   "property": "C07",
   "status": "proved",
   "theorems": [
    "Verif.C07_crossover_ox"
   ],
   "note": "Every draw of the zone."
  },
  {
   "property": "C08",
   "status": "proved",
   "theorems": [
    "Verif.C08_moves_keep_customers",
    "Verif.C08_routes_unique"
   ],
   "note": "Every number type."
  },
  {
   "property": "C09",
   "status": "proved",
   "theorems": [
    "Verif.C09_delta_exact",
    "Verif.C09_delta_of_applicable"
   ],
   "note": "Exact arithmetic, symmetric distances."
  },
  {
   "property": "C10",
   "status": "proved",
   "theorems": [
    "Verif.C10_run_structure",
    "Verif.C10_new_ready",
    "Verif.C10_C11_run"
   ],
   "note": "The structure for every number type; the cost in exact arithmetic."
  },
  {
   "property": "C11",
   "status": "proved",
   "theorems": [
    "Verif.C10_C11_run",
    "Verif.C11_accepted_decreases"
   ],
   "note": "Exact arithmetic."
  },
  {
   "property": "C12",
   "status": "proved",
   "theorems": [
    "Verif.C12_swap_star_structure",
    "Verif.C12_swap_star_exact"
   ],
   "note": "The structure for every number type; the cost in exact arithmetic."
  },
  {
   "property": "C13",
   "status": "proved",
   "theorems": [
    "Verif.C13_three_cheapest",
    "Verif.C13_double"
   ],
   "note": "Exact numbers and finite doubles."
  },
  {
   "property": "C14",
   "status": "partial",
   "theorems": [
    "Verif.C14_depot_branch_inert_refuted",
    "Verif.GapEx.C14_depot_moves_refuted",
    "Verif.C14_depot_list_partial"
   ],
   "note": "False for the code: the depot branch re-evaluates the same pair (u, v), proved to be without effect in every state, with a run that misses a depot move. What holds: the depot moves towards the neighbours themselves have no gain at the end."
  },
  {
   "property": "C15",
   "status": "partial",
   "theorems": [
    "Verif.C15_counter_stuck_refuted",
    "Verif.GapEx.C15_empty_route_refuted",
    "Verif.C15_empty_route_partial"
   ],
   "note": "False for the code: with SWAP* off the loop counter stays 0, and even with all moves on the search stops after a first pass without improvement. Proved for runs with SWAP* that change the routes."
  },
  {
   "property": "C16",
   "status": "partial",
   "theorems": [
    "Verif.C16_in_bounds_partial",
    "Verif.C16_small_instance_refuted",
    "Verif.C16_granularity_zero_refuted"
   ],
   "note": "False for instances with fewer than granularity + 2 nodes (out-of-bounds slice) and for granularity 0 (panic); proved for every other granularity up to min(200, n-2)."
  },
  {
   "property": "C17",
   "status": "proved",
   "theorems": [
    "Verif.C17_nearest",
    "Verif.C17_euclidean",
    "Verif.C17_double"
   ],
   "note": "Every number type; the external sort is any routine that sorts."
  },
  {
   "property": "C18",
   "status": "proved",
   "theorems": [
    "Verif.C18_euclidean",
    "Verif.squareLaws_rat",
    "Verif.C18_double"
   ],
   "note": "Any arithmetic with five stated sign/zero laws; they are proved for exact numbers and for doubles."
  },
  {
   "property": "C19",
   "status": "proved",
   "theorems": [
    "Verif.C19_explicit_lower_row"
   ],
   "note": "Every number type."
  },
  {
   "property": "C20",
   "status": "proved",
   "theorems": [
    "Verif.C20_max_euclidean",
    "Verif.C20_max_explicit",
    "Verif.C20_double_euclidean",
    "Verif.C20_double_explicit"
   ],
   "note": "Exact arithmetic and, for finite distances, double precision (where the tolerance is the rounded sum). The lazy matrix reports no maximum at all."
  },
  {
   "property": "C21",
   "status": "proved",
   "theorems": [
    "Verif.RawMatrix.C21_raw_matrix",
    "Verif.RawMatrix.C21_init"
   ],
   "note": "Every cell type."
  },
  {
   "property": "C22",
   "status": "proved",
   "theorems": [
    "Verif.RRSol.C22_ruin_structure",
    "Verif.RRSol.C22_ruin",
    "Verif.RRSol.C22_double"
   ],
   "note": "The structure for every number type; no panic and exact distances in exact arithmetic and, for whole distances and demands, in double precision."
  },
  {
   "property": "C23",
   "status": "proved",
   "theorems": [
    "Verif.RRSol.C23_recreate_structure",
    "Verif.RRSol.C23_recreate",
    "Verif.RRSol.C23_double",
    "Verif.RRSol.C23_double_cost"
   ],
   "note": "The structure for every number type; no panic and exact distances in exact arithmetic below the f64::MAX sentinel. In double precision for whole distances and demands and penalties up to 2^44: no panic, exact distances and overloads; the recorded cost is exact if the penalty is whole too."
  },
  {
   "property": "C24",
   "status": "proved",
   "theorems": [
    "Verif.RRSol.C24_insertion",
    "Verif.RRSol.C24_double_partial",
    "Verif.RRSol.C24_double_fallback"
   ],
   "note": "Exact arithmetic, below the f64::MAX sentinel. In double precision for whole distances and demands: without tolerance when an open route has room; otherwise, for penalties up to 2^44, minimal up to the tolerance of approx_lt among the costs as rounded."
  },
  {
   "property": "C25",
   "status": "proved",
   "theorems": [
    "Verif.C25_ruin_recreate",
    "Verif.C25_elite_education"
   ],
   "note": "Exact arithmetic; every acceptance schedule in every state."
  },
  {
   "property": "C26",
   "status": "partial",
   "theorems": [
    "Verif.C26_reference_partial",
    "Verif.RuinEx.C26_reference_refuted",
    "Verif.C26_first_reference",
    "Verif.C26_first_round_accepts_anything"
   ],
   "note": "False for the code: the working copy is cloned before the loaded solution is evaluated, so the first reference cost is infinity or that of an earlier solution. True from the second round on."
  },
  {
   "property": "C27",
   "status": "partial",
   "theorems": [
    "Verif.C27_accept",
    "Verif.C27_accept_iff",
    "Verif.C27_iteration_schedule",
    "Verif.C27_final_temperature",
    "Verif.C27_double_partial",
    "Verif.ScheduleDoubleEx.C27_double_refuted",
    "Verif.C27_double_schedule_partial",
    "Verif.CoolingEx.C27_double_strict_refuted"
   ],
   "note": "Proved in full in exact real arithmetic with the real exponential. In double precision the acceptance is proved for every temperature that is not negative, except draw 0 at temperature 0: there 0 * ln(0) is not a number and every candidate is rejected (a start temperature of 0 is such a schedule). The temperature starts at the start temperature, never rises and is never negative up to completion, for an exponential that never falls on [-2, 0]; it need not fall strictly (refuted at the smallest positive start temperature)."
  },
  {
   "property": "C28",
   "status": "partial",
   "theorems": [
    "Verif.C28_reset_partial",
    "Verif.C28_time_reset_refuted",
    "Verif.C28_time_reset_keeps"
   ],
   "note": "False for the time schedule (reset keeps the completion flag and the temperature); proved for the iteration schedule in every arithmetic."
  },
  {
   "property": "C29",
   "status": "partial",
   "theorems": [
    "Verif.C29_sizes",
    "Verif.C29_sorted_partial",
    "Verif.C29_feasible_sorted",
    "Verif.PopEx.C29_sorted_refuted"
   ],
   "note": "The size bounds are proved for every history. The order is false beyond the tolerance (three costs 0.6e-6 apart are kept in an order that is off by 1.2e-6) and proved when costs are spaced, in particular for integral data."
  },
  {
   "property": "C30",
   "status": "proved",
   "theorems": [
    "Verif.C30_best_survives",
    "Verif.C30_insertion_keeps_best"
   ],
   "note": "Exact numbers, num_diversity_closest >= 1 (0 gives a NaN average and a panic)."
  },
  {
   "property": "C31",
   "status": "proved",
   "theorems": [
    "Verif.C31_elites_survive",
    "Verif.C31_fitness_up_to_date"
   ],
   "note": "Exact numbers."
  },
  {
   "property": "C32",
   "status": "proved",
   "theorems": [
    "Verif.C32_diversity_table"
   ],
   "note": "Every number type, every history of insertions and repricings."
  },
  {
   "property": "C33",
   "status": "proved",
   "theorems": [
    "Verif.C33_duplicates_rejected"
   ],
   "note": "Every number type."
  },
  {
   "property": "C34",
   "status": "partial",
   "theorems": [
    "Verif.C34_clone_partial",
    "Verif.C34_last_route_partial",
    "Verif.CloneEx.C34_clone_refuted",
    "Verif.CloneEx.C34_cheaper_lost"
   ],
   "note": "False for the code: [[1],[2]] is at distance 0 from [[1,2],[]] but not conversely, and the cheaper one is then discarded. Distance 0 in both directions, or with the last route of the second individual in use, does imply the same routes."
  },
  {
   "property": "C35",
   "status": "proved",
   "theorems": [
    "Verif.C35_tournament",
    "Verif.C35_any_pair",
    "Verif.C35_double"
   ],
   "note": "Every random stream; exact numbers, and doubles other than NaN, for the comparison of fitness."
  },
  {
   "property": "C36",
   "status": "proved",
   "theorems": [
    "Verif.C36_classes"
   ],
   "note": "Every number type, every history."
  },
  {
   "property": "C37",
   "status": "proved",
   "theorems": [
    "Verif.C37_penalty_range",
    "Verif.C37_penalty_moves",
    "Verif.C37_initial_penalty",
    "Verif.C37_max_demand",
    "Verif.C37_double_max_demand",
    "Verif.C37_initial_outcomes"
   ],
   "note": "Exact arithmetic, all runs. During elite education the penalty is not clamped (the property is about the cycle)."
  },
  {
   "property": "C38",
   "status": "proved",
   "theorems": [
    "Verif.C38_history_improves"
   ],
   "note": "Exact arithmetic, all runs, genetic and ruin-and-recreate updates."
  },
  {
   "property": "C39",
   "status": "proved",
   "theorems": [
    "Verif.C39_recorded_feasible",
    "Verif.C39_reported_solution"
   ],
   "note": "Exact arithmetic, all runs of both split procedures, elite education and mutation included."
  },
  {
   "property": "C40",
   "status": "partial",
   "theorems": [
    "Verif.C40_best_solution_partial",
    "Verif.C40_best_recorded_partial",
    "Verif.GeneticEx.C40_refuted"
   ],
   "note": "False for the code: ruin and recreate records a solution before the genetic algorithm compares with the history, so best_solution stays behind. Proved when mutation and elite education are off; in general best_solution is some recorded solution."
  },
  {
   "property": "C41",
   "status": "proved",
   "theorems": [
    "Verif.C41_solution_text_round_trip",
    "Verif.C41_cost_nearest",
    "Verif.C41_no_solution",
    "Verif.C41_double_cost",
    "Verif.C41_double_cost_large"
   ],
   "note": "Every list of routes and every number type; the printed cost is nearest on exact numbers and on doubles up to 2^63, and saturates from 2^64 on."
  },
  {
   "property": "C42",
   "status": "proved",
   "theorems": [
    "Verif.C42_terminates",
    "Verif.C42_crossover_bound"
   ],
   "note": "Every number type, every clock."
  },
  {
   "property": "C43",
   "status": "proved",
   "theorems": [
    "Verif.C43_crossover_terminates",
    "Verif.C43_one_customer_never_terminates"
   ],
   "note": "Holds from two customers on; with one customer the loop is proved never to end."
  },
  {
   "property": "C44",
   "status": "proved",
   "theorems": [
    "Verif.C44_fleet_size",
    "Verif.Program.C44_double"
   ],
   "note": "Exact arithmetic; for whole demands also double precision."
  },
  {
   "property": "C45",
   "status": "partial",
   "theorems": [
    "Verif.C45_fleet_suffices_partial",
    "Verif.FleetEx.C45_refuted",
    "Verif.Program.C45_double_partial",
    "Verif.FleetDoubleEx.C45_double_refuted"
   ],
   "note": "False for the code: twenty customers of demand 51 and capacity 100 get 16 vehicles. Proved when no demand exceeds a sixth of the capacity. Both halves in exact arithmetic and, for whole demands, in double precision."
  },
  {
   "property": "C46",
   "status": "proved",
   "theorems": [
    "Verif.C46_decomposition",
    "Verif.C46_sub_matrix",
    "Verif.C46_sub_matrix_rest"
   ],
   "note": "Exact arithmetic; the rebuilt matrix is shown to hold the distances of the sub-context. The number of spare empty routes is part of the statement."
  },
  {
   "property": "C47",
   "status": "partial",
   "theorems": [
    "Verif.DecompEx.C47_refuted",
    "Verif.DecompEx.C47_improvement_panics",
    "Verif.C47_load_iff_partial",
    "Verif.C47_no_best"
   ],
   "note": "False for the code: writing back a sub-solution with another number of routes makes the assertion in load fail. Proved: it passes exactly when the numbers agree."
  },
  {
   "property": "C48",
   "status": "partial",
   "theorems": [
    "Verif.C48_encloses_partial",
    "Verif.C48_encloses_refuted",
    "Verif.C48_overlaps_iff"
   ],
   "note": "False when the first angle is exactly 0 and another follows (the sector forgets the 0); proved for every other sequence. Overlap is proved exactly."
  },
  {
   "property": "C49",
   "status": "proved",
   "theorems": [
    "Verif.C49_update",
    "Verif.C49_update_succeeds_iff"
   ],
   "note": "serde's conversion of one field is a parameter, assumed idempotent."
  },
  {
   "property": "C50",
   "status": "partial",
   "theorems": [
    "Verif.C50_command_line_refuted",
    "Verif.C50_command_line_partial"
   ],
   "note": "False for the code: the default of -t overrides the configured limit and -r is always taken as true. The options that do take effect are proved."
  },
  {
   "property": "C51",
   "status": "proved",
   "theorems": [
    "Verif.C51_parse_euclidean",
    "Verif.C51_parse_explicit",
    "Verif.C51_lineWords",
    "Verif.C51_dimension_word"
   ],
   "note": "Every layout and block order; the f64 word parser of std is a parameter."
  },
  {
   "property": "C52",
   "status": "partial",
   "theorems": [
    "Verif.OrderEx.C52_program_refuted",
    "Verif.HashEx.C52_hash_order_refuted",
    "Verif.Program.C52_without_ruin_partial",
    "Verif.RRSol.C52_no_ties_partial"
   ],
   "note": "False for the code: one hash set is made with unseeded keys, and a whole run of the program writes files of different cost for two iteration orders. Proved: without ruin and recreate the file written is a function of instance, settings, draws and the call at which time is up; a recreate step without ties between routes does not depend on the order."
  },
  {
   "property": "C53",
   "status": "partial",
   "theorems": [
    "Verif.C53_comparisons",
    "Verif.C53_comparisons_int",
    "Verif.C53_double_partial",
    "Verif.C53_double_int",
    "Verif.ComparisonEx.C53_mirror_refuted",
    "Verif.ComparisonEx.C53_trichotomy_refuted"
   ],
   "note": "Proved in full on exact numbers. In double precision: the three comparisons exclude each other for all doubles, infinities and NaN included, and are exact on whole numbers below 2^52; false: approx_lt and approx_gt do not mirror each other, and two numbers more than 1e-6 apart can be neither less, equal nor greater (witnesses near 2 and near 1)."
  },
  {
   "property": "C54",
   "status": "proved",
   "theorems": [
    "Verif.C54_shuffle",
    "Verif.C54_shuffle_onto",
    "Verif.C54_range",
    "Verif.C54_range_onto",
    "Verif.C54_sample",
    "Verif.C54_sample_too_many"
   ],
   "note": "Every random stream."
  },
  {
   "property": "C55",
   "status": "proved",
   "theorems": [
    "Verif.C55_best_iteration",
    "Verif.C55_restart"
   ],
   "note": "Every number type."
  },
  {
   "property": "C56",
   "status": "proved",
   "theorems": [
    "Verif.C56_decomposed_run"
   ],
   "note": "Exact arithmetic; executions that panic (C47) have no next state."
  },
  {
   "property": "C57",
   "status": "proved",
   "theorems": [
    "Verif.C57_cycle_no_worse",
    "Verif.C57_start"
   ],
   "note": "Exact arithmetic; costs below the infinity sentinel. The second theorem holds for every number type."
  },
  {
   "property": "C58",
   "status": "proved",
   "theorems": [
    "Verif.C58_limit_ignored",
    "Verif.C58_terminated_stays"
   ],
   "note": "Every number type."
  },
  {
   "property": "C59",
   "status": "proved",
   "theorems": [
    "Verif.C59_local_optimum"
   ],
   "note": "Exact arithmetic, symmetric distances."
  },
  {
   "property": "C60",
   "status": "proved",
   "theorems": [
    "Verif.C60_rounds"
   ],
   "note": "Exact arithmetic."
  },
  {
   "property": "C61",
   "status": "proved",
   "theorems": [
    "Verif.C61_swap_star_complete",
    "Verif.C61_search_complete",
    "Verif.MoveEx.C61_triangle_needed"
   ],
   "note": "Exact arithmetic, distances between 0 and the largest float. The last theorem shows that the triangle inequality is needed."
  },
  {
   "property": "C62",
   "status": "proved",
   "theorems": [
    "Verif.C62_file_plane",
    "Verif.C62_file_explicit"
   ],
   "note": "Exact arithmetic. Asks for a granularity the neighbour lists can serve, magnitudes below the sentinel and library contracts; ProgramEx.run is a kernel-evaluated run meeting all hypotheses (without decomposition, whose set-up needs 100000 rounds). The file is empty when nothing feasible was recorded."
  },
  {
   "property": "C63",
   "status": "partial",
   "theorems": [
    "Verif.C63_call_returns_partial",
    "Verif.ProgressEx.C63_no_initial_refuted",
    "Verif.C63_elite_penalty_panics",
    "Verif.EliteEx.C63_elite_penalty_refuted",
    "Verif.EliteEx.C63_elite_call_refuted"
   ],
   "note": "False for the code: without initial individuals the first crossover panics, and on an infeasible instance elite education raises the penalty beyond all bounds until recreate panics. Proved for the instances and settings of GA.Robust (exact arithmetic; the crossover draws are not the same forever)."
  },
  {
   "property": "C64",
   "status": "proved",
   "theorems": [
    "Verif.C64_iteration_limit",
    "Verif.C64_time_limit"
   ],
   "note": "Exact arithmetic, instances and settings of GA.Robust; the crossover draws are not the same forever."
  },
  {
   "property": "C65",
   "status": "proved",
   "theorems": [
    "Verif.C65_local_optima",
    "Verif.C65_no_worse_than_optimum",
    "Verif.C65_swap_star",
    "Verif.C65_swap_star_mutation"
   ],
   "note": "Exact arithmetic, symmetric distances, elite education off; for SWAP* also the triangle inequality."
  },
  {
   "property": "C66",
   "status": "proved",
   "theorems": [
    "Verif.C66_ends_plane",
    "Verif.C66_ends_explicit"
   ],
   "note": "Exact arithmetic, instances and settings of Program.EndsOK, below the decomposition limit; the crossover draws are not the same forever."
  },
  {
   "property": "C67",
   "status": "proved",
   "theorems": [
    "Verif.C67_best_of_all",
    "Verif.C67_best_of_all_whole"
   ],
   "note": "Exact arithmetic; lengths below 2^1023."
  },
  {
   "property": "C68",
   "status": "proved",
   "theorems": [
    "Verif.C68_penalty_times"
   ],
   "note": "Exact arithmetic."
  },
  {
   "property": "C69",
   "status": "proved",
   "theorems": [
    "Verif.C69_repair"
   ],
   "note": "Every number type."
  },
  {
   "property": "C70",
   "status": "proved",
   "theorems": [
    "Verif.C70_file_plane",
    "Verif.C70_file_real"
   ],
   "note": "Double precision for any rounding with \u03c1.fl(6/5) \u2264 6/5; nearestEven is one. One zero instead of two; finite numbers are a superset of the representable ones. DoubleEx.run is a kernel-evaluated run."
  },
  {
   "property": "C71",
   "status": "proved",
   "theorems": [
    "Verif.C71_exact_plane"
   ],
   "note": "Double precision as in C70; the root has to lie on the right side of every double (SqrtOK, met by someSqrt)."
  },
  {
   "property": "C72",
   "status": "proved",
   "theorems": [
    "Verif.C72_exact_explicit",
    "Verif.C72_near_explicit"
   ],
   "note": "Double precision as in C70; ExplicitEx.runDbl is a kernel-evaluated run."
  },
  {
   "property": "C73",
   "status": "partial",
   "theorems": [
    "Verif.C73_search_ends_partial",
    "Verif.C73_search_ends_refuted",
    "Verif.Program.C73_program_refuted"
   ],
   "note": "Double precision. Proved for data where the roundings of a move stay below 2^-21, or for whole distances with tour lengths and penalties below 2^27 over a small factor, which covers benchmark sizes (FineData); false beyond: with three customers at distances of about 1.7e10 differing by 4e-6 (or 4.5e15 differing by 1) no run of the local search ends, it performs as many moves as rounds are allowed; and no run of the whole program on an instance file with such whole numbers ends (C73_program_refuted)."
  },
  {
   "property": "C74",
   "status": "proved",
   "theorems": [
    "Verif.C74_local_optimum",
    "Verif.C74_local_optimum_whole"
   ],
   "note": "Double precision with any monotone rounding; the data need only be small enough that no number overflows (SizedData). SearchEx has a kernel-evaluated run meeting all hypotheses."
  },
  {
   "property": "C75",
   "status": "proved",
   "theorems": [
    "Verif.C75_first_call",
    "Verif.C75_cycle_call",
    "Verif.C75_one_vehicle",
    "Verif.C75_one_vehicle_run"
   ],
   "note": "Exact arithmetic, for instances and settings within DGA.Valid and GA.Sturdy (GA.Robust without the demands on elite education). DecompRunEx reaches states of the cycle and a whole run with them."
  },
  {
   "property": "C76",
   "status": "proved",
   "theorems": [
    "Verif.C76_tournament",
    "Verif.C76_program",
    "Verif.C76_min_size",
    "Verif.C76_closest"
   ],
   "note": "Every number type, except C76_closest, which is about double precision. ZeroEx has kernel-evaluated runs of the program with and without the zeros."
  },
  {
   "property": "C77",
   "status": "proved",
   "theorems": [
    "Verif.C77_only_enabled",
    "Verif.C77_all_off",
    "Verif.C77_intra_only",
    "Verif.C77_lists"
   ],
   "note": "Any arithmetic in which EPSILON comparisons behave on zero and infinity (exact and finite double)."
  },
  {
   "property": "C78",
   "status": "proved",
   "theorems": [
    "Verif.C78_call_returns",
    "Verif.C78_ends_plane",
    "Verif.C78_ends_explicit",
    "Verif.C78_no_circle"
   ],
   "note": "Double precision with any monotone rounding; atan2 of numbers must be no NaN and the sort must not panic on comparable members (DblTotal). That circles do occur with very large distances is C73_program_refuted. DblEndsExamples applies it to two instance files."
  },
  {
   "property": "C79",
   "status": "proved",
   "theorems": [
    "Verif.C79_printed_plane",
    "Verif.C79_printed_explicit"
   ],
   "note": "Exact arithmetic. Of the terminal output only the solutions are modelled; with decomposition the code prints further lines between them. DimacsEx is a kernel-evaluated run that prints two solutions."
  },
  {
   "property": "C80",
   "status": "proved",
   "theorems": [
    "Verif.C80_ruin",
    "Verif.C80_lengths"
   ],
   "note": "Exact arithmetic, average removed at most 2^50. RuinEx is a solution meeting the hypotheses."
  },
  {
   "property": "C81",
   "status": "proved",
   "theorems": [
    "Verif.RRSol.C81_recreate",
    "Verif.RRSol.C81_any_order"
   ],
   "note": "Exact arithmetic. RuinEx.ruinedSol meets the hypotheses."
  },
  {
   "property": "C82",
   "status": "proved",
   "theorems": [
    "Verif.C82_when",
    "Verif.C82_rounds",
    "Verif.C82_time",
    "Verif.C82_end"
   ],
   "note": "Exact arithmetic for the number of rounds and the clock, every number type for the rest. EliteTimeEx has runs of both kinds."
  },
  {
   "property": "C83",
   "status": "partial",
   "theorems": [
    "Verif.C83_fitness_partial",
    "Verif.FitEx.C83_stale_refuted"
   ],
   "note": "Exact arithmetic. True for the feasible individuals at all times, and for the infeasible ones directly after one of them was inserted; a change of the penalty re-sorts the infeasible individuals without a new fitness, which C83_stale_refuted shows with a concrete history."
  },
  {
   "property": "C84",
   "status": "proved",
   "theorems": [
    "Verif.C84_printed_plane",
    "Verif.C84_printed_explicit",
    "Verif.C84_near_plane",
    "Verif.C84_near_explicit",
    "Verif.C84_launch_plane",
    "Verif.C84_launch_explicit"
   ],
   "note": "Double precision. The two printed theorems are for whole distances and give strictly falling costs; the two near theorems are for other distances and bound the error of each stated cost. The two launch theorems start from the command line and config.yml. DimacsDoubleEx has kernel-evaluated runs that print two solutions."
  },
  {
   "property": "C85",
   "status": "partial",
   "theorems": [
    "Verif.C85_plane_partial",
    "Verif.C85_explicit_partial",
    "Verif.C85_shipped_partial",
    "Verif.C85_ends_partial",
    "Verif.C85_ends_double_partial",
    "Verif.C85_ends_explicit_partial",
    "Verif.C85_small_refuted"
   ],
   "note": "Double precision, except C85_ends_partial (exact arithmetic, up to 3000 nodes); C85_ends_double_partial and C85_ends_explicit_partial are its versions in double precision, in the plane and for explicit matrices, with circles of moves as the only exception. Holds for sizes that suit the instance, with the shipped file from 22 nodes on. C85_small_refuted, for any arithmetic: with the shipped file no run on an instance of at most 21 nodes finds a solution. Reading YAML text is not modelled; the mapping it holds is the input."
  },
  {
   "property": "C86",
   "status": "proved",
   "theorems": [
    "Verif.C86_settings",
    "Verif.C86_starts",
    "Verif.C86_numbers"
   ],
   "note": "Any arithmetic. serde's typing of the fields is modelled by convert; the fields the program never reads are left out. The two options that do not do what one expects are C50."
  },
  {
   "property": "C87",
   "status": "proved",
   "theorems": [
    "Verif.C87_no_clones",
    "Verif.C87_elites_exact",
    "Verif.C87_elites",
    "Verif.C87_best",
    "Verif.C87_parents",
    "Verif.C87_run",
    "Verif.C87_program"
   ],
   "note": "C87_no_clones holds for every number type; C87_elites, C87_best and C87_parents are about double precision with any rounding; C87_run and C87_program carry the absence of clones and the tournament over to every state of every run without decomposition. ElitesEx has a kernel-evaluated history."
  },
  {
   "property": "C88",
   "status": "proved",
   "theorems": [
    "Verif.C88_kept_plane",
    "Verif.C88_kept_explicit",
    "Verif.C88_all_plane",
    "Verif.C88_numbers",
    "Verif.C88_decomposed",
    "Verif.C88_launch_plane"
   ],
   "note": "The exact counterpart is C67. A cost that is not a number can only arise from an infinite penalty in elite education; C88_numbers rules it out under the conditions of C78. The solution create_global_solution ends with is not offered to the history by the code and is not covered."
  },
  {
   "property": "C89",
   "status": "proved",
   "theorems": [
    "Verif.C89_in_reach",
    "Verif.C89_in_reach_whole",
    "Verif.C89_file_plane",
    "Verif.C89_file_explicit",
    "Verif.C89_optimum_plane",
    "Verif.C89_optimum_explicit"
   ],
   "note": "Exact arithmetic, without decomposition; the program-level theorems without elite education. A draw is any sequence of numbers; whether fastrand produces it for some seed is outside the model."
  },
  {
   "property": "C90",
   "status": "partial",
   "theorems": [
    "Verif.C90_log_partial",
    "Verif.C90_cycle_partial",
    "Verif.C90_call_partial",
    "Verif.C90_lines_partial",
    "Verif.C90_best_cost",
    "Verif.C90_average_double",
    "Verif.C90_log_double_partial",
    "Verif.LogEx.C90_diversity_nan_refuted",
    "Verif.LogEx.C90_diversity_above_one_refuted"
   ],
   "note": "Everything but the range of the diversity is proved (exact arithmetic). C90_log_double_partial is the version in double precision for whole distances: the best feasible cost is exact, average and fraction are rounded once. The range is false: C90_diversity_above_one_refuted (7/6 in a run of the genetic algorithm) and C90_diversity_nan_refuted (NaN and a negative number in a run of the whole program in double precision). Proved instead, from two members on: at least one broken pair per pair of individuals, less than twice the number of customers."
  },
  {
   "property": "C91",
   "status": "proved",
   "theorems": [
    "Verif.C91_log_times",
    "Verif.C91_lines"
   ],
   "note": "Every number type. LogTimesEx has kernel-evaluated runs with restarts, with and without elite education; LogTimesEx.twice shows that the exception is one."
  },
  {
   "property": "C92",
   "status": "proved",
   "theorems": [
    "Verif.C92_sorted",
    "Verif.C92_best_cost",
    "Verif.C92_held_plane",
    "Verif.C92_held_explicit"
   ],
   "note": "The exact counterpart is C29_feasible_sorted. C92_best_cost asks for costs that are numbers, which C88_numbers provides under the conditions of C78. The program-level theorems are about runs without decomposition."
  },
  {
   "property": "C93",
   "status": "partial",
   "theorems": [
    "Verif.C93_range",
    "Verif.C93_penalty_double_partial",
    "Verif.C93_program_partial",
    "Verif.C93_default_target",
    "Verif.C93_threshold",
    "Verif.C93_threshold_refuted"
   ],
   "note": "Range and times hold in full. The direction is proved for shares at least 1e-9 away from the two thresholds, and within that distance the penalty stays or moves as the nearer rule says. On a threshold it is false: C93_threshold_refuted, since 0.2 - 0.05 is more than 0.15 in double precision; C93_default_target says for target 0.2 exactly which shares raise (up to 15 of 100) and which lower (from 26 on). The exact counterparts are C37 and C68."
  },
  {
   "property": "C94",
   "status": "partial",
   "theorems": [
    "Verif.C94_duration_partial",
    "Verif.C94_panics_iff",
    "Verif.C94_model_partial",
    "Verif.C94_duration_refuted"
   ],
   "note": "Double precision, every rounding. Proved for fractions from 0 to 1 and time limits up to 2^20 seconds, which includes the default and the shipped settings. For all settings it is false: C94_duration_refuted (a negative fraction, one that is not a number, a product of 2^64 and more); C94_panics_iff says exactly which abort. C94_model_partial bounds the simplification of the run model, which takes the product itself."
  },
  {
   "property": "C95",
   "status": "partial",
   "theorems": [
    "Verif.RawMatrix.C95_operations",
    "Verif.C95_allocations_partial",
    "Verif.C95_subproblem",
    "Verif.C95_decomposition",
    "Verif.C95_decomposition_refuted",
    "Verif.C95_lazy",
    "Verif.C95_one_customer",
    "Verif.C95_allocations_refuted"
   ],
   "note": "Freeing is proved in full for the matrices named. The positive size is proved for instances with an explicit matrix or fewer customers than precompute_distance_size_limit, for neighbour lists of at least two customers, and for the subproblems of decomposition if decomposed_problem_min_size is at least two (with one it is false, C95_decomposition_refuted). For the other instances it is false: C95_lazy and C95_one_customer say so for all of them, C95_allocations_refuted has witnesses. Failure of the allocator (a null pointer, which the code does not check) is outside; the tables of Split and of the local search are in C96."
  },
  {
   "property": "C96",
   "status": "partial",
   "theorems": [
    "Verif.C96_fleet_partial",
    "Verif.C96_tables",
    "Verif.C96_usable_partial",
    "Verif.C96_no_capacity",
    "Verif.C96_fleet_refuted"
   ],
   "note": "Double precision, every rounding. The two lower bounds and the cells of the tables hold for every instance. That the number plus one fits in 64 bits is proved for lower bounds up to 2^63 and false in general: with a load and capacity zero the fleet is 2^64 - 1 (C96_no_capacity, C96_fleet_refuted). The model has one zero, so a capacity of -0 counts as 0."
  }
 ]
}
