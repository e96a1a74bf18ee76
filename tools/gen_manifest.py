"""Write MANIFEST.json from the table below."""
import json, os
P, PART, NA = "proved", "partial", "not_applicable"
C = {}
def c(i, status, theorems, note): C[i] = dict(property=i, status=status, theorems=theorems, note=note)

c("C01", P, ["Verif.C01_evaluate_exact", "Verif.C01_evaluate_stale_independent", "Verif.C01_double", "Verif.C01_double_cost"],
  "Exact arithmetic for the cost; the independence of stale contents holds for every number type. In double precision for whole demands and distances: lengths, loads and feasibility are exact, the cost is exact for feasible solutions and, with a whole penalty, for all.")
c("C02", P, ["Verif.C02_neighbours_exact"], "Every number type.")
c("C03", P, ["Verif.C03_sort_routes_perm", "Verif.C03_sort_routes"], "Every number type for the permutation part.")
c("C04", P, ["Verif.C04_split_keeps_tour"], "Every number type, both variants, any reachable Split object.")
c("C05", P, ["Verif.C05_linear_optimal", "Verif.C05_bellman_optimal", "Verif.C05_run_linear_optimal",
  "Verif.C05_run_bellman_optimal"],
  "Exact arithmetic. Linear: within 1e-6 per customer of minimal. Bellman: exactly minimal when no load lies in (cap, cap+1e-6], otherwise within pen*1e-6 per route. The run theorems also cover the pass with limited fleet.")
c("C06", P, ["Verif.C06_split_run"], "Exact arithmetic; the linear variant below the 1e30 sentinel.")
c("C07", P, ["Verif.C07_crossover_ox"], "Every draw of the zone.")
c("C43", P, ["Verif.C43_crossover_terminates", "Verif.C43_one_customer_never_terminates"],
  "Holds from two customers on; with one customer the loop is proved never to end.")

c("C08", P, ["Verif.C08_moves_keep_customers", "Verif.C08_routes_unique"], "Every number type.")
c("C09", P, ["Verif.C09_delta_exact", "Verif.C09_delta_of_applicable"], "Exact arithmetic, symmetric distances.")
c("C10", P, ["Verif.C10_run_structure", "Verif.C10_new_ready", "Verif.C10_C11_run"],
  "The structure for every number type; the cost in exact arithmetic.")
c("C11", P, ["Verif.C10_C11_run", "Verif.C11_accepted_decreases"], "Exact arithmetic.")
c("C12", P, ["Verif.C12_swap_star_structure", "Verif.C12_swap_star_exact"],
  "The structure for every number type; the cost in exact arithmetic.")
c("C13", P, ["Verif.C13_three_cheapest", "Verif.C13_double"], "Exact numbers and finite doubles.")
c("C14", PART, ["Verif.C14_depot_branch_inert_refuted", "Verif.GapEx.C14_depot_moves_refuted", "Verif.C14_depot_list_partial"],
  "False for the code: the depot branch re-evaluates the same pair (u, v), proved to be without effect in every state, with a run that misses a depot move. What holds: the depot moves towards the neighbours themselves have no gain at the end.")
c("C15", PART, ["Verif.C15_counter_stuck_refuted", "Verif.GapEx.C15_empty_route_refuted", "Verif.C15_empty_route_partial"],
  "False for the code: with SWAP* off the loop counter stays 0, and even with all moves on the search stops after a first pass without improvement. Proved for runs with SWAP* that change the routes.")
c("C16", PART, ["Verif.C16_in_bounds_partial", "Verif.C16_small_instance_refuted", "Verif.C16_granularity_zero_refuted"],
  "False for instances with fewer than granularity + 2 nodes (out-of-bounds slice) and for granularity 0 (panic); proved for every other granularity up to min(200, n-2).")
c("C17", P, ["Verif.C17_nearest", "Verif.C17_euclidean", "Verif.C17_double"], "Every number type; the external sort is any routine that sorts.")
c("C18", P, ["Verif.C18_euclidean", "Verif.squareLaws_rat", "Verif.C18_double"], "Any arithmetic with five stated sign/zero laws; they are proved for exact numbers and for doubles.")
c("C19", P, ["Verif.C19_explicit_lower_row"], "Every number type.")
c("C20", P, ["Verif.C20_max_euclidean", "Verif.C20_max_explicit", "Verif.C20_double_euclidean", "Verif.C20_double_explicit"],
  "Exact arithmetic and, for finite distances, double precision (where the tolerance is the rounded sum). The lazy matrix reports no maximum at all.")
c("C21", P, ["Verif.RawMatrix.C21_raw_matrix", "Verif.RawMatrix.C21_init"], "Every cell type.")
c("C48", PART, ["Verif.C48_encloses_partial", "Verif.C48_encloses_refuted", "Verif.C48_overlaps_iff"],
  "False when the first angle is exactly 0 and another follows (the sector forgets the 0); proved for every other sequence. Overlap is proved exactly.")
c("C22", P, ["Verif.RRSol.C22_ruin_structure", "Verif.RRSol.C22_ruin", "Verif.RRSol.C22_double"],
  "The structure for every number type; no panic and exact distances in exact arithmetic and, for whole distances and demands, in double precision.")
c("C23", P, ["Verif.RRSol.C23_recreate_structure", "Verif.RRSol.C23_recreate", "Verif.RRSol.C23_double", "Verif.RRSol.C23_double_cost"],
  "The structure for every number type; no panic and exact distances in exact arithmetic below the f64::MAX sentinel. In double precision for whole distances and demands and penalties up to 2^44: no panic, exact distances and overloads; the recorded cost is exact if the penalty is whole too.")
c("C24", P, ["Verif.RRSol.C24_insertion", "Verif.RRSol.C24_double_partial", "Verif.RRSol.C24_double_fallback"],
  "Exact arithmetic, below the f64::MAX sentinel. In double precision for whole distances and demands: without tolerance when an open route has room; otherwise, for penalties up to 2^44, minimal up to the tolerance of approx_lt among the costs as rounded.")
c("C25", P, ["Verif.C25_ruin_recreate", "Verif.C25_elite_education"],
  "Exact arithmetic; every acceptance schedule in every state.")
c("C26", PART, ["Verif.C26_reference_partial", "Verif.RuinEx.C26_reference_refuted", "Verif.C26_first_reference", "Verif.C26_first_round_accepts_anything"],
  "False for the code: the working copy is cloned before the loaded solution is evaluated, so the first reference cost is infinity or that of an earlier solution. True from the second round on.")
c("C27", PART, ["Verif.C27_accept", "Verif.C27_accept_iff", "Verif.C27_iteration_schedule", "Verif.C27_final_temperature", "Verif.C27_double_partial", "Verif.ScheduleDoubleEx.C27_double_refuted", "Verif.C27_double_schedule_partial", "Verif.CoolingEx.C27_double_strict_refuted"],
  "Proved in full in exact real arithmetic with the real exponential. In double precision the acceptance is proved for every temperature that is not negative, except draw 0 at temperature 0: there 0 * ln(0) is not a number and every candidate is rejected (a start temperature of 0 is such a schedule). The temperature starts at the start temperature, never rises and is never negative up to completion, for an exponential that never falls on [-2, 0]; it need not fall strictly (refuted at the smallest positive start temperature).")
c("C28", PART, ["Verif.C28_reset_partial", "Verif.C28_time_reset_refuted", "Verif.C28_time_reset_keeps"],
  "False for the time schedule (reset keeps the completion flag and the temperature); proved for the iteration schedule in every arithmetic.")
c("C29", PART, ["Verif.C29_sizes", "Verif.C29_sorted_partial", "Verif.C29_feasible_sorted", "Verif.PopEx.C29_sorted_refuted"],
  "The size bounds are proved for every history. The order is false beyond the tolerance (three costs 0.6e-6 apart are kept in an order that is off by 1.2e-6) and proved when costs are spaced, in particular for integral data.")
c("C30", P, ["Verif.C30_best_survives", "Verif.C30_insertion_keeps_best"],
  "Exact numbers, num_diversity_closest >= 1 (0 gives a NaN average and a panic).")
c("C31", P, ["Verif.C31_elites_survive", "Verif.C31_fitness_up_to_date"], "Exact numbers.")
c("C32", P, ["Verif.C32_diversity_table"], "Every number type, every history of insertions and repricings.")
c("C33", P, ["Verif.C33_duplicates_rejected"], "Every number type.")
c("C34", PART, ["Verif.C34_clone_partial", "Verif.C34_last_route_partial", "Verif.CloneEx.C34_clone_refuted", "Verif.CloneEx.C34_cheaper_lost"],
  "False for the code: [[1],[2]] is at distance 0 from [[1,2],[]] but not conversely, and the cheaper one is then discarded. Distance 0 in both directions, or with the last route of the second individual in use, does imply the same routes.")
c("C35", P, ["Verif.C35_tournament", "Verif.C35_any_pair", "Verif.C35_double"], "Every random stream; exact numbers, and doubles other than NaN, for the comparison of fitness.")
c("C36", P, ["Verif.C36_classes"], "Every number type, every history.")
c("C37", P, ["Verif.C37_penalty_range", "Verif.C37_penalty_moves", "Verif.C37_initial_penalty", "Verif.C37_max_demand", "Verif.C37_double_max_demand",
  "Verif.C37_initial_outcomes"],
  "Exact arithmetic, all runs. During elite education the penalty is not clamped (the property is about the cycle).")
c("C38", P, ["Verif.C38_history_improves"], "Exact arithmetic, all runs, genetic and ruin-and-recreate updates.")
c("C39", P, ["Verif.C39_recorded_feasible", "Verif.C39_reported_solution"],
  "Exact arithmetic, all runs of both split procedures, elite education and mutation included.")
c("C40", PART, ["Verif.C40_best_solution_partial", "Verif.C40_best_recorded_partial", "Verif.GeneticEx.C40_refuted"],
  "False for the code: ruin and recreate records a solution before the genetic algorithm compares with the history, so best_solution stays behind. Proved when mutation and elite education are off; in general best_solution is some recorded solution.")
c("C42", P, ["Verif.C42_terminates", "Verif.C42_crossover_bound"], "Every number type, every clock.")
c("C41", P, ["Verif.C41_solution_text_round_trip", "Verif.C41_cost_nearest", "Verif.C41_no_solution", "Verif.C41_double_cost", "Verif.C41_double_cost_large"],
  "Every list of routes and every number type; the printed cost is nearest on exact numbers and on doubles up to 2^63, and saturates from 2^64 on.")
c("C44", P, ["Verif.C44_fleet_size", "Verif.Program.C44_double"], "Exact arithmetic; for whole demands also double precision.")
c("C45", PART, ["Verif.C45_fleet_suffices_partial", "Verif.FleetEx.C45_refuted", "Verif.Program.C45_double_partial", "Verif.FleetDoubleEx.C45_double_refuted"],
  "False for the code: twenty customers of demand 51 and capacity 100 get 16 vehicles. Proved when no demand exceeds a sixth of the capacity. Both halves in exact arithmetic and, for whole demands, in double precision.")
c("C46", P, ["Verif.C46_decomposition", "Verif.C46_sub_matrix", "Verif.C46_sub_matrix_rest"],
  "Exact arithmetic; the rebuilt matrix is shown to hold the distances of the sub-context. The number of spare empty routes is part of the statement.")
c("C47", PART, ["Verif.DecompEx.C47_refuted", "Verif.DecompEx.C47_improvement_panics", "Verif.C47_load_iff_partial", "Verif.C47_no_best"],
  "False for the code: writing back a sub-solution with another number of routes makes the assertion in load fail. Proved: it passes exactly when the numbers agree.")
c("C49", P, ["Verif.C49_update", "Verif.C49_update_succeeds_iff"],
  "serde's conversion of one field is a parameter, assumed idempotent.")
c("C50", PART, ["Verif.C50_command_line_refuted", "Verif.C50_command_line_partial"],
  "False for the code: the default of -t overrides the configured limit and -r is always taken as true. The options that do take effect are proved.")
c("C51", P, ["Verif.C51_parse_euclidean", "Verif.C51_parse_explicit", "Verif.C51_lineWords", "Verif.C51_dimension_word"],
  "Every layout and block order; the f64 word parser of std is a parameter.")
c("C52", PART, ["Verif.OrderEx.C52_program_refuted", "Verif.HashEx.C52_hash_order_refuted",
    "Verif.Program.C52_without_ruin_partial", "Verif.RRSol.C52_no_ties_partial"],
  "False for the code: one hash set is made with unseeded keys, and a whole run of the program writes files of different cost for two iteration orders. Proved: without ruin and recreate the file written is a function of instance, settings, draws and the call at which time is up; a recreate step without ties between routes does not depend on the order.")
c("C53", PART, ["Verif.C53_comparisons", "Verif.C53_comparisons_int", "Verif.C53_double_partial", "Verif.C53_double_int", "Verif.ComparisonEx.C53_mirror_refuted", "Verif.ComparisonEx.C53_trichotomy_refuted"],
  "Proved in full on exact numbers. In double precision: the three comparisons exclude each other for all doubles, infinities and NaN included, and are exact on whole numbers below 2^52; false: approx_lt and approx_gt do not mirror each other, and two numbers more than 1e-6 apart can be neither less, equal nor greater (witnesses near 2 and near 1).")
c("C54", P, ["Verif.C54_shuffle", "Verif.C54_shuffle_onto", "Verif.C54_range", "Verif.C54_range_onto", "Verif.C54_sample", "Verif.C54_sample_too_many"],
  "Every random stream.")
c("C55", P, ["Verif.C55_best_iteration", "Verif.C55_restart"], "Every number type.")
c("C56", P, ["Verif.C56_decomposed_run"], "Exact arithmetic; executions that panic (C47) have no next state.")
c("C57", P, ["Verif.C57_cycle_no_worse", "Verif.C57_start"],
  "Exact arithmetic; costs below the infinity sentinel. The second theorem holds for every number type.")
c("C58", P, ["Verif.C58_limit_ignored", "Verif.C58_terminated_stays"], "Every number type.")
c("C59", P, ["Verif.C59_local_optimum"], "Exact arithmetic, symmetric distances.")
c("C60", P, ["Verif.C60_rounds"], "Exact arithmetic.")
c("C61", P, ["Verif.C61_swap_star_complete", "Verif.C61_search_complete", "Verif.MoveEx.C61_triangle_needed"],
  "Exact arithmetic, distances between 0 and the largest float. The last theorem shows that the triangle inequality is needed.")
c("C62", P, ["Verif.C62_file_plane", "Verif.C62_file_explicit"],
  "Exact arithmetic. Asks for a granularity the neighbour lists can serve, magnitudes below the sentinel and library contracts; ProgramEx.run is a kernel-evaluated run meeting all hypotheses (without decomposition, whose set-up needs 100000 rounds). The file is empty when nothing feasible was recorded.")

c("C63", PART, ["Verif.C63_call_returns_partial", "Verif.ProgressEx.C63_no_initial_refuted", "Verif.C63_elite_penalty_panics", "Verif.EliteEx.C63_elite_penalty_refuted", "Verif.EliteEx.C63_elite_call_refuted"],
  "False for the code: without initial individuals the first crossover panics, and on an infeasible instance elite education raises the penalty beyond all bounds until recreate panics. Proved for the instances and settings of GA.Robust (exact arithmetic; the crossover draws are not the same forever).")
c("C64", P, ["Verif.C64_iteration_limit", "Verif.C64_time_limit"],
  "Exact arithmetic, instances and settings of GA.Robust; the crossover draws are not the same forever.")

c("C65", P, ["Verif.C65_local_optima", "Verif.C65_no_worse_than_optimum",
  "Verif.C65_swap_star", "Verif.C65_swap_star_mutation"],
  "Exact arithmetic, symmetric distances, elite education off; for SWAP* also the triangle inequality.")

c("C66", P, ["Verif.C66_ends_plane", "Verif.C66_ends_explicit"],
  "Exact arithmetic, instances and settings of Program.EndsOK, below the decomposition limit; the crossover draws are not the same forever.")
c("C67", P, ["Verif.C67_best_of_all", "Verif.C67_best_of_all_whole"],
  "Exact arithmetic; lengths below 2^1023.")

c("C68", P, ["Verif.C68_penalty_times"], "Exact arithmetic.")
c("C69", P, ["Verif.C69_repair"], "Every number type.")

c("C70", P, ["Verif.C70_file_plane", "Verif.C70_file_real"],
  "Double precision for any rounding with ρ.fl(6/5) ≤ 6/5; nearestEven is one. One zero instead of two; finite numbers are a superset of the representable ones. DoubleEx.run is a kernel-evaluated run.")
c("C71", P, ["Verif.C71_exact_plane"], "Double precision as in C70; the root has to lie on the right side of every double (SqrtOK, met by someSqrt).")
c("C72", P, ["Verif.C72_exact_explicit", "Verif.C72_near_explicit"], "Double precision as in C70; ExplicitEx.runDbl is a kernel-evaluated run.")
c("C73", PART, ["Verif.C73_search_ends_partial", "Verif.C73_search_ends_refuted", "Verif.Program.C73_program_refuted"],
  "Double precision. Proved for data where the roundings of a move stay below 2^-21, or for whole distances with tour lengths and penalties below 2^27 over a small factor, which covers benchmark sizes (FineData); false beyond: with three customers at distances of about 1.7e10 differing by 4e-6 (or 4.5e15 differing by 1) no run of the local search ends, it performs as many moves as rounds are allowed; and no run of the whole program on an instance file with such whole numbers ends (C73_program_refuted).")
c("C74", P, ["Verif.C74_local_optimum", "Verif.C74_local_optimum_whole"],
  "Double precision with any monotone rounding; the data need only be small enough that no number overflows (SizedData). SearchEx has a kernel-evaluated run meeting all hypotheses.")
c("C75", P, ["Verif.C75_first_call", "Verif.C75_cycle_call", "Verif.C75_one_vehicle", "Verif.C75_one_vehicle_run"],
  "Exact arithmetic, for instances and settings within DGA.Valid and GA.Sturdy (GA.Robust without the demands on elite education). DecompRunEx reaches states of the cycle and a whole run with them.")
c("C76", P, ["Verif.C76_tournament", "Verif.C76_program", "Verif.C76_min_size", "Verif.C76_closest"],
  "Every number type, except C76_closest, which is about double precision. ZeroEx has kernel-evaluated runs of the program with and without the zeros.")

c("C77", P, ["Verif.C77_only_enabled", "Verif.C77_all_off", "Verif.C77_intra_only", "Verif.C77_lists"],
  "Any arithmetic in which EPSILON comparisons behave on zero and infinity (exact and finite double).")

c("C78", P, ["Verif.C78_call_returns", "Verif.C78_ends_plane", "Verif.C78_ends_explicit", "Verif.C78_no_circle"],
  "Double precision with any monotone rounding; atan2 of numbers must be no NaN and the sort must not panic on comparable members (DblTotal). That circles do occur with very large distances is C73_program_refuted. DblEndsExamples applies it to two instance files.")

c("C79", P, ["Verif.C79_printed_plane", "Verif.C79_printed_explicit"],
  "Exact arithmetic. Of the terminal output only the solutions are modelled; with decomposition the code prints further lines between them. DimacsEx is a kernel-evaluated run that prints two solutions.")

c("C80", P, ["Verif.C80_ruin", "Verif.C80_lengths"],
  "Exact arithmetic, average removed at most 2^50. RuinEx is a solution meeting the hypotheses.")

c("C81", P, ["Verif.RRSol.C81_recreate", "Verif.RRSol.C81_any_order"],
  "Exact arithmetic. RuinEx.ruinedSol meets the hypotheses.")

c("C82", P, ["Verif.C82_when", "Verif.C82_rounds", "Verif.C82_time", "Verif.C82_end"],
  "Exact arithmetic for the number of rounds and the clock, every number type for the rest. EliteTimeEx has runs of both kinds.")

c("C83", PART, ["Verif.C83_fitness_partial", "Verif.FitEx.C83_stale_refuted"],
  "Exact arithmetic. True for the feasible individuals at all times, and for the infeasible ones directly after one of them was inserted; a change of the penalty re-sorts the infeasible individuals without a new fitness, which C83_stale_refuted shows with a concrete history.")

c("C84", P, ["Verif.C84_printed_plane", "Verif.C84_printed_explicit", "Verif.C84_near_plane", "Verif.C84_near_explicit", "Verif.C84_launch_plane", "Verif.C84_launch_explicit"],
  "Double precision. The two printed theorems are for whole distances and give strictly falling costs; the two near theorems are for other distances and bound the error of each stated cost. The two launch theorems start from the command line and config.yml. DimacsDoubleEx has kernel-evaluated runs that print two solutions.")

c("C85", PART, ["Verif.C85_plane_partial", "Verif.C85_explicit_partial", "Verif.C85_shipped_partial", "Verif.C85_ends_partial", "Verif.C85_ends_double_partial", "Verif.C85_ends_explicit_partial", "Verif.C85_small_refuted"],
  "Double precision, except C85_ends_partial (exact arithmetic, up to 3000 nodes); C85_ends_double_partial and C85_ends_explicit_partial are its versions in double precision, in the plane and for explicit matrices, with circles of moves as the only exception. Holds for sizes that suit the instance, with the shipped file from 22 nodes on. C85_small_refuted, for any arithmetic: with the shipped file no run on an instance of at most 21 nodes finds a solution. Reading YAML text is not modelled; the mapping it holds is the input.")

c("C86", P, ["Verif.C86_settings", "Verif.C86_starts", "Verif.C86_numbers"],
  "Any arithmetic. serde's typing of the fields is modelled by convert; the fields the program never reads are left out. The two options that do not do what one expects are C50.")

c("C87", P, ["Verif.C87_no_clones", "Verif.C87_elites_exact", "Verif.C87_elites", "Verif.C87_best", "Verif.C87_parents", "Verif.C87_run", "Verif.C87_program"],
  "C87_no_clones holds for every number type; C87_elites, C87_best and C87_parents are about double precision with any rounding; C87_run and C87_program carry the absence of clones and the tournament over to every state of every run without decomposition. ElitesEx has a kernel-evaluated history.")

c("C88", P, ["Verif.C88_kept_plane", "Verif.C88_kept_explicit", "Verif.C88_all_plane", "Verif.C88_numbers", "Verif.C88_decomposed", "Verif.C88_launch_plane"],
  "The exact counterpart is C67. A cost that is not a number can only arise from an infinite penalty in elite education; C88_numbers rules it out under the conditions of C78. The solution create_global_solution ends with is not offered to the history by the code and is not covered.")

c("C89", P, ["Verif.C89_in_reach", "Verif.C89_in_reach_whole", "Verif.C89_file_plane", "Verif.C89_file_explicit", "Verif.C89_optimum_plane", "Verif.C89_optimum_explicit"],
  "Exact arithmetic, without decomposition; the program-level theorems without elite education. A draw is any sequence of numbers; whether fastrand produces it for some seed is outside the model.")

c("C90", PART, ["Verif.C90_log_partial", "Verif.C90_cycle_partial", "Verif.C90_call_partial", "Verif.C90_lines_partial", "Verif.C90_best_cost", "Verif.C90_average_double", "Verif.C90_log_double_partial", "Verif.LogEx.C90_diversity_nan_refuted", "Verif.LogEx.C90_diversity_above_one_refuted"],
  "Everything but the range of the diversity is proved (exact arithmetic). C90_log_double_partial is the version in double precision for whole distances: the best feasible cost is exact, average and fraction are rounded once. The range is false: C90_diversity_above_one_refuted (7/6 in a run of the genetic algorithm) and C90_diversity_nan_refuted (NaN and a negative number in a run of the whole program in double precision). Proved instead, from two members on: at least one broken pair per pair of individuals, less than twice the number of customers.")

c("C91", P, ["Verif.C91_log_times", "Verif.C91_lines"],
  "Every number type. LogTimesEx has kernel-evaluated runs with restarts, with and without elite education; LogTimesEx.twice shows that the exception is one.")

c("C92", P, ["Verif.C92_sorted", "Verif.C92_best_cost", "Verif.C92_held_plane", "Verif.C92_held_explicit"],
  "The exact counterpart is C29_feasible_sorted. C92_best_cost asks for costs that are numbers, which C88_numbers provides under the conditions of C78. The program-level theorems are about runs without decomposition.")

c("C93", PART, ["Verif.C93_range", "Verif.C93_penalty_double_partial", "Verif.C93_program_partial", "Verif.C93_default_target", "Verif.C93_threshold", "Verif.C93_threshold_refuted"],
  "Range and times hold in full. The direction is proved for shares at least 1e-9 away from the two thresholds, and within that distance the penalty stays or moves as the nearer rule says. On a threshold it is false: C93_threshold_refuted, since 0.2 - 0.05 is more than 0.15 in double precision; C93_default_target says for target 0.2 exactly which shares raise (up to 15 of 100) and which lower (from 26 on). The exact counterparts are C37 and C68.")

c("C94", PART, ["Verif.C94_duration_partial", "Verif.C94_panics_iff", "Verif.C94_model_partial", "Verif.C94_duration_refuted"],
  "Double precision, every rounding. Proved for fractions from 0 to 1 and time limits up to 2^20 seconds, which includes the default and the shipped settings. For all settings it is false: C94_duration_refuted (a negative fraction, one that is not a number, a product of 2^64 and more); C94_panics_iff says exactly which abort. C94_model_partial bounds the simplification of the run model, which takes the product itself.")

c("C95", PART, ["Verif.RawMatrix.C95_operations", "Verif.C95_allocations_partial", "Verif.C95_subproblem", "Verif.C95_decomposition", "Verif.C95_decomposition_refuted", "Verif.C95_lazy", "Verif.C95_one_customer", "Verif.C95_allocations_refuted"],
  "Freeing is proved in full for the matrices named. The positive size is proved for instances with an explicit matrix or fewer customers than precompute_distance_size_limit, for neighbour lists of at least two customers, and for the subproblems of decomposition if decomposed_problem_min_size is at least two (with one it is false, C95_decomposition_refuted). For the other instances it is false: C95_lazy and C95_one_customer say so for all of them, C95_allocations_refuted has witnesses. Failure of the allocator (a null pointer, which the code does not check) is outside; the tables of Split and of the local search are in C96.")

c("C96", PART, ["Verif.C96_fleet_partial", "Verif.C96_tables", "Verif.C96_usable_partial", "Verif.C96_no_capacity", "Verif.C96_fleet_refuted"],
  "Double precision, every rounding. The two lower bounds and the cells of the tables hold for every instance. That the number plus one fits in 64 bits is proved for lower bounds up to 2^63 and false in general: with a load and capacity zero the fleet is 2^64 - 1 (C96_no_capacity, C96_fleet_refuted). The model has one zero, so a capacity of -0 counts as 0.")

if __name__ == "__main__":
    here = os.path.dirname(os.path.abspath(__file__))
    with open(os.path.join(here, "..", "MANIFEST.json"), "w") as f:
        json.dump({"claims": [C[k] for k in sorted(C)]}, f, indent=1)
        f.write("\n")
