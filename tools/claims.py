CLAIMS = {
 'C01': ('proved', 'All sizes and both storage modes; the error cases are part of the statements.'),
 'C02': ('partial', 'Proved for every index and every non-empty set. The full claim (including the empty set) is false: C02_empty_set_disagrees.'),
 'C03': ('proved', ''),
 'C04': ('proved', ''),
 'C05': ('proved', 'For a stored table, any call history. When the table is not stored the call raises TypeError: C05_not_stored_raises.'),
 'C06': ('proved', 'Exact rationals. A common child is refused (C06_common_child_rejected); an operand without rows raises (C06_empty_operand_raises).'),
 'C07': ('proved', ''),
 'C08': ('proved', 'also without probabilities (C08_condition_without_probabilities)'),
 'C09': ('partial', 'Proved whenever at least one variable remains; summing out every variable raises (C09_sum_all_raises), so the claim for all subsets is false.'),
 'C10': ('proved', ''),
 'C11': ('proved', 'C11_without_table: a queried variable without stored table (more than six values, or B_flag fly) raises AttributeError as soon as a row agrees with the queries before it.'),
 'C12': ('proved', ''),
 'C13': ('partial', 'Proved for CPMs without sample data. With sample_idx: rows, p, q and sample_idx are carried along together (C13_samples_partial), Cs and ps are not (C13_samples_mismatched); with fewer rows than sample numbers IndexError (C13_samples_only), with more the surplus rows are dropped (C13_rows_lost).'),
 'C14': ('partial', 'Proved when the rows of the second table all occur in the first. Otherwise merge raises (C14_missing_row_raises), and it changes self.p (C14_changes_self). Samples of both are put together (C14_samples); samples on one side only make it raise (C14_not_one_sided). C14_valid: the result is a CPM the constructor accepts, so data that do not match the samples are refused.'),
 'C16': ('proved', 'flag=0 silently ignores out-of-range rows.'),
 'C17': ('proved', ''),
 'C54': ('partial', 'The full claim is false: the index check is off by one (C54_accepts_invalid_state).'),
 'C55': ('proved', ''),
 'C56': ('proved', 'Over the reals with the extended logarithm; rounding is not modelled.'),
 'C18': ('proved', ''),
 'C19': ('proved', ''),
 'C20': ('proved', 'Structurally for every sequence of updates; semantically for rules whose requirements are non-trivial and attainable.'),
 'C21': ('proved', ''),
 'C34': ('partial', "Survival rules proved. For failure rules the claim is false (C34_failure_wrong): the probability of being strictly below is returned."),
 'C22': ('proved', 'Any rules over the known components, any probabilities, any limit.'),
 'C23': ('proved', 'Exact rationals.'),
 'C24': ('proved', ''),
 'C25': ('proved', 'The model has fuel; the theorem shows it never runs out. Rules with unknown components are a KeyError.'),
 'C26': ('proved', 'Fresh start in full; when continuing from given branches the labels may know more than the rules (C26_resume).'),
 'C27': ('proved', 'All stop reasons, both settings of surv_first and active_decomp, with or without given rules and branches. C27_returns: with surv_first the call never fails; C27_returns_other: nor without it when the branch limit is not reached.'),
 'C28': ('partial', "The full claim is false (C28_complete_not_exact): a decomposition cut short by max_nb can be reported complete. Proved when no branch labelled (f, s) is left, and for max_nb at least twice the number of component vectors. C28_exact_iff says exactly how far apart the bounds are after a complete run, and so when they coincide."),
 'C29': ('partial', 'Proved for active_decomp=True and, for active_decomp=False, for a large enough max_nb; otherwise false (C29_repeats). Completion proved for large limits, for both settings of surv_first (C29_completes, C29_completes_other).'),
 'C30': ('proved', 'Monotonicity under the stated condition that max_nb does not truncate; the counts for all limits.'),
 'C31': ('partial', 'surv_first=True in full. surv_first=False raises UnboundLocalError in some cases (C31_raises, C31_run_raises), so the full claim is false there; when it answers, the vector is the unknown upper end point most likely to be reached or exceeded (C31_other_most_likely) and lower end points are ignored.'),
 'C15': ('partial', 'Proved for every network and every order when the eliminated variables are children of some CPM and connected to one that stays. Otherwise the claim is false: summing out a whole disconnected part raises ValueError (C15_disconnected_raises), a variable that is only a parent is silently kept (C15_parent_only_kept), and an unknown variable is refused (C15_unknown_raises).'),
 'C42': ('proved', 'For all networks, cyclic or not.'),
 'C43': ('proved', 'For all acyclic networks in which every parent is defined once.'),
 'C44': ('partial', 'Weight and states proved when the CPMs are listed in a sampling order and drawn parents are in non-zero states; otherwise false: C44_listing_order_wrong, C44_state_zero_wrong, and for is_scalar=False the weights follow the CPMs while the samples are reversed (C44_vector_output_partial, C44_vector_mismatched). With a variable that is a child of two CPMs no sample is ever returned (C44_common_child).'),
 'C45': ('partial', 'Exact coverage and one row per assignment for all variables; the state denotes the extremum up to a reordering of the values, exactly when all parents share the same values, and when the values of every parent are the smallest of all values, e.g. 0 to k (C45_max_initial_values, C45_min_initial_values). In general the label is wrong: C45_max_wrong, C45_min_wrong.'),
 'C46': ('partial', 'At most one conditioning variable and no stored samples (C46_rows_partial, C46_system_marginal_partial). With two conditioning variables the code raises ValueError: C46_two_conditions_raise. Two listed component CPMs for the same child are rejected: C46_two_children_rejected.'),
 'C59': ('proved', 'Samples must agree on common variables and carry the same numbers (hypotheses); the event matrices are non-empty.'),
 'C60': ('proved', 'for every configuration, system function, rules and branches handed in; C60_accuracy: the bounds returned with flag pf_bnd are as close as asked, when the limit on the branches does not cut the decomposition'),
 'C32': ('partial', 'getCsys: rows match the boxes, tables only extended, run-level uniqueness; error branches (no branches, unknown label, table not stored) proved as they are.'),
 'C33': ('partial', 'End to end: run → event matrix → CPM constructor → elimination in any order → query equals the monitored bounds (C33_bounds). C33_exact_partial needs a sufficient branch limit, because the flag complete alone does not imply exactness (C28_complete_not_exact); stored variable tables assumed (C32_not_stored_raises).'),
 'C61': ('proved', 'Every result of a run meets the start conditions of the next; bounds never get worse across the interruption; nothing is evaluated twice (C61_no_reevaluation).'),
 'C35': ('partial', 'proved for path lists without an infinite time, any surviving state, any values; with the values get_branches builds it is the fastest surviving path; a path of infinite time breaks it (witness); KeyError and IndexError branches covered'),
 'C36': ('proved', 'for the arcs chosen by get_arcs_given_bstar, and for any choice of distinct free arcs (then without the decided last branch)'),
 'C37': ('partial', 'proved for disjoint undecided initial branches and a directory without files of the key; an initial branch that is already decided can be lost (witness)'),
 'C38': ('partial', 'what is read back is described for every directory; it is this run alone in a directory without files of the key; witnesses for stale files and for keys that start other keys; C38_reads_other_key_iff and C38_other_key: exactly which other keys are read; C38_resume: a run can be taken up again after any of its files'),
 'C39': ('proved', 'for decided binary branches and complete stored tables; error branches covered; a three-state component is not encoded correctly (witness)'),
 'C62': ('partial', 'proved from the path list to compute_prob for one OD with at most five paths, two damage states, a directory without files of the key, any elimination order; witnesses: a second OD reads the branches of the first, six paths raise'),
 'C40': ('proved', 'For every monotone or antitone system function and every pair of admissible callbacks, run_bnb stops and returns complete branches that partition the vectors of component states, each with the state of all its vectors. The functions of bnb_fns.py are shown to be admissible for two-state arcs (C40_path_problem); for three-state arcs they make run_bnb run forever (C40_not_three_states).'),
 'C41': ('partial', 'Proved for intervals that are single states or belong to two-state components, and end to end for the path problem. False for proper intervals of components with three or more states: the row then matches the lowest state only (C41_not_three_states).'),
 'C58': ('partial', 'Proved when the path list is in increasing order of time. For other orders the code returns the first surviving path of the list with a wrong time, because it sorts the times before it computes the sorting permutation (C58_not_unsorted).'),
 'C57': ('partial', 'C57_conditioning_partial: whenever variable_elim_cond returns a CPM it is the brute-force marginal over the conditioning and the eliminated variables (any sizes, orders, composite parent states); C57_same_as_elimination: hence equal to variable_elim on the whole network. Missing: it always returns - C57_not_row_order gives an ordinary series system for which the order of the rows of the conditioning CPM decides between the right answer and ValueError. C57_returns_iff says exactly when it returns (the rows left by the first conditioning row dominate those of every other row; otherwise ValueError), C57_complete_tables: always when the tables list every combination of basic states.'),
 'C48': ('partial', 'C48_time_partial, C48_multi_dest_partial (travel time, single-edge graphs) and C48_connectivity (all graphs): the reported state is what the routes of the network say, and the reported rule holds for every dominating vector; C48_monotone_*: the system is monotone. Missing: travel time in a multigraph keyed by labels, where the code ignores the component states (C48_multigraph_ignores_states, C48_not_multigraph). With one destination and no route the exception of networkx escapes (C48_no_route_raises). networkx shortest paths are a parameter with contract PathLibOK, met by the exhaustive search enumLib (enumLib_ok).'),
 'C63': ('partial', 'C63_travel_time_bounds_partial, C63_travel_time_exact_partial, C63_connectivity: the bounds monitored by run bracket, and on completion equal, the probability that the destination is not reached. Missing: travel time in multigraphs, see C48.'),
 'C47': ('partial', "C47_max_flow_partial: in a network without parallel components max_flow returns the largest amount up to the target that can be sent, 's' exactly if it is the target, and a rule that comes from an actual flow, applies to the evaluated vector and holds for every dominating vector; C47_monotone. Missing: parallel components, for which the code keeps only the capacity of the last one and reports failure wrongly (C47_not_parallel) or puts None into the rule (C47_not_parallel_none); C47_parallel describes completely what it computes then: survival is never wrong, and nothing is raised. An origin that no component touches raises (C47_no_origin_raises). networkx.maximum_flow is a parameter with contract FlowLibOK; bestFlowLib_ok proves that a maximum flow exists for all rational capacities."),
 'C64': ('partial', 'C64_flow_reliability_partial: the bounds monitored by run with max_flow contain, and on completion equal, the probability that the network cannot send the target. Missing: parallel components, see C47.'),
 'C49': ('partial', 'sys_fun_pipes returns the largest whole amount allowed by the constraints it poses, and its rule is valid for every dominating vector (C49_pipes, for every milp solver that meets its contract). In terms of actual routes from origins over the depots to destinations this is proved when every arc belongs to one subsystem and depots are only entered from the subsystem before and left in the one behind (C49_routes_partial); without that the code reports deliveries that no route can make (C49_not_routes). C49_no_success: what is returned when the solver does not succeed.'),
 'C65': ('partial', 'End to end over run, with the constraint-based meaning for all well-formed systems (C65_pipe_reliability) and the route-based meaning for systems with successive phases (C65_pipe_routes_partial).'),
 'C50': ('partial', "One round of unit weights: the maximum likelihood estimate is the table's probability plus the rest times the fraction of samples that answer the query, lies in [0,1] and complements add up to one; the Bayesian estimate is a probability for any number of rounds. False for several rounds of the maximum likelihood estimate (C50_not_rounds: fractions are added, not averaged) and, without stored probabilities, several rounds raise IndexError (C50_rounds_raise)."),
 'C52': ('proved', 'For all draws and all non-negative inputs; the code does not refuse a negative q, for which the claim fails (C52_negative_q_accepted).'),
 'C53': ('proved', 'For every list and positive chunk size; a negative chunk size silently yields nothing (C53_split_negative).'),
 'C66': ('partial', 'Proved when the first event implies the second; otherwise the call is refused (C66_not_nested).'),
 'C51': ('proved', 'Estimate, bounds, stopping rule, termination bound and the samples written into CPMs are proved for all uniform numbers; with no known failure and no failing sample the loop never ends (C51_not_terminates); confidence intervals are not modelled. C51_column: what the setters accept as a column of samples; C51_missing: a component without CPM.'),
 'C67': ('partial', 'Distribution of the draws and the expected value are proved; branches running from a known failure to a known survival are neither counted nor sampled, so after some runs every estimate is too small (C67_not_mixed). The positive theorem assumes there are none; C67_expected gives the exact difference otherwise.'),
 'C68': ('partial', "C68_draw, C68_result (exact characterisation of what is returned), C68_terminates, C68_fuel and C68_refused for all random numbers; C68_not_rare: UnboundLocalError when the first 20000 samples survive, so the part 'returns for every system whose failures keep occurring' fails and C68_terminates assumes a failure among the first 20000; C68_not_terminates when failures stop."),
 'C69': ('partial', "The claim is false and its negation is proved for all inputs: C69_not_samples and C69_not_returns (no call returns a sample; the only calls that return ask for zero samples), C69_not_found (when all components can be sampled, NameError: get_var_ind is defined nowhere). Examples: independent components, and the network of the repository's skipped test (AssertionError). C69_loop_partial: the sampling loop by itself, given the positions get_var_ind should have found, for all draws and both kinds of target: which draws are accepted, how many, the estimate and its coefficient of variation at the end."),
 'C70': ('partial', 'C70_system_by_conditioning_partial: the result, whenever the function returns, for all networks with the stated structure, sums of any size. C70_returns_partial: it returns, with which rows, when all components are summed out and all depend on the same conditioning variable or none. C70_not_two_conditions, C70_not_shared_parent: raises on networks meeting the hypotheses; C70_not_direct_parent, C70_not_dependent_components, C70_not_joint_with_parent: wrong results without an exception; C70_not_row_order: the outcome depends on the order of rows.'),
 'C71': ('partial', 'C71_all_paths and C71_fastest for every graph that is not a multigraph and every library function that lists simple paths; C71_raises for the error branches; C71_travel_time_partial from the model file to the probabilities, for one OD with one to five simple routes; C71_not_disconnected: KeyError instead of an infinite travel time. Several ODs and more than five routes fail as in C62.'),
 'C72': ('partial', 'C72_read_partial without parallel connections or for multigraph types; C72_last_connection describes the graph in general; C72_not_parallel: a faster road listed before a slower one between the same nodes is dropped.'),
 'C73': ('partial', 'C73_partition_partial and C73_agrees for all tables and all disjoint undecided branches with right labels, termination by the number of vectors left; C73_nobreak; C73_no_path_raises for all tables; C73_not_decided_start: a branch with a wrong label in the result.'),
 'C74': ('partial', 'C74_event_matrix_partial and C74_probability_partial from the model file and scenario to event matrices and probabilities, for all networks without parallel connections, one to six positive travel times per connection, any number of ODs and any branch limit; C74_no_route_raises and C74_missing_scenario for the error branches. C74_not_multigraph, C74_not_seven_states, C74_not_zero_time: wrong rows or TypeError otherwise.'),
 'C75': ('partial', 'C75_file (contents and KeyError, any field and square root), C75_straight_line over the reals for all drives, C75_read_back_partial for text names without parallel arcs; C75_not_int_names and C75_not_parallel otherwise. C75_read_nodes: the table of nodes read from a text file. Speed zero (weight inf) is not modelled.'),
 'C76': ('partial', 'C76_scenario for any distribution function with values in [0,1]; C76_file_partial for equal numbers of scenarios and any bounded rounding, with the error branches; C76_not_all_scenarios: scenarios left out; C76_not_small_probability: 1e-11 becomes 0.'),
 'C77': ('partial', 'C77_records_partial for all tables whose rows have the same columns, including repeated labels, and the template afterwards; C77_not_template: values leak into the next call.'),
 'C78': ('partial', "C78_component, C78_component_bounds (any run) and C78_component_exact_partial (complete runs with enough branches) for elimination; C78_product gives the exact meaning of the product's answers, C78_product_upper that they are upper bounds, and equal when the branches fix the components; C78_not_joint: 1/2 instead of 1/4 for a series system."),
 'C79': ('partial', 'C79_update_B, C79_given_table, C79_constructed and C79_keys for all sequences of operations; C79_stale and C79_shared_default are the failing cases (values set without update_B; the shared default list).'),
 'C80': ('partial', 'C80_round_trip, C80_missing_entry, C80_wrong_kind, C80_equal, C80_probability_defined, C80_probability; C80_not_checked: the constructor accepts branches over different components and with down above up.'),
 'C81': ('partial', 'C81_config, C81_without_scenarios (outcome), C81_only_if (converse), C81_required (assertions), C81_event_matrix_partial (on to the event matrices, under the restrictions of C74); C81_not_optional: NameError for a missing scenario file, KeyError without SCENARIO_NAME.'),
 'C82': ('partial', 'C82_follows_run (the detailed model returns what run returns, so C22–C34, C60, C61 hold of it), C82_tables, C82_rules_survive (system function raising anywhere), C82_branches, C82_no_evaluation, C82_display; failing parts: C82_changes_arguments, C82_max_bu, and the plots in C82_no_evaluation.'),
 'C83': ('partial', 'Proved for roads of positive length (over the reals, with the real square root); a road between two nodes at the same place divides by zero (C83_not_loop), and coordinates other than two raise (C83_not_space).'),
 'C84': ('partial', 'Monotone over all distances proved, and in the magnitude up to 8.18 (C84_increasing_partial; not up to the accepted 8.5, C84_not_increasing). False: the table of epistemic deviations is read with magnitude and distance exchanged, for every interpolation that reproduces its data (C84_not_table); the aleatory deviation is constant below 7.16 (C84_not_std_al).'),
 'C85': ('partial', 'Probabilities and covariance proved for every call that returns, and that it returns when the ends of every road are apart. A road whose ends are at the same place makes the whole call raise (C85_loop_raises). scipy.stats.norm.cdf and the spline are parameters.'),
 'C86': ('partial', 'Proved for networks without two components from the same node to the same node (bidirectional: between the same nodes), for every library that meets the contract, and end to end with run. False with parallel components: failure is reported wrongly (C86_not_parallel), AssertionError is raised (C86_not_parallel_raises) or the rule does not apply to the evaluated vector (C86_not_parallel_rule); C86_parallel describes completely what is computed then, and that survival is never wrong. Also false for edges given as dictionaries, which raise KeyError whenever the target can be sent (C86_dictionaries_raise).'),
 'C87': ('partial', 'State, rule and validity proved for all networks; that the rule applies to the evaluated vector and that the value is the largest amount proved without parallel arcs, and end to end with run. False with parallel arcs (C87_not_parallel); arcs given as tuples raise ValueError whenever the nodes are connected (C87_tuples_raise); equal origin and destination raise (C87_same_node_raises).'),
 'C88': ('partial', 'Proved when every parent of the system is a component or a conditioning variable and all CPMs carry samples with the same numbers. Otherwise false: such a parent is accepted without samples and raises AssertionError with them (C88_missing_component_raises); the samples are dropped when one CPM has none (C88_dropped).'),
 'C89': ('partial', 'Proved for at most five structures to repair, distinct variable names and at least one link per house. Otherwise false: with six structures a CPM is missing and the elimination raises (C89_six_structures, C89_six_structures_dependent), the shipped model raises AttributeError (C89_shipped_raises), clashing names give wrong probabilities (C89_name_clash), a house without link gets an empty table (C89_no_link). The function that main uses raises AssertionError on such networks (C89_conditional_raises).'),
 'C90': ('partial', 'Constructor and replacement of table or samples proved. Consistency under edits is proved for assignments that keep the number of rows while something belongs to the rows and replace variables by variables with as many states. Otherwise false: another number of rows keeps the old probabilities (C90_not_rows), variables are replaced unchecked (C90_not_variables), a vector is accepted for several variables (C90_not_vector), weights assigned before the samples are never compared (C90_not_weights_first).'),
 'C91': ('partial', 'Proved when the run leaves no branch undecided, in particular for limits of twice the number of component vectors, and when the name of the system comes before that of the block. Otherwise false: with the other order of names the other conditional probability is printed (C91_name_order, C91_not_name_order), and undecided branches are left out of both probabilities (C91_not_unresolved).'),
 'C92': ('partial', 'Bounds, exactness, the CPM and the lines of the map are proved for nodes that reach a destination in the intact network. C92_map_accuracy gives the whole map, for any network, with the accuracy asked for; C92_map_sound says that whatever is written encloses the probability. False otherwise: a node without any way to a destination gets failure probability 0 (C92_unreachable, C92_not_unreachable). A run that hits a limit always ends in a TypeError (C92_limit_raises, C92_sampling_raises), and one such node makes the whole map fail (C92_all_or_nothing). Travel times are rational; the infinite time of a failed road is any time above the threshold (C92_closed_roads).'),
 'C93': ('partial', 'C93_row says exactly what is computed for a row (multivariate normal measure of Mathlib): survivors are bounded by twice their mean instead of being positive. It is right when failed and surviving roads of the row are uncorrelated (C93_row_partial), too large for a failed and a surviving road with positive covariance (C93_not_opposite), which all roads have (C93_margins); so the probability that both of two roads fail is too small after the normalisation (C93_not_two_roads, C93_not_small). Reading the result raises AttributeError (C93_attribute), so that neither function ever returns (C93_not_returns, C93_update_not_returns, C93_update_attribute, C93_map). C93_two_states: roads with more than two states are refused; C93_new_probabilities: what update_pf1 writes into the CPMs of the roads. Densities of stored samples are not modelled.'),
 'C94': ('partial', 'C94_conn (all networks in which every pole has a house, all iteration orders), C94_chain (radial networks: the connections of a path form a chain from the substation), C94_midpoints, C94_midpoints_missing. False otherwise: a pole without a house takes the one of the pole before it in the unspecified order (C94_not_without_house); houses are marked at (x, x) (C94_drawing_partial says exactly when that is right, C94_not_houses); main calls a function that its module does not have and so never returns a distribution (C94_not_main, C94_main_attribute).'),
 'C95': ('partial', 'C95_main_partial (from the files to the four stored results, with the accuracy asked for, exact when it is 0), C95_independent, C95_all (all pairs; the last one with a key wins), C95_unknown_pair, C95_missing_entry, C95_wrong_kind, C95_output_directory. False: MAX_SYS_FUN 0 is no limit (C95_not_zero); two pairs with the same key overwrite each other (C95_not_same_key); run_MCS always raises and stores nothing (C95_not_mcs). Missing: parallel connections, and the width when the branches are limited below twice the number of component vectors.'),
 'C96': ('partial', 'C96_main (files to result.txt with the accuracy asked for), C96_main_sound (any limits: what is written is right), C96_road_unique, C96_mcs (when run_MCS returns and exactly what it stores), C96_mcs_needs_main, C96_missing_entry, C96_earthquake, C96_batch. False: MCS_COV is ignored, the target is 0.01 (in C96_mcs); run_MCS raises at an origin and at a node without a way to one, whose line in result.txt says 0 (C96_not_mcs_origin, C96_not_mcs_unreachable, C96_main); run_single stores nothing (C96_not_single). Missing: real numbers are rounded to rationals by an arbitrary function; parallel roads; the bounds when a limit is hit, where the demo raises (C92_limit_raises).'),
 'C97': ('partial', 'C97_routine (the two numbers: never more than the probabilities, and equal to them with up to five connections, as in the shipped file), C97_n3e3, C97_sf (event matrix; unknown only if a limit is too small), C97_no_evaluations, C97_errors, C97_check (any number of connections: the numbers are right exactly when they add up to one). Missing: with more than five connections the routine demo may print less than the probabilities because its limit of 100 branches is fixed (only the bounds are proved then); a connection called sys; nodes called like connections; two connections between the same nodes in a file that is not a multigraph.'),
 'C98': ('partial', 'C98_main (everything stored), C98_narrows_partial (bounds over the two runs; networks of up to seven connections, where the limit of 10000 branches cannot cut a decomposition short), C98_exact_partial (last row exact, both runs complete), C98_check (any size: a row is exact precisely when its bounds are equal), C98_answers (queries of the stored CPMs), C98_errors, C98_not_two_times (two travel times); C61_no_reevaluation for the two runs together. Missing: narrowing and exactness for larger networks, where the fixed limits of branches may cut decompositions short; connections with two or more than three travel times; a connection called sys; two connections between the same nodes; the draw of the probabilities (an arbitrary function here).'),
 'C99': ('proved', 'C99_names (names stand for variables, every method), C99_numbers (refinement: the model used by all other claims), C99_get_prob, C99_prob_bnd and C99_condition (labels, in terms of the distribution), C99_unknown (what is rejected), C99_mixed_get_prob, C99_mixed_condition, C99_compatible (labels and numbers in one list), C99_extra_labels, C99_repeated_label.'),
 'C100': ('partial', 'C100_ema_files, C100_ema_errors, C100_repeated_node, C100_ema_ready, C100_delays, C100_ema_results, C100_road, C100_road_errors. The full claim is false: main() with its default key od2 is a KeyError after create_model (C100_not_default_key), parallel arcs are lost when the file is read (C100_not_parallel), an arc between nodes at one place never fails (C100_not_same_place).'),
 'C101': ('partial', 'C101_files, C101_routine, C101_rbd, C101_errors. For the rbd demo the value is proved for limits of at least 512; that the limit 100 of the shipped configuration file is enough for every path library is not proved.'),
 'C102': ('partial', 'C102_refines, C102_structure, C102_no_repeat, C102_returns hold for every arithmetic; C102_bounds_partial, C102_exact, C102_pf_bnd for accurate ones, C102_float64, C102_nearest and C102_tolerance for double precision. The full claim, bounds that contain the failure probability, is false in double precision: C102_not_enclosed (failure probabilities 0.1 and 0.2 in series: the lower bound exceeds the upper one). C102_stops_early: run can stop with pf_bnd although pf_bnd_wr = 0 and branches are undecided. Overflow is not modelled; the sum of Python 3.12 and later (compensated) is covered by the contract only.'),
 'C103': ('partial', 'C103_refines, C103_structure hold for every arithmetic; C103_operations, C103_elimination_partial, C103_probability for arithmetics with relative errors; C103_float53 and C103_relative for double precision without underflow (C103_underflow: with underflow the relative error can be 100 %). The claim about get_prob_bnd is false: C103_bounds_crossed (a complete table 0.2, 0.4, 0.3, 0.1 gives an upper bound below the lower one). C103_not_exact: the order of elimination changes the last digits and probabilities add up to more than 1. C103_count bounds k by the numbers of rows of the given tables, so C103_relative_elimination_partial gives the error of variable_elim beforehand. C103_double_partial and C103_double_probability: with underflow (float64) there is an absolute error besides, at most 2^(3k - 1075) per row after k roundings, useful up to about 350 of them. C103_interval: the interval of get_prob_bnd contains the true probability up to (2N + 5) / 2^52; C103_interval_double the same with float64, underflow included (sums do not underflow), for tables stored with relative errors. get_prod is exp(log a + log b), so eps has to cover the errors of log and exp. Samples are not rounded.'),
 'C104': ('partial', 'C104_probabilities (any arithmetic with relative errors for the inference, any arithmetic at all for the run), C104_exact_partial (complete runs with enough branches; otherwise complete does not mean exact, C28), C104_counted (any way of counting errors); the probabilities in the CPMs need not be those the run was given; C104_double_partial (double precision without underflow, in numbers), C104_underflow_partial (with underflow: an absolute error of at most 2^(3N - 1075) besides, useful for up to about 350 roundings). The last sentence is false: C104_not_one (components failing with probabilities 0.1 and 0.2 in series: the two answers add up to more than 1).'),
 'C105': ('proved', 'C105_condition, C105_labels, C105_rejected (the module-level condition), C105_elimination, C105_posterior (any network), C105_system, C105_bounds (branches of a run and noisy observations of components, the system CPM over the components), C105_layout (the same with a column of the state "any" for every observation in the system CPM, the layout of test_inference2), C105_unseen (only some of the observations, or none, were made: test_inference1), C105_impossible (the exception when no row agrees).'),
 'C106': ('partial', 'C106_condition (any relation between the stored probabilities and those meant), C106_posterior_partial, C106_bounds_partial. Missing: underflow, where the claim fails (C106_underflow: two observations of probability 2^-600 each leave a table of zeros, and 0/0); tables with samples.'),
 'C107': ('partial', 'C107_refines (with exact arithmetic, the operations of C57), C107_structure (any arithmetic), C107_merge, C107_marginal_partial (float53), C107_double_partial (float64 with underflow: an absolute error of at most 2^(3N - 1075) per row besides, useful for up to about 350 roundings), C107_not_exact (a witness that rounding occurs). Missing: a useful bound for underflow in larger networks; tables with samples.'),
 'C108': ('partial', "C108_refines (with exact arithmetic, the operations of C46 and C70), C108_structure (any arithmetic), C108_product, C108_system_partial (float53), C108_returns_partial (it returns, on the networks of C70_returns_partial), C108_not_exact (the network of the repository's test is rounded). Missing: that it returns on other networks; underflow; tables with samples."),
 'C109': ('partial', 'C109_refines (with exact arithmetic, get_prob_bnd of C12), C109_round_partial for any rounding to 53 digits, with the instances C109_interval_partial (float53) and C109_double_partial (float64, quotients may underflow), C109_not_small (a complete table and a condition with probability 2^-60: both bounds of a probability that is 1 are negative). Missing: improbable conditions, where the claim is false; entries stored with an absolute error (below 2^-1022).'),
 'C110': ('partial', 'C110_rules (bounds and no repeated evaluation), C110_no_evaluation and C110_exact_partial (after a complete run), C110_any_arithmetic and C110_tolerance_partial (the same in any arithmetic; in accurate arithmetic both bounds are the new failure probability up to the tolerance of C102), C110_branches_ignored (with re-decomposition, the default, branches handed in make no difference), C110_inference (event matrix with other component CPMs; exact after a complete run; C104 has the same in floating-point arithmetic), C110_not_branches (without re-decomposition the old bounds are reported for the new probabilities). Missing: branch limits that are reached, where complete does not mean exact (C28_complete_not_exact).'),
 'C111': ('partial', 'C111_between (bounds and no repeated evaluation, survival rules from a stricter and failure rules from a looser requirement), C111_looser and C111_stricter (one kind of rules), C111_travel_time_partial (thresholds of the travel-time system function), C111_flow_partial and C111_pipes (demands of flow networks and pipe systems), C111_tolerance_partial (in floating-point arithmetic: any arithmetic in the earlier runs, bounds valid up to the tolerance of C102), C111_not_all (all rules of a stricter requirement: the wrong probability is reported as complete without an evaluation). Missing: multigraphs and the threshold zero, as for C48; parallel components, as for C47; no repeated evaluation is not stated for runs without re-decomposition whose branch limit is small.'),
 'C112': ('partial', 'C112_true_values (the failure probability itself, multi-state components), C112_bounds (bounds of any two runs), C112_exact_partial (complete runs), C112_tolerance (floating-point arithmetic), C112_not_each_bound (with a limit of three evaluations, both bounds rise when the failure probability of one component falls from 1/2 to 1/10). Missing: order of the single bounds, which is false for unfinished runs; branch limits that are reached, where complete does not mean exact (C28_complete_not_exact).'),
 'C113': ('partial', 'C113_bounds (all runs), C113_exact_partial and C113_two_runs_partial (complete runs), C113_tolerance (floating-point arithmetic: the tolerance of C102 comes on top), C113_sharp (two runs of a series system that differ by the whole distance). Missing: branch limits that are reached, where complete does not mean exact (C28_complete_not_exact).'),
 'C114': ('partial', 'C114_bounds (equal failure probabilities, overlapping bounds for any two runs), C114_exact_partial (complete runs report the same number), C114_tolerance (floating-point arithmetic), C114_not_unfinished (after four evaluations both bounds depend on the order of three components). Missing: equal bounds for unfinished runs, which is false; branch limits that are reached, where complete does not mean exact (C28_complete_not_exact).'),
 'C115': ('partial', 'C115_local, C115_local_exact (same result for every system function with the same states and minimum rules at the evaluated vectors, in any arithmetic), C115_bounds (the bounds hold for every coherent system that agrees with the answers seen), C115_tolerance (the same in floating-point arithmetic, up to the tolerance of C102), C115_not_coherent (a system that is not coherent: complete, both bounds 19/100, true failure probability 18/100), C115_sharp_partial (the last bounds are the failure probabilities of two coherent systems that agree with all answers, so they cannot be narrower), C115_sharp_not_max_sf (after max_sf evaluations they could be narrower), C115_determined (after a complete run only one coherent system agrees with the answers, in any arithmetic), C115_must_evaluate (a complete run without rules and minimum rules has evaluated every minimal surviving and every maximal failing vector), C115_cost (so at least as many evaluations as there are such vectors), C115_extremal_rules (every minimal surviving and every maximal failing vector is a rule of a complete run). Missing: valid bounds for systems that are not coherent, which is false; sharpness for runs stopped by max_sf, which is false, and for branch limits that are reached.'),
}
