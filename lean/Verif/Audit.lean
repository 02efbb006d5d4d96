import Verif.Props.Bnb
import Verif.Props.BnbFiles
import Verif.Props.BnbOld
import Verif.Props.BnbOrg
import Verif.Props.BrcDecomp
import Verif.Props.BrcDominance
import Verif.Props.BrcLocal
import Verif.Props.BrcLocalComplete
import Verif.Props.BrcLocalRound
import Verif.Props.BrcLocalSharp
import Verif.Props.BrcObs
import Verif.Props.BrcOrder
import Verif.Props.BrcResume
import Verif.Props.BrcReuse
import Verif.Props.BrcReuseRound
import Verif.Props.BrcRound
import Verif.Props.BrcRules
import Verif.Props.BrcRun
import Verif.Props.BrcSensitivity
import Verif.Props.BrcStop
import Verif.Props.BrcThreshold
import Verif.Props.BrcThresholdFlow
import Verif.Props.BrcThresholdRound
import Verif.Props.ByOd
import Verif.Props.CondBndRound
import Verif.Props.CondVE
import Verif.Props.CondVERound
import Verif.Props.CondVETotal
import Verif.Props.Config
import Verif.Props.Conn
import Verif.Props.ConnMain
import Verif.Props.CpmEdit
import Verif.Props.CpmMisc
import Verif.Props.CpmNames
import Verif.Props.CpmOps
import Verif.Props.CpmProduct
import Verif.Props.CpmQuery
import Verif.Props.CpmRound
import Verif.Props.CpmRoundUnder
import Verif.Props.CpmSort
import Verif.Props.CreateModel
import Verif.Props.Csys
import Verif.Props.Elim
import Verif.Props.ElimCond
import Verif.Props.ElimCondRound
import Verif.Props.ElimCondUnder
import Verif.Props.ElimTotal
import Verif.Props.EmaMain
import Verif.Props.Estimate
import Verif.Props.Files
import Verif.Props.Flow
import Verif.Props.FlowMain
import Verif.Props.FlowParallel
import Verif.Props.GraphDemos
import Verif.Props.Lookup
import Verif.Props.MaxFlowDemo
import Verif.Props.Mcs
import Verif.Props.McsCpms
import Verif.Props.McsIndep
import Verif.Props.McsProb
import Verif.Props.ModelPy
import Verif.Props.Msys
import Verif.Props.MsysSamples
import Verif.Props.Objects
import Verif.Props.Observe
import Verif.Props.ObserveRound
import Verif.Props.ObserveWide
import Verif.Props.Order
import Verif.Props.Paths
import Verif.Props.PfMain
import Verif.Props.PfMap
import Verif.Props.PfNode
import Verif.Props.PfPost
import Verif.Props.Pipes
import Verif.Props.PowerHouse
import Verif.Props.PowerPlot
import Verif.Props.Rbd
import Verif.Props.Reject
import Verif.Props.Samples
import Verif.Props.Sampling
import Verif.Props.SysKeep
import Verif.Props.SysNet
import Verif.Props.SysNetRound
import Verif.Props.SysNetUnder
import Verif.Props.SysVal
import Verif.Props.Trans
import Verif.Props.Variable

/-! Axioms of every property theorem (generated by tools/mkmanifest.py). -/

#print axioms BNS.C01_get_set_defined
#print axioms BNS.C01_get_state_get_set
#print axioms BNS.C01_get_set_get_state
#print axioms BNS.C02_storage_modes_agree_partial
#print axioms BNS.C02_when_stored
#print axioms BNS.C02_empty_set_disagrees
#print axioms BNS.C03_table_complete
#print axioms BNS.C03_basic_states_first
#print axioms BNS.C03_ordered_by_size
#print axioms BNS.C04_vector_lookup
#print axioms BNS.C04_Bvec
#print axioms BNS.C05_never_renumbers
#print axioms BNS.C05_history
#print axioms BNS.C05_complete_unchanged
#print axioms BNS.C05_not_stored_raises
#print axioms BNS.C06_product
#print axioms BNS.C06_product_or_unbound
#print axioms BNS.C06_common_child_rejected
#print axioms BNS.C06_empty_operand_raises
#print axioms BNS.C07_comm
#print axioms BNS.C07_assoc
#print axioms BNS.C07_list_product
#print axioms BNS.C07_list_succeeds
#print axioms BNS.C07_list_order
#print axioms BNS.C08_condition
#print axioms BNS.C08_condition_rows
#print axioms BNS.C08_condition_without_probabilities
#print axioms BNS.C08_samples
#print axioms BNS.C09_sum
#print axioms BNS.C09_sum_keep
#print axioms BNS.C09_sum_all_raises
#print axioms BNS.C09_samples
#print axioms BNS.C10_sum_total
#print axioms BNS.C11_get_prob
#print axioms BNS.C11_complement
#print axioms BNS.C11_event_probability
#print axioms BNS.C11_without_table
#print axioms BNS.C12_bounds
#print axioms BNS.C12_conditional_bounds
#print axioms BNS.C12_no_condition
#print axioms BNS.C13_sort_partial
#print axioms BNS.C13_samples_mismatched
#print axioms BNS.C13_samples_partial
#print axioms BNS.C13_samples_only
#print axioms BNS.C13_rows_lost
#print axioms BNS.C14_merge_partial
#print axioms BNS.C14_missing_row_raises
#print axioms BNS.C14_samples
#print axioms BNS.C14_not_one_sided
#print axioms BNS.C14_valid
#print axioms BNS.C14_changes_self
#print axioms BNS.C15_elimination_partial
#print axioms BNS.C15_order_partial
#print axioms BNS.C15_unknown_raises
#print axioms BNS.C15_disconnected_raises
#print axioms BNS.C15_parent_only_kept
#print axioms BNS.C15_whenever_it_returns
#print axioms BNS.C16_subset
#print axioms BNS.C16_out_of_range
#print axioms BNS.C16_complement
#print axioms BNS.C16_no_loss
#print axioms BNS.C16_samples
#print axioms BNS.C17_ismember
#print axioms BNS.C17_setdiff
#print axioms BNS.C17_argsort
#print axioms BNS.C18_sound
#print axioms BNS.C18_unknown
#print axioms BNS.C18_known
#print axioms BNS.C18_monotone
#print axioms BNS.C19_survival
#print axioms BNS.C19_failure
#print axioms BNS.C19_unknown_kind
#print axioms BNS.C20_irredundant
#print axioms BNS.C20_from_empty
#print axioms BNS.C20_semantic_survival
#print axioms BNS.C20_semantic_failure
#print axioms BNS.C21_run_sys_fn
#print axioms BNS.C22_partition
#print axioms BNS.C22_disjoint_cover
#print axioms BNS.C23_probabilities
#print axioms BNS.C24_labels_sound
#print axioms BNS.C25_split_component
#print axioms BNS.C25_terminates
#print axioms BNS.C25_unknown_component
#print axioms BNS.C25_compatible
#print axioms BNS.C26_resolved
#print axioms BNS.C26_enough_branches
#print axioms BNS.C26_resume
#print axioms BNS.C27_bounds
#print axioms BNS.C27_returns
#print axioms BNS.C27_returns_other
#print axioms BNS.C28_exact_partial
#print axioms BNS.C28_exact_iff
#print axioms BNS.C28_enough_branches_partial
#print axioms BNS.C28_complete_not_exact
#print axioms BNS.C29_no_repeat_partial
#print axioms BNS.C29_stops
#print axioms BNS.C29_completes
#print axioms BNS.C29_completes_other
#print axioms BNS.C29_repeats
#print axioms BNS.C30_monotone
#print axioms BNS.C30_counts
#print axioms BNS.C31_survival_first
#print axioms BNS.C31_other_partial
#print axioms BNS.C31_other_answers
#print axioms BNS.C31_other_most_likely
#print axioms BNS.C31_raises
#print axioms BNS.C31_run_raises
#print axioms BNS.C32_rows_partial
#print axioms BNS.C32_complete_unchanged
#print axioms BNS.C32_of_run
#print axioms BNS.C32_no_branches
#print axioms BNS.C32_unknown_label
#print axioms BNS.C32_not_stored_raises
#print axioms BNS.C33_run
#print axioms BNS.C33_bounds
#print axioms BNS.C33_exact_partial
#print axioms BNS.C34_rule_prob_partial
#print axioms BNS.C34_failure_wrong
#print axioms BNS.C35_best_path_partial
#print axioms BNS.C35_fastest
#print axioms BNS.C35_monotone
#print axioms BNS.C35_missing_arc_raises
#print axioms BNS.C35_empty_raises
#print axioms BNS.C35_not_with_infinite_time
#print axioms BNS.C36_split
#print axioms BNS.C36_any_arcs
#print axioms BNS.C37_partition_partial
#print axioms BNS.C37_full_box
#print axioms BNS.C37_not_decided_start
#print axioms BNS.C38_what_is_read
#print axioms BNS.C38_fresh_partial
#print axioms BNS.C38_not_stale_files
#print axioms BNS.C38_not_key_prefix
#print axioms BNS.C38_reads_other_key_iff
#print axioms BNS.C38_other_key
#print axioms BNS.C38_keys_without_underscore
#print axioms BNS.C38_resume
#print axioms BNS.C39_rows
#print axioms BNS.C39_undecided_raises
#print axioms BNS.C39_not_stored_raises
#print axioms BNS.C39_not_three_states
#print axioms BNS.C40_partition
#print axioms BNS.C40_lengths_raise
#print axioms BNS.C40_foreign_component_raises
#print axioms BNS.C40_path_problem
#print axioms BNS.C40_not_three_states
#print axioms BNS.C41_rows_partial
#print axioms BNS.C41_none_complete_raises
#print axioms BNS.C41_not_stored_raises
#print axioms BNS.C41_not_three_states
#print axioms BNS.C41_path_problem
#print axioms BNS.C42_relevant
#print axioms BNS.C42_ordered
#print axioms BNS.C43_topological
#print axioms BNS.C44_weight_partial
#print axioms BNS.C44_vector_partial
#print axioms BNS.C44_vector_output_partial
#print axioms BNS.C44_state_zero_wrong
#print axioms BNS.C44_listing_order_wrong
#print axioms BNS.C44_common_child
#print axioms BNS.C44_vector_mismatched
#print axioms BNS.C45_max_partial
#print axioms BNS.C45_min_partial
#print axioms BNS.C45_max_same_values
#print axioms BNS.C45_min_same_values
#print axioms BNS.C45_max_initial_values
#print axioms BNS.C45_min_initial_values
#print axioms BNS.C45_no_table_raises
#print axioms BNS.C45_max_wrong
#print axioms BNS.C45_min_wrong
#print axioms BNS.C46_rows_partial
#print axioms BNS.C46_system_marginal_partial
#print axioms BNS.C46_two_children_rejected
#print axioms BNS.C46_two_conditions_raise
#print axioms BNS.C47_max_flow_partial
#print axioms BNS.C47_monotone
#print axioms BNS.C47_not_parallel
#print axioms BNS.C47_no_origin_raises
#print axioms BNS.C47_parallel
#print axioms BNS.C47_not_parallel_none
#print axioms BNS.C48_time_partial
#print axioms BNS.C48_multi_dest_partial
#print axioms BNS.C48_connectivity
#print axioms BNS.C48_monotone_time
#print axioms BNS.C48_monotone_connectivity
#print axioms BNS.C48_no_route_raises
#print axioms BNS.C48_several_need_threshold
#print axioms BNS.C48_multigraph_ignores_states
#print axioms BNS.C48_not_multigraph
#print axioms BNS.C48_not_zero_threshold
#print axioms BNS.C49_pipes
#print axioms BNS.C49_monotone
#print axioms BNS.C49_no_success
#print axioms BNS.C49_routes_partial
#print axioms BNS.C49_not_routes
#print axioms BNS.C50_mle_value
#print axioms BNS.C50_mle_partial
#print axioms BNS.C50_mle_variance
#print axioms BNS.C50_rounds_raise
#print axioms BNS.C50_refused
#print axioms BNS.C50_bayes
#print axioms BNS.C50_bayes_weighted
#print axioms BNS.C50_bayes_unit
#print axioms BNS.C50_not_rounds
#print axioms BNS.C51_estimate
#print axioms BNS.C51_terminates
#print axioms BNS.C51_fuel
#print axioms BNS.C51_not_terminates
#print axioms BNS.C51_refused
#print axioms BNS.C51_column
#print axioms BNS.C51_cpms
#print axioms BNS.C51_missing
#print axioms BNS.C52_ratio
#print axioms BNS.C52_refused
#print axioms BNS.C52_negative_q_accepted
#print axioms BNS.C53_split
#print axioms BNS.C53_split_negative
#print axioms BNS.C53_all_equal
#print axioms BNS.C54_constructor_partial
#print axioms BNS.C54_accepts_invalid_state
#print axioms BNS.C54_rejects
#print axioms BNS.C54_samples_partial
#print axioms BNS.C54_samples_decided
#print axioms BNS.C54_samples_accept_composite
#print axioms BNS.C55_get_col_ind
#print axioms BNS.C55_get_col
#print axioms BNS.C55_get_means
#print axioms BNS.C55_means_without_probabilities
#print axioms BNS.C55_get_variables
#print axioms BNS.C55_get_var_idx
#print axioms BNS.C55_get_variables_cpms
#print axioms BNS.C56_log_product
#print axioms BNS.C56_log_product_matrix
#print axioms BNS.C57_conditioning_partial
#print axioms BNS.C57_same_as_elimination
#print axioms BNS.C57_not_row_order
#print axioms BNS.C57_returns_iff
#print axioms BNS.C57_complete_tables
#print axioms BNS.C58_fastest_partial
#print axioms BNS.C58_not_unsorted
#print axioms BNS.C58_first_in_list
#print axioms BNS.C58_missing_path_raises
#print axioms BNS.C59_product_samples
#print axioms BNS.C60_flag
#print axioms BNS.C60_goes_on
#print axioms BNS.C60_accuracy
#print axioms BNS.C61_resumable
#print axioms BNS.C61_bounds_kept
#print axioms BNS.C61_no_reevaluation
#print axioms BNS.C62_states
#print axioms BNS.C62_travel_time_partial
#print axioms BNS.C62_missing_arc_raises
#print axioms BNS.C62_not_two_ods
#print axioms BNS.C62_not_six_paths
#print axioms BNS.C63_travel_time_bounds_partial
#print axioms BNS.C63_travel_time_exact_partial
#print axioms BNS.C63_connectivity
#print axioms BNS.C64_flow_reliability_partial
#print axioms BNS.C65_pipe_reliability
#print axioms BNS.C65_pipe_routes_partial
#print axioms BNS.C66_conditional_partial
#print axioms BNS.C66_not_nested
#print axioms BNS.C67_draw
#print axioms BNS.C67_distribution
#print axioms BNS.C67_expected
#print axioms BNS.C67_unbiased_partial
#print axioms BNS.C67_not_mixed
#print axioms BNS.C68_draw
#print axioms BNS.C68_result
#print axioms BNS.C68_terminates
#print axioms BNS.C68_fuel
#print axioms BNS.C68_not_rare
#print axioms BNS.C68_not_terminates
#print axioms BNS.C68_refused
#print axioms BNS.C69_not_samples
#print axioms BNS.C69_not_returns
#print axioms BNS.C69_not_found
#print axioms BNS.C69_loop_partial
#print axioms BNS.C70_system_by_conditioning_partial
#print axioms BNS.C70_not_two_conditions
#print axioms BNS.C70_not_shared_parent
#print axioms BNS.C70_not_direct_parent
#print axioms BNS.C70_not_dependent_components
#print axioms BNS.C70_not_joint_with_parent
#print axioms BNS.C70_not_row_order
#print axioms BNS.C70_returns_partial
#print axioms BNS.C71_all_paths
#print axioms BNS.C71_fastest
#print axioms BNS.C71_raises
#print axioms BNS.C71_travel_time_partial
#print axioms BNS.C71_not_disconnected
#print axioms BNS.C72_read_partial
#print axioms BNS.C72_last_connection
#print axioms BNS.C72_not_parallel
#print axioms BNS.C73_partition_partial
#print axioms BNS.C73_agrees
#print axioms BNS.C73_no_path_raises
#print axioms BNS.C73_nobreak
#print axioms BNS.C73_not_decided_start
#print axioms BNS.C74_event_matrix_partial
#print axioms BNS.C74_no_route_raises
#print axioms BNS.C74_missing_scenario
#print axioms BNS.C74_probability_partial
#print axioms BNS.C74_not_multigraph
#print axioms BNS.C74_not_seven_states
#print axioms BNS.C74_not_zero_time
#print axioms BNS.C75_file
#print axioms BNS.C75_straight_line
#print axioms BNS.C75_read_nodes
#print axioms BNS.C75_read_back_partial
#print axioms BNS.C75_not_int_names
#print axioms BNS.C75_not_parallel
#print axioms BNS.C76_scenario
#print axioms BNS.C76_file_partial
#print axioms BNS.C76_not_all_scenarios
#print axioms BNS.C76_not_small_probability
#print axioms BNS.C77_records_partial
#print axioms BNS.C77_not_template
#print axioms BNS.C78_component
#print axioms BNS.C78_component_bounds
#print axioms BNS.C78_component_exact_partial
#print axioms BNS.C78_product
#print axioms BNS.C78_product_upper
#print axioms BNS.C78_not_joint
#print axioms BNS.C79_update_B
#print axioms BNS.C79_given_table
#print axioms BNS.C79_constructed
#print axioms BNS.C79_stale
#print axioms BNS.C79_shared_default
#print axioms BNS.C79_append
#print axioms BNS.C79_keys
#print axioms BNS.C79_keys_kept
#print axioms BNS.C80_round_trip
#print axioms BNS.C80_missing_entry
#print axioms BNS.C80_wrong_kind
#print axioms BNS.C80_equal
#print axioms BNS.C80_probability_defined
#print axioms BNS.C80_probability
#print axioms BNS.C80_not_checked
#print axioms BNS.C81_config
#print axioms BNS.C81_without_scenarios
#print axioms BNS.C81_required
#print axioms BNS.C81_not_optional
#print axioms BNS.C81_wrong_kind
#print axioms BNS.C81_only_if
#print axioms BNS.C81_event_matrix_partial
#print axioms BNS.C82_follows_run
#print axioms BNS.C82_tables
#print axioms BNS.C82_no_evaluation
#print axioms BNS.C82_rules_survive
#print axioms BNS.C82_branches
#print axioms BNS.C82_changes_arguments
#print axioms BNS.C82_labelled
#print axioms BNS.C82_max_bu
#print axioms BNS.C82_display
#print axioms BNS.C83_distance
#print axioms BNS.C83_direction
#print axioms BNS.C83_not_loop
#print axioms BNS.C83_not_space
#print axioms BNS.C84_decreasing
#print axioms BNS.C84_increasing_partial
#print axioms BNS.C84_not_increasing
#print axioms BNS.C84_clip
#print axioms BNS.C84_range
#print axioms BNS.C84_not_table
#print axioms BNS.C84_surface
#print axioms BNS.C84_not_std_al
#print axioms BNS.C85_roads
#print axioms BNS.C85_loop_raises
#print axioms BNS.C85_returns
#print axioms BNS.C85_covariance
#print axioms BNS.C86_parallel
#print axioms BNS.C86_not_parallel_raises
#print axioms BNS.C86_not_parallel_rule
#print axioms BNS.C86_max_flow_fun_partial
#print axioms BNS.C86_monotone
#print axioms BNS.C86_directions
#print axioms BNS.C86_reliability_partial
#print axioms BNS.C86_dictionaries_raise
#print axioms BNS.C86_no_edges_raises
#print axioms BNS.C86_no_origin_raises
#print axioms BNS.C86_direction_matters
#print axioms BNS.C86_not_parallel
#print axioms BNS.C87_conn
#print axioms BNS.C87_monotone
#print axioms BNS.C87_rule_partial
#print axioms BNS.C87_reliability_partial
#print axioms BNS.C87_tuples_raise
#print axioms BNS.C87_same_node_raises
#print axioms BNS.C87_missing_raises
#print axioms BNS.C87_not_parallel
#print axioms BNS.C88_samples_partial
#print axioms BNS.C88_dropped
#print axioms BNS.C88_missing_component_raises
#print axioms BNS.C89_links
#print axioms BNS.C89_cut_days_partial
#print axioms BNS.C89_shipped_raises
#print axioms BNS.C89_six_structures
#print axioms BNS.C89_six_structures_dependent
#print axioms BNS.C89_name_clash
#print axioms BNS.C89_no_link
#print axioms BNS.C89_conditional_raises
#print axioms BNS.C90_constructor
#print axioms BNS.C90_edits_partial
#print axioms BNS.C90_new_table
#print axioms BNS.C90_new_samples
#print axioms BNS.C90_vector_one
#print axioms BNS.C90_not_vector
#print axioms BNS.C90_not_rows
#print axioms BNS.C90_not_variables
#print axioms BNS.C90_not_weights_first
#print axioms BNS.C90_vector_query
#print axioms BNS.C91_columns
#print axioms BNS.C91_same_columns
#print axioms BNS.C91_conditional_partial
#print axioms BNS.C91_limits_partial
#print axioms BNS.C91_name_order
#print axioms BNS.C91_raises
#print axioms BNS.C91_not_name_order
#print axioms BNS.C91_not_unresolved
#print axioms BNS.C92_destination
#print axioms BNS.C92_bounds_partial
#print axioms BNS.C92_exact_partial
#print axioms BNS.C92_returns
#print axioms BNS.C92_unreachable
#print axioms BNS.C92_limit_raises
#print axioms BNS.C92_sampling_raises
#print axioms BNS.C92_closed_roads
#print axioms BNS.C92_order
#print axioms BNS.C92_all_or_nothing
#print axioms BNS.C92_accuracy
#print axioms BNS.C92_map_accuracy
#print axioms BNS.C92_map_sound
#print axioms BNS.C92_map_partial
#print axioms BNS.C92_not_unreachable
#print axioms BNS.C92_not_limits
#print axioms BNS.C93_row
#print axioms BNS.C93_row_partial
#print axioms BNS.C93_not_opposite
#print axioms BNS.C93_normalised
#print axioms BNS.C93_margins
#print axioms BNS.C93_not_two_roads
#print axioms BNS.C93_not_returns
#print axioms BNS.C93_attribute
#print axioms BNS.C93_unknown_road
#print axioms BNS.C93_update_not_returns
#print axioms BNS.C93_update_attribute
#print axioms BNS.C93_map
#print axioms BNS.C93_two_states
#print axioms BNS.C93_new_probabilities
#print axioms BNS.C93_not_small
#print axioms BNS.C94_conn
#print axioms BNS.C94_chain
#print axioms BNS.C94_midpoints
#print axioms BNS.C94_midpoints_missing
#print axioms BNS.C94_drawing_partial
#print axioms BNS.C94_not_without_house
#print axioms BNS.C94_not_houses
#print axioms BNS.C94_not_main
#print axioms BNS.C94_main_attribute
#print axioms BNS.C95_main_partial
#print axioms BNS.C95_independent
#print axioms BNS.C95_all
#print axioms BNS.C95_unknown_pair
#print axioms BNS.C95_not_mcs
#print axioms BNS.C95_missing_entry
#print axioms BNS.C95_wrong_kind
#print axioms BNS.C95_output_directory
#print axioms BNS.C95_not_zero
#print axioms BNS.C95_not_same_key
#print axioms BNS.C96_road_unique
#print axioms BNS.C96_main
#print axioms BNS.C96_main_sound
#print axioms BNS.C96_mcs
#print axioms BNS.C96_not_mcs_origin
#print axioms BNS.C96_not_mcs_unreachable
#print axioms BNS.C96_mcs_needs_main
#print axioms BNS.C96_missing_entry
#print axioms BNS.C96_earthquake
#print axioms BNS.C96_not_single
#print axioms BNS.C96_batch
#print axioms BNS.C97_n3e3
#print axioms BNS.C97_sf
#print axioms BNS.C97_no_evaluations
#print axioms BNS.C97_routine
#print axioms BNS.C97_check
#print axioms BNS.C97_errors
#print axioms BNS.C98_main
#print axioms BNS.C98_narrows_partial
#print axioms BNS.C98_check
#print axioms BNS.C98_exact_partial
#print axioms BNS.C98_answers
#print axioms BNS.C98_errors
#print axioms BNS.C98_not_two_times
#print axioms BNS.C99_names
#print axioms BNS.C99_numbers
#print axioms BNS.C99_get_prob
#print axioms BNS.C99_prob_bnd
#print axioms BNS.C99_condition
#print axioms BNS.C99_unknown
#print axioms BNS.C99_mixed_get_prob
#print axioms BNS.C99_mixed_condition
#print axioms BNS.C99_compatible
#print axioms BNS.C99_extra_labels
#print axioms BNS.C99_repeated_label
#print axioms BNS.C100_ema_files
#print axioms BNS.C100_ema_errors
#print axioms BNS.C100_repeated_node
#print axioms BNS.C100_ema_ready
#print axioms BNS.C100_not_default_key
#print axioms BNS.C100_delays
#print axioms BNS.C100_ema_results
#print axioms BNS.C100_road
#print axioms BNS.C100_road_errors
#print axioms BNS.C100_not_same_place
#print axioms BNS.C100_not_parallel
#print axioms BNS.C101_files
#print axioms BNS.C101_routine
#print axioms BNS.C101_rbd
#print axioms BNS.C101_errors
#print axioms BNS.C102_refines
#print axioms BNS.C102_structure
#print axioms BNS.C102_no_repeat
#print axioms BNS.C102_returns
#print axioms BNS.C102_returns_other
#print axioms BNS.C102_bounds_partial
#print axioms BNS.C102_exact
#print axioms BNS.C102_pf_bnd
#print axioms BNS.C102_nearest
#print axioms BNS.C102_float64
#print axioms BNS.C102_tolerance
#print axioms BNS.C102_not_enclosed
#print axioms BNS.C102_stops_early
#print axioms BNS.C103_refines
#print axioms BNS.C103_structure
#print axioms BNS.C103_operations
#print axioms BNS.C103_elimination_partial
#print axioms BNS.C103_probability
#print axioms BNS.C103_float53
#print axioms BNS.C103_relative
#print axioms BNS.C103_count
#print axioms BNS.C103_relative_elimination_partial
#print axioms BNS.C103_interval_round
#print axioms BNS.C103_interval
#print axioms BNS.C103_interval_double
#print axioms BNS.C103_not_exact
#print axioms BNS.C103_bounds_crossed
#print axioms BNS.C103_underflow
#print axioms BNS.C103_double_partial
#print axioms BNS.C103_double_probability
#print axioms BNS.C104_counted
#print axioms BNS.C104_probabilities
#print axioms BNS.C104_exact_partial
#print axioms BNS.C104_double_partial
#print axioms BNS.C104_not_one
#print axioms BNS.C104_underflow_partial
#print axioms BNS.C105_condition
#print axioms BNS.C105_labels
#print axioms BNS.C105_rejected
#print axioms BNS.C105_elimination
#print axioms BNS.C105_posterior
#print axioms BNS.C105_system
#print axioms BNS.C105_bounds
#print axioms BNS.C105_impossible
#print axioms BNS.C105_layout
#print axioms BNS.C105_unseen
#print axioms BNS.C106_condition
#print axioms BNS.C106_posterior_partial
#print axioms BNS.C106_bounds_partial
#print axioms BNS.C106_underflow
#print axioms BNS.C107_refines
#print axioms BNS.C107_structure
#print axioms BNS.C107_merge
#print axioms BNS.C107_marginal_partial
#print axioms BNS.C107_not_exact
#print axioms BNS.C107_double_partial
#print axioms BNS.C108_refines
#print axioms BNS.C108_structure
#print axioms BNS.C108_product
#print axioms BNS.C108_system_partial
#print axioms BNS.C108_not_exact
#print axioms BNS.C108_returns_partial
#print axioms BNS.C109_refines
#print axioms BNS.C109_round_partial
#print axioms BNS.C109_interval_partial
#print axioms BNS.C109_double_partial
#print axioms BNS.C109_not_small
#print axioms BNS.C110_rules
#print axioms BNS.C110_no_evaluation
#print axioms BNS.C110_exact_partial
#print axioms BNS.C110_branches_ignored
#print axioms BNS.C110_not_branches
#print axioms BNS.C110_inference
#print axioms BNS.C110_any_arithmetic
#print axioms BNS.C110_tolerance_partial
#print axioms BNS.C111_between
#print axioms BNS.C111_looser
#print axioms BNS.C111_stricter
#print axioms BNS.C111_travel_time_partial
#print axioms BNS.C111_not_all
#print axioms BNS.C111_flow_partial
#print axioms BNS.C111_pipes
#print axioms BNS.C111_tolerance_partial
#print axioms BNS.C112_true_values
#print axioms BNS.C112_bounds
#print axioms BNS.C112_exact_partial
#print axioms BNS.C112_tolerance
#print axioms BNS.C112_not_each_bound
#print axioms BNS.C113_bounds
#print axioms BNS.C113_exact_partial
#print axioms BNS.C113_two_runs_partial
#print axioms BNS.C113_tolerance
#print axioms BNS.C113_sharp
#print axioms BNS.C114_bounds
#print axioms BNS.C114_exact_partial
#print axioms BNS.C114_tolerance
#print axioms BNS.C114_not_unfinished
#print axioms BNS.C115_local
#print axioms BNS.C115_local_exact
#print axioms BNS.C115_bounds
#print axioms BNS.C115_not_coherent
#print axioms BNS.C115_determined
#print axioms BNS.C115_must_evaluate
#print axioms BNS.C115_extremal_rules
#print axioms BNS.C115_cost
#print axioms BNS.C115_tolerance
#print axioms BNS.C115_sharp_partial
#print axioms BNS.C115_sharp_not_max_sf
