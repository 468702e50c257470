import Verif.Props.Acquisition
import Verif.Props.Annealing
import Verif.Props.ArgmaxRestart
import Verif.Props.Ask
import Verif.Props.AskFull
import Verif.Props.AskNoisy
import Verif.Props.AskSearch
import Verif.Props.Batch
import Verif.Props.BoxConstraint
import Verif.Props.BoxDecomposition
import Verif.Props.CallerArrays
import Verif.Props.Checkpoint
import Verif.Props.Cholesky
import Verif.Props.CmaEs
import Verif.Props.CmaFrame
import Verif.Props.CmaNeutral
import Verif.Props.CmaOrder
import Verif.Props.CmaSampling
import Verif.Props.Conditional
import Verif.Props.ConditionalRun
import Verif.Props.ConditionalTell
import Verif.Props.ConstraintCall
import Verif.Props.Construct
import Verif.Props.Csv
import Verif.Props.Daemon
import Verif.Props.DataOrder
import Verif.Props.Design
import Verif.Props.DesignSize
import Verif.Props.Distribution
import Verif.Props.Ehvi
import Verif.Props.EhviOrder
import Verif.Props.Evaluate
import Verif.Props.Exhaust
import Verif.Props.FixedSeed
import Verif.Props.Fmin
import Verif.Props.ForestTree
import Verif.Props.FrontProgress
import Verif.Props.FullRun
import Verif.Props.GpPosterior
import Verif.Props.Gpr
import Verif.Props.GprConfig
import Verif.Props.GprFit
import Verif.Props.GprHessian
import Verif.Props.GprOrder
import Verif.Props.GprShared
import Verif.Props.Hypervolume
import Verif.Props.InnerSearch
import Verif.Props.Kernels
import Verif.Props.LearnAnneal
import Verif.Props.LearnGp
import Verif.Props.LearnSteps
import Verif.Props.Learner
import Verif.Props.Likelihood
import Verif.Props.Metropolis
import Verif.Props.Mies
import Verif.Props.MiesFrame
import Verif.Props.MiesFull
import Verif.Props.MiesLaw
import Verif.Props.MiesOrder
import Verif.Props.MiesStrength
import Verif.Props.Mobo
import Verif.Props.MoboFrame
import Verif.Props.MoboPropose
import Verif.Props.MoboWhole
import Verif.Props.MultiList
import Verif.Props.Node
import Verif.Props.NothingNew
import Verif.Props.OnePlusOne
import Verif.Props.OnePlusOneFrame
import Verif.Props.OnePlusOneFull
import Verif.Props.OnePlusOneValues
import Verif.Props.Optimizer
import Verif.Props.Pareto
import Verif.Props.PartialArgument
import Verif.Props.Pcabo
import Verif.Props.PcaboRun
import Verif.Props.PcaboTell
import Verif.Props.Penalized
import Verif.Props.Penalty
import Verif.Props.PredictBatch
import Verif.Props.PriorCov
import Verif.Props.RandomForest
import Verif.Props.Recommend
import Verif.Props.Recovery
import Verif.Props.Resolution
import Verif.Props.Restricted
import Verif.Props.Resume
import Verif.Props.Retry
import Verif.Props.RunFrame
import Verif.Props.SamplerLaw
import Verif.Props.Sampling
import Verif.Props.SaveLoad
import Verif.Props.Scores
import Verif.Props.SearchSpace
import Verif.Props.Seeding
import Verif.Props.Selection
import Verif.Props.SideBySide
import Verif.Props.SkGpr
import Verif.Props.Solution
import Verif.Props.SolutionView
import Verif.Props.SpaceDict
import Verif.Props.SpaceEdit
import Verif.Props.SpaceReplace
import Verif.Props.SpaceRound
import Verif.Props.Stagnation
import Verif.Props.Trend
import Verif.Props.TypedSpace
import Verif.Props.Variables
import Verif.Props.Workers

/-! Axioms used by every property theorem (printed while building). -/
#print axioms Verif.Props.c01_pareto_efficient_indices
#print axioms Verif.Props.c01_pareto_efficient_mask
#print axioms Verif.Props.c02_is_non_dominated_dedup
#print axioms Verif.Props.c02_is_non_dominated
#print axioms Verif.Props.c03_fronts_are_ranks
#print axioms Verif.Props.c03_fronts_partition
#print axioms Verif.Props.c03_first_front
#print axioms Verif.Props.c03_peeling
#print axioms Verif.Props.c04_complete_max
#print axioms Verif.Props.c04_complete_min
#print axioms Verif.Props.c04_sound_partial
#print axioms Verif.Props.c04_caller_array_negated
#print axioms Verif.Props.c04_false_on_ties
#print axioms Verif.Props.c05_fast_cells_partition_2d
#print axioms Verif.Props.c06_dominated_cells_partition_2d
#print axioms Verif.Props.c07_local_upper_bounds
#print axioms Verif.Props.c07_incremental
#print axioms Verif.Props.c07_class_bounds
#print axioms Verif.Props.c08_two_objectives
#print axioms Verif.Props.c09_spec_unique
#print axioms Verif.Props.c09_entry
#print axioms Verif.Props.c09_entry_unbounded
#print axioms Verif.Props.c09_degenerate_box
#print axioms Verif.Props.c09_single_point
#print axioms Verif.Props.c09_batch_rows_partial
#print axioms Verif.Props.c09_batch_columns
#print axioms Verif.Props.c09_square_batch_misaligned
#print axioms Verif.Props.c10_eval_count
#print axioms Verif.Props.c10_malformed_call_counts
#print axioms Verif.Props.c10_run
#print axioms Verif.Props.c10_overshoot
#print axioms Verif.Props.c10_exact
#print axioms Verif.Props.c10_run_terminates
#print axioms Verif.Props.c10_zero_means_unlimited
#print axioms Verif.Props.c11_incumbent
#print axioms Verif.Props.c11_no_incumbent
#print axioms Verif.Props.c12_history
#print axioms Verif.Props.c12_monotone
#print axioms Verif.Props.c13_data_is_what_was_told
#print axioms Verif.Props.c13_malformed_adds_nothing
#print axioms Verif.Props.c14_ask_partial
#print axioms Verif.Props.c14_errors
#print axioms Verif.Props.c14_fixed_value_rounded
#print axioms Verif.Props.c14_zero_request
#print axioms Verif.Props.c15_check_exact
#print axioms Verif.Props.c15_differs_from_recorded
#print axioms Verif.Props.c15_not_recorded
#print axioms Verif.Props.c15_batch_blocks_partial
#print axioms Verif.Props.c15_batch_distinct_without_topup_partial
#print axioms Verif.Props.c15_duplicates_across_samples
#print axioms Verif.Props.c15_topup_duplicates
#print axioms Verif.Props.c16_target_min_partial
#print axioms Verif.Props.c16_false_when_maximising
#print axioms Verif.Props.c17_sample_in_space_partial
#print axioms Verif.Props.c17_integer_grid
#print axioms Verif.Props.c17_logit_upper_bound_one
#print axioms Verif.Props.c17_fractional_bounds
#print axioms Verif.Props.c17_zero_points_or_empty_space_raise
#print axioms Verif.Props.c18_feasible
#print axioms Verif.Props.c19_in_bounds
#print axioms Verif.Props.c19_no_precision
#print axioms Verif.Props.c19_nearest
#print axioms Verif.Props.c19_multiple
#print axioms Verif.Props.c19_idempotent_partial
#print axioms Verif.Props.c19_not_idempotent_outside
#print axioms Verif.Props.c20_inverse
#print axioms Verif.Props.c20_strictly_increasing
#print axioms Verif.Props.c20_inverse_right
#print axioms Verif.Props.c20_bounds_in_domain
#print axioms Verif.Props.c20_default_outside_after_scaling
#print axioms Verif.Props.c20_out_of_range_bound_raises
#print axioms Verif.Props.c21_names
#print axioms Verif.Props.c21_unique_names_kept
#print axioms Verif.Props.c21_distinct_partial
#print axioms Verif.Props.c21_distinct_names_partial
#print axioms Verif.Props.c21_clash_duplicates
#print axioms Verif.Props.c21_iadd_self_duplicates
#print axioms Verif.Props.c22_ids
#print axioms Verif.Props.c22_partition
#print axioms Verif.Props.c22_categorical_id
#print axioms Verif.Props.c22_mask_partial
#print axioms Verif.Props.c22_mask_misses_subsets
#print axioms Verif.Props.c23_add_partial
#print axioms Verif.Props.c23_add_structured_raises
#print axioms Verif.Props.c23_add_renames_operand
#print axioms Verif.Props.c23_iadd_partial
#print axioms Verif.Props.c23_mul_partial
#print axioms Verif.Props.c23_imul_partial
#print axioms Verif.Props.c23_imul_one_doubles
#print axioms Verif.Props.c23_sub_partial
#print axioms Verif.Props.c23_isub_partial
#print axioms Verif.Props.c23_filter_partial
#print axioms Verif.Props.c23_filter_splits
#print axioms Verif.Props.c23_update_one_partial
#print axioms Verif.Props.c23_update_depends_on_set_order
#print axioms Verif.Props.c23_update_with_new_variable_raises
#print axioms Verif.Props.c24_remove_keep_partial
#print axioms Verif.Props.c24_remove_drop_always_none
#print axioms Verif.Props.c24_deepcopy_none
#print axioms Verif.Props.c25_paths
#print axioms Verif.Props.c25_path_is_chain
#print axioms Verif.Props.c25_names
#print axioms Verif.Props.c25_internal_nodes_unreported
#print axioms Verif.Props.c26_concatenation_partial
#print axioms Verif.Props.c26_mismatch_refused
#print axioms Verif.Props.c26_permuted_columns
#print axioms Verif.Props.c27_roundtrip_partial
#print axioms Verif.Props.c27_tuple_first_raises
#print axioms Verif.Props.c28_first_occurrences_partial
#print axioms Verif.Props.c28_rows_partial
#print axioms Verif.Props.c28_single_point
#print axioms Verif.Props.c28_conversion_merges
#print axioms Verif.Props.c29_walk_in_space_partial
#print axioms Verif.Props.c29_subset_raises
#print axioms Verif.Props.c29_mixed_levels_leave_space
#print axioms Verif.Props.c29_step_ignored
#print axioms Verif.Props.c30_early_stop_partial
#print axioms Verif.Props.c30_empty_iff_infeasible
#print axioms Verif.Props.c30_best_value_partial
#print axioms Verif.Props.c30_nan_wins
#print axioms Verif.Props.c30_infeasible_restarts_free
#print axioms Verif.Props.c31_invariant_partial
#print axioms Verif.Props.c31_monotone
#print axioms Verif.Props.c31_float_bounds_leave_space
#print axioms Verif.Props.c31_step_ignored
#print axioms Verif.Props.c32_in_box
#print axioms Verif.Props.c32_elitist
#print axioms Verif.Props.c32_xopt_feasible
#print axioms Verif.Props.c32_tell
#print axioms Verif.Props.c32_unconstrained_best
#print axioms Verif.Props.c32_fopt_monotone
#print axioms Verif.Props.c32_feasible_point_lost
#print axioms Verif.Props.c32_parent_partial
#print axioms Verif.Props.c32_restart_parent_mismatch
#print axioms Verif.Props.c33_update_partial
#print axioms Verif.Props.c33_run_partial
#print axioms Verif.Props.c33_default_rates
#print axioms Verif.Props.c33_zero_path_nan
#print axioms Verif.Props.c33_reset_breaks_inverse
#print axioms Verif.Props.c34_penalty_separates_partial
#print axioms Verif.Props.c34_monotone_in_t_partial
#print axioms Verif.Props.c34_constraint_error
#print axioms Verif.Props.c34_subset_point_split
#print axioms Verif.Props.c35_exp_partial
#print axioms Verif.Props.c35_linear_partial
#print axioms Verif.Props.c35_endpoints
#print axioms Verif.Props.c35_max_iter
#print axioms Verif.Props.c35_default_dictionary_shared
#print axioms Verif.Props.c35_log_misses_end
#print axioms Verif.Props.c35_no_budget
#print axioms Verif.Props.c36_direction_consistent
#print axioms Verif.Props.c36_optimiser_direction_consistent
#print axioms Verif.Props.c36_noisy_direction_consistent
#print axioms Verif.Props.c36_defaults_construct_partial
#print axioms Verif.Props.c36_pi_never_constructs
#print axioms Verif.Props.c37_full_point_unique
#print axioms Verif.Props.c37_single_partial
#print axioms Verif.Props.c37_batch_partial
#print axioms Verif.Props.c37_batch_fails
#print axioms Verif.Props.c37_batch_witness
#print axioms Verif.Props.c37_wrong_length
#print axioms Verif.Props.c37_reduce_output
#print axioms Verif.Props.c38_roundtrip_partial
#print axioms Verif.Props.c38_succeeds
#print axioms Verif.Props.c38_failed_dump_corrupts
#print axioms Verif.Props.c38_failed_data_dump
#print axioms Verif.Props.c38_logger_same_process
#print axioms Verif.Props.c38_logger_new_process_partial
#print axioms Verif.Props.c38_file_logger_gains_console
#print axioms Verif.Props.c39_status_partial
#print axioms Verif.Props.c39_start_refuses
#print axioms Verif.Props.c39_start_fresh
#print axioms Verif.Props.c39_stop_idle
#print axioms Verif.Props.c39_stop_running_raises
#print axioms Verif.Props.c39_garbage_raises
#print axioms Verif.Props.c39_stale_file_blocks
#print axioms Verif.Props.c39_stop_hits_stranger
#print axioms Verif.Props.c40_every_subspace_first
#print axioms Verif.Props.c40_complete_points
#print axioms Verif.Props.c40_tell_point_partial
#print axioms Verif.Props.c40_zero_dropped
#print axioms Verif.Props.c40_zero_condition_raises
#print axioms Verif.Props.c41_basis
#print axioms Verif.Props.c41_sizes
#print axioms Verif.Props.c41_check_input
#print axioms Verif.Props.c41_call
#print axioms Verif.Props.c41_jacobian
#print axioms Verif.Props.c42_box_contains
#print axioms Verif.Props.c43_evaluate_aligned
#print axioms Verif.Props.c43_xopt_partial
#print axioms Verif.Props.c43_xopt_drops_equal_outcomes
#print axioms Verif.Props.c43_xopt_rounding
#print axioms Verif.Props.c44_encode_total
#print axioms Verif.Props.c44_width
#print axioms Verif.Props.c44_injective
#print axioms Verif.Props.c44_thread_order
#print axioms Verif.Props.c44_predict_partial
#print axioms Verif.Props.c44_single_tree
#print axioms Verif.Props.c44_stale_count
#print axioms Verif.Props.c45_from_dict_partial
#print axioms Verif.Props.c45_default_raises
#print axioms Verif.Props.c45_conditions_dropped
#print axioms Verif.Props.c45_step_only_once
#print axioms Verif.Props.c45_unknown_type_repeats
#print axioms Verif.Props.c45_to_dict_not_readable
#print axioms Verif.Props.c46_hash_partial
#print axioms Verif.Props.c46_perm_equal
#print axioms Verif.Props.c46_space_eq_partial
#print axioms Verif.Props.c46_equal_but_different_hash
#print axioms Verif.Props.c47_groups_partial
#print axioms Verif.Props.c47_initial_design_missing
#print axioms Verif.Props.c48_warm_start
#print axioms Verif.Props.c48_accepts_partial
#print axioms Verif.Props.c48_dict_mode_rejected
#print axioms Verif.Props.c48_solution_argument_rejected
#print axioms Verif.Props.c48_bool_value_rejected
#print axioms Verif.Props.c49_factorises
#print axioms Verif.Props.c49_permutation_invariant
#print axioms Verif.Props.c50_replacement_partial
#print axioms Verif.Props.c50_distinct
#print axioms Verif.Props.c50_no_failure_partial
#print axioms Verif.Props.c50_fails_on_ties
#print axioms Verif.Props.c50_zero_draw
#print axioms Verif.Props.c51_n_eval_dict_partial
#print axioms Verif.Props.c51_n_eval_list_is_two
#print axioms Verif.Props.c52_labels_partial
#print axioms Verif.Props.c52_default_labels_repeat
#print axioms Verif.Props.c53_data_file_partial
#print axioms Verif.Props.c53_false_after_flat_fitness
#print axioms Verif.Props.c54_flat_fitness
#print axioms Verif.Props.c54_constant_objective
#print axioms Verif.Props.c55_mixed_space_ignores_generator
#print axioms Verif.Props.c55_seeded_samples_repeat
#print axioms Verif.Props.c55_seeded_reproducible
#print axioms Verif.Props.c55_pure_space_reproducible_partial
#print axioms Verif.Props.c55_discrete_draws_partial
#print axioms Verif.Props.c55_real_draws_partial
#print axioms Verif.Props.c56_levels
#print axioms Verif.Props.c56_subset_levels
#print axioms Verif.Props.c57_round_trip_partial
#print axioms Verif.Props.c57_shared_name_lost
#print axioms Verif.Props.c57_reapplied_structure_doubles
#print axioms Verif.Props.c57_none_tree_raises
#print axioms Verif.Props.c58_subspaces_partial
#print axioms Verif.Props.c58_only_active
#print axioms Verif.Props.c58_active_variable_missing
#print axioms Verif.Props.c58_bare_root_raises
#print axioms Verif.Props.c59_fmin_result
#print axioms Verif.Props.c59_calls_partial
#print axioms Verif.Props.c59_warm_calls_not_reported
#print axioms Verif.Props.c60_import_partial
#print axioms Verif.Props.c60_key_order_ignored
#print axioms Verif.Props.c61_indexed_export_partial
#print axioms Verif.Props.c61_repeated_labels_lose_rows
#print axioms Verif.Props.c62_repeat_partial
#print axioms Verif.Props.c62_one_row_table_raises
#print axioms Verif.Props.c63_terminates
#print axioms Verif.Props.c63_budget
#print axioms Verif.Props.c64_terminates
#print axioms Verif.Props.c64_budget
#print axioms Verif.Props.c64_restart_limit_ignored
#print axioms Verif.Props.c64_overshoot
#print axioms Verif.Props.c65_same_covariance_partial
#print axioms Verif.Props.c65_base_symmetric
#print axioms Verif.Props.c66_weighted_sum_partial
#print axioms Verif.Props.c66_tchebycheff_unusable
#print axioms Verif.Props.c67_one_daemon_partial
#print axioms Verif.Props.c67_race
#print axioms Verif.Props.c68_new_logger_partial
#print axioms Verif.Props.c68_shared_name
#print axioms Verif.Props.c69_one_objective
#print axioms Verif.Props.c69_three_objectives
#print axioms Verif.Props.c69_general_position_partial
#print axioms Verif.Props.c69_order_of_rows_matters
#print axioms Verif.Props.c69_dominated_row_lowers
#print axioms Verif.Props.c69_links_empty
#print axioms Verif.Props.c69_links_append
#print axioms Verif.Props.c69_links_extend
#print axioms Verif.Props.c69_links_remove
#print axioms Verif.Props.c69_links_restore
#print axioms Verif.Props.c70_fast_cells_partition
#print axioms Verif.Props.c70_fast_front
#print axioms Verif.Props.c71_cells_partition
#print axioms Verif.Props.c71_cells_disjoint
#print axioms Verif.Props.c71_terminates
#print axioms Verif.Props.c72_fast_hypervolume
#print axioms Verif.Props.c72_bin_hypervolume
#print axioms Verif.Props.c73_ei_is_expected_improvement_partial
#print axioms Verif.Props.c73_ei_certain_is_zero
#print axioms Verif.Props.c73_ei_wrong_when_certain
#print axioms Verif.Props.c73_mgfi_is_moment_partial
#print axioms Verif.Props.c73_epsilon_pi_is_probability
#print axioms Verif.Props.c74_better_mean_ranks_higher_partial
#print axioms Verif.Props.c74_ucb_ranks_backwards
#print axioms Verif.Props.c74_epsilon_pi_ranks_backwards
#print axioms Verif.Props.c75_ei_rewards_uncertainty
#print axioms Verif.Props.c75_ucb_rewards_uncertainty
#print axioms Verif.Props.c76_gradient_correct
#print axioms Verif.Props.c76_ucb_gradient_undefined
#print axioms Verif.Props.c77_single_ignores_parameters
#print axioms Verif.Props.c77_single_wrong_parameter
#print axioms Verif.Props.c77_single_default_partial
#print axioms Verif.Props.c77_noisy_plugin_partial
#print axioms Verif.Props.c78_batch_mgfi_partial
#print axioms Verif.Props.c78_batch_ucb_partial
#print axioms Verif.Props.c78_ucb_default_fails
#print axioms Verif.Props.c78_epsilon_pi_fails
#print axioms Verif.Props.c78_constructor_fails
#print axioms Verif.Props.c79_rowwise_partial
#print axioms Verif.Props.c79_arrays_fail
#print axioms Verif.Props.c80_expected_gain
#print axioms Verif.Props.c80_approximation_from_below
#print axioms Verif.Props.c80_constructs
#print axioms Verif.Props.c81_arrays_mispaired
#print axioms Verif.Props.c81_arrays_wrong
#print axioms Verif.Props.c81_arrays_fail
#print axioms Verif.Props.c82_counts
#print axioms Verif.Props.c83_failed_value_raises
#print axioms Verif.Props.c83_finite_recorded_partial
#print axioms Verif.Props.c84_reference_below_partial
#print axioms Verif.Props.c84_reference_above
#print axioms Verif.Props.c84_front_ignored
#print axioms Verif.Props.c85_reduced_roundtrip
#print axioms Verif.Props.c85_original_roundtrip
#print axioms Verif.Props.c85_full_roundtrip
#print axioms Verif.Props.c86_weights
#print axioms Verif.Props.c86_single_point
#print axioms Verif.Props.c87_value
#print axioms Verif.Props.c87_gradient
#print axioms Verif.Props.c87_inside_preferred_partial
#print axioms Verif.Props.c87_negative_acquisition
#print axioms Verif.Props.c88_proposals_inside_partial
#print axioms Verif.Props.c88_proposal_outside
#print axioms Verif.Props.c89_correlation_function
#print axioms Verif.Props.c90_matrix_valid
#print axioms Verif.Props.c90_noisy_matrix_definite
#print axioms Verif.Props.c91_cubic_not_valid
#print axioms Verif.Props.c91_exponent_above_two_not_valid
#print axioms Verif.Props.c91_factorisable_partial
#print axioms Verif.Props.c92_isotropic_partial
#print axioms Verif.Props.c92_generalized_isotropic_raises
#print axioms Verif.Props.c93_gradient_partial
#print axioms Verif.Props.c93_matern_gradient_wrong_at_sample
#print axioms Verif.Props.c93_no_gradient
#print axioms Verif.Props.c93_hessian_partial
#print axioms Verif.Props.c93_no_hessian
#print axioms Verif.Props.c94_parameter_gradient_partial
#print axioms Verif.Props.c94_isotropic_gradient_wrong
#print axioms Verif.Props.c95_best_linear_unbiased
#print axioms Verif.Props.c95_best_affine
#print axioms Verif.Props.c96_noisy_unbiased_partial
#print axioms Verif.Props.c96_noisy_not_best
#print axioms Verif.Props.c97_interpolates
#print axioms Verif.Props.c98_error_range
#print axioms Verif.Props.c99_more_data_less_error
#print axioms Verif.Props.c100_gradient_partial
#print axioms Verif.Props.c100_matern_gradient_wrong_at_sample
#print axioms Verif.Props.c101_noiseless
#print axioms Verif.Props.c101_noise_estim
#print axioms Verif.Props.c101_noisy
#print axioms Verif.Props.c102_small_observations_rejected
#print axioms Verif.Props.c102_noisy_accepted_partial
#print axioms Verif.Props.c103_noiseless_exact
#print axioms Verif.Props.c103_simple_kriging_partial
#print axioms Verif.Props.c103_estimated_trend_wrong
#print axioms Verif.Props.c103_noise_estim_partial
#print axioms Verif.Props.c103_noisy_exact
#print axioms Verif.Props.c103_noisy_wrong
#print axioms Verif.Props.c103_end_to_end_partial
#print axioms Verif.Props.c103_estimated_trend_refuted
#print axioms Verif.Props.c104_search_gradient_exact
#print axioms Verif.Props.c104_same_sign_partial
#print axioms Verif.Props.c104_refuted
#print axioms Verif.Props.c105_best_of_restarts
#print axioms Verif.Props.c105_zero_restarts_fail
#print axioms Verif.Props.c106_noisy_fit_ends_partial
#print axioms Verif.Props.c106_default_nugget_partial
#print axioms Verif.Props.c106_noise_estim_never_ends
#print axioms Verif.Props.c107_unchanged_partial
#print axioms Verif.Props.c107_noise_never_decreases
#print axioms Verif.Props.c107_refit_refuted
#print axioms Verif.Props.c108_contrasts_partial
#print axioms Verif.Props.c108_given_trend_exact
#print axioms Verif.Props.c108_given_trend_refuted
#print axioms Verif.Props.c109_restricted_gradient_exact
#print axioms Verif.Props.c109_unit_variance_partial
#print axioms Verif.Props.c109_restricted_gradient_refuted
#print axioms Verif.Props.c110_strategy_parameters
#print axioms Verif.Props.c110_distribution_valid
#print axioms Verif.Props.c111_points_in_box
#print axioms Verif.Props.c112_best_so_far
#print axioms Verif.Props.c113_flags_partial
#print axioms Verif.Props.c113_never_ends
#print axioms Verif.Props.c114_smallest_likelihood
#print axioms Verif.Props.c114_refuted
#print axioms Verif.Props.c115_kernel_gradient_partial
#print axioms Verif.Props.c115_rbf_wrong
#print axioms Verif.Props.c115_gradient_partial
#print axioms Verif.Props.c115_one_variable_raises
#print axioms Verif.Props.c115_refuted
#print axioms Verif.Props.c116_columns_partial
#print axioms Verif.Props.c116_refuted
#print axioms Verif.Props.c117_attributes_partial
#print axioms Verif.Props.c117_class_partial
#print axioms Verif.Props.c117_pop
#print axioms Verif.Props.c117_remove
#print axioms Verif.Props.c117_class_refuted
#print axioms Verif.Props.c117_half_assignment_refuted
#print axioms Verif.Props.c117_empty_index
#print axioms Verif.Props.c118_complete
#print axioms Verif.Props.c118_list_partial
#print axioms Verif.Props.c118_dict_partial
#print axioms Verif.Props.c118_refuted
#print axioms Verif.Props.c119_item_partial
#print axioms Verif.Props.c119_slices
#print axioms Verif.Props.c119_selection
#print axioms Verif.Props.c119_new
#print axioms Verif.Props.c119_last_refuted
#print axioms Verif.Props.c119_last_column_refuted
#print axioms Verif.Props.c119_column_partial
#print axioms Verif.Props.c120_write_through
#print axioms Verif.Props.c120_selection_detached
#print axioms Verif.Props.c120_copy_refuted
#print axioms Verif.Props.c121_read_partial
#print axioms Verif.Props.c121_data_file_partial
#print axioms Verif.Props.c121_raise
#print axioms Verif.Props.c121_refuted
#print axioms Verif.Props.c121_row_refuted
#print axioms Verif.Props.c121_header_refuted
#print axioms Verif.Props.c122_columns_partial
#print axioms Verif.Props.c122_labelled_partial
#print axioms Verif.Props.c122_labels_refuted
#print axioms Verif.Props.c122_names_refuted
#print axioms Verif.Props.c123_cached
#print axioms Verif.Props.c123_rule_partial
#print axioms Verif.Props.c123_crosstalk_refuted
#print axioms Verif.Props.c124_balance
#print axioms Verif.Props.c124_feasible_kept
#print axioms Verif.Props.c124_schedule
#print axioms Verif.Props.c125_unconstrained
#print axioms Verif.Props.c125_calls
#print axioms Verif.Props.c125_separates
#print axioms Verif.Props.c125_interior
#print axioms Verif.Props.c125_reported
#print axioms Verif.Props.c125_drift_refuted
#print axioms Verif.Props.c125_gradient_error
#print axioms Verif.Props.c126_variables_partial
#print axioms Verif.Props.c126_single
#print axioms Verif.Props.c126_misfit
#print axioms Verif.Props.c126_subset_default_refuted
#print axioms Verif.Props.c126_word_refuted
#print axioms Verif.Props.c126_bool_refuted
#print axioms Verif.Props.c127_default
#print axioms Verif.Props.c127_constrained
#print axioms Verif.Props.c127_budgets
#print axioms Verif.Props.c127_bfgs_refuted
#print axioms Verif.Props.c127_unknown_refuted
#print axioms Verif.Props.c128_point_partial
#print axioms Verif.Props.c128_batch_partial
#print axioms Verif.Props.c128_fixed
#print axioms Verif.Props.c128_subsets_refuted
#print axioms Verif.Props.c128_subsets_raise_refuted
#print axioms Verif.Props.c129_multi
#print axioms Verif.Props.c129_results
#print axioms Verif.Props.c129_self_adaptive_refuted
#print axioms Verif.Props.c130_hessian_partial
#print axioms Verif.Props.c130_returns
#print axioms Verif.Props.c130_matern_refuted
#print axioms Verif.Props.c131_smse
#print axioms Verif.Props.c131_smse_constant
#print axioms Verif.Props.c131_smse_units
#print axioms Verif.Props.c131_msll_partial
#print axioms Verif.Props.c131_msll_trivial
#print axioms Verif.Props.c131_msll_order
#print axioms Verif.Props.c131_variances_refuted
#print axioms Verif.Props.c131_units_refuted
#print axioms Verif.Props.c132_works
#print axioms Verif.Props.c132_documented_refuted
#print axioms Verif.Props.c132_meaningless_refuted
#print axioms Verif.Props.c133_found
#print axioms Verif.Props.c133_start
#print axioms Verif.Props.c133_refit
#print axioms Verif.Props.c134_entries_partial
#print axioms Verif.Props.c134_covariance
#print axioms Verif.Props.c134_array_refuted
#print axioms Verif.Props.c134_zero_refuted
#print axioms Verif.Props.c134_targets_refuted
#print axioms Verif.Props.c135_count_partial
#print axioms Verif.Props.c135_count_refuted
#print axioms Verif.Props.c135_raises_refuted
#print axioms Verif.Props.c135_gram_schmidt_refuted
#print axioms Verif.Props.c135_mirrored
#print axioms Verif.Props.c135_orthogonal
#print axioms Verif.Props.c135_derandomized
#print axioms Verif.Props.c135_drawn
#print axioms Verif.Props.c135_pairs
#print axioms Verif.Props.c136_stops_partial
#print axioms Verif.Props.c136_restarts_refuted
#print axioms Verif.Props.c137_rate
#print axioms Verif.Props.c137_range
#print axioms Verif.Props.c137_adaptation
#print axioms Verif.Props.c138_bfgs_partial
#print axioms Verif.Props.c138_seed_refuted
#print axioms Verif.Props.c138_restarts_refuted
#print axioms Verif.Props.c139_data
#print axioms Verif.Props.c139_counts
#print axioms Verif.Props.c139_returns_iff
#print axioms Verif.Props.c139_incumbent
#print axioms Verif.Props.c139_labels_partial
#print axioms Verif.Props.c139_labels_refuted
#print axioms Verif.Props.c139_history_refuted
#print axioms Verif.Props.c139_dict_refuted
#print axioms Verif.Props.c139_warm_refuted
#print axioms Verif.Props.c140_positive_partial
#print axioms Verif.Props.c140_numpy_partial
#print axioms Verif.Props.c140_at_least_one
#print axioms Verif.Props.c140_doe_iff
#print axioms Verif.Props.c140_doe_refuted
#print axioms Verif.Props.c140_budget_refuted
#print axioms Verif.Props.c140_seed_refuted
#print axioms Verif.Props.c141_schedule
#print axioms Verif.Props.c141_aligned
#print axioms Verif.Props.c141_run
#print axioms Verif.Props.c141_parallel_fun_refuted
#print axioms Verif.Props.c142_arguments
#print axioms Verif.Props.c142_propose_partial
#print axioms Verif.Props.c142_gradient_refuted
#print axioms Verif.Props.c142_batch_refuted
#print axioms Verif.Props.c142_objectives_refuted
#print axioms Verif.Props.c142_slices_partial
#print axioms Verif.Props.c142_slices_refuted
#print axioms Verif.Props.c143_records_partial
#print axioms Verif.Props.c143_count
#print axioms Verif.Props.c143_count_refuted
#print axioms Verif.Props.c143_returns_iff
#print axioms Verif.Props.c143_failure_refuted
#print axioms Verif.Props.c143_incumbent
#print axioms Verif.Props.c144_search_in_space
#print axioms Verif.Props.c144_ask_in_space_partial
#print axioms Verif.Props.c144_ask_errors
#print axioms Verif.Props.c145_ask_feasible_partial
#print axioms Verif.Props.c145_ask_feasible_no_precision
#print axioms Verif.Props.c145_rounding_violates
#print axioms Verif.Props.c146_run_points_partial
#print axioms Verif.Props.c146_run_budget
#print axioms Verif.Props.c146_run_best
#print axioms Verif.Props.c146_concrete_run
#print axioms Verif.Props.c146_failed_point_again
#print axioms Verif.Props.c146_learning_run_partial
#print axioms Verif.Props.c147_real_share_partial
#print axioms Verif.Props.c147_real_joint_partial
#print axioms Verif.Props.c147_precision_share_partial
#print axioms Verif.Props.c147_precision_ends_half
#print axioms Verif.Props.c147_value_once_partial
#print axioms Verif.Props.c147_discrete_joint_partial
#print axioms Verif.Props.c147_seeded_types_linked
#print axioms Verif.Props.c148_returns_iff_partial
#print axioms Verif.Props.c148_two_points_fail
#print axioms Verif.Props.c148_errors
#print axioms Verif.Props.c149_first_ask_raises
#print axioms Verif.Props.c149_first_ask_error
#print axioms Verif.Props.c149_ask_iff_partial
#print axioms Verif.Props.c149_points
#print axioms Verif.Props.c149_failed_search_raises
#print axioms Verif.Props.c150_stopped_iff_ever_due
#print axioms Verif.Props.c150_check_stop_returns
#print axioms Verif.Props.c150_raised_budget_ignored
#print axioms Verif.Props.c150_settings_take_effect_partial
#print axioms Verif.Props.c150_not_resumable
#print axioms Verif.Props.c151_attributes
#print axioms Verif.Props.c151_settings_kept
#print axioms Verif.Props.c151_like_new_partial
#print axioms Verif.Props.c151_stale_refuted
#print axioms Verif.Props.c152_run_ends_partial
#print axioms Verif.Props.c152_exhausted_raises
#print axioms Verif.Props.c152_never_ends_refuted
#print axioms Verif.Props.c153_units_partial
#print axioms Verif.Props.c153_small_units_raise
#print axioms Verif.Props.c153_single_value_raw
#print axioms Verif.Props.c154_direction_partial
#print axioms Verif.Props.c154_target_refuted
#print axioms Verif.Props.c155_restart
#print axioms Verif.Props.c155_search_best_partial
#print axioms Verif.Props.c155_ask_partial
#print axioms Verif.Props.c155_ask_batch_partial
#print axioms Verif.Props.c156_learns_from_all
#print axioms Verif.Props.c157_maximises_improvement_partial
#print axioms Verif.Props.c158_batch_maximises_partial
#print axioms Verif.Props.c159_known_points
#print axioms Verif.Props.c159_new_point_partial
#print axioms Verif.Props.c160_all_points
#print axioms Verif.Props.c160_global_optimum
#print axioms Verif.Props.c161_annealed_partial
#print axioms Verif.Props.c161_ends_at_final
#print axioms Verif.Props.c162_posterior
#print axioms Verif.Props.c162_estimated_trend
#print axioms Verif.Props.c162_interval
#print axioms Verif.Props.c162_process_exists
#print axioms Verif.Props.c163_expected_improvement_partial
#print axioms Verif.Props.c163_moment_partial
#print axioms Verif.Props.c163_probability
#print axioms Verif.Props.c164_invariant_partial
#print axioms Verif.Props.c164_converges_partial
#print axioms Verif.Props.c164_real_refuted
#print axioms Verif.Props.c164_integer_refuted
#print axioms Verif.Props.c165_refines
#print axioms Verif.Props.c165_strengths
#print axioms Verif.Props.c165_reach_partial
#print axioms Verif.Props.c165_reach_discrete
#print axioms Verif.Props.c165_alive
#print axioms Verif.Props.c165_frozen
#print axioms Verif.Props.c165_refuted
#print axioms Verif.Props.c166_step_law
#print axioms Verif.Props.c166_integer_strength
#print axioms Verif.Props.c166_integer_step
#print axioms Verif.Props.c166_probability_law
#print axioms Verif.Props.c167_mean_partial
#print axioms Verif.Props.c167_path_partial
#print axioms Verif.Props.c167_covariance_partial
#print axioms Verif.Props.c167_refuted
#print axioms Verif.Props.c168_order_only
#print axioms Verif.Props.c168_draw_order
#print axioms Verif.Props.c168_selection
#print axioms Verif.Props.c169_own_trend_partial
#print axioms Verif.Props.c169_shared_shift
#print axioms Verif.Props.c169_shared_later
#print axioms Verif.Props.c169_refuted
#print axioms Verif.Props.c170_routine
#print axioms Verif.Props.c170_origin_and_order
#print axioms Verif.Props.c170_unit_partial
#print axioms Verif.Props.c170_unit_refuted
#print axioms Verif.Props.c171_round_partial
#print axioms Verif.Props.c171_linear_partial
#print axioms Verif.Props.c171_argument_partial
#print axioms Verif.Props.c171_overwritten
#print axioms Verif.Props.c171_again
#print axioms Verif.Props.c171_refuted
#print axioms Verif.Props.c172_points
#print axioms Verif.Props.c172_scalars
#print axioms Verif.Props.c172_step_size
#print axioms Verif.Props.c172_box
#print axioms Verif.Props.c172_budget_partial
#print axioms Verif.Props.c172_best_partial
#print axioms Verif.Props.c172_nan_partial
#print axioms Verif.Props.c172_restart_nan
#print axioms Verif.Props.c172_last_point_ignored
#print axioms Verif.Props.c173_motion
#print axioms Verif.Props.c173_order
#print axioms Verif.Props.c173_origin_and_order
#print axioms Verif.Props.c173_meaning
#print axioms Verif.Props.c173_rotation
#print axioms Verif.Props.c174_values_partial
#print axioms Verif.Props.c174_unit_matters
#print axioms Verif.Props.c175_ends_partial
#print axioms Verif.Props.c175_best
#print axioms Verif.Props.c175_tolerance_unused
#print axioms Verif.Props.c175_one_parent
#print axioms Verif.Props.c175_refuted
#print axioms Verif.Props.c175_single_offspring
#print axioms Verif.Props.c176_order_partial
#print axioms Verif.Props.c176_refuted
#print axioms Verif.Props.c177_same_predictions
#print axioms Verif.Props.c177_same_likelihood
#print axioms Verif.Props.c178_more_data
#print axioms Verif.Props.c178_front_only
#print axioms Verif.Props.c178_better_prediction
#print axioms Verif.Props.c178_positive
#print axioms Verif.Props.c179_same_search
#print axioms Verif.Props.c179_fails_fractional
#print axioms Verif.Props.c180_ask_partial
#print axioms Verif.Props.c180_run_partial
#print axioms Verif.Props.c180_ask_no_reals
#print axioms Verif.Props.c180_never_again_refuted
#print axioms Verif.Props.c180_no_design_refuted
#print axioms Verif.Props.c180_indistinct_examples
#print axioms Verif.Props.c180_units_refuted
#print axioms Verif.Props.c180_concrete
#print axioms Verif.Props.c181_ask
#print axioms Verif.Props.c181_best
#print axioms Verif.Props.c181_run
#print axioms Verif.Props.c181_histories
#print axioms Verif.Props.c181_gaussian_process
#print axioms Verif.Props.c181_same_course
#print axioms Verif.Props.c181_concrete
#print axioms Verif.Props.c181_ties
#print axioms Verif.Props.c182_no_interference_partial
#print axioms Verif.Props.c182_others_irrelevant_partial
#print axioms Verif.Props.c182_ask_alone
#print axioms Verif.Props.c182_temperature
#print axioms Verif.Props.c182_default_dictionary_refuted
#print axioms Verif.Props.c182_shared_model_refuted
#print axioms Verif.Props.c182_concrete
#print axioms Verif.Props.c183_units_front_partial
#print axioms Verif.Props.c183_units_partial
#print axioms Verif.Props.c183_tiny_range_refuted
#print axioms Verif.Props.c183_order_of_objectives
#print axioms Verif.Props.c183_direction_front_partial
#print axioms Verif.Props.c183_direction_refuted
#print axioms Verif.Props.c183_order_of_observations_partial
#print axioms Verif.Props.c183_tied_observations_refuted
#print axioms Verif.Props.c183_concrete
#print axioms Verif.Props.c184_same_course
#print axioms Verif.Props.c184_crash_elsewhere_partial
#print axioms Verif.Props.c184_crash_while_saving_refuted
#print axioms Verif.Props.c184_data_file_refuted
#print axioms Verif.Props.c184_two_files
#print axioms Verif.Props.c184_concrete
#print axioms Verif.Props.c185_count
#print axioms Verif.Props.c185_budget
#print axioms Verif.Props.c185_returned
#print axioms Verif.Props.c185_front_exact
#print axioms Verif.Props.c185_front_rounded
#print axioms Verif.Props.c185_ends
#print axioms Verif.Props.c185_raises
#print axioms Verif.Props.c185_concrete
#print axioms Verif.Props.c186_recorded
#print axioms Verif.Props.c186_conserved
#print axioms Verif.Props.c186_budget
#print axioms Verif.Props.c186_ends
#print axioms Verif.Props.c186_new_points_partial
#print axioms Verif.Props.c186_same_point_refuted
#print axioms Verif.Props.c186_concrete
#print axioms Verif.Props.c186_budget_reached
#print axioms Verif.Props.c186_run_is_one_worker
#print axioms Verif.Props.c187_design_seeded
#print axioms Verif.Props.c187_refines
#print axioms Verif.Props.c187_random_seed_ignored
#print axioms Verif.Props.c187_designs_repeat
#print axioms Verif.Props.c187_temperatures_repeat
#print axioms Verif.Props.c187_run_seeded
#print axioms Verif.Props.c187_run_ignores_random_seed
#print axioms Verif.Props.c187_not_reproducible_refuted
#print axioms Verif.Props.c187_concrete
#print axioms Verif.Props.c188_records
#print axioms Verif.Props.c188_budget
#print axioms Verif.Props.c188_ends_partial
#print axioms Verif.Props.c188_returned
#print axioms Verif.Props.c188_explored
#print axioms Verif.Props.c188_all_explored
#print axioms Verif.Props.c188_failures_refuted
#print axioms Verif.Props.c188_concrete
#print axioms Verif.Props.c189_records
#print axioms Verif.Props.c189_budget
#print axioms Verif.Props.c189_ends
#print axioms Verif.Props.c189_returned
#print axioms Verif.Props.c189_raises
#print axioms Verif.Props.c189_single_point_refuted
#print axioms Verif.Props.c189_concrete
#print axioms Verif.Props.c190_range
#print axioms Verif.Props.c190_units
#print axioms Verif.Props.c190_levels
#print axioms Verif.Props.c190_stale_count_refuted
#print axioms Verif.Props.c190_concrete
#print axioms Verif.Props.c191_records
#print axioms Verif.Props.c191_budget
#print axioms Verif.Props.c191_finishes
#print axioms Verif.Props.c191_budget_refuted
#print axioms Verif.Props.c191_failed_tell
#print axioms Verif.Props.c191_tell_again_refuted
#print axioms Verif.Props.c191_target_refuted
#print axioms Verif.Props.c191_concrete
#print axioms Verif.Props.c192_left
#print axioms Verif.Props.c192_target
#print axioms Verif.Props.c192_row_partial
#print axioms Verif.Props.c193_best_partial
#print axioms Verif.Props.c193_unavailable
#print axioms Verif.Props.c193_unavailable_refuted
#print axioms Verif.Props.c193_no_worse
#print axioms Verif.Props.c193_run
#print axioms Verif.Props.c193_isolated_partial
#print axioms Verif.Props.c193_shared_refuted
#print axioms Verif.Props.c193_history_refuted
#print axioms Verif.Props.c193_concrete
#print axioms Verif.Props.c194_parallel
#print axioms Verif.Props.c194_sequential_partial
#print axioms Verif.Props.c194_sequential_refuted
#print axioms Verif.Props.c194_kept_partial
#print axioms Verif.Props.c194_kept_refuted
#print axioms Verif.Props.c194_reversing_objective
#print axioms Verif.Props.c195_one_per_part_partial
#print axioms Verif.Props.c195_no_gap_partial
#print axioms Verif.Props.c195_distinct_partial
#print axioms Verif.Props.c195_precision_refuted
#print axioms Verif.Props.c195_integer_refuted
#print axioms Verif.Props.c196_recovers
#print axioms Verif.Props.c196_constraint
#print axioms Verif.Props.c196_keeps_partial
#print axioms Verif.Props.c196_forest
#print axioms Verif.Props.c196_stale_refuted
#print axioms Verif.Props.c196_gp_refuted
#print axioms Verif.Props.c196_forest_refuted
#print axioms Verif.Props.c196_concrete
#print axioms Verif.Props.c196_constraint_concrete
#print axioms Verif.Props.c197_full_partial
#print axioms Verif.Props.c197_one
#print axioms Verif.Props.c197_kept
#print axioms Verif.Props.c197_indistinct_refuted
#print axioms Verif.Props.c197_stuck_refuted
#print axioms Verif.Props.c197_narrow
#print axioms Verif.Props.c197_narrow_refuted
#print axioms Verif.Props.c197_stuck_concrete
#print axioms Verif.Props.c197_concrete
#print axioms Verif.Props.c197_unlucky_refuted
#print axioms Verif.Props.c198_front_is_all
#print axioms Verif.Props.c198_improves_partial
#print axioms Verif.Props.c198_history_partial
#print axioms Verif.Props.c198_refuted
#print axioms Verif.Props.c199_packing
#print axioms Verif.Props.c199_mixed_packing
#print axioms Verif.Props.c199_exhausted
#print axioms Verif.Props.c199_batches
#print axioms Verif.Props.c199_mixed_batches
#print axioms Verif.Props.c199_run
#print axioms Verif.Props.c199_whole_run
#print axioms Verif.Props.c199_mixed_run
#print axioms Verif.Props.c199_learning_run
#print axioms Verif.Props.c199_whole_run_concrete
#print axioms Verif.Props.c199_learning_run_concrete
#print axioms Verif.Props.c199_refuted
#print axioms Verif.Props.c199_reachable_partial
#print axioms Verif.Props.c199_concrete
#print axioms Verif.Props.c199_mixed_refuted
#print axioms Verif.Props.c200_single_partial
#print axioms Verif.Props.c200_kept_partial
#print axioms Verif.Props.c200_twins_refuted
#print axioms Verif.Props.c200_concrete
