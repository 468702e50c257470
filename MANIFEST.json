{
 "claims": [
  {
   "property": "C01",
   "status": "proved",
   "theorems": [
    "Verif.Props.c01_pareto_efficient_indices",
    "Verif.Props.c01_pareto_efficient_mask"
   ],
   "note": "Exact characterisation of indices and mask for every list of vectors over a linear order (NaN excluded)."
  },
  {
   "property": "C02",
   "status": "proved",
   "theorems": [
    "Verif.Props.c02_is_non_dominated_dedup",
    "Verif.Props.c02_is_non_dominated"
   ],
   "note": "Non-batched n x m tensors; both values of deduplicate."
  },
  {
   "property": "C03",
   "status": "proved",
   "theorems": [
    "Verif.Props.c03_fronts_are_ranks",
    "Verif.Props.c03_fronts_partition",
    "Verif.Props.c03_first_front",
    "Verif.Props.c03_peeling"
   ],
   "note": "Ranks by longest domination chain; partition, first front and peeling as separate theorems."
  },
  {
   "property": "C04",
   "status": "partial",
   "theorems": [
    "Verif.Props.c04_complete_max",
    "Verif.Props.c04_complete_min",
    "Verif.Props.c04_sound_partial",
    "Verif.Props.c04_caller_array_negated",
    "Verif.Props.c04_false_on_ties"
   ],
   "note": "Completeness for all inputs and any argsort; soundness only when first objectives are distinct; c04_false_on_ties refutes soundness on ties; in-place negation of the caller's array stated."
  },
  {
   "property": "C05",
   "status": "proved",
   "theorems": [
    "Verif.Props.c05_fast_cells_partition_2d"
   ],
   "note": "Every history of constructor and update calls with two objectives, every sorting function; exact partition of real vectors (cells open below, closed above)."
  },
  {
   "property": "C06",
   "status": "proved",
   "theorems": [
    "Verif.Props.c06_dominated_cells_partition_2d"
   ],
   "note": "Every sorted, mutually non-dominated front at least as good as the reference point; areas add up to the Lebesgue measure of the dominated region."
  },
  {
   "property": "C07",
   "status": "proved",
   "theorems": [
    "Verif.Props.c07_local_upper_bounds",
    "Verif.Props.c07_incremental",
    "Verif.Props.c07_class_bounds"
   ],
   "note": "Any number of objectives (at least two), ties included; also for incremental processing and for the bounds stored by the class."
  },
  {
   "property": "C08",
   "status": "proved",
   "theorems": [
    "Verif.Props.c08_two_objectives"
   ],
   "note": "Two objectives, any finite list of rows: equal to the Lebesgue measure of the union of boxes."
  },
  {
   "property": "C09",
   "status": "partial",
   "theorems": [
    "Verif.Props.c09_spec_unique",
    "Verif.Props.c09_entry",
    "Verif.Props.c09_entry_unbounded",
    "Verif.Props.c09_degenerate_box",
    "Verif.Props.c09_single_point",
    "Verif.Props.c09_batch_rows_partial",
    "Verif.Props.c09_batch_columns",
    "Verif.Props.c09_square_batch_misaligned"
   ],
   "note": "Per-coordinate repair is the unique reflected point, for finite, half-infinite and infinite bounds; batches are correct only when they have another number of rows than columns (c09_square_batch_misaligned shows square batches get the bounds of the wrong axis)."
  },
  {
   "property": "C10",
   "status": "proved",
   "theorems": [
    "Verif.Props.c10_eval_count",
    "Verif.Props.c10_malformed_call_counts",
    "Verif.Props.c10_run",
    "Verif.Props.c10_overshoot",
    "Verif.Props.c10_exact",
    "Verif.Props.c10_run_terminates",
    "Verif.Props.c10_zero_means_unlimited"
   ],
   "note": "Budget: exact evaluation counts after any history, loop termination, exact overshoot; run over arbitrary batches, values and model failures. Budget 0 is read as unlimited (c10_zero_means_unlimited)."
  },
  {
   "property": "C11",
   "status": "proved",
   "theorems": [
    "Verif.Props.c11_incumbent",
    "Verif.Props.c11_no_incumbent"
   ],
   "note": "After any history including failed calls; first among ties."
  },
  {
   "property": "C12",
   "status": "proved",
   "theorems": [
    "Verif.Props.c12_history",
    "Verif.Props.c12_monotone"
   ],
   "note": "One entry per completed non-warm call, each the best so far; monotone."
  },
  {
   "property": "C13",
   "status": "proved",
   "theorems": [
    "Verif.Props.c13_data_is_what_was_told",
    "Verif.Props.c13_malformed_adds_nothing"
   ],
   "note": "Exact content of data after any history."
  },
  {
   "property": "C14",
   "status": "partial",
   "theorems": [
    "Verif.Props.c14_ask_partial",
    "Verif.Props.c14_errors",
    "Verif.Props.c14_fixed_value_rounded",
    "Verif.Props.c14_zero_request"
   ],
   "note": "Size, dimension, fixed values and membership of the free coordinates, assuming the sampler (C17, C18) and the acquisition optimiser (C30) deliver points of the free sub-space and the fixed values are unchanged by rounding. Refuted otherwise: c14_fixed_value_rounded (initial design rounds fixed values), c14_zero_request (ask(0) returns one point). c14_errors lists the possible exceptions."
  },
  {
   "property": "C15",
   "status": "partial",
   "theorems": [
    "Verif.Props.c15_check_exact",
    "Verif.Props.c15_differs_from_recorded",
    "Verif.Props.c15_not_recorded",
    "Verif.Props.c15_batch_blocks_partial",
    "Verif.Props.c15_batch_distinct_without_topup_partial",
    "Verif.Props.c15_duplicates_across_samples",
    "Verif.Props.c15_topup_duplicates"
   ],
   "note": "Never equal to a recorded point, for any sampler and optimiser; the duplicate check keeps exactly the points that differ from all others. Within a batch only the points of one check are pairwise different; refuted across checks by c15_duplicates_across_samples and c15_topup_duplicates."
  },
  {
   "property": "C16",
   "status": "partial",
   "theorems": [
    "Verif.Props.c16_target_min_partial",
    "Verif.Props.c16_false_when_maximising"
   ],
   "note": "Holds for minimisation; refuted for maximisation (c16_false_when_maximising)."
  },
  {
   "property": "C17",
   "status": "partial",
   "theorems": [
    "Verif.Props.c17_sample_in_space_partial",
    "Verif.Props.c17_integer_grid",
    "Verif.Props.c17_logit_upper_bound_one",
    "Verif.Props.c17_fractional_bounds",
    "Verif.Props.c17_zero_points_or_empty_space_raise"
   ],
   "note": "All mixes of variables, seeds and generator states; refuted for logit scales with upper bound 1 and integer variables with fractional bounds; sampling zero points or an empty space raises."
  },
  {
   "property": "C18",
   "status": "proved",
   "theorems": [
    "Verif.Props.c18_feasible"
   ],
   "note": "For every choice made by the generator; feasibility, size and completeness of the result. np.isclose(|h|,0,atol) is |h| <= tol because rtol multiplies 0."
  },
  {
   "property": "C19",
   "status": "partial",
   "theorems": [
    "Verif.Props.c19_in_bounds",
    "Verif.Props.c19_no_precision",
    "Verif.Props.c19_nearest",
    "Verif.Props.c19_multiple",
    "Verif.Props.c19_idempotent_partial",
    "Verif.Props.c19_not_idempotent_outside"
   ],
   "note": "Rounding stays in bounds, is nearest, idempotent inside the grid; idempotence refuted when a bound is off the grid."
  },
  {
   "property": "C20",
   "status": "proved",
   "theorems": [
    "Verif.Props.c20_inverse",
    "Verif.Props.c20_strictly_increasing",
    "Verif.Props.c20_inverse_right",
    "Verif.Props.c20_bounds_in_domain",
    "Verif.Props.c20_default_outside_after_scaling",
    "Verif.Props.c20_out_of_range_bound_raises"
   ],
   "note": "Exact inverses and monotonicity for all five scales; a default value outside the scaled bounds is accepted (shown as a remark)."
  },
  {
   "property": "C21",
   "status": "partial",
   "theorems": [
    "Verif.Props.c21_names",
    "Verif.Props.c21_unique_names_kept",
    "Verif.Props.c21_distinct_partial",
    "Verif.Props.c21_distinct_names_partial",
    "Verif.Props.c21_clash_duplicates",
    "Verif.Props.c21_iadd_self_duplicates"
   ],
   "note": "Exact renaming rule for every list of distinct variable objects; uniqueness unless a name is a repeated name followed by digits (refuted there) or the same object occurs twice (refuted for A += A)."
  },
  {
   "property": "C22",
   "status": "partial",
   "theorems": [
    "Verif.Props.c22_ids",
    "Verif.Props.c22_partition",
    "Verif.Props.c22_categorical_id",
    "Verif.Props.c22_mask_partial",
    "Verif.Props.c22_mask_misses_subsets"
   ],
   "note": "Index sets exact for every list of types; the masks omit Subset variables (refuted)."
  },
  {
   "property": "C23",
   "status": "partial",
   "theorems": [
    "Verif.Props.c23_add_partial",
    "Verif.Props.c23_add_structured_raises",
    "Verif.Props.c23_add_renames_operand",
    "Verif.Props.c23_iadd_partial",
    "Verif.Props.c23_mul_partial",
    "Verif.Props.c23_imul_partial",
    "Verif.Props.c23_imul_one_doubles",
    "Verif.Props.c23_sub_partial",
    "Verif.Props.c23_isub_partial",
    "Verif.Props.c23_filter_partial",
    "Verif.Props.c23_filter_splits",
    "Verif.Props.c23_update_one_partial",
    "Verif.Props.c23_update_depends_on_set_order",
    "Verif.Props.c23_update_with_new_variable_raises"
   ],
   "note": "Contents, order and names of +, +=, -, -=, *, *=, filter and one-variable update for spaces without conditions; refuted: + with conditions raises, + renames the operand's variables, *= 1 doubles, update depends on set order and raises."
  },
  {
   "property": "C24",
   "status": "partial",
   "theorems": [
    "Verif.Props.c24_remove_keep_partial",
    "Verif.Props.c24_remove_drop_always_none",
    "Verif.Props.c24_deepcopy_none"
   ],
   "note": "invert=True exact; invert=False and deepcopy always return None (proved)."
  },
  {
   "property": "C25",
   "status": "proved",
   "theorems": [
    "Verif.Props.c25_paths",
    "Verif.Props.c25_path_is_chain",
    "Verif.Props.c25_names",
    "Verif.Props.c25_internal_nodes_unreported"
   ],
   "note": "Exact content of the path dictionary for every tree with an edge and every set iteration order; names in pre-order."
  },
  {
   "property": "C26",
   "status": "partial",
   "theorems": [
    "Verif.Props.c26_concatenation_partial",
    "Verif.Props.c26_mismatch_refused",
    "Verif.Props.c26_permuted_columns"
   ],
   "note": "Proved when both sets list the variables in the same order; refuted for permuted columns (c26_permuted_columns)."
  },
  {
   "property": "C27",
   "status": "partial",
   "theorems": [
    "Verif.Props.c27_roundtrip_partial",
    "Verif.Props.c27_tuple_first_raises"
   ],
   "note": "Proved for distinct names and, for a 1-D point, a non-tuple first value; refuted for a 1-D point starting with a tuple."
  },
  {
   "property": "C28",
   "status": "partial",
   "theorems": [
    "Verif.Props.c28_first_occurrences_partial",
    "Verif.Props.c28_rows_partial",
    "Verif.Props.c28_single_point",
    "Verif.Props.c28_conversion_merges"
   ],
   "note": "Proved when numpy's conversion of the table to one type keeps different rows different; refuted otherwise (c28_conversion_merges)."
  },
  {
   "property": "C29",
   "status": "partial",
   "theorems": [
    "Verif.Props.c29_walk_in_space_partial",
    "Verif.Props.c29_subset_raises",
    "Verif.Props.c29_mixed_levels_leave_space",
    "Verif.Props.c29_step_ignored"
   ],
   "note": "Any number of iterations; refuted for level lists mixing strings and numbers; Subset variables raise; integer steps are ignored."
  },
  {
   "property": "C30",
   "status": "partial",
   "theorems": [
    "Verif.Props.c30_early_stop_partial",
    "Verif.Props.c30_empty_iff_infeasible",
    "Verif.Props.c30_best_value_partial",
    "Verif.Props.c30_nan_wins",
    "Verif.Props.c30_infeasible_restarts_free"
   ],
   "note": "Early stopping, emptiness and the best value are proved for all inner optimisers; with NaN acquisition values the NaN result wins (c30_nan_wins), and restarts that end infeasible are not charged to the budget (c30_infeasible_restarts_free)."
  },
  {
   "property": "C31",
   "status": "partial",
   "theorems": [
    "Verif.Props.c31_invariant_partial",
    "Verif.Props.c31_monotone",
    "Verif.Props.c31_float_bounds_leave_space",
    "Verif.Props.c31_step_ignored"
   ],
   "note": "Population invariant for integer-valued bounds of integer variables; c31_float_bounds_leave_space refutes it otherwise; the step of integer variables is ignored (c31_step_ignored)."
  },
  {
   "property": "C32",
   "status": "partial",
   "theorems": [
    "Verif.Props.c32_in_box",
    "Verif.Props.c32_elitist",
    "Verif.Props.c32_xopt_feasible",
    "Verif.Props.c32_tell",
    "Verif.Props.c32_unconstrained_best",
    "Verif.Props.c32_fopt_monotone",
    "Verif.Props.c32_feasible_point_lost",
    "Verif.Props.c32_parent_partial",
    "Verif.Props.c32_restart_parent_mismatch"
   ],
   "note": "Box, elitism and feasibility of xopt for all runs including restarts; the parent has the recorded value only without restarts (c32_restart_parent_mismatch), and a better feasible point can go unrecorded (c32_feasible_point_lost)."
  },
  {
   "property": "C33",
   "status": "partial",
   "theorems": [
    "Verif.Props.c33_update_partial",
    "Verif.Props.c33_run_partial",
    "Verif.Props.c33_default_rates",
    "Verif.Props.c33_zero_path_nan",
    "Verif.Props.c33_reset_breaks_inverse"
   ],
   "note": "Exact update and inverse over the reals for any number of updates with non-zero path; a reset keeps a stale inverse (c33_reset_breaks_inverse) and a zero path gives NaN (c33_zero_path_nan)."
  },
  {
   "property": "C34",
   "status": "partial",
   "theorems": [
    "Verif.Props.c34_penalty_separates_partial",
    "Verif.Props.c34_monotone_in_t_partial",
    "Verif.Props.c34_constraint_error",
    "Verif.Props.c34_subset_point_split"
   ],
   "note": "Zero iff feasible, sign and monotonicity for points that do not start with a collection and for batches; c34_subset_point_split shows a single point starting with a tuple is split."
  },
  {
   "property": "C35",
   "status": "partial",
   "theorems": [
    "Verif.Props.c35_exp_partial",
    "Verif.Props.c35_linear_partial",
    "Verif.Props.c35_endpoints",
    "Verif.Props.c35_max_iter",
    "Verif.Props.c35_default_dictionary_shared",
    "Verif.Props.c35_log_misses_end",
    "Verif.Props.c35_no_budget"
   ],
   "note": "Exponential and linear schedules are proved for an instance with its own parameter dictionary. The default dictionary is shared between instances (c35_default_dictionary_shared) and the logarithmic schedule does not end at its end value (c35_log_misses_end), so the full property is false of the code."
  },
  {
   "property": "C36",
   "status": "partial",
   "theorems": [
    "Verif.Props.c36_direction_consistent",
    "Verif.Props.c36_optimiser_direction_consistent",
    "Verif.Props.c36_noisy_direction_consistent",
    "Verif.Props.c36_defaults_construct_partial",
    "Verif.Props.c36_pi_never_constructs"
   ],
   "note": "Direction consistency is proved for all classes, for the constructors and for the whole chain observations, standardisation, plugin, acquisition function (also the one for noisy objectives). Four of the five classes construct with defaults; PI never does (c36_pi_never_constructs), because it passes epsilon = 0 to a setter that asserts epsilon > 0."
  },
  {
   "property": "C37",
   "status": "partial",
   "theorems": [
    "Verif.Props.c37_full_point_unique",
    "Verif.Props.c37_single_partial",
    "Verif.Props.c37_batch_partial",
    "Verif.Props.c37_batch_fails",
    "Verif.Props.c37_batch_witness",
    "Verif.Props.c37_wrong_length",
    "Verif.Props.c37_reduce_output"
   ],
   "note": "Proved for single points, for batches whose size equals the number of free variables, and for the reduction of array-valued gradients. Every other batch is refused or evaluated the wrong number of times (c37_batch_fails, c37_batch_witness)."
  },
  {
   "property": "C38",
   "status": "partial",
   "theorems": [
    "Verif.Props.c38_roundtrip_partial",
    "Verif.Props.c38_succeeds",
    "Verif.Props.c38_failed_dump_corrupts",
    "Verif.Props.c38_failed_data_dump",
    "Verif.Props.c38_logger_same_process",
    "Verif.Props.c38_logger_new_process_partial",
    "Verif.Props.c38_file_logger_gains_console"
   ],
   "note": "Round trip proved when serialisation succeeds. A failing dump leaves the optimiser corrupted for good (c38_failed_dump_corrupts) and a file-only logger gains a console handler in a new process (c38_file_logger_gains_console), so the full property is false of the code."
  },
  {
   "property": "C39",
   "status": "partial",
   "theorems": [
    "Verif.Props.c39_status_partial",
    "Verif.Props.c39_start_refuses",
    "Verif.Props.c39_start_fresh",
    "Verif.Props.c39_stop_idle",
    "Verif.Props.c39_stop_running_raises",
    "Verif.Props.c39_garbage_raises",
    "Verif.Props.c39_stale_file_blocks",
    "Verif.Props.c39_stop_hits_stranger"
   ],
   "note": "Status, refusal of start and idle stop proved for readable pid-files. False: stopping a running daemon raises (c39_stop_running_raises), unreadable pid-files raise (c39_garbage_raises), stale files block start (c39_stale_file_blocks)."
  },
  {
   "property": "C40",
   "status": "partial",
   "theorems": [
    "Verif.Props.c40_every_subspace_first",
    "Verif.Props.c40_complete_points",
    "Verif.Props.c40_tell_point_partial",
    "Verif.Props.c40_zero_dropped",
    "Verif.Props.c40_zero_condition_raises"
   ],
   "note": "Sub-space schedule over every history; complete points from ask; tell passes on all values when these are truthy; refuted for 0/False/empty values and for conditions comparing with 0."
  },
  {
   "property": "C41",
   "status": "proved",
   "theorems": [
    "Verif.Props.c41_basis",
    "Verif.Props.c41_sizes",
    "Verif.Props.c41_check_input",
    "Verif.Props.c41_call",
    "Verif.Props.c41_jacobian"
   ],
   "note": "All three trends: the columns are exactly the monomials of the trend, each once, in the stated number; shape check; value with coefficients; Jacobian of the constant and linear trend."
  },
  {
   "property": "C42",
   "status": "proved",
   "theorems": [
    "Verif.Props.c42_box_contains"
   ],
   "note": "Any orthonormal components; the SVD is an oracle."
  },
  {
   "property": "C43",
   "status": "partial",
   "theorems": [
    "Verif.Props.c43_evaluate_aligned",
    "Verif.Props.c43_xopt_partial",
    "Verif.Props.c43_xopt_drops_equal_outcomes",
    "Verif.Props.c43_xopt_rounding"
   ],
   "note": "Evaluation keeps the objectives aligned with the points; every point in xopt is efficient and the non-dominated points with distinct outcomes are in xopt. Missing and refuted: points whose outcome equals an earlier one are dropped (c43_xopt_drops_equal_outcomes), and outcomes that differ by less than single precision are merged (c43_xopt_rounding)."
  },
  {
   "property": "C44",
   "status": "partial",
   "theorems": [
    "Verif.Props.c44_encode_total",
    "Verif.Props.c44_width",
    "Verif.Props.c44_injective",
    "Verif.Props.c44_thread_order",
    "Verif.Props.c44_predict_partial",
    "Verif.Props.c44_single_tree",
    "Verif.Props.c44_stale_count"
   ],
   "note": "Encoding: total exactly on admissible rows, fixed width, injective. Prediction: mean and unbiased variance for every thread order with at least two trees. One tree gives a NaN variance (c44_single_tree) and a changed n_estimators averages over zeros (c44_stale_count), so the full property is false of the code."
  },
  {
   "property": "C45",
   "status": "partial",
   "theorems": [
    "Verif.Props.c45_from_dict_partial",
    "Verif.Props.c45_default_raises",
    "Verif.Props.c45_conditions_dropped",
    "Verif.Props.c45_step_only_once",
    "Verif.Props.c45_unknown_type_repeats",
    "Verif.Props.c45_to_dict_not_readable"
   ],
   "note": "Exact result for entries with known types, no default, no conditions and no step on repeated integers; refuted for defaults (always raises), conditions (dropped), steps, unknown types, to_dict output."
  },
  {
   "property": "C46",
   "status": "partial",
   "theorems": [
    "Verif.Props.c46_hash_partial",
    "Verif.Props.c46_perm_equal",
    "Verif.Props.c46_space_eq_partial",
    "Verif.Props.c46_equal_but_different_hash"
   ],
   "note": "Equal variables with equal precision, scale and step have equal hash tuples; refuted otherwise."
  },
  {
   "property": "C47",
   "status": "partial",
   "theorems": [
    "Verif.Props.c47_groups_partial",
    "Verif.Props.c47_initial_design_missing"
   ],
   "note": "Groups after the first are exactly the batches of the later iterations. Refuted for the first group: c47_initial_design_missing (the initial design is missing and later points appear twice)."
  },
  {
   "property": "C48",
   "status": "partial",
   "theorems": [
    "Verif.Props.c48_warm_start",
    "Verif.Props.c48_accepts_partial",
    "Verif.Props.c48_dict_mode_rejected",
    "Verif.Props.c48_solution_argument_rejected",
    "Verif.Props.c48_bool_value_rejected"
   ],
   "note": "Accepted warm data behave as stated; acceptance proved for typed list data, refuted for dict mode, Solution arguments and Boolean values."
  },
  {
   "property": "C49",
   "status": "proved",
   "theorems": [
    "Verif.Props.c49_factorises",
    "Verif.Props.c49_permutation_invariant"
   ],
   "note": "For a single point."
  },
  {
   "property": "C50",
   "status": "partial",
   "theorems": [
    "Verif.Props.c50_replacement_partial",
    "Verif.Props.c50_distinct",
    "Verif.Props.c50_no_failure_partial",
    "Verif.Props.c50_fails_on_ties",
    "Verif.Props.c50_zero_draw"
   ],
   "note": "Proved for scores that are not all equal and a draw that is not exactly zero; c50_fails_on_ties and c50_zero_draw refute the rest."
  },
  {
   "property": "C51",
   "status": "partial",
   "theorems": [
    "Verif.Props.c51_n_eval_dict_partial",
    "Verif.Props.c51_n_eval_list_is_two"
   ],
   "note": "Holds in dict mode; refuted in list mode where the counter is always 2."
  },
  {
   "property": "C52",
   "status": "partial",
   "theorems": [
    "Verif.Props.c52_labels_partial",
    "Verif.Props.c52_default_labels_repeat"
   ],
   "note": "Explicit labels stay attached; default labels repeat across calls."
  },
  {
   "property": "C53",
   "status": "partial",
   "theorems": [
    "Verif.Props.c53_data_file_partial",
    "Verif.Props.c53_false_after_flat_fitness"
   ],
   "note": "Holds when no call raises; refuted after FlatFitnessError."
  },
  {
   "property": "C54",
   "status": "proved",
   "theorems": [
    "Verif.Props.c54_flat_fitness",
    "Verif.Props.c54_constant_objective"
   ],
   "note": "Exact condition and the consequence for constant objectives."
  },
  {
   "property": "C55",
   "status": "partial",
   "theorems": [
    "Verif.Props.c55_mixed_space_ignores_generator",
    "Verif.Props.c55_seeded_samples_repeat",
    "Verif.Props.c55_seeded_reproducible",
    "Verif.Props.c55_pure_space_reproducible_partial",
    "Verif.Props.c55_discrete_draws_partial",
    "Verif.Props.c55_real_draws_partial"
   ],
   "note": "Spaces of one type draw from the current generator; for mixed spaces the result ignores the generator state, so seeded samples repeat and unseeded ones cannot be reproduced."
  },
  {
   "property": "C56",
   "status": "proved",
   "theorems": [
    "Verif.Props.c56_levels",
    "Verif.Props.c56_subset_levels"
   ],
   "note": "Level lists and the enumeration of subsets."
  },
  {
   "property": "C57",
   "status": "partial",
   "theorems": [
    "Verif.Props.c57_round_trip_partial",
    "Verif.Props.c57_shared_name_lost",
    "Verif.Props.c57_reapplied_structure_doubles",
    "Verif.Props.c57_none_tree_raises"
   ],
   "note": "Round trip for trees with distinct names and enough recursion depth; refuted for repeated names and for re-applied structures (children doubled)."
  },
  {
   "property": "C58",
   "status": "partial",
   "theorems": [
    "Verif.Props.c58_subspaces_partial",
    "Verif.Props.c58_only_active",
    "Verif.Props.c58_active_variable_missing",
    "Verif.Props.c58_bare_root_raises"
   ],
   "note": "Exact set of entries and their variables; only active variables appear; refuted: active variables on shorter paths are missing, and a tree reduced to its root raises."
  },
  {
   "property": "C59",
   "status": "partial",
   "theorems": [
    "Verif.Props.c59_fmin_result",
    "Verif.Props.c59_calls_partial",
    "Verif.Props.c59_warm_calls_not_reported"
   ],
   "note": "Best pair and iteration count for all runs; the evaluation count is right unless x0 gives points without values (c59_warm_calls_not_reported)."
  },
  {
   "property": "C60",
   "status": "partial",
   "theorems": [
    "Verif.Props.c60_import_partial",
    "Verif.Props.c60_key_order_ignored"
   ],
   "note": "Proved when all dictionaries list the keys in the same order; refuted otherwise."
  },
  {
   "property": "C61",
   "status": "partial",
   "theorems": [
    "Verif.Props.c61_indexed_export_partial",
    "Verif.Props.c61_repeated_labels_lose_rows"
   ],
   "note": "Proved for distinct labels; refuted for repeated labels."
  },
  {
   "property": "C62",
   "status": "partial",
   "theorems": [
    "Verif.Props.c62_repeat_partial",
    "Verif.Props.c62_one_row_table_raises"
   ],
   "note": "Proved for 1-D solutions; a 2-D solution with one row raises."
  },
  {
   "property": "C63",
   "status": "proved",
   "theorems": [
    "Verif.Props.c63_terminates",
    "Verif.Props.c63_budget"
   ],
   "note": "Termination and budget for every random outcome."
  },
  {
   "property": "C64",
   "status": "partial",
   "theorems": [
    "Verif.Props.c64_terminates",
    "Verif.Props.c64_budget",
    "Verif.Props.c64_restart_limit_ignored",
    "Verif.Props.c64_overshoot"
   ],
   "note": "Termination and evaluation budget proved; the limit on restarts is refuted (c64_restart_limit_ignored) and the overshoot of two is attained."
  },
  {
   "property": "C65",
   "status": "partial",
   "theorems": [
    "Verif.Props.c65_same_covariance_partial",
    "Verif.Props.c65_base_symmetric"
   ],
   "note": "Equality for sequences of updates with non-zero path and no reset; positive definiteness of the base class for all sequences."
  },
  {
   "property": "C66",
   "status": "partial",
   "theorems": [
    "Verif.Props.c66_weighted_sum_partial",
    "Verif.Props.c66_tchebycheff_unusable"
   ],
   "note": "Proved for the weighted sum; aggregation='Tchebycheff' passes the constructor but can never predict (c66_tchebycheff_unusable)."
  },
  {
   "property": "C67",
   "status": "partial",
   "theorems": [
    "Verif.Props.c67_one_daemon_partial",
    "Verif.Props.c67_race"
   ],
   "note": "Proved for histories in which start requests do not overlap; c67_race refutes the general statement."
  },
  {
   "property": "C68",
   "status": "partial",
   "theorems": [
    "Verif.Props.c68_new_logger_partial",
    "Verif.Props.c68_shared_name"
   ],
   "note": "Proved for a logger name not used before; c68_shared_name refutes the rest."
  },
  {
   "property": "C69",
   "status": "partial",
   "theorems": [
    "Verif.Props.c69_one_objective",
    "Verif.Props.c69_three_objectives",
    "Verif.Props.c69_general_position_partial",
    "Verif.Props.c69_order_of_rows_matters",
    "Verif.Props.c69_dominated_row_lowers",
    "Verif.Props.c69_links_empty",
    "Verif.Props.c69_links_append",
    "Verif.Props.c69_links_extend",
    "Verif.Props.c69_links_remove",
    "Verif.Props.c69_links_restore"
   ],
   "note": "Exact for one and three objectives and any rows, and for any number of objectives when no two rows tie in an objective or with the reference point (caches, bounds and skip marks included). Refuted with ties: c69_order_of_rows_matters (five objectives, mutually non-dominated rows) and c69_dominated_row_lowers (four objectives). The linked lists are shown to be restored exactly."
  },
  {
   "property": "C70",
   "status": "proved",
   "theorems": [
    "Verif.Props.c70_fast_cells_partition",
    "Verif.Props.c70_fast_front"
   ],
   "note": "Non-batched tensors; real outcomes, infinite cell bounds; any sequence of calls and any argsort."
  },
  {
   "property": "C71",
   "status": "proved",
   "theorems": [
    "Verif.Props.c71_cells_partition",
    "Verif.Props.c71_cells_disjoint",
    "Verif.Props.c71_terminates"
   ],
   "note": "Non-batched tensors; real arithmetic; any argsort and argmax; termination proved with a fuel bound."
  },
  {
   "property": "C72",
   "status": "proved",
   "theorems": [
    "Verif.Props.c72_fast_hypervolume",
    "Verif.Props.c72_bin_hypervolume"
   ],
   "note": "Real arithmetic, non-batched tensors. The cell bounds read as reals are shown to be finite below."
  },
  {
   "property": "C73",
   "status": "partial",
   "theorems": [
    "Verif.Props.c73_ei_is_expected_improvement_partial",
    "Verif.Props.c73_ei_certain_is_zero",
    "Verif.Props.c73_ei_wrong_when_certain",
    "Verif.Props.c73_mgfi_is_moment_partial",
    "Verif.Props.c73_epsilon_pi_is_probability"
   ],
   "note": "Real arithmetic; scipy's normal density and distribution function are the exact ones. EI and MGFI agree with the integral above their cut-off for small standard deviations; below it they return 0, which is wrong for a mean better than the plugin (c73_ei_wrong_when_certain)."
  },
  {
   "property": "C74",
   "status": "partial",
   "theorems": [
    "Verif.Props.c74_better_mean_ranks_higher_partial",
    "Verif.Props.c74_ucb_ranks_backwards",
    "Verif.Props.c74_epsilon_pi_ranks_backwards"
   ],
   "note": "Proved for EI, MGFI and EpsilonPI with epsilon at most 1. UCB ranks candidates the wrong way round in both directions (c74_ucb_ranks_backwards), EpsilonPI does for epsilon above 1 (c74_epsilon_pi_ranks_backwards)."
  },
  {
   "property": "C75",
   "status": "proved",
   "theorems": [
    "Verif.Props.c75_ei_rewards_uncertainty",
    "Verif.Props.c75_ucb_rewards_uncertainty"
   ],
   "note": "Real arithmetic."
  },
  {
   "property": "C76",
   "status": "proved",
   "theorems": [
    "Verif.Props.c76_gradient_correct",
    "Verif.Props.c76_ucb_gradient_undefined"
   ],
   "note": "Real arithmetic, one coordinate at a time. UCB and EpsilonPI divide by zero where the variance vanishes (c76_ucb_gradient_undefined)."
  },
  {
   "property": "C77",
   "status": "partial",
   "theorems": [
    "Verif.Props.c77_single_ignores_parameters",
    "Verif.Props.c77_single_wrong_parameter",
    "Verif.Props.c77_single_default_partial",
    "Verif.Props.c77_noisy_plugin_partial"
   ],
   "note": "Refuted for the single-point strategy, which passes an empty dictionary (c77_single_ignores_parameters, c77_single_wrong_parameter). The defaults and the plugin are as claimed. For batches see C78."
  },
  {
   "property": "C78",
   "status": "partial",
   "theorems": [
    "Verif.Props.c78_batch_mgfi_partial",
    "Verif.Props.c78_batch_ucb_partial",
    "Verif.Props.c78_ucb_default_fails",
    "Verif.Props.c78_epsilon_pi_fails",
    "Verif.Props.c78_constructor_fails"
   ],
   "note": "Holds for MGFI and for UCB with a dictionary of its own. Refuted for UCB with the default dictionary, for EpsilonPI, for EI and PI, and without the keyword model."
  },
  {
   "property": "C79",
   "status": "partial",
   "theorems": [
    "Verif.Props.c79_rowwise_partial",
    "Verif.Props.c79_arrays_fail"
   ],
   "note": "Refuted for all classes but UCB (c79_arrays_fail)."
  },
  {
   "property": "C80",
   "status": "proved",
   "theorems": [
    "Verif.Props.c80_expected_gain",
    "Verif.Props.c80_approximation_from_below",
    "Verif.Props.c80_constructs"
   ],
   "note": "Reals instead of floats. The code replaces an infinite upper bound by 1e10 for one objective side and the variance floor is kept; the theorem states the value with this cap and c80_approximation_from_below bounds the truncated value."
  },
  {
   "property": "C81",
   "status": "partial",
   "theorems": [
    "Verif.Props.c81_arrays_mispaired",
    "Verif.Props.c81_arrays_wrong",
    "Verif.Props.c81_arrays_fail"
   ],
   "note": "Refuted for arrays (c81_arrays_mispaired, c81_arrays_wrong, c81_arrays_fail): cells and points are broadcast against each other. Only a single point is right (C80)."
  },
  {
   "property": "C82",
   "status": "proved",
   "theorems": [
    "Verif.Props.c82_counts"
   ],
   "note": "Induction over the sequence of tell calls; any number of objectives and batch sizes, failing calls included."
  },
  {
   "property": "C83",
   "status": "partial",
   "theorems": [
    "Verif.Props.c83_failed_value_raises",
    "Verif.Props.c83_finite_recorded_partial"
   ],
   "note": "Refuted: any failed value raises (c83_failed_value_raises). Proved for batches of finite values (c83_finite_recorded_partial)."
  },
  {
   "property": "C84",
   "status": "partial",
   "theorems": [
    "Verif.Props.c84_reference_below_partial",
    "Verif.Props.c84_reference_above",
    "Verif.Props.c84_front_ignored"
   ],
   "note": "Refuted for minimised objectives and positive values (c84_reference_above, c84_front_ignored). Proved where the sign is favourable (c84_reference_below_partial)."
  },
  {
   "property": "C85",
   "status": "proved",
   "theorems": [
    "Verif.Props.c85_reduced_roundtrip",
    "Verif.Props.c85_original_roundtrip",
    "Verif.Props.c85_full_roundtrip"
   ],
   "note": "Any dimension and number of kept components; the SVD is an oracle returning orthonormal components."
  },
  {
   "property": "C86",
   "status": "proved",
   "theorems": [
    "Verif.Props.c86_weights",
    "Verif.Props.c86_single_point"
   ],
   "note": "At least two recorded points; with one the quotient is 0/0 (c86_single_point)."
  },
  {
   "property": "C87",
   "status": "partial",
   "theorems": [
    "Verif.Props.c87_value",
    "Verif.Props.c87_gradient",
    "Verif.Props.c87_inside_preferred_partial",
    "Verif.Props.c87_negative_acquisition"
   ],
   "note": "Value and gradient proved; preference of inside points proved for acquisition functions that are not negative, refuted otherwise (c87_negative_acquisition)."
  },
  {
   "property": "C88",
   "status": "partial",
   "theorems": [
    "Verif.Props.c88_proposals_inside_partial",
    "Verif.Props.c88_proposal_outside"
   ],
   "note": "Proved for exact maximisers of a non-negative acquisition function; refuted in general (c88_proposal_outside)."
  },
  {
   "property": "C89",
   "status": "proved",
   "theorems": [
    "Verif.Props.c89_correlation_function"
   ],
   "note": "Model/Kernels.lean models kernel.py 160-466 over the reals (nu = 0.5, 1.5, 2.5). All five correlations, any dimension and number of samples."
  },
  {
   "property": "C90",
   "status": "proved",
   "theorems": [
    "Verif.Props.c90_matrix_valid",
    "Verif.Props.c90_noisy_matrix_definite"
   ],
   "note": "Proved through a self-contained development of positive semidefinite kernels (Proofs/PosDefKernel.lean: Schur products, Schoenberg's theorem, mixtures over scales), for every number of samples and dimension."
  },
  {
   "property": "C91",
   "status": "partial",
   "theorems": [
    "Verif.Props.c91_cubic_not_valid",
    "Verif.Props.c91_exponent_above_two_not_valid",
    "Verif.Props.c91_factorisable_partial"
   ],
   "note": "Refuted: the cubic correlation (ten equally spaced samples) and the generalised exponential with exponent 4 (three samples) give matrices with a negative variance. The others: C90."
  },
  {
   "property": "C92",
   "status": "partial",
   "theorems": [
    "Verif.Props.c92_isotropic_partial",
    "Verif.Props.c92_generalized_isotropic_raises"
   ],
   "note": "Holds for four of the five correlations; the documented isotropic form of generalized_exponential raises IndexError for every n >= 2."
  },
  {
   "property": "C93",
   "status": "partial",
   "theorems": [
    "Verif.Props.c93_gradient_partial",
    "Verif.Props.c93_matern_gradient_wrong_at_sample",
    "Verif.Props.c93_no_gradient",
    "Verif.Props.c93_hessian_partial",
    "Verif.Props.c93_no_hessian"
   ],
   "note": "Holds for the squared exponential everywhere, Matern 3/2 away from samples, absolute exponential where differentiable. Refuted: at any sample the Matern gradient is replaced by zeros for all samples; generalised exponential and cubic raise. Hessian: squared exponential with one parameter per coordinate only."
  },
  {
   "property": "C94",
   "status": "partial",
   "theorems": [
    "Verif.Props.c94_parameter_gradient_partial",
    "Verif.Props.c94_isotropic_gradient_wrong"
   ],
   "note": "Holds with one parameter per coordinate. Refuted for one parameter and two coordinates: slice 0 is not the derivative."
  },
  {
   "property": "C95",
   "status": "proved",
   "theorems": [
    "Verif.Props.c95_best_linear_unbiased",
    "Verif.Props.c95_best_affine"
   ],
   "note": "General matrices for the correlations; scipy's Cholesky and QR are arbitrary routines meeting their specification, arithmetic is exact."
  },
  {
   "property": "C96",
   "status": "partial",
   "theorems": [
    "Verif.Props.c96_noisy_unbiased_partial",
    "Verif.Props.c96_noisy_not_best"
   ],
   "note": "Refuted in noisy mode: the code compares with the unscaled correlation vector, so the prediction is not best and the reported error is too small by noise*w'Rw (c96_noisy_unbiased_partial gives the exact gap, c96_noisy_not_best a process where the error is 1 and the code reports 0). What holds: it is linear and unbiased."
  },
  {
   "property": "C97",
   "status": "proved",
   "theorems": [
    "Verif.Props.c97_interpolates"
   ],
   "note": "Every correlation type with positive parameters, every trend; exact arithmetic."
  },
  {
   "property": "C98",
   "status": "proved",
   "theorems": [
    "Verif.Props.c98_error_range"
   ],
   "note": "All correlations that are valid covariances (not cubic, exponent at most 2)."
  },
  {
   "property": "C99",
   "status": "proved",
   "theorems": [
    "Verif.Props.c99_more_data_less_error"
   ],
   "note": "Hyper-parameters are held fixed, as when update() would keep them; all valid correlations."
  },
  {
   "property": "C100",
   "status": "partial",
   "theorems": [
    "Verif.Props.c100_gradient_partial",
    "Verif.Props.c100_matern_gradient_wrong_at_sample"
   ],
   "note": "Proved for the squared exponential everywhere and for the Matern and absolute exponential correlations away from the samples (where the coordinate differs, for the latter). Refuted at the samples for the Matern correlation: the reported mean gradient ignores all data there. The other correlations offer no gradient (c93_no_gradient)."
  },
  {
   "property": "C101",
   "status": "proved",
   "theorems": [
    "Verif.Props.c101_noiseless",
    "Verif.Props.c101_noise_estim",
    "Verif.Props.c101_noisy"
   ],
   "note": "All three estimation modes, given or estimated trend; the constant is explicit in the proof and zero unless a trend is estimated without noise. Rejected (minus-infinite) values are C102."
  },
  {
   "property": "C102",
   "status": "partial",
   "theorems": [
    "Verif.Props.c102_small_observations_rejected",
    "Verif.Props.c102_noisy_accepted_partial"
   ],
   "note": "Refuted: likelihoods above 0 are taken for invalid, although densities exceed 1 as soon as the observations are small; for every data set there is a unit of measurement in which every noise-free evaluation is rejected. Proved: with known noise of variance at least 1/(2 pi) nothing valid is rejected."
  },
  {
   "property": "C103",
   "status": "partial",
   "theorems": [
    "Verif.Props.c103_noiseless_exact",
    "Verif.Props.c103_simple_kriging_partial",
    "Verif.Props.c103_estimated_trend_wrong",
    "Verif.Props.c103_noise_estim_partial",
    "Verif.Props.c103_noisy_exact",
    "Verif.Props.c103_noisy_wrong",
    "Verif.Props.c103_end_to_end_partial",
    "Verif.Props.c103_estimated_trend_refuted"
   ],
   "note": "Proved: no noise with given trend (also end to end from the correlation parameters, for the correlations with a right parameter gradient), unknown share of noise (both kinds of parameters), known noise for the variance component. Refuted: no noise with an estimated trend (the exact error is given; it is the rank of the trend over two times a quadratic form), and known noise for the correlation parameters (too large by the factor (sigma2 + noise) / sigma2)."
  },
  {
   "property": "C104",
   "status": "partial",
   "theorems": [
    "Verif.Props.c104_search_gradient_exact",
    "Verif.Props.c104_same_sign_partial",
    "Verif.Props.c104_refuted"
   ],
   "note": "Refuted: the factor param * ln(10) of the chain rule is missing. Proved: the exact relation, and that every component has the right sign (and so the right zeros)."
  },
  {
   "property": "C105",
   "status": "proved",
   "theorems": [
    "Verif.Props.c105_best_of_restarts",
    "Verif.Props.c105_zero_restarts_fail"
   ],
   "note": "Ties: the later of equally good searches is kept and counts as an improvement. With random_start = 0 the search fails (c105_zero_restarts_fail: UnboundLocalError); the L-BFGS-B calls are oracles."
  },
  {
   "property": "C106",
   "status": "partial",
   "theorems": [
    "Verif.Props.c106_noisy_fit_ends_partial",
    "Verif.Props.c106_default_nugget_partial",
    "Verif.Props.c106_noise_estim_never_ends"
   ],
   "note": "Refuted for noise_estim=True (c106_noise_estim_never_ends: in a small enough unit of measurement no round succeeds, and raising the nugget has no effect in this mode). Proved: with a positive nugget, or none, the loop ends, the latest when the nugget reaches 1/(2 pi); with the default nugget within seven rounds."
  },
  {
   "property": "C107",
   "status": "partial",
   "theorems": [
    "Verif.Props.c107_unchanged_partial",
    "Verif.Props.c107_noise_never_decreases",
    "Verif.Props.c107_refit_refuted"
   ],
   "note": "Refuted (c107_refit_refuted): after one fit in which the nugget was raised, mode and noise stay changed. Proved: unchanged when the first search succeeds, and the exact evolution of the noise."
  },
  {
   "property": "C108",
   "status": "partial",
   "theorems": [
    "Verif.Props.c108_contrasts_partial",
    "Verif.Props.c108_given_trend_exact",
    "Verif.Props.c108_given_trend_refuted"
   ],
   "note": "Refuted for given coefficients (c108_given_trend_refuted; c108_given_trend_exact gives the error: the log determinant has the wrong sign). Proved for estimated coefficients. In this commit fit() with likelihood='restricted' always raises afterwards (line 405 takes len of a number); the theorems are about the likelihood function."
  },
  {
   "property": "C109",
   "status": "partial",
   "theorems": [
    "Verif.Props.c109_restricted_gradient_exact",
    "Verif.Props.c109_unit_variance_partial",
    "Verif.Props.c109_restricted_gradient_refuted"
   ],
   "note": "Refuted (c109_restricted_gradient_refuted): the trend term lacks the division by the total variance. c109_restricted_gradient_exact gives the exact relation in all cases with an estimated trend; proved equal at total variance 1 without noise."
  },
  {
   "property": "C110",
   "status": "proved",
   "theorems": [
    "Verif.Props.c110_strategy_parameters",
    "Verif.Props.c110_distribution_valid"
   ],
   "note": "Positive definiteness is proved for the default population (the only one the library uses); the bounds on the parameters hold for every population of at least two. eigh and argsort are oracles with their documented results."
  },
  {
   "property": "C111",
   "status": "proved",
   "theorems": [
    "Verif.Props.c111_points_in_box"
   ],
   "note": "For bounds that differ; equal bounds give NaN (see C09)."
  },
  {
   "property": "C112",
   "status": "proved",
   "theorems": [
    "Verif.Props.c112_best_so_far"
   ],
   "note": "For objectives with finite values."
  },
  {
   "property": "C113",
   "status": "partial",
   "theorems": [
    "Verif.Props.c113_flags_partial",
    "Verif.Props.c113_never_ends"
   ],
   "note": "Refuted (c113_never_ends): under Python 3 the test array(stop_dict.values()) == True compares the dictionary view itself, so the loop is never left. Proved: the flags themselves are right."
  },
  {
   "property": "C114",
   "status": "partial",
   "theorems": [
    "Verif.Props.c114_smallest_likelihood",
    "Verif.Props.c114_refuted"
   ],
   "note": "Refuted (c114_refuted, c114_smallest_likelihood): is_minimize=False negates an objective that is already the negative log likelihood, so the smallest likelihood is kept."
  },
  {
   "property": "C115",
   "status": "partial",
   "theorems": [
    "Verif.Props.c115_kernel_gradient_partial",
    "Verif.Props.c115_rbf_wrong",
    "Verif.Props.c115_gradient_partial",
    "Verif.Props.c115_one_variable_raises",
    "Verif.Props.c115_refuted"
   ],
   "note": "Proved after every history, at every point, for at least two variables or a single row (c115_gradient_partial); the kernel gradient is right for all Matérn kernels. With one variable and several rows the call raises (c115_one_variable_raises, c115_refuted: np.squeeze drops the axis). The RBF branch of kernel_dx, which fit never selects, lacks a factor (c115_rbf_wrong gives the exact set where it is right)."
  },
  {
   "property": "C116",
   "status": "partial",
   "theorems": [
    "Verif.Props.c116_columns_partial",
    "Verif.Props.c116_refuted"
   ],
   "note": "Proved for calls that return and for calls rejected by the dimension check. A call that raises while training a later objective destroys the model while is_fitted stays True (c116_refuted)."
  },
  {
   "property": "C117",
   "status": "partial",
   "theorems": [
    "Verif.Props.c117_attributes_partial",
    "Verif.Props.c117_class_partial",
    "Verif.Props.c117_pop",
    "Verif.Props.c117_remove",
    "Verif.Props.c117_class_refuted",
    "Verif.Props.c117_half_assignment_refuted",
    "Verif.Props.c117_empty_index"
   ],
   "note": "Names, types, bounds and index arrays agree after every history without a list assignment that raises half way; the class agrees after histories without item assignments for variables without conditions; pop and remove take out exactly the addressed variable. Refuted in general: item assignment leaves the class (a RealSpace with an integer variable cannot be sampled), a list assignment that raises leaves data and names apart, an emptied space keeps its index arrays."
  },
  {
   "property": "C118",
   "status": "partial",
   "theorems": [
    "Verif.Props.c118_complete",
    "Verif.Props.c118_list_partial",
    "Verif.Props.c118_dict_partial",
    "Verif.Props.c118_refuted"
   ],
   "note": "Every point is found; what is found is characterised exactly. Refuted: short lists, partial dictionaries and fractions for integer variables are found, long lists raise."
  },
  {
   "property": "C119",
   "status": "partial",
   "theorems": [
    "Verif.Props.c119_item_partial",
    "Verif.Props.c119_slices",
    "Verif.Props.c119_selection",
    "Verif.Props.c119_new",
    "Verif.Props.c119_last_refuted",
    "Verif.Props.c119_last_column_refuted",
    "Verif.Props.c119_column_partial"
   ],
   "note": "Proved for every position but -1 and for every chain of slices and every list of positions; x[-1] loses the attributes and x[:, -1] has no column (c119_last_refuted, c119_last_column_refuted). numpy-typed positions (np.int32) are not modelled."
  },
  {
   "property": "C120",
   "status": "partial",
   "theorems": [
    "Verif.Props.c120_write_through",
    "Verif.Props.c120_selection_detached",
    "Verif.Props.c120_copy_refuted"
   ],
   "note": "Write-through of slices and detachment of selections are proved in full; copies share the attribute arrays (c120_copy_refuted)."
  },
  {
   "property": "C121",
   "status": "partial",
   "theorems": [
    "Verif.Props.c121_read_partial",
    "Verif.Props.c121_data_file_partial",
    "Verif.Props.c121_raise",
    "Verif.Props.c121_refuted",
    "Verif.Props.c121_row_refuted",
    "Verif.Props.c121_header_refuted"
   ],
   "note": "Proved for every history of calls when no cell contains the delimiter or a newline (c121_read_partial, c121_data_file_partial); no quoting is done, so delimiters in values make the file ambiguous (c121_refuted), appending with a header repeats it (c121_header_refuted) and a row of a multi-objective set cannot be exported (c121_row_refuted). Encoding of the text in the file system is outside the model."
  },
  {
   "property": "C122",
   "status": "partial",
   "theorems": [
    "Verif.Props.c122_columns_partial",
    "Verif.Props.c122_labelled_partial",
    "Verif.Props.c122_labels_refuted",
    "Verif.Props.c122_names_refuted"
   ],
   "note": "Proved for distinct names and labels; repeated labels (which addition produces) and repeated names lose values (c122_labels_refuted, c122_names_refuted)."
  },
  {
   "property": "C123",
   "status": "partial",
   "theorems": [
    "Verif.Props.c123_cached",
    "Verif.Props.c123_rule_partial",
    "Verif.Props.c123_crosstalk_refuted"
   ],
   "note": "The cache invariant is proved in full; the rule of a single row when no row improves by more than the overflow limit. Otherwise it is false (c123_crosstalk_refuted: both rows move whatever the random numbers). Log probabilities are finite reals."
  },
  {
   "property": "C124",
   "status": "proved",
   "theorems": [
    "Verif.Props.c124_balance",
    "Verif.Props.c124_feasible_kept",
    "Verif.Props.c124_schedule"
   ],
   "note": "The normal distribution function is any monotone function into (0,1] with value 1/2 at 0; random numbers are uniform on [0,1) (Lebesgue measure). Symmetry of the proposals is not claimed (clipping makes them asymmetric)."
  },
  {
   "property": "C125",
   "status": "partial",
   "theorems": [
    "Verif.Props.c125_unconstrained",
    "Verif.Props.c125_calls",
    "Verif.Props.c125_separates",
    "Verif.Props.c125_interior",
    "Verif.Props.c125_reported",
    "Verif.Props.c125_drift_refuted",
    "Verif.Props.c125_gradient_error"
   ],
   "note": "All parts are proved for constraint functions that return; that the search is given one fixed function is false (c125_drift_refuted). Array shapes are not modelled."
  },
  {
   "property": "C126",
   "status": "partial",
   "theorems": [
    "Verif.Props.c126_variables_partial",
    "Verif.Props.c126_single",
    "Verif.Props.c126_misfit",
    "Verif.Props.c126_subset_default_refuted",
    "Verif.Props.c126_word_refuted",
    "Verif.Props.c126_bool_refuted"
   ],
   "note": "Proved for bounds given as pairs or level lists and for a single flat bound. False in three corners: a tuple given as the default of one subset variable is read as one default per variable and always raises (c126_subset_default_refuted); a word among pairs falls apart into letters (c126_word_refuted); BoolSpace can make only one variable (c126_bool_refuted)."
  },
  {
   "property": "C127",
   "status": "partial",
   "theorems": [
    "Verif.Props.c127_default",
    "Verif.Props.c127_constrained",
    "Verif.Props.c127_budgets",
    "Verif.Props.c127_bfgs_refuted",
    "Verif.Props.c127_unknown_refuted"
   ],
   "note": "Proved for the default choice and for all options; with constraints the gradient-based search never runs. False for a named optimiser that does not fit: BFGS on a mixed space runs MIES on a criterion that returns pairs (c127_bfgs_refuted), and an unknown name passes the constructor if a budget is given and makes every search raise (c127_unknown_refuted)."
  },
  {
   "property": "C128",
   "status": "partial",
   "theorems": [
    "Verif.Props.c128_point_partial",
    "Verif.Props.c128_batch_partial",
    "Verif.Props.c128_fixed",
    "Verif.Props.c128_subsets_refuted",
    "Verif.Props.c128_subsets_raise_refuted"
   ],
   "note": "Proved for arrays and for lists that do not consist of subsets of one size only, including fixed variables (always, since they are passed on as arrays). A list of subsets of one size is taken for a table: the function is called on the values (c128_subsets_refuted) or the call raises (c128_subsets_raise_refuted)."
  },
  {
   "property": "C129",
   "status": "partial",
   "theorems": [
    "Verif.Props.c129_multi",
    "Verif.Props.c129_results",
    "Verif.Props.c129_self_adaptive_refuted"
   ],
   "note": "Proved for the strategy with several criteria and for collecting the results (MGFI and UCB alone: C78). Refuted for SelfAdaptiveBO, which never returns a batch (c129_self_adaptive_refuted)."
  },
  {
   "property": "C130",
   "status": "partial",
   "theorems": [
    "Verif.Props.c130_hessian_partial",
    "Verif.Props.c130_returns",
    "Verif.Props.c130_matern_refuted"
   ],
   "note": "Proved for the squared exponential with one parameter per coordinate and a constant or linear trend, at every point. Exact description of when a matrix is returned at all: a quadratic trend and the other correlations raise, except the Matérn correlation at a sample, where zeros are returned although the second derivative is -3 in the example, and the absolute exponential where a coordinate equals that of the first sample."
  },
  {
   "property": "C131",
   "status": "partial",
   "theorems": [
    "Verif.Props.c131_smse",
    "Verif.Props.c131_smse_constant",
    "Verif.Props.c131_smse_units",
    "Verif.Props.c131_msll_partial",
    "Verif.Props.c131_msll_trivial",
    "Verif.Props.c131_msll_order",
    "Verif.Props.c131_variances_refuted",
    "Verif.Props.c131_units_refuted"
   ],
   "note": "SMSE holds in full. MSLL holds for positive variances; a variance of zero is overwritten in the caller's array and makes the score depend on the units (both refuted with witnesses)."
  },
  {
   "property": "C132",
   "status": "partial",
   "theorems": [
    "Verif.Props.c132_works",
    "Verif.Props.c132_documented_refuted",
    "Verif.Props.c132_meaningless_refuted"
   ],
   "note": "Exact characterisation proved for all settings and sizes. Refuted: the constructor without arguments, the restricted likelihood, the name linear, cubic and generalised exponential with BFGS, trends by name, one correlation parameter with the default trend in several dimensions all raise; starting points outside the bounds and negative noise are accepted."
  },
  {
   "property": "C133",
   "status": "proved",
   "theorems": [
    "Verif.Props.c133_found",
    "Verif.Props.c133_start",
    "Verif.Props.c133_refit"
   ],
   "note": "For every result within the box that the bounded search was given (its contract) and every uniform draw between its limits. The given starting point must be between the bounds, which the code does not check (C132)."
  },
  {
   "property": "C134",
   "status": "partial",
   "theorems": [
    "Verif.Props.c134_entries_partial",
    "Verif.Props.c134_covariance",
    "Verif.Props.c134_array_refuted",
    "Verif.Props.c134_zero_refuted",
    "Verif.Props.c134_targets_refuted"
   ],
   "note": "Proved for one target and points given as lists, or X2 left out. Refuted: an array with more than one number raises, an array holding a single zero is ignored, and with several targets the entries are covariances of no target."
  },
  {
   "property": "C135",
   "status": "partial",
   "theorems": [
    "Verif.Props.c135_count_partial",
    "Verif.Props.c135_count_refuted",
    "Verif.Props.c135_raises_refuted",
    "Verif.Props.c135_gram_schmidt_refuted",
    "Verif.Props.c135_mirrored",
    "Verif.Props.c135_orthogonal",
    "Verif.Props.c135_derandomized",
    "Verif.Props.c135_drawn",
    "Verif.Props.c135_pairs"
   ],
   "note": "Proved: the exact number of offspring for every method and population size, symmetry of the mirrored pairs, orthogonality of the pairs, and use of every draw by the derandomised methods. Refuted: with an odd population size the pairing methods draw one offspring fewer in every second generation, because the spare vector is assigned to a local variable only; methods 5 and 8 always raise; the Gram-Schmidt method 6 leaves min(d, lambda) offspring at the mean."
  },
  {
   "property": "C136",
   "status": "partial",
   "theorems": [
    "Verif.Props.c136_stops_partial",
    "Verif.Props.c136_restarts_refuted"
   ],
   "note": "Proved: without restarts the search stops within 10/0.9^(5 dim) + B/ftol steps if no penalised value is more than B better than the first one, for all draws and with or without a budget. Refuted: with n_restart >= 1, no target and no budget run() never returns, for every objective and every sequence of draws, because the restart flag stays set when the last restart is used up."
  },
  {
   "property": "C137",
   "status": "proved",
   "theorems": [
    "Verif.Props.c137_rate",
    "Verif.Props.c137_range",
    "Verif.Props.c137_adaptation"
   ],
   "note": "Holds when the initial step size is in the range; then the test of the step size in check_stop can never fire. The step size may also be reset to the initial one, which the theorem states as the exception."
  },
  {
   "property": "C138",
   "status": "partial",
   "theorems": [
    "Verif.Props.c138_bfgs_partial",
    "Verif.Props.c138_seed_refuted",
    "Verif.Props.c138_restarts_refuted"
   ],
   "note": "Proved for L-BFGS-B: restart i starts at the i-th point drawn from the user's generator. Refuted for the (1+1)-CMA-ES: argmax_restart passes seed=time.time(), which the constructor swallows in **kwargs, and the default random_seed=42 reseeds the global generator in every restart; the whole search and the final state of the generator do not depend on the state before, and without constraints no restart is ever better than the first."
  },
  {
   "property": "C139",
   "status": "partial",
   "theorems": [
    "Verif.Props.c139_data",
    "Verif.Props.c139_counts",
    "Verif.Props.c139_returns_iff",
    "Verif.Props.c139_incumbent",
    "Verif.Props.c139_labels_partial",
    "Verif.Props.c139_labels_refuted",
    "Verif.Props.c139_history_refuted",
    "Verif.Props.c139_dict_refuted",
    "Verif.Props.c139_warm_refuted"
   ],
   "note": "Data, counters and incumbent are proved for all histories (c139_data, c139_counts, c139_incumbent); a call returns exactly when it is well formed, at least two finite observations exist in total and the numerical fit succeeds (c139_returns_iff), so a single first point raises although it is recorded. Refuted: labels repeat after failed evaluations (c139_labels_refuted; c139_labels_partial: distinct when no evaluation fails), hist_f stays empty (c139_history_refuted), dictionaries are never accepted (c139_dict_refuted), warm_data raises (c139_warm_refuted)."
  },
  {
   "property": "C140",
   "status": "partial",
   "theorems": [
    "Verif.Props.c140_positive_partial",
    "Verif.Props.c140_numpy_partial",
    "Verif.Props.c140_at_least_one",
    "Verif.Props.c140_doe_iff",
    "Verif.Props.c140_doe_refuted",
    "Verif.Props.c140_budget_refuted",
    "Verif.Props.c140_seed_refuted"
   ],
   "note": "Positive whole numbers, as numbers or text, are used as given (c140_positive_partial), n_point and n_job are at least one (c140_at_least_one), and c140_doe_iff says exactly which numbers give an initial design. Refuted: a negative design size is accepted, a fraction below one gives an empty design and numpy integers are rejected (c140_doe_refuted); max_FEs=0 means no limit while other budgets below one stop the run at once (c140_budget_refuted); the seed 0 is ignored (c140_seed_refuted)."
  },
  {
   "property": "C141",
   "status": "partial",
   "theorems": [
    "Verif.Props.c141_schedule",
    "Verif.Props.c141_aligned",
    "Verif.Props.c141_run",
    "Verif.Props.c141_parallel_fun_refuted"
   ],
   "note": "Results do not depend on the schedule and are aligned with the points (c141_schedule, c141_aligned), and whole runs agree (c141_run). Refuted: a user's parallel function that returns too many values is not noticed (c141_parallel_fun_refuted)."
  },
  {
   "property": "C142",
   "status": "partial",
   "theorems": [
    "Verif.Props.c142_arguments",
    "Verif.Props.c142_propose_partial",
    "Verif.Props.c142_gradient_refuted",
    "Verif.Props.c142_batch_refuted",
    "Verif.Props.c142_objectives_refuted",
    "Verif.Props.c142_slices_partial",
    "Verif.Props.c142_slices_refuted"
   ],
   "note": "c142_arguments: what a returning constructor guarantees; c142_propose_partial: exactly when MOBO proposes a point if no optimiser is named; c142_slices_partial: a joint vector is cut correctly without fixed variables. Refuted: with real variables, a surrogate with gradient and no constraints every model-based proposal raises, since the number of objectives is 1 while the search is configured (c142_gradient_refuted); MOBO never proposes several points and MOBO_qEHVI never proposes any (c142_batch_refuted); one objective or none is accepted (c142_objectives_refuted); wrong pieces with fixed variables (c142_slices_refuted)."
  },
  {
   "property": "C143",
   "status": "partial",
   "theorems": [
    "Verif.Props.c143_records_partial",
    "Verif.Props.c143_count",
    "Verif.Props.c143_count_refuted",
    "Verif.Props.c143_returns_iff",
    "Verif.Props.c143_failure_refuted",
    "Verif.Props.c143_incumbent"
   ],
   "note": "Records of the whole and of each sub-optimiser for all histories in which no call raises (c143_records_partial), entries of hist_f (c143_incumbent), exactly when a call returns (c143_returns_iff), exactly what the counter holds (c143_count). Refuted: failed evaluations use up no budget and warm starts are counted (c143_count_refuted); a failed first evaluation in a sub-space raises, loses the rest of the batch and leads to duplicates (c143_failure_refuted)."
  },
  {
   "property": "C144",
   "status": "partial",
   "theorems": [
    "Verif.Props.c144_search_in_space",
    "Verif.Props.c144_ask_in_space_partial",
    "Verif.Props.c144_ask_errors"
   ],
   "note": "All components together: every restart of the search returns a point of the free space (c144_search_in_space), ask returns 1..n points of the space with the fixed values (c144_ask_in_space_partial), and raises only in the listed cases (c144_ask_errors). Partial: subset variables and non-uniform levels together with constraints are excluded (there the random walk leaves the space, C18), improper variables are excluded (C17), and fixed values must be given at the precision of their variable (C14)."
  },
  {
   "property": "C145",
   "status": "partial",
   "theorems": [
    "Verif.Props.c145_ask_feasible_partial",
    "Verif.Props.c145_ask_feasible_no_precision",
    "Verif.Props.c145_rounding_violates"
   ],
   "note": "A point from the search satisfies the constraints (tolerance 0.1), one from the sampler is the rounded version of a point that does (tolerance 0.01) (c145_ask_feasible_partial); without precisions all points do (c145_ask_feasible_no_precision). Refuted in general: rounding after the test can break a constraint (c145_rounding_violates)."
  },
  {
   "property": "C146",
   "status": "partial",
   "theorems": [
    "Verif.Props.c146_run_points_partial",
    "Verif.Props.c146_run_budget",
    "Verif.Props.c146_run_best",
    "Verif.Props.c146_concrete_run",
    "Verif.Props.c146_failed_point_again",
    "Verif.Props.c146_learning_run_partial"
   ],
   "note": "Points, budget, termination and result for every run (c146_run_points_partial, c146_run_budget, c146_run_best), a concrete two-step run (c146_concrete_run). Partial: constraints only as far as C145; points must differ only from earlier ones with a finite value - a point that failed is evaluated again (c146_failed_point_again)."
  },
  {
   "property": "C147",
   "status": "partial",
   "theorems": [
    "Verif.Props.c147_real_share_partial",
    "Verif.Props.c147_real_joint_partial",
    "Verif.Props.c147_precision_share_partial",
    "Verif.Props.c147_precision_ends_half",
    "Verif.Props.c147_value_once_partial",
    "Verif.Props.c147_discrete_joint_partial",
    "Verif.Props.c147_seeded_types_linked"
   ],
   "note": "Proved for Lebesgue measure on the draws: real variables without precision, of every scale, have the share of the part (c147_real_share_partial), all points and coordinates jointly the product (c147_real_joint_partial); integer variables with integer step and categorical ones: every table of values comes from exactly one table of draws (c147_discrete_joint_partial). Refuted: with a precision the two end values get half the probability of an inner value (c147_precision_ends_half, the exact shares in c147_precision_share_partial), and in a space with a seed and several types each type restarts from the seed, so variables of different type and equal size always stand at the same position (c147_seeded_types_linked). Latin hypercube and Sobol designs are not independent by design and are left out; a logit scale up to 1 and fractional integer bounds are excluded (C17)."
  },
  {
   "property": "C148",
   "status": "partial",
   "theorems": [
    "Verif.Props.c148_returns_iff_partial",
    "Verif.Props.c148_two_points_fail",
    "Verif.Props.c148_errors"
   ],
   "note": "Refuted: with two points or more no batch size is accepted (c148_two_points_fail; c148_errors gives the error of each case). Exact characterisation: the call returns only for a positive int, one point and one target, and then gives the same number (c148_returns_iff_partial). The prediction without batch size is an argument here (its model is C95 onwards); the checks of the input before it are not repeated."
  },
  {
   "property": "C149",
   "status": "partial",
   "theorems": [
    "Verif.Props.c149_first_ask_raises",
    "Verif.Props.c149_first_ask_error",
    "Verif.Props.c149_ask_iff_partial",
    "Verif.Props.c149_points",
    "Verif.Props.c149_failed_search_raises"
   ],
   "note": "Refuted: before a model is fitted ask always raises, because create_DoE adds an array to an empty list, which numpy takes as an elementwise sum (c149_first_ask_raises, the error in c149_first_ask_error); and a batch in which one search finds nothing raises instead of being filled up (c149_failed_search_raises). Exact characterisation of the calls that return (c149_ask_iff_partial), with the number of points, the space and the fixed values (c149_points)."
  },
  {
   "property": "C150",
   "status": "partial",
   "theorems": [
    "Verif.Props.c150_stopped_iff_ever_due",
    "Verif.Props.c150_check_stop_returns",
    "Verif.Props.c150_raised_budget_ignored",
    "Verif.Props.c150_settings_take_effect_partial",
    "Verif.Props.c150_not_resumable"
   ],
   "note": "Refuted (c150_not_resumable): stop_dict is never cleared, so once check_stop was called at a moment when the run was due, every later run() leaves at once, whatever max_FEs and ftarget have become (c150_raised_budget_ignored, for every history). Exactly when this happens is c150_stopped_iff_ever_due; as long as no check was made at such a moment the current settings decide (c150_settings_take_effect_partial)."
  },
  {
   "property": "C151",
   "status": "partial",
   "theorems": [
    "Verif.Props.c151_attributes",
    "Verif.Props.c151_settings_kept",
    "Verif.Props.c151_like_new_partial",
    "Verif.Props.c151_stale_refuted"
   ],
   "note": "Proved for the attributes the setter writes (c151_attributes). Everything else keeps the values for the constructor's space (c151_settings_kept), so the property fails (c151_stale_refuted: after an integer space is assigned the criterion is still asked for gradients although the evolution strategy runs, and dict constraints get the old names). It holds when names, number of variables and all-realness agree (c151_like_new_partial)."
  },
  {
   "property": "C152",
   "status": "partial",
   "theorems": [
    "Verif.Props.c152_run_ends_partial",
    "Verif.Props.c152_exhausted_raises",
    "Verif.Props.c152_never_ends_refuted"
   ],
   "note": "Proved for objectives with finite values and an acquisition search that meets its contract: a run makes at most as many steps as the space has points the optimiser tells apart (reals within 1e-8 count as equal), whatever the stopping conditions. Refuted: without a target, a run with no budget or with a budget the space cannot meet never returns the best point but is left by an exception; an objective that keeps failing, with no budget, makes the run endless."
  },
  {
   "property": "C153",
   "status": "partial",
   "theorems": [
    "Verif.Props.c153_units_partial",
    "Verif.Props.c153_small_units_raise",
    "Verif.Props.c153_single_value_raw"
   ],
   "note": "Proved for runs whose values differ by more than 1e-8 in both units (the flat-fitness test of tell is absolute): same points, same end, same returned point, the values rescaled. Refuted in general: small enough units make tell raise for any objective (c153_small_units_raise), and while all values are equal they are passed to the surrogate without standardisation (c153_single_value_raw)."
  },
  {
   "property": "C154",
   "status": "partial",
   "theorems": [
    "Verif.Props.c154_direction_partial",
    "Verif.Props.c154_target_refuted"
   ],
   "note": "Proved for runs without a target and surrogates that treat the two directions alike. Refuted with a target (c154_target_refuted): the test of the target is the same for both directions (C16)."
  },
  {
   "property": "C155",
   "status": "partial",
   "theorems": [
    "Verif.Props.c155_restart",
    "Verif.Props.c155_search_best_partial",
    "Verif.Props.c155_ask_partial",
    "Verif.Props.c155_ask_batch_partial"
   ],
   "note": "Proved without constraints for the (1+1)-CMA-ES and MIES: best of all points evaluated in all restarts, the reported calls are the evaluations made, a restart exceeds its budget by at most one evaluation or one generation and uses it up unless it stagnates. The points evaluated inside scipy's L-BFGS-B are not modelled. With constraints a feasible point with a better value can be lost (c32_feasible_point_lost), and infeasible restarts are not charged to the budget (c30_infeasible_restarts_free)."
  },
  {
   "property": "C156",
   "status": "proved",
   "theorems": [
    "Verif.Props.c156_learns_from_all"
   ],
   "note": "The whole run is the one of C153; the surrogate is any function of the data it is fitted to."
  },
  {
   "property": "C157",
   "status": "partial",
   "theorems": [
    "Verif.Props.c157_maximises_improvement_partial"
   ],
   "note": "Proved for one point per step, the (1+1)-CMA-ES and MIES as inner search and no constraints; the L-BFGS-B search is a library call. If the best point is one of the points evaluated before, ask() replaces it by a random one (C15), so the claim does not hold in such a step. A prediction whose standard deviation is below 1e-6 of that of the process counts as worth nothing."
  },
  {
   "property": "C158",
   "status": "partial",
   "theorems": [
    "Verif.Props.c158_batch_maximises_partial"
   ],
   "note": "Proved for MGFI, the (1+1)-CMA-ES and MIES as inner search and no constraints. If two of the points agree, or one agrees with a point evaluated before, ask() replaces them by random ones (C15), so the claim does not hold in such a step. Temperatures above 22.36 are cut off (C73); a prediction whose standard deviation is below 1e-8 counts as worth nothing. UCB and EpsilonPI batches: C78."
  },
  {
   "property": "C159",
   "status": "partial",
   "theorems": [
    "Verif.Props.c159_known_points",
    "Verif.Props.c159_new_point_partial"
   ],
   "note": "Partial as C157: searches without constraints and not by BFGS, one point per step; the data are the standardised observations. Where the search looks at certain points only, the duplicate is dropped and replaced by a random point (C15)."
  },
  {
   "property": "C160",
   "status": "proved",
   "theorems": [
    "Verif.Props.c160_all_points",
    "Verif.Props.c160_global_optimum"
   ],
   "note": "Assumptions as C146 (libraries as documented, proper bounds). Whether a run returns or ask() raises because the random draws miss the remaining points depends on the draws (C152)."
  },
  {
   "property": "C161",
   "status": "partial",
   "theorems": [
    "Verif.Props.c161_annealed_partial",
    "Verif.Props.c161_ends_at_final"
   ],
   "note": "c161_annealed_partial: in a run with annealing the n-th batch maximises the criteria for temperatures drawn around the (n-1)-th temperature of the schedule (with the assumptions of C158 on the searches). c161_ends_at_final: with full batches the temperature is above tf while the run goes on and equals tf when it stops. Missing: the schedule 'log', which does not end at tf (C35), and runs in which duplicates are dropped from a batch, where the budget lasts for more than N searches and the temperature falls below tf."
  },
  {
   "property": "C162",
   "status": "proved",
   "theorems": [
    "Verif.Props.c162_posterior",
    "Verif.Props.c162_estimated_trend",
    "Verif.Props.c162_interval",
    "Verif.Props.c162_process_exists"
   ],
   "note": "c162_posterior (given coefficients: conditional law), c162_estimated_trend (law of the error and independence), c162_interval (coverage); c162_process_exists: such a process exists for every valid correlation, all samples, points and trends. With noise the prediction is wrong (C96)."
  },
  {
   "property": "C163",
   "status": "partial",
   "theorems": [
    "Verif.Props.c163_expected_improvement_partial",
    "Verif.Props.c163_moment_partial",
    "Verif.Props.c163_probability"
   ],
   "note": "Proved for EI, MGFI and EpsilonPI with given trend coefficients. Missing: for EI and MGFI, predictions that count as certain have the value 0 (C73); with estimated coefficients there is no conditional law given the data without a prior on them (C162 gives what holds); temperatures above 22.36 are cut off; UCB is not an expectation; PI cannot be constructed (C36)."
  },
  {
   "property": "C164",
   "status": "partial",
   "theorems": [
    "Verif.Props.c164_invariant_partial",
    "Verif.Props.c164_converges_partial",
    "Verif.Props.c164_real_refuted",
    "Verif.Props.c164_integer_refuted"
   ],
   "note": "Proved for spaces of ordinal, discrete and Boolean variables: a row that follows the target keeps following it through a pass of any length, and from any start the total difference to the target shrinks by a fixed factor per step; the draws of the row must be fresh and log probabilities must not differ by more than the overflow limit (709 in floating point). Refuted for real variables (c164_real_refuted): the proposal is clipped to the box, so an update lands exactly on the bound with positive probability. Refuted for integer variables (c164_integer_refuted): for the same reason, uniform samples on {0,1,2} put more than a third on 0 after one update without any constraint. The theorems are about the steps of one stage; the stages follow one another with the population of the one before (resampling is commented out in the code)."
  },
  {
   "property": "C165",
   "status": "partial",
   "theorems": [
    "Verif.Props.c165_refines",
    "Verif.Props.c165_strengths",
    "Verif.Props.c165_reach_partial",
    "Verif.Props.c165_reach_discrete",
    "Verif.Props.c165_alive",
    "Verif.Props.c165_frozen",
    "Verif.Props.c165_refuted"
   ],
   "note": "Proved for all runs: legal strengths and legal parameters of all draws (c165_strengths), refinement of the run of C31 and C63 (c165_refines), every point is reachable from every individual with positive step sizes (c165_reach_partial), always on spaces without real variables (c165_reach_discrete), and without a precision a step size stays positive almost surely (c165_alive). The full claim fails for real variables with a precision: line 242 replaces the step size by the step made after rounding, so steps that are rounded away set it to 0, for good (c165_frozen, with the run of c165_refuted). Rounding errors and a normal number that is exactly 0 are not modelled; a given x0 is not modelled."
  },
  {
   "property": "C166",
   "status": "proved",
   "theorems": [
    "Verif.Props.c166_step_law",
    "Verif.Props.c166_integer_strength",
    "Verif.Props.c166_integer_step",
    "Verif.Props.c166_probability_law"
   ],
   "note": "Laws of the step sizes, of the strengths and of the steps of integer variables, and of the mutation probability, with the number of variables counted independently of the code. The integer step is the one before reflection into the bounds. The draws are ideal (independent standard normal and geometric numbers), without rounding errors."
  },
  {
   "property": "C167",
   "status": "partial",
   "theorems": [
    "Verif.Props.c167_mean_partial",
    "Verif.Props.c167_path_partial",
    "Verif.Props.c167_covariance_partial",
    "Verif.Props.c167_refuted"
   ],
   "note": "Proved for generations in which no offspring leaves the box: expected mean, second moments of the step-size path, expected covariance matrix (for either constant value of the switch hsig). c167_refuted: with normal random numbers and a start at a bound, the reflection of offspring makes the expected mean move into the box although the objective is constant. Missing: a switch that depends on the random numbers, and the drift of the logarithm of the step size."
  },
  {
   "property": "C168",
   "status": "proved",
   "theorems": [
    "Verif.Props.c168_order_only",
    "Verif.Props.c168_draw_order",
    "Verif.Props.c168_selection"
   ],
   "note": "For objectives with finite values and a sorting routine that only compares. c168_order_only is about whole runs, c168_draw_order and c168_selection about one generation from an arbitrary state."
  },
  {
   "property": "C169",
   "status": "partial",
   "theorems": [
    "Verif.Props.c169_own_trend_partial",
    "Verif.Props.c169_shared_shift",
    "Verif.Props.c169_shared_later",
    "Verif.Props.c169_refuted"
   ],
   "note": "False of the code: fit writes the estimated trend coefficients to the trend object that the caller passed, and predict reads them from there. c169_own_trend_partial proves the property for every program in which the model is the only one on its trend object. c169_shared_shift: if two models share a trend object, training the second shifts every prediction of the first by the difference of the two trends. c169_shared_later: a model built on a trend object after another model was trained on it does not estimate its trend but takes over the other one. c169_refuted: a concrete program in which a model stops predicting its own data. The hyper-parameters that the search ends with are part of the arguments."
  },
  {
   "property": "C170",
   "status": "partial",
   "theorems": [
    "Verif.Props.c170_routine",
    "Verif.Props.c170_origin_and_order",
    "Verif.Props.c170_unit_partial",
    "Verif.Props.c170_unit_refuted"
   ],
   "note": "Proved for every shift and every order of the variables. For another unit it holds while the step size stays between 1e-16 and 1e6 in both units; otherwise refuted: the limits in check_stop_criteria are fixed numbers, so the converted search is reset when the original is not. The eigenvalue routine is taken in the converted order (c170_routine: it is then a correct eigenvalue routine again)."
  },
  {
   "property": "C171",
   "status": "partial",
   "theorems": [
    "Verif.Props.c171_round_partial",
    "Verif.Props.c171_linear_partial",
    "Verif.Props.c171_argument_partial",
    "Verif.Props.c171_overwritten",
    "Verif.Props.c171_again",
    "Verif.Props.c171_refuted"
   ],
   "note": "Proved for lists always and for arrays in spaces of only real or one discrete type. Refuted otherwise: a mixed space writes the converted columns into the array it is given (c171_overwritten), so that a second to_linear_scale of the same array converts twice, and in an array of integers the converted values are truncated."
  },
  {
   "property": "C172",
   "status": "partial",
   "theorems": [
    "Verif.Props.c172_points",
    "Verif.Props.c172_scalars",
    "Verif.Props.c172_step_size",
    "Verif.Props.c172_box",
    "Verif.Props.c172_budget_partial",
    "Verif.Props.c172_best_partial",
    "Verif.Props.c172_nan_partial",
    "Verif.Props.c172_restart_nan",
    "Verif.Props.c172_last_point_ignored"
   ],
   "note": "One program (Model/OnePlusOneFull) made of the parts in C32, C33, C64, C136 and C137, the only inputs being the random numbers; c172_points and c172_scalars: it refines the models in which those claims are proved. Proved in full: box, value of the reported point, step size and success rate. Refuted: a restart at a point better than all before, when no step has succeeded since the last reset, divides by zero and puts NaN into the matrices (c172_restart_nan; c172_nan_partial says exactly when NaN appears); a step that uses up the budget after a restart evaluates one more point and ignores it (c172_last_point_ignored), so c172_best_partial is about the points told to the optimiser, and c172_budget_partial allows two evaluations more than the budget."
  },
  {
   "property": "C173",
   "status": "proved",
   "theorems": [
    "Verif.Props.c173_motion",
    "Verif.Props.c173_order",
    "Verif.Props.c173_origin_and_order",
    "Verif.Props.c173_meaning",
    "Verif.Props.c173_rotation"
   ],
   "note": "Simulation over whole runs of the program of C172: c173_motion for any rigid motion under which repair and restart samples correspond; c173_order and c173_origin_and_order discharge this for every run, c173_rotation for runs that stay inside both boxes without restarts. c173_meaning spells out the converted problem and state coordinate by coordinate. NaN appears in both runs at the same pass."
  },
  {
   "property": "C174",
   "status": "partial",
   "theorems": [
    "Verif.Props.c174_values_partial",
    "Verif.Props.c174_unit_matters"
   ],
   "note": "Proved for a tolerance ftol = 0 on the values and no constraints (c174_values_partial).  For the default tolerance the property is false: c174_unit_matters gives a problem, random numbers and a positive factor for the values such that one run has ended after six passes by the test on the change of the values and the other has not.  With constraints the penalty is added to the value, so only shifts could be invariant."
  },
  {
   "property": "C175",
   "status": "partial",
   "theorems": [
    "Verif.Props.c175_ends_partial",
    "Verif.Props.c175_best",
    "Verif.Props.c175_tolerance_unused",
    "Verif.Props.c175_one_parent",
    "Verif.Props.c175_refuted",
    "Verif.Props.c175_single_offspring"
   ],
   "note": "c175_ends_partial: the run ends after the first generation for which EndsAfter holds (limit passed, two offspring with equal values, or a level history; the ring buffer is shown to hold the last generations), for all configurations except a single offspring of several parents; c175_best gives the reported optimum and the counts; c175_tolerance_unused: in the default setting the test on the history never applies. The property fails as stated: c175_refuted (a run ends after a generation that found a better point, best point not evaluated, 14 of 1000 evaluations), c175_one_parent (with one parent at most one generation whatever the objective), c175_single_offspring (IndexError after the first generation)."
  },
  {
   "property": "C176",
   "status": "partial",
   "theorems": [
    "Verif.Props.c176_order_partial",
    "Verif.Props.c176_refuted"
   ],
   "note": "c176_order_partial: proved for runs in which the number of parents is no multiple of the number of offspring (as in the default setting), for a sorting routine that looks at the order only (realArgsort_scaled gives one). c176_refuted: with 30 parents and offspring, dividing the values by a million ends the run earlier, since the history is compared with zeros."
  },
  {
   "property": "C177",
   "status": "proved",
   "theorems": [
    "Verif.Props.c177_same_predictions",
    "Verif.Props.c177_same_likelihood"
   ],
   "note": "Numbers are reals and the factorisations exact; the restricted likelihood is not covered (the model of QR does not ask for a triangular factor). The correlation functions are those with the parameters in the new units; the search for the parameters itself is not repeated here."
  },
  {
   "property": "C178",
   "status": "proved",
   "theorems": [
    "Verif.Props.c178_more_data",
    "Verif.Props.c178_front_only",
    "Verif.Props.c178_better_prediction",
    "Verif.Props.c178_positive"
   ],
   "note": "Outcomes must not exceed the cap 1e10 (1e8) of the code, for the last part some objective of each outcome must stay below it. Real arithmetic, one point at a time (C81 for several)."
  },
  {
   "property": "C179",
   "status": "proved",
   "theorems": [
    "Verif.Props.c179_same_search",
    "Verif.Props.c179_fails_fractional"
   ],
   "note": "c179_same_search: the whole run in the new terms is the translated run, exceptions included. c179_fails_fractional: with integer bounds 0.3 and 2.3 the points differ after a shift of the origin. Real variables with a precision are excluded (rounding is to decimal places of the absolute value)."
  },
  {
   "property": "C180",
   "status": "partial",
   "theorems": [
    "Verif.Props.c180_ask_partial",
    "Verif.Props.c180_run_partial",
    "Verif.Props.c180_ask_no_reals",
    "Verif.Props.c180_never_again_refuted",
    "Verif.Props.c180_no_design_refuted",
    "Verif.Props.c180_indistinct_examples",
    "Verif.Props.c180_units_refuted",
    "Verif.Props.c180_concrete"
   ],
   "note": "Proved: if all points that occur differ, in both descriptions, by more than the tolerance of the duplicate check, then ask (c180_ask_partial) and the whole run (c180_run_partial) give the same in the new terms; without real variables nothing has to be assumed (c180_ask_no_reals).  Refuted in general: np.isclose has absolute tolerances, so in spaces with tiny ranges or a large origin all points count as equal (c180_indistinct_examples), ask never succeeds again after the first record (c180_never_again_refuted), a design of two or more points raises (c180_no_design_refuted), and the same space in nanometres works where metres fail (c180_units_refuted).  c180_concrete: a world meeting the hypotheses.  Precision is excluded, and the search and the sampler are assumed to act alike in both descriptions."
  },
  {
   "property": "C181",
   "status": "proved",
   "theorems": [
    "Verif.Props.c181_ask",
    "Verif.Props.c181_best",
    "Verif.Props.c181_run",
    "Verif.Props.c181_histories",
    "Verif.Props.c181_gaussian_process",
    "Verif.Props.c181_same_course",
    "Verif.Props.c181_concrete",
    "Verif.Props.c181_ties"
   ],
   "note": "The parameter search of the surrogate is any function of the likelihood surface (random numbers fixed); arithmetic is exact. With a constraint function that raises at one of two best points the order can matter, so constraint functions do not raise here. c181_ties shows that the reported point itself depends on the order when values are equal."
  },
  {
   "property": "C182",
   "status": "partial",
   "theorems": [
    "Verif.Props.c182_no_interference_partial",
    "Verif.Props.c182_others_irrelevant_partial",
    "Verif.Props.c182_ask_alone",
    "Verif.Props.c182_temperature",
    "Verif.Props.c182_default_dictionary_refuted",
    "Verif.Props.c182_shared_model_refuted",
    "Verif.Props.c182_concrete"
   ],
   "note": "Proved for every program and interleaving in which no other optimiser is given the surrogate or the dictionary of the optimiser: leaving out all other calls changes nothing it shows. Refuted without that: the default acquisition_par of ParallelBO is one dictionary for the whole program; creating a ParallelBO with UCB adds the key alpha to it, after which ask of every ParallelBO with default arguments raises TypeError; creating an AnnealingBO overwrites the temperature; a shared surrogate makes a fresh optimiser skip its initial design and raise. numpy's global generator is not part of the model: its numbers are given with every call."
  },
  {
   "property": "C183",
   "status": "partial",
   "theorems": [
    "Verif.Props.c183_units_front_partial",
    "Verif.Props.c183_units_partial",
    "Verif.Props.c183_tiny_range_refuted",
    "Verif.Props.c183_order_of_objectives",
    "Verif.Props.c183_direction_front_partial",
    "Verif.Props.c183_direction_refuted",
    "Verif.Props.c183_order_of_observations_partial",
    "Verif.Props.c183_tied_observations_refuted",
    "Verif.Props.c183_concrete"
   ],
   "note": "Units: proved for whole runs as long as in every objective the recorded outcomes are equal or spread by ten machine precisions in both units (c183_units_partial); below that the values are not scaled (c183_tiny_range_refuted). Order of the objectives: proved for whole runs without conditions. Direction: the front is the same if rounding to single precision keeps values apart (c183_direction_front_partial), the reference point is not: minimised, outcomes in the worst fifth lie beyond it, maximised none do (c183_direction_refuted). Order of observations: same transformed values, reference point and outcomes on the front, same points if the outcomes are distinct (c183_order_of_observations_partial); of tied points the first is shown (c183_tied_observations_refuted)."
  },
  {
   "property": "C184",
   "status": "partial",
   "theorems": [
    "Verif.Props.c184_same_course",
    "Verif.Props.c184_crash_elsewhere_partial",
    "Verif.Props.c184_crash_while_saving_refuted",
    "Verif.Props.c184_data_file_refuted",
    "Verif.Props.c184_two_files",
    "Verif.Props.c184_concrete"
   ],
   "note": "Proved for every schedule of crashes and restarts: whatever is in memory is a state of the uninterrupted run and the end is its end (c184_same_course); after a crash outside save the very same optimiser is back, after one during save with a readable file at most one step is lost (c184_crash_elsewhere_partial). Refuted: save empties the file before it writes it, so a crash in between destroys the earlier checkpoint too and the program cannot go on (c184_crash_while_saving_refuted); the data file gets the evaluations of a repeated step twice (c184_data_file_refuted). With two files written in turn the program survives every crash (c184_two_files). The random numbers are taken to depend on the number of the step: save does not keep the state of the generator."
  },
  {
   "property": "C185",
   "status": "proved",
   "theorems": [
    "Verif.Props.c185_count",
    "Verif.Props.c185_budget",
    "Verif.Props.c185_returned",
    "Verif.Props.c185_front_exact",
    "Verif.Props.c185_front_rounded",
    "Verif.Props.c185_ends",
    "Verif.Props.c185_raises",
    "Verif.Props.c185_concrete"
   ],
   "note": "Counting (c185_count), the bound on the overshoot (c185_budget), the ending (c185_ends), what a returning run guarantees (c185_returned) and the reasons for raising (c185_raises) hold for all runs. The front: c185_front_rounded for any rounding with error at most eps on [-1, 1] (tolerance 2 eps of the spread, or 10/2^52 where the spread is so small that the code does not scale), c185_front_exact if rounding keeps values apart."
  },
  {
   "property": "C186",
   "status": "partial",
   "theorems": [
    "Verif.Props.c186_recorded",
    "Verif.Props.c186_conserved",
    "Verif.Props.c186_budget",
    "Verif.Props.c186_ends",
    "Verif.Props.c186_new_points_partial",
    "Verif.Props.c186_same_point_refuted",
    "Verif.Props.c186_concrete",
    "Verif.Props.c186_budget_reached",
    "Verif.Props.c186_run_is_one_worker"
   ],
   "note": "Recording, counting, incumbent (c186_recorded), conservation (c186_conserved), the budget (c186_budget, reached by c186_budget_reached) and the ending (c186_ends) hold for every interleaving; run() is the case of one worker (c186_run_is_one_worker). That no point is evaluated twice is false: points under evaluation are unknown to ask, and two workers can get the same one (c186_same_point_refuted); proved is that nobody gets a point whose value is recorded (c186_new_points_partial). Calls are taken to be atomic; the code has no locks."
  },
  {
   "property": "C187",
   "status": "partial",
   "theorems": [
    "Verif.Props.c187_design_seeded",
    "Verif.Props.c187_refines",
    "Verif.Props.c187_random_seed_ignored",
    "Verif.Props.c187_designs_repeat",
    "Verif.Props.c187_temperatures_repeat",
    "Verif.Props.c187_run_seeded",
    "Verif.Props.c187_run_ignores_random_seed",
    "Verif.Props.c187_not_reproducible_refuted",
    "Verif.Props.c187_concrete"
   ],
   "note": "Holds for a seed of the search space, for designs and whole runs. False for random_seed of the optimiser and for fmin's seed: every slicing of the space restarts numpy's generator, from the operating system's entropy if the space has no seed, so that the optimiser's seed has no influence at all (proved for all inputs) and two runs differ (witness). With a seeded space the restarts make draws repeat: designs asked for with the same data are equal and the batch parameters use the same factors in every iteration."
  },
  {
   "property": "C188",
   "status": "partial",
   "theorems": [
    "Verif.Props.c188_records",
    "Verif.Props.c188_budget",
    "Verif.Props.c188_ends_partial",
    "Verif.Props.c188_returned",
    "Verif.Props.c188_explored",
    "Verif.Props.c188_all_explored",
    "Verif.Props.c188_failures_refuted",
    "Verif.Props.c188_concrete"
   ],
   "note": "Records, result and exploration of all sub-spaces are proved for every run that does not raise, the budget for counted evaluations in every case. Budget for the calls of the objective and termination (c188_ends_partial) are proved for objectives that never fail. Refuted otherwise: failed evaluations are not counted, and an objective that works once in every sub-space and then fails is called for ever (c188_failures_refuted). When maximising, a target ends the run when the best value is below it, as in C16."
  },
  {
   "property": "C189",
   "status": "partial",
   "theorems": [
    "Verif.Props.c189_records",
    "Verif.Props.c189_budget",
    "Verif.Props.c189_ends",
    "Verif.Props.c189_returned",
    "Verif.Props.c189_raises",
    "Verif.Props.c189_single_point_refuted",
    "Verif.Props.c189_concrete"
   ],
   "note": "Records, budget, end, result and the list of reasons for an exception (c189_raises) are proved for every run. One reason is not legitimate: if fewer than two evaluations of the first batch succeed the weights are 0/0 and tell raises; with DoE_size=1 every run raises in its first step (c189_single_point_refuted). That the points are in the box is C88."
  },
  {
   "property": "C190",
   "status": "partial",
   "theorems": [
    "Verif.Props.c190_range",
    "Verif.Props.c190_units",
    "Verif.Props.c190_levels",
    "Verif.Props.c190_stale_count_refuted",
    "Verif.Props.c190_concrete"
   ],
   "note": "Proved for at least two trees (with one tree the variance is NaN, C44): c190_range, c190_units, c190_levels. Refuted if n_estimators is raised between fit and predict (c190_stale_count_refuted): missing trees count as predictions of 0."
  },
  {
   "property": "C191",
   "status": "partial",
   "theorems": [
    "Verif.Props.c191_records",
    "Verif.Props.c191_budget",
    "Verif.Props.c191_finishes",
    "Verif.Props.c191_budget_refuted",
    "Verif.Props.c191_failed_tell",
    "Verif.Props.c191_tell_again_refuted",
    "Verif.Props.c191_target_refuted",
    "Verif.Props.c191_concrete"
   ],
   "note": "Proved: c191_records, c191_budget, c191_finishes (without ftarget), and c191_failed_tell, the exact state after every tell that raises. Refuted: evaluations done before the one that raises are neither counted nor recorded, so that the objective can be called any number of times (c191_budget_refuted); a tell that raises because of the model has already recorded and counted the points, so repeating it doubles them (c191_tell_again_refuted); with a target, a first batch without finite values makes check_stop raise for ever (c191_target_refuted)."
  },
  {
   "property": "C192",
   "status": "partial",
   "theorems": [
    "Verif.Props.c192_left",
    "Verif.Props.c192_target",
    "Verif.Props.c192_row_partial"
   ],
   "note": "Proved with the real normal distribution: c192_left for any space, c192_target for the distribution of the last stage, c192_row_partial for the sampled row from any start. Missing: the row bound for real and integer variables (there C164 fails, the proposal is clipped) and for log probabilities that differ by more than the overflow limit of exp (709), which strongly violated constraints do; the draws of the row must be fresh, as in C164. The constant agrees with the code's comment (8 sigma, two-sided 1.24e-15, samplers.py:76): twice 6.4e-16."
  },
  {
   "property": "C193",
   "status": "partial",
   "theorems": [
    "Verif.Props.c193_best_partial",
    "Verif.Props.c193_unavailable",
    "Verif.Props.c193_unavailable_refuted",
    "Verif.Props.c193_no_worse",
    "Verif.Props.c193_run",
    "Verif.Props.c193_isolated_partial",
    "Verif.Props.c193_shared_refuted",
    "Verif.Props.c193_history_refuted",
    "Verif.Props.c193_concrete"
   ],
   "note": "Best point, monotony, agreement with run() and the exception before any point was told are proved. Refuted: if all evaluations so far failed, ValueError is raised instead (c193_unavailable_refuted); the returned object is a view of the recorded data, so writing to it changes the recorded point or value and the next recommendation (c193_shared_refuted), and writing the fitness of an older one changes hist_f (c193_history_refuted). Proved instead: objects older than the last tell can be written without any influence on data, counters, log and stop flags (c193_isolated_partial). Rows without coordinates (a space without variables) are excluded."
  },
  {
   "property": "C194",
   "status": "partial",
   "theorems": [
    "Verif.Props.c194_parallel",
    "Verif.Props.c194_sequential_partial",
    "Verif.Props.c194_sequential_refuted",
    "Verif.Props.c194_kept_partial",
    "Verif.Props.c194_kept_refuted",
    "Verif.Props.c194_reversing_objective"
   ],
   "note": "Proved: with several jobs the record is right for every objective (c194_parallel), with one job for objectives that leave their argument alone (c194_sequential_partial); arguments given as lists, or followed by another tell, can be overwritten freely (c194_kept_partial). Refuted: with one job the objective gets the very list that is told afterwards, so the point is recorded as the objective leaves it (c194_sequential_refuted, c194_reversing_objective); an array of objects (a Solution) given to the first tell becomes the table itself (c194_kept_refuted). Not modelled: parallel_obj_fun, and threads instead of processes chosen by joblib's parallel_backend."
  },
  {
   "property": "C195",
   "status": "partial",
   "theorems": [
    "Verif.Props.c195_one_per_part_partial",
    "Verif.Props.c195_no_gap_partial",
    "Verif.Props.c195_distinct_partial",
    "Verif.Props.c195_precision_refuted",
    "Verif.Props.c195_integer_refuted"
   ],
   "note": "Proved for real variables without a precision, of every scale and in every mixture of variables, for any generator whose designs are Latin hypercubes (the promise of pyDOE.lhs). Refuted with a precision (c195_precision_refuted: rounding moves points out of their part) and for integer variables (c195_integer_refuted: they are drawn independently whatever the method; the same holds for the categorical ones)."
  },
  {
   "property": "C196",
   "status": "partial",
   "theorems": [
    "Verif.Props.c196_recovers",
    "Verif.Props.c196_constraint",
    "Verif.Props.c196_keeps_partial",
    "Verif.Props.c196_forest",
    "Verif.Props.c196_stale_refuted",
    "Verif.Props.c196_gp_refuted",
    "Verif.Props.c196_forest_refuted",
    "Verif.Props.c196_concrete",
    "Verif.Props.c196_constraint_concrete"
   ],
   "note": "Proved: after a tell that returned the next ask searches with a surrogate trained on exactly the recorded observations, whatever failed before (c196_recovers), and also after one that raised inside the user's constraint functions (c196_constraint); without interrupted trainings ask takes a random design until tell has returned once, and then searches with a surrogate completely trained on at least what was recorded when tell last returned (c196_keeps_partial); with the forest an earlier success protects against interrupted trainings too (c196_forest). The property is false otherwise: after FlatFitnessError the surrogate lacks recorded observations (c196_stale_refuted), an interrupted training leaves a Gaussian process marked as fitted with the remains of two trainings (c196_gp_refuted), and a forest whose first training fails makes every ask raise, since is_fitted is set before the trees are trained (c196_forest_refuted)."
  },
  {
   "property": "C197",
   "status": "partial",
   "theorems": [
    "Verif.Props.c197_full_partial",
    "Verif.Props.c197_one",
    "Verif.Props.c197_kept",
    "Verif.Props.c197_indistinct_refuted",
    "Verif.Props.c197_stuck_refuted",
    "Verif.Props.c197_narrow",
    "Verif.Props.c197_narrow_refuted",
    "Verif.Props.c197_stuck_concrete",
    "Verif.Props.c197_concrete",
    "Verif.Props.c197_unlucky_refuted"
   ],
   "note": "Proved for all draws in which the points of the first sample differ (c197_full_partial); a single point is always delivered (c197_one); a point of the first sample that differs from the others is proposed (c197_kept). The property is false otherwise: in a space whose points do not count as different, e.g. a real variable between 1000 and 1000.001, every request for two or more points raises AskEmptyError whatever is drawn (c197_indistinct_refuted, c197_narrow_refuted), since all copies are dropped, and after one evaluation every ask raises, also with a surrogate (c197_stuck_refuted); with ten integer points unlucky draws do the same to the first request (c197_unlucky_refuted). Fixed variables: C14, C144."
  },
  {
   "property": "C198",
   "status": "partial",
   "theorems": [
    "Verif.Props.c198_front_is_all",
    "Verif.Props.c198_improves_partial",
    "Verif.Props.c198_history_partial",
    "Verif.Props.c198_refuted"
   ],
   "note": "Proved if the conversion to single precision keeps different values apart: the front matches or beats every record, beats the same region and is not empty (c198_front_is_all); each front covers all earlier ones and is not dominated by them (c198_improves_partial), also along hist_f (c198_history_partial). False with rounding: a point can leave the front although nothing matches or beats it (c198_refuted); how much can be lost is bounded in C185."
  },
  {
   "property": "C199",
   "status": "partial",
   "theorems": [
    "Verif.Props.c199_packing",
    "Verif.Props.c199_mixed_packing",
    "Verif.Props.c199_exhausted",
    "Verif.Props.c199_batches",
    "Verif.Props.c199_mixed_batches",
    "Verif.Props.c199_run",
    "Verif.Props.c199_whole_run",
    "Verif.Props.c199_mixed_run",
    "Verif.Props.c199_learning_run",
    "Verif.Props.c199_whole_run_concrete",
    "Verif.Props.c199_learning_run_concrete",
    "Verif.Props.c199_refuted",
    "Verif.Props.c199_reachable_partial",
    "Verif.Props.c199_concrete",
    "Verif.Props.c199_mixed_refuted"
   ],
   "note": "Proved (_partial): any list of points, each different from the earlier ones for the duplicate check, can be evaluated one after the other (fifty between 1000 and 1001). The full claim is refuted: a new point must differ from every recorded one by more than 1e-8 + 1e-5*|x| in some coordinate, so the points evaluated one by one are at most the number of cells of that size in the box (c199_run), and so are the batches of any size (c199_batches); a whole run with a larger budget and no target is left by an exception (c199_whole_run), also if the surrogate learns (c199_learning_run: it returns no solution); once that many are recorded every ask raises (c199_exhausted); between 1000 and 1001 there are at most 100 (c199_refuted). The same for spaces with variables of all kinds (c199_mixed_packing, c199_mixed_batches, c199_mixed_run)."
  },
  {
   "property": "C200",
   "status": "partial",
   "theorems": [
    "Verif.Props.c200_single_partial",
    "Verif.Props.c200_kept_partial",
    "Verif.Props.c200_twins_refuted",
    "Verif.Props.c200_concrete"
   ],
   "note": "Proved (_partial): for requests of one point AskEmptyError is raised exactly if the result of the search and all four random points are recorded (c200_single_partial); in batches a point found once that is not recorded is proposed (c200_kept_partial). Refuted for batches: if a new point is found twice, both copies are dropped, and ask can raise although the point is new (c200_twins_refuted)."
  }
 ]
}