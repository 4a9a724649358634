{
 "claims": [
  {
   "property": "C01",
   "status": "proved",
   "theorems": [
    "Alipy.C01_no_index_twice"
   ],
   "note": ""
  },
  {
   "property": "C02",
   "status": "partial",
   "theorems": [
    "Alipy.C02_update_is_union",
    "Alipy.C02_difference_is_set_difference_partial",
    "Alipy.C02_self_difference_violation",
    "Alipy.C02_single_operations",
    "Alipy.C02_constructor_partial",
    "Alipy.C02_mixed_constructor_violation"
   ],
   "note": "Union is proved for all arguments. difference_update(self) violates the property (every second element stays), proved as a theorem."
  },
  {
   "property": "C03",
   "status": "proved",
   "theorems": [
    "Alipy.C03_update_appends_in_order",
    "Alipy.C03_difference_keeps_order",
    "Alipy.C03_pop_undoes_add"
   ],
   "note": ""
  },
  {
   "property": "C04",
   "status": "proved",
   "theorems": [
    "Alipy.C04_one_element_type",
    "Alipy.C04_element_type_is_fixed",
    "Alipy.C04_add_rejects_exactly_other_types",
    "Alipy.C04_failed_update_applies_a_prefix",
    "Alipy.C04_empty_collection_is_poisoned_by_numpy_index"
   ],
   "note": "Finding: a collection created empty is unusable after add(np.int64)."
  },
  {
   "property": "C05",
   "status": "proved",
   "theorems": [
    "Alipy.C05_randperm_k",
    "Alipy.C05_randperm_all",
    "Alipy.C05_randperm_default_start",
    "Alipy.C05_negative_k_is_not_refused"
   ],
   "note": "for every effect of np.random.shuffle (an arbitrary permutation); a negative k is not refused (finding, proved)"
  },
  {
   "property": "C06",
   "status": "proved",
   "theorems": [
    "Alipy.C06_random_sampling"
   ],
   "note": "rate*len as an exact rational; round half to even"
  },
  {
   "property": "C31",
   "status": "partial",
   "theorems": [
    "Alipy.C31_nsmallestarg",
    "Alipy.C31_nlargestarg_partial",
    "Alipy.C31_nlargestarg_violation",
    "Alipy.C31_not_positive",
    "Alipy.C31_nlargestarg_all"
   ],
   "note": "nsmallestarg in full; nlargestarg for n <= len; for len < n < 2 len the code returns too few positions (negative slice start), shown by the violation theorem"
  },
  {
   "property": "C07",
   "status": "partial",
   "theorems": [
    "Alipy.MLIC.C07_only_legal_pairs_partial",
    "Alipy.MLIC.C07_negative_label_violation",
    "Alipy.MLIC.C07_compound_element_violation"
   ],
   "note": "Proved for all histories of legal-bound operations; negative scalar labels and hashable compound labels passed to add/update get stored (violations)."
  },
  {
   "property": "C08",
   "status": "partial",
   "theorems": [
    "Alipy.MLIC.C08_update_is_union_partial",
    "Alipy.MLIC.C08_difference_is_set_difference_partial",
    "Alipy.MLIC.C08_failed_list_update_changes_nothing",
    "Alipy.MLIC.C08_tuple_with_list_violation",
    "Alipy.MLIC.C08_copied_collection_violation",
    "Alipy.MLIC.C08_constructor",
    "Alipy.MLIC.C08_constructor_infers"
   ],
   "note": "Proved for lists of indexes and for collections; a bare tuple with a list of labels and a copied collection violate it."
  },
  {
   "property": "C09",
   "status": "proved",
   "theorems": [
    "Alipy.C09_integrate_keeps_the_pairs",
    "Alipy.C09_flatten_of_integrate",
    "Alipy.C09_out_of_range_label_breaks_integration"
   ],
   "note": "for index lists whose labels lie within the label set; labels outside break the integrated form (finding, proved)"
  },
  {
   "property": "C10",
   "status": "proved",
   "theorems": [
    "Alipy.MLIC.C10_unbroken_and_broken_partition"
   ],
   "note": ""
  },
  {
   "property": "C11",
   "status": "proved",
   "theorems": [
    "Alipy.MLIC.C11_encode_then_decode",
    "Alipy.MLIC.C11_decode_then_encode",
    "Alipy.MLIC.C11_default_orders_differ"
   ],
   "note": "with the same order passed to both; the defaults of the two functions differ (finding, proved)"
  },
  {
   "property": "C12",
   "status": "partial",
   "theorems": [
    "Alipy.MLIC.C12_dense_mask_partial",
    "Alipy.MLIC.C12_mask_round_trip_partial",
    "Alipy.MLIC.C12_mask_is_decoded_exactly",
    "Alipy.MLIC.C12_sparse_mask_violation",
    "Alipy.MLIC.C12_full_or_empty_mask_violation"
   ],
   "note": "Dense form and round trip for non-empty, non-complete collections; the sparse mask is always zero and complete/empty masks are refused (violations)."
  },
  {
   "property": "C13",
   "status": "partial",
   "theorems": [
    "Alipy.C13_label_matrix",
    "Alipy.C13_refuses_partial",
    "Alipy.C13_negative_instance_violation",
    "Alipy.C13_Xy"
   ],
   "note": "All legal indexes in full; negative instances are not refused (violation)."
  },
  {
   "property": "C14",
   "status": "partial",
   "theorems": [
    "Alipy.C14_map_whole_index_to_train_partial",
    "Alipy.C14_list_argument_violation",
    "Alipy.C14_multi_label_partial",
    "Alipy.C14_label_size_shrinks_violation"
   ],
   "note": "Training indexes given as numpy array, or as a Python list if the collection holds numpy numbers only (as after construction). With a list the call fails with IndexError once an index has been added to the collection (violation); the label size of a multi-label collection is lost (violation)."
  },
  {
   "property": "C15",
   "status": "proved",
   "theorems": [
    "Alipy.State.C15_critical_entries_stay",
    "Alipy.State.C15_constructor_stores_the_arguments",
    "Alipy.State.C15_set_value",
    "Alipy.State.C15_del_element"
   ],
   "note": ""
  },
  {
   "property": "C16",
   "status": "proved",
   "theorems": [
    "Alipy.StateIO.C16_workspace_is_replay",
    "Alipy.StateIO.C16_workspace_single_label",
    "Alipy.StateIO.C16_workspace_multi_label"
   ],
   "note": "for every index container that satisfies the set law (Spec.SetLaw), with the two concrete containers as corollaries"
  },
  {
   "property": "C17",
   "status": "proved",
   "theorems": [
    "Alipy.StateIO.C17_always_disjoint",
    "Alipy.StateIO.C17_nothing_lost_nothing_twice",
    "Alipy.StateIO.C17_single_label"
   ],
   "note": ""
  },
  {
   "property": "C18",
   "status": "partial",
   "theorems": [
    "Alipy.StateIO.C18_recover_workspace_partial",
    "Alipy.StateIO.C18_recover_then_refresh",
    "Alipy.StateIO.C18_stale_totals_violation"
   ],
   "note": "The index sets and the history are those of the earlier iteration; the cost and query totals stay those of the longer history until refresh_info (violation)."
  },
  {
   "property": "C19",
   "status": "partial",
   "theorems": [
    "Alipy.StateIO.C19_totals_in_sync_partial",
    "Alipy.StateIO.C19_refresh_restores",
    "Alipy.StateIO.C19_pop_violation",
    "Alipy.StateIO.C19_late_cost_violation",
    "Alipy.StateIO.C19_dict_state_violation"
   ],
   "note": "Holds for growing histories and after refresh_info; pop, a cost set later, and a dict state break it (violations)."
  },
  {
   "property": "C20",
   "status": "partial",
   "theorems": [
    "Alipy.StateIO.C20_check_batch_size_partial",
    "Alipy.StateIO.C20_single_state_violation",
    "Alipy.StateIO.C20_last_state_ignored_violation"
   ],
   "note": "The last state is not compared, and one single state never counts (violations)."
  },
  {
   "property": "C21",
   "status": "proved",
   "theorems": [
    "Alipy.Stop.C21_constructor",
    "Alipy.Stop.C21_stop_iff_empty_or_bound_reached",
    "Alipy.Stop.C21_percentage_out_of_range",
    "Alipy.Stop.C21_initially_empty_pool_unnoticed",
    "Alipy.Stop.C21_constructor_truncates"
   ],
   "note": ""
  },
  {
   "property": "C22",
   "status": "proved",
   "theorems": [
    "Alipy.Stop.C22_stop_is_permanent",
    "Alipy.Stop.C22_reset_is_a_new_object"
   ],
   "note": ""
  },
  {
   "property": "C23",
   "status": "proved",
   "theorems": [
    "Alipy.C23_main_loop_ends_and_keeps_the_partition",
    "Alipy.C23_exactly_n_queries",
    "Alipy.C23_no_criterion_labels_everything",
    "Alipy.C23_empty_pool_is_queried"
   ],
   "note": "for every strategy returning a non-empty part of the unlabelled set; finding: an initially empty unlabelled set is queried once"
  },
  {
   "property": "C24",
   "status": "partial",
   "theorems": [
    "Alipy.C24_cost_limit_partial",
    "Alipy.C24_cost_limit_violation"
   ],
   "note": "The loop records no costs, so a positive limit is never reached and everything gets labelled (violation); for loops recording costs see C21."
  },
  {
   "property": "C25",
   "status": "partial",
   "theorems": [
    "Alipy.Oracle.C25_query_by_index",
    "Alipy.Oracle.C25_query_by_example_partial",
    "Alipy.Oracle.C25_by_example_violation",
    "Alipy.Oracle.C25_failed_call_violation",
    "Alipy.Oracle.C25_refused_call_changes_nothing"
   ],
   "note": "query_by_index in full over all histories of add_knowledge (also failing ones); query_by_example when the examples of different indexes differ; two indexes with equal examples violate it."
  },
  {
   "property": "C26",
   "status": "partial",
   "theorems": [
    "Alipy.Oracle.C26_unknown_index_partial",
    "Alipy.Oracle.C26_wrong_exception_violation",
    "Alipy.Oracle.C26_unknown_example_partial"
   ],
   "note": "Unknown indexes are refused whatever their position and nothing changes; but in two situations the exception is not KeyError (violation)."
  },
  {
   "property": "C27",
   "status": "partial",
   "theorems": [
    "Alipy.MLOracle.C27_query_by_index_partial",
    "Alipy.MLOracle.C27_out_of_range_labels",
    "Alipy.MLOracle.C27_unknown_instance",
    "Alipy.MLOracle.C27_list_costs_violation",
    "Alipy.MLOracle.C27_query_by_example_violation"
   ],
   "note": "query_by_index with numpy (or default) costs; list-valued costs and query_by_example fail (violations)."
  },
  {
   "property": "C28",
   "status": "partial",
   "theorems": [
    "Alipy.Oracles.C28_cost_is_the_sum_partial",
    "Alipy.Oracles.C28_query_from_partial",
    "Alipy.Oracles.C28_query_from_s_partial",
    "Alipy.Oracles.C28_summary_adds_up",
    "Alipy.Oracles.C28_ragged_costs_violation"
   ],
   "note": "All histories whose answers numpy can add up; answers with costs of different lengths are recorded but not charged (violation)."
  },
  {
   "property": "C29",
   "status": "partial",
   "theorems": [
    "Alipy.ERepo.C29_training_data_partial",
    "Alipy.ERepo.C29_retrieve_by_indexes_partial",
    "Alipy.ERepo.C29_retrieve_by_examples_partial",
    "Alipy.ERepo.C29_contains_and_discard",
    "Alipy.ERepo.C29_retrieve_last_label",
    "Alipy.ERepo.C29_clear_with_examples",
    "Alipy.ERepo.C29_repeated_index_violation",
    "Alipy.ERepo.C29_discard_after_repetition_violation",
    "Alipy.ERepo.C29_equal_examples_violation",
    "Alipy.ERepo.C29_clear_violation",
    "Alipy.ERepo.C29_retrieve_last",
    "Alipy.ERepo.C29_discarded_owner"
   ],
   "note": "All histories in which no index and no example is stored while it is already there; retrieve_by_indexes for arbitrary histories, with and without examples. Repeated indexes give two rows (and KeyError after a discard), equal examples break discard, clear fails without examples (violations)."
  },
  {
   "property": "C30",
   "status": "partial",
   "theorems": [
    "Alipy.MRepo.C30_aligned_partial",
    "Alipy.MRepo.C30_retrieve_partial",
    "Alipy.MRepo.C30_update_stores_partial",
    "Alipy.MRepo.C30_failed_add_violation",
    "Alipy.MRepo.C30_constructor_violation",
    "Alipy.MRepo.C30_clear_violation",
    "Alipy.MRepo.C30_constructor_stores",
    "Alipy.MRepo.C30_add_partial",
    "Alipy.MRepo.C30_discard_index_partial",
    "Alipy.MRepo.C30_discard_example_partial"
   ],
   "note": "All histories in which a repository with examples is always given fitting examples (failures by label shape included). A missing example leaves the arrays misaligned, the constructor accepts repeated indexes, a cleared repository is unusable (violations)."
  },
  {
   "property": "C51",
   "status": "partial",
   "theorems": [
    "Alipy.ERepo.C51_element_repository",
    "Alipy.MRepo.C51_matrix_add_partial",
    "Alipy.MRepo.C51_matrix_failed_add_violation",
    "Alipy.MRepo.C51_matrix_add",
    "Alipy.MRepo.C51_matrix_update",
    "Alipy.MRepo.C51_matrix_run"
   ],
   "note": "ElementRepository in full; MatrixRepository, along any sequence of calls: charged are exactly the entries of which the index is stored, and the total is the sum of the recorded costs; but a call that raises for a missing or ill-fitting example has stored index and cost (violation)."
  },
  {
   "property": "C32",
   "status": "partial",
   "theorems": [
    "Alipy.C32_split_partition",
    "Alipy.C32_split_sizes",
    "Alipy.C32_split_labelled_nonempty_partial",
    "Alipy.C32_empty_violation",
    "Alipy.C32_split_returns"
   ],
   "note": "Partition for all ratios, sizes, termination. The labelled set is empty when the rounded training size is 0 (violation)."
  },
  {
   "property": "C33",
   "status": "partial",
   "theorems": [
    "Alipy.C33_all_class_partial",
    "Alipy.C33_all_class_matrix_partial",
    "Alipy.C33_names_violation",
    "Alipy.C33_permuted_names_violation",
    "Alipy.C33_negative_violation",
    "Alipy.C33_zero_column_endless",
    "Alipy.C33_double_rounding_endless"
   ],
   "note": "Default instance indexes, any labels / non-negative label matrix. y is indexed with the instance indexes (violations), -1/+1 matrices pass without positive example (violation); endless loops for a zero column and for double rounding."
  },
  {
   "property": "C34",
   "status": "partial",
   "theorems": [
    "Alipy.C34_features_partition",
    "Alipy.C34_features_sizes_partial",
    "Alipy.C34_retry_size_violation",
    "Alipy.C34_features_all",
    "Alipy.C34_multi_label_partition",
    "Alipy.C34_multi_label_sizes",
    "Alipy.C34_multi_label_all",
    "Alipy.C34_shape_only_violation"
   ],
   "note": "Partition of instances and pairs for all retries; sizes except that a retry of split_features asks for a factor L fewer entries (violation)."
  },
  {
   "property": "C35",
   "status": "partial",
   "theorems": [
    "Alipy.C35_save_load_partial",
    "Alipy.C35_one_round_violation",
    "Alipy.C35_single_label_violation",
    "Alipy.C35_multi_label_violation",
    "Alipy.C35_stale_violation"
   ],
   "note": "At least two rounds and two indexes per set, single-label. One-round splits lose an axis, multi-label splits are not found again or an older one is returned (violations)."
  },
  {
   "property": "C36",
   "status": "proved",
   "theorems": [
    "Alipy.C36_minmax",
    "Alipy.C36_minmax_nan",
    "Alipy.C36_minmax_returns"
   ],
   "note": "Exact rational arithmetic instead of floats."
  },
  {
   "property": "C52",
   "status": "partial",
   "theorems": [
    "Alipy.C52_standard_mean",
    "Alipy.C52_standard_variance_partial",
    "Alipy.C52_unit_variance_violation",
    "Alipy.C52_constant_violation"
   ],
   "note": "Mean 0 proved; the variance of the result is 1/var because the code divides by the variance (violation); constant columns divide by zero (violation)."
  },
  {
   "property": "C37",
   "status": "partial",
   "theorems": [
    "Alipy.C37_accuracy_vectors",
    "Alipy.C37_accuracy_range",
    "Alipy.C37_accuracy_rows",
    "Alipy.C37_zero_one_loss",
    "Alipy.C37_zero_one_fraction",
    "Alipy.C37_mixed_violation",
    "Alipy.C37_three_values_violation",
    "Alipy.C37_count_violation"
   ],
   "note": "Vectors and two-valued matrices in full. zero_one_loss(normalize=False) is not the number of wrong predictions, and matrices with three values are compared cell by cell or refused (violations)."
  },
  {
   "property": "C38",
   "status": "proved",
   "theorems": [
    "Alipy.C38_auc",
    "Alipy.C38_range",
    "Alipy.C38_one_class",
    "Alipy.C38_order_invariant"
   ],
   "note": "All scores with ties, exact rational arithmetic; the trapezoid rule over the modelled curve equals the pair statistic."
  },
  {
   "property": "C39",
   "status": "partial",
   "theorems": [
    "Alipy.C39_hamming_vectors",
    "Alipy.C39_hamming_matrices_partial",
    "Alipy.C39_symmetric",
    "Alipy.C39_range",
    "Alipy.C39_three_values_violation",
    "Alipy.C39_column_violation",
    "Alipy.C39_symmetric_matrices_partial",
    "Alipy.C39_range_matrices_partial"
   ],
   "note": "Vectors and two-valued matrices; with three values the loss can be the number of columns, and a column against a vector is broadcast (violations)."
  },
  {
   "property": "C40",
   "status": "partial",
   "theorems": [
    "Alipy.C40_row",
    "Alipy.C40_ranking_loss",
    "Alipy.C40_range",
    "Alipy.C40_minus_one_violation",
    "Alipy.C40_shape"
   ],
   "note": "0/1 matrices with any scores and weights; with -1/+1 labels the loss is always 0 (violation)."
  },
  {
   "property": "C41",
   "status": "proved",
   "theorems": [
    "Alipy.Threads.C41_at_most_max_thread",
    "Alipy.Threads.C41_never_started_twice",
    "Alipy.Threads.C41_all_ended_when_done",
    "Alipy.Threads.C41_started_once",
    "Alipy.Threads.C41_returns",
    "Alipy.Threads.C41_foreign_threads_endless"
   ],
   "note": "Transition system with arbitrary interleavings; termination under fairness. Finding: max_thread or more foreign threads make it wait for ever."
  },
  {
   "property": "C53",
   "status": "partial",
   "theorems": [
    "Alipy.Threads.C53_recover_partial",
    "Alipy.Threads.C53_recover_succeeds",
    "Alipy.Threads.C53_unsaved_violation",
    "Alipy.Threads.C53_recover_again_partial",
    "Alipy.Threads.C53_finished_kept",
    "Alipy.Threads.C53_second_crash_violation",
    "Alipy.Threads.C53_race_violation",
    "Alipy.Threads.C53_exception_violation"
   ],
   "note": "Holds for crashes outside the window between Thread.start and the breakpoint write, if workers save before ending and recover does not raise; for any number of crashes and recoveries if moreover no crash falls in a moment in which a round that is to be continued stands in the breakpoint file as not running (C53_recover_again_partial, C53_finished_kept). Violated, in every experiment with enough rounds and threads: in the window (C53_race_violation), after a worker's exception (C53_exception_violation), before a worker's first save (C53_unsaved_violation), and after a second crash: the rounds a recovered object was to continue and has not yet started are taken for finished (C53_second_crash_violation)."
  },
  {
   "property": "C42",
   "status": "partial",
   "theorems": [
    "Alipy.Select.C42_uncertainty",
    "Alipy.Select.C42_qbc",
    "Alipy.Select.C42_random_partial",
    "Alipy.Select.C42_random_list_violation",
    "Alipy.Select.C42_density_partial",
    "Alipy.Select.C42_density_violation",
    "Alipy.Select.C42_graph_density",
    "Alipy.Select.C42_lal",
    "Alipy.Select.C42_quire_partial",
    "Alipy.Select.C42_quire_violation"
   ],
   "note": "Uncertainty and QBC in full; random selection only for index collections (lists and arrays raise: violation); density weighted selection only for batch sizes up to the pool size (too few otherwise: violation). Graph density and LAL in full. QUIRE always returns one index; it is unlabelled when some evaluation is finite, otherwise it is the last training index (violation)."
  },
  {
   "property": "C43",
   "status": "proved",
   "theorems": [
    "Alipy.Select.C43_margin",
    "Alipy.Select.C43_least_confident",
    "Alipy.Select.C43_distance",
    "Alipy.Select.C43_entropy",
    "Alipy.Select.C43_entropy_zeros"
   ],
   "note": "Exact field arithmetic; entropy over the reals up to 1e-9 per class, which the code adds inside of the logarithm (16e-6 per class with zero probabilities, which it replaces by 1e-6)."
  },
  {
   "property": "C54",
   "status": "partial",
   "theorems": [
    "Alipy.Select.C54_prediction_unchanged_partial",
    "Alipy.Select.C54_entropy_overwrites_violation"
   ],
   "note": "Uncertainty selection; by entropy zero entries of the caller's matrix are overwritten (violation)."
  },
  {
   "property": "C44",
   "status": "proved",
   "theorems": [
    "Alipy.CostSensitive.C44_optimal",
    "Alipy.CostSensitive.C44_negative_cost_raises"
   ],
   "note": "Exact field arithmetic for the values, integer costs and capacity."
  },
  {
   "property": "C45",
   "status": "partial",
   "theorems": [
    "Alipy.Select.C45_two_approximation_partial",
    "Alipy.Select.C45_continues",
    "Alipy.Select.C45_empty_violation",
    "Alipy.Select.C45_list_violation",
    "Alipy.Select.C45_too_many_violation",
    "Alipy.Select.C45_stale_violation"
   ],
   "note": "Holds for every history of calls in which the labelled set only grows by at least the points chosen before, with train_idx an array (or numpy numbers as labelled indexes); empty labelled sets raise, so does a list as train_idx with plain numbers as labelled indexes, too large batches give duplicates, and a batch that was selected but not labelled is never selected again (violations)."
  },
  {
   "property": "C49",
   "status": "partial",
   "theorems": [
    "Alipy.CostSensitive.C49_best_generated_partial",
    "Alipy.CostSensitive.C49_infinite_violation",
    "Alipy.CostSensitive.C49_never_stuck"
   ],
   "note": "Holds when some within-budget candidate of positive cost is generated; otherwise the function returns the empty selection with value infinity (violation)."
  },
  {
   "property": "C56",
   "status": "partial",
   "theorems": [
    "Alipy.Select.C56_expected_loss_partial",
    "Alipy.Select.C56_minus_one_violation",
    "Alipy.Select.C56_minus_one_choice_violation",
    "Alipy.Select.C56_label_violation"
   ],
   "note": "Holds for classes 0..c-1; the label itself is used as column number, so classes -1/1 weigh both losses with the same probability and classes 1..c raise IndexError (violations)."
  },
  {
   "property": "C46",
   "status": "partial",
   "theorems": [
    "Alipy.Noisy.C46_majority_partial",
    "Alipy.Noisy.C46_winner_unique",
    "Alipy.Noisy.C46_weights_ignored_violation",
    "Alipy.Noisy.C46_any_weights_violation",
    "Alipy.Noisy.C46_empty_raises",
    "Alipy.Noisy.C46_vote_of_list",
    "Alipy.Noisy.C46_vote_of_oracles"
   ],
   "note": "Everything except for the weights, which are ignored (violation)."
  },
  {
   "property": "C47",
   "status": "partial",
   "theorems": [
    "Alipy.Features.C47_afasmc_keeps",
    "Alipy.Features.C47_afasmc_noninterference",
    "Alipy.Features.C47_afasmc_fills",
    "Alipy.Features.C47_full_mask_raises",
    "Alipy.Features.C47_nan_violation",
    "Alipy.Features.C47_svd_keeps_partial",
    "Alipy.Features.C47_svd_no_iteration_violation",
    "Alipy.Features.C47_svd_leak_violation",
    "Alipy.Features.C47_svd_interference_violation"
   ],
   "note": "AFASMC in exact arithmetic in full (a NaN as unobserved entry gets into the result: violation). The iterative SVD keeps observed entries, but starts from the unobserved ones and so returns them (violation)."
  },
  {
   "property": "C50",
   "status": "partial",
   "theorems": [
    "Alipy.CostSensitive.C50_within_budget_partial",
    "Alipy.CostSensitive.C50_unit_cost",
    "Alipy.CostSensitive.C50_exhausted_violation",
    "Alipy.CostSensitive.C50_cost_length"
   ],
   "note": "Holds when the pool costs more than the budget; otherwise the call raises ValueError for all random choices (violation)."
  },
  {
   "property": "C57",
   "status": "partial",
   "theorems": [
    "Alipy.Noisy.C57_threshold_partial",
    "Alipy.Noisy.C57_scores_partial",
    "Alipy.Noisy.C57_single_violation",
    "Alipy.Noisy.C57_unknown_instance_violation"
   ],
   "note": "Holds for at least two oracles which know all instances asked (scores: no instance asked twice). One oracle: IndexError from the second call on; an instance unknown to one oracle makes later calls raise KeyError (violations). Critical values, standard deviation and root are parameters (non-negative)."
  },
  {
   "property": "C58",
   "status": "partial",
   "theorems": [
    "Alipy.Noisy.C58_best_pair_partial",
    "Alipy.Noisy.C58_last_example_violation",
    "Alipy.Noisy.C58_eval_cost_violation",
    "Alipy.Noisy.C58_few_labelled_violation",
    "Alipy.Noisy.C58_nearest_ignored"
   ],
   "note": "Holds with the given costs, at least two initially labelled and two unlabelled examples and a positive number of neighbours; with one initially labelled example, with zero neighbours or with only one unlabelled example left the query raises ValueError, and eval_cost is ignored (violations); C58_nearest_ignored: the mistakes on initially labelled examples that coincide with the unlabelled example do not count."
  },
  {
   "property": "C59",
   "status": "partial",
   "theorems": [
    "Alipy.Features.C59_inner_best",
    "Alipy.Features.C59_returns_iterate_partial",
    "Alipy.Features.C59_first_round_violation",
    "Alipy.Features.C59_index_violation",
    "Alipy.Features.C59_last_round_violation"
   ],
   "note": "The inner loop returns its best iterate; the outer loop reads the objectives at the wrong position and so returns the first round's result whenever the number of the last inner step is at least the number of rounds (violation); the best objective so far is a view of a row of the array of objectives, and if the first round ends with step k and there are k+1 rounds the last round's result is returned, whatever the objectives (violation); IndexError for one inner step (violation)."
  },
  {
   "property": "C60",
   "status": "partial",
   "theorems": [
    "Alipy.Features.C60_first_missing",
    "Alipy.Features.C60_most_variance_partial",
    "Alipy.Features.C60_select_partial",
    "Alipy.Features.C60_observed_violation",
    "Alipy.Features.C60_unknown_ignored_violation",
    "Alipy.Features.C60_list_violation",
    "Alipy.Features.C60_stability_partial",
    "Alipy.Features.C60_nothing_observed_violation",
    "Alipy.Features.C60_afasmc_first",
    "Alipy.Features.C60_calls",
    "Alipy.Features.C60_most_changing_partial"
   ],
   "note": "Returns a missing entry with the largest variance if that variance is positive; otherwise the first entry even if observed; the unknown entries given are ignored; training indexes given as list raise if an observed entry has a plain Python number; the Stability committee raises AssertionError if nothing was observed yet (violations)."
  },
  {
   "property": "C48",
   "status": "partial",
   "theorems": [
    "Alipy.MLSelect.checkInd_legal",
    "Alipy.MLSelect.C48_audi",
    "Alipy.MLSelect.C48_auro_partial",
    "Alipy.MLSelect.C48_auro_violation",
    "Alipy.MLSelect.C48_auro_infinite_violation",
    "Alipy.MLSelect.C48_quire",
    "Alipy.MLSelect.C48_random_pairs",
    "Alipy.MLSelect.C48_random_instances_partial",
    "Alipy.MLSelect.C48_random_instances_violation"
   ],
   "note": "AUDI, QUIRE and random pairs in full, for all model outputs including infinities and NaN. AURO: raises ValueError once no instance has two unknown labels; may return a known label for scores of -inf (violations). Random instances: ValueError if there are more pairs but fewer instances than the batch size (violation)."
  },
  {
   "property": "C55",
   "status": "partial",
   "theorems": [
    "Alipy.Select.C55_vote_entropy",
    "Alipy.Select.C55_vote_entropy_labels",
    "Alipy.Select.C55_labels_accepted_partial",
    "Alipy.Select.C55_unanimous_violation",
    "Alipy.Select.C55_kl",
    "Alipy.Select.C55_density_least_confident",
    "Alipy.Select.C55_density_dominance_partial",
    "Alipy.Select.C55_density_margin",
    "Alipy.Select.C55_density_margin_violation",
    "Alipy.Select.C55_density_entropy"
   ],
   "note": "Vote entropy and KL divergence up to the 1e-9 inside of the logarithms (real logarithm, exact arithmetic); density weighting picks the largest product for batches not larger than the pool; dominance holds for least_confident (and, by the product theorem, entropy), while with margin the diversity term works the wrong way round (violation). 0/1 outputs without a 0 or without a 1, as of a unanimous committee, are refused (violation)."
  },
  {
   "property": "C61",
   "status": "partial",
   "theorems": [
    "Alipy.Quire.C61_inverse_violation",
    "Alipy.Quire.C61_downdate_violation",
    "Alipy.Quire.C61_minimum_partial",
    "Alipy.Quire.C61_single",
    "Alipy.Quire.C61_last_violation",
    "Alipy.Quire.C61_duplicates_violation",
    "Alipy.Quire.C61_choice_violation"
   ],
   "note": "Holds if the kernel is zero between labelled and unlabelled examples, or with one unlabelled example. The computed inverse of L_aa is right only in that case (inv(lambda I) is used instead of inv(lambda I + K_ll): violation, an equivalence), its reduction by one example uses an inner instead of an outer product (violation, an equivalence), a suboptimal example may be returned (violation), and the last training example is returned, labelled or not, when the computed inverse has a zero diagonal, as for duplicated examples (violation). Exact real arithmetic."
  },
  {
   "property": "C62",
   "status": "partial",
   "theorems": [
    "Alipy.StateIO.C62_actions",
    "Alipy.StateIO.C62_get_state",
    "Alipy.StateIO.C62_pop_returns",
    "Alipy.StateIO.C62_pop_default_violation",
    "Alipy.StateIO.C62_added"
   ],
   "note": "Everything but pop() without argument, which raises TypeError for every saver although the last state is documented (violation)."
  },
  {
   "property": "C63",
   "status": "partial",
   "theorems": [
    "Alipy.RankMetrics.C63_one_error_partial",
    "Alipy.RankMetrics.C63_perfect_violation",
    "Alipy.RankMetrics.C63_all_wrong_violation"
   ],
   "note": "It is the fraction of the samples with as many predicted as relevant labels: 1 for perfect predictions, 0 if every sample has too many or too few (violations)."
  },
  {
   "property": "C64",
   "status": "proved",
   "theorems": [
    "Alipy.RankMetrics.C64_unique",
    "Alipy.RankMetrics.C64_coverage",
    "Alipy.RankMetrics.C64_exists",
    "Alipy.RankMetrics.C64_best"
   ],
   "note": "0/1 labels, exact scores."
  },
  {
   "property": "C65",
   "status": "partial",
   "theorems": [
    "Alipy.RankMetrics.C65_lrap",
    "Alipy.RankMetrics.C65_lrap_weights_violation",
    "Alipy.RankMetrics.C65_lrap_weighted_partial",
    "Alipy.RankMetrics.C65_average_precision_partial",
    "Alipy.RankMetrics.C65_skipped_violation",
    "Alipy.RankMetrics.C65_weights_ignored_violation",
    "Alipy.RankMetrics.C65_ties_violation"
   ],
   "note": "label_ranking_average_precision_score without weights in full; with weights the samples with no or all labels get weight 1 (violation, an equivalence). average_precision_score for distinct scores and samples with a relevant and an irrelevant label; other samples are skipped but counted (violation), ties depend on the order of the labels (violation), weights are ignored (violation)."
  },
  {
   "property": "C66",
   "status": "partial",
   "theorems": [
    "Alipy.RankMetrics.C66_macro_partial",
    "Alipy.RankMetrics.C66_single_class_partial",
    "Alipy.RankMetrics.C66_not_micro_violation",
    "Alipy.RankMetrics.C66_one_class_violation",
    "Alipy.RankMetrics.C66_ties_violation"
   ],
   "note": "It is the mean over the classes (macro average, violation), ties count 0 (violation) and a class with one label only raises ZeroDivisionError (violation). Holds for one class without ties."
  },
  {
   "property": "C67",
   "status": "partial",
   "theorems": [
    "Alipy.RankMetrics.C67_curve",
    "Alipy.RankMetrics.C67_ties_violation",
    "Alipy.RankMetrics.C67_no_positive"
   ],
   "note": "Everything but the distinctness of the thresholds: a score above the lowest positive one that occurs several times is returned several times (violation)."
  },
  {
   "property": "C68",
   "status": "partial",
   "theorems": [
    "Alipy.MLBatch.C68_batch_partial",
    "Alipy.MLBatch.C68_rest_violation",
    "Alipy.MLBatch.C68_moved_violation",
    "Alipy.MLBatch.C68_half_done_violation"
   ],
   "note": "The batch of distinct instances in tuples when the pool is larger than the batch; otherwise plain indexes (violation). Index collections passed to select are changed by it (violation), also when training raises midway (violation)."
  },
  {
   "property": "C69",
   "status": "partial",
   "theorems": [
    "Alipy.MLBatch.C69_mmc_score",
    "Alipy.MLBatch.C69_mmc_best",
    "Alipy.MLBatch.C69_minus_one_violation",
    "Alipy.MLBatch.C69_adaptive"
   ],
   "note": "Probabilities, scores and estimated errors are parameters. MMC's number of labels is learned from the label sums, which is wrong with -1/1 labels (violation, an equivalence)."
  },
  {
   "property": "C70",
   "status": "partial",
   "theorems": [
    "Alipy.Hierarchy.C70_mark_partial",
    "Alipy.Hierarchy.C70_transposed_partial",
    "Alipy.Hierarchy.C70_direction_violation",
    "Alipy.Hierarchy.C70_missing_violation",
    "Alipy.Hierarchy.C70_one_step_violation",
    "Alipy.Hierarchy.C70_shape"
   ],
   "note": "The exact set added is proved. With the documented orientation of the tree the wrong neighbours are added: children of positive and parents of negative labels, which do not follow (violation), while what follows is not added (violation). With the transposed tree everything added follows, but only one step is made (violation)."
  },
  {
   "property": "C71",
   "status": "partial",
   "theorems": [
    "Alipy.CostSensitive.C71_few_violation",
    "Alipy.CostSensitive.C71_performance_partial",
    "Alipy.CostSensitive.C71_halc_partial",
    "Alipy.CostSensitive.C71_halc_labelled_violation",
    "Alipy.CostSensitive.C71_off_by_one_violation"
   ],
   "note": "At least as many instances and as large a budget as classes, and fewer than `budget` pairs per class; otherwise IndexError (violation) or one pair too few (violation). HALC returns labelled pairs when the budget exceeds the cost of the unlabelled ones (violation). Integer costs; decision values not 0."
  },
  {
   "property": "C72",
   "status": "partial",
   "theorems": [
    "Alipy.CostSensitive.C72_udes_partial",
    "Alipy.CostSensitive.C72_only_child_partial",
    "Alipy.CostSensitive.C72_root_violation",
    "Alipy.CostSensitive.C72_leaf_violation",
    "Alipy.CostSensitive.C72_inner_violation",
    "Alipy.CostSensitive.C72_weights_violation"
   ],
   "note": "Only for labels whose only descendant is label 1. Twice the uncertainty for positive labels and leaves, nothing of the descendants for other labels (violations); weights of the documented length are refused unless there are as many instances as classes (violation)."
  },
  {
   "property": "C73",
   "status": "partial",
   "theorems": [
    "Alipy.Analyser.C73_curve_partial",
    "Alipy.Analyser.C73_kept_shift_violation",
    "Alipy.Analyser.C73_kept_shift_right_violation",
    "Alipy.Analyser.C73_list_last_violation",
    "Alipy.Analyser.C73_start_partial",
    "Alipy.Analyser.C73_start_initial_violation",
    "Alipy.Analyser.C73_start_interval_violation",
    "Alipy.Analyser.C73_start_interval_wrong_violation",
    "Alipy.Analyser.C73_ragged_violation"
   ],
   "note": "All folds with equally many queries, and all or none with an initial point. Otherwise a curve is drawn one query too far to the left or right, depending on the methods added before (the shift found first is kept) or after (lists added last), folds of different length are accepted but not drawn, and a start_point needs plot_interval 1 and no initial points (violations)."
  },
  {
   "property": "C74",
   "status": "partial",
   "theorems": [
    "Alipy.Analyser.C74_mean_partial",
    "Alipy.Analyser.C74_deviation_violation"
   ],
   "note": "Mean and lengths agree. The standard deviation does not unless every fold is constant (violation, an equivalence): it is taken over folds for StateIO objects but over all single performances for lists."
  },
  {
   "property": "C75",
   "status": "partial",
   "theorems": [
    "Alipy.CostCurve.C75_total_cost",
    "Alipy.CostCurve.C75_curve_partial",
    "Alipy.CostCurve.C75_initial_point_violation"
   ],
   "note": "Positive costs. The initial point of the last fold is used for all folds (violation). Points are those handed to matplotlib; scipy's interp1d is modelled."
  },
  {
   "property": "C76",
   "status": "proved",
   "theorems": [
    "Alipy.Bmdr.C76_select",
    "Alipy.Bmdr.C76_labels",
    "Alipy.Bmdr.C76_run"
   ],
   "note": "Solver output: one number for every unlabelled example. The message texts and the import of cvxpy are not modelled."
  },
  {
   "property": "C77",
   "status": "proved",
   "theorems": [
    "Alipy.Bmdr.C77_z_step",
    "Alipy.Bmdr.C77_spal_z_step",
    "Alipy.Bmdr.C77_easiness",
    "Alipy.Bmdr.C77_tau_step",
    "Alipy.Bmdr.C77_spal_theta_step",
    "Alipy.Bmdr.C77_initial",
    "Alipy.Bmdr.C77_delta_step",
    "Alipy.Bmdr.C77_fixed_point",
    "Alipy.Bmdr.C77_spal_fixed_point",
    "Alipy.Bmdr.C77_round_easiness",
    "Alipy.Bmdr.C77_training_set"
   ],
   "note": "Over the reals; np.linalg.pinv is any function giving generalised inverses. That the loop converges to such a point is C111."
  },
  {
   "property": "C78",
   "status": "partial",
   "theorems": [
    "Alipy.Bmdr.C78_objective_partial",
    "Alipy.Bmdr.C78_objective_violation",
    "Alipy.Bmdr.C78_round_partial"
   ],
   "note": "The quadratic term has half the factor it should have (violation): no multiple of the distance of the means is the representativeness part of the objective, not even on the feasible selections. What the objective is instead is proved."
  },
  {
   "property": "C79",
   "status": "proved",
   "theorems": [
    "Alipy.Kernel.C79_entry",
    "Alipy.Kernel.C79_range",
    "Alipy.Kernel.C79_order",
    "Alipy.Kernel.C79_psd"
   ],
   "note": "Over the reals, sigma other than 0."
  },
  {
   "property": "C80",
   "status": "proved",
   "theorems": [
    "Alipy.C80_element_repository",
    "Alipy.C80_matrix_repository",
    "Alipy.C80_budget",
    "Alipy.C80_queries",
    "Alipy.C80_strategies"
   ],
   "note": "The loop is the one of the example scripts (a hand-written loop), with repositories without examples; training of the model and saver.save() are not modelled. The library's own loop AlExperiment is C23/C24."
  },
  {
   "property": "C81",
   "status": "partial",
   "theorems": [
    "Alipy.Noisy.C81_all_oracles_partial",
    "Alipy.Noisy.C81_random_oracle_partial",
    "Alipy.Noisy.C81_later_oracle_not_asked_violation",
    "Alipy.Noisy.C81_later_oracle_random_violation",
    "Alipy.Noisy.C81_instance_partial",
    "Alipy.Noisy.C81_last_example_violation",
    "Alipy.Noisy.C81_all_rounds_partial",
    "Alipy.Noisy.C81_random_rounds_partial",
    "Alipy.Noisy.C81_whole_pool_violation",
    "Alipy.Noisy.C81_list_asks_all_violation"
   ],
   "note": "Proved for pools of at least two examples, oracles registered before the strategy is constructed, and an Oracles object: the instance, the named oracles, and any number of rounds that leaves one example. Violations: with one unlabelled example the strategies return the index array instead of a pair, so the last example can never be labelled; the names are read off at construction, so oracles added later are never asked by All and make Random raise KeyError; with a list of oracles get_majority_vote ignores the named oracles and asks (and charges) all of them."
  },
  {
   "property": "C82",
   "status": "partial",
   "theorems": [
    "Alipy.TB.C82_constructed_is_saved",
    "Alipy.TB.C82_given_splits",
    "Alipy.TB.C82_split_is_saved_partial",
    "Alipy.TB.C82_reruns_agree_partial",
    "Alipy.TB.C82_file_path_violation",
    "Alipy.TB.C82_two_objects_violation",
    "Alipy.TB.C82_moved_violation"
   ],
   "note": "Proved for a toolbox that is saved in a directory and was made for that path. Violations: with a file as saving path split_AL always raises (split_save requires a directory) and the toolbox is never split; two objects constructed at one path before either is split keep different splits; a toolbox directory that was moved before the split saves its split under the old path, so that the next run splits anew."
  },
  {
   "property": "C83",
   "status": "partial",
   "theorems": [
    "Alipy.TB.C83_round_partial",
    "Alipy.TB.C83_cost_ignored_violation",
    "Alipy.TB.C83_no_oracle_violation",
    "Alipy.TB.C83_features_violation",
    "Alipy.TB.C83_names_violation",
    "Alipy.TB.C83_label_matrix_partial",
    "Alipy.TB.C83_matrix_repository_violation"
   ],
   "note": "Proved for a vector or a matrix of labels (the latter without the repository, with a session of C93), default instance indexes and query_type AllLabels, for rounds whose labelled and unlabelled sets are not empty (see C32 for when they are). Violations: cost_mat is ignored unless query_by_example is set; with PartLabels get_clean_oracle returns None; with Features an instance split is made, and then get_split raises; given names are taken as positions by get_repository; with a label matrix get_repository raises (three or more labelled pairs; it passes a list of tuples to numpy)."
  },
  {
   "property": "C84",
   "status": "proved",
   "theorems": [
    "Alipy.LR.C84_predict",
    "Alipy.LR.C84_all_labels"
   ],
   "note": "Over a linearly ordered field; the averages are those of C86."
  },
  {
   "property": "C85",
   "status": "proved",
   "theorems": [
    "Alipy.LR.C85_update_helps",
    "Alipy.LR.C85_size_matters",
    "Alipy.LR.C85_weights",
    "Alipy.LR.C85_compared_with",
    "Alipy.LR.C85_step",
    "Alipy.LR.C85_train_returns"
   ],
   "note": "Over a linearly ordered field; norm_up is infinite in the code, so the projections are not modelled. The order of the pairs and the draws are parameters."
  },
  {
   "property": "C86",
   "status": "partial",
   "theorems": [
    "Alipy.LR.C86_averages_partial",
    "Alipy.LR.C86_snapshots_partial",
    "Alipy.LR.C86_incremental_partial",
    "Alipy.LR.C86_no_restart_violation",
    "Alipy.LR.C86_less_relevant_violation",
    "Alipy.LR.C86_two_violation"
   ],
   "note": "Proved: the averages are means of at least one model after any sequence of calls, and exactly which models of a pass are added; incremental calls continue. Violations: train_model changes B and V in place, and the saved initial parameters are the same arrays, so that fit(is_incremental=False) trains B and V exactly as an incremental call does (only the averages are set back); labels 0.5 have no influence at all; if a label has the value 2 the last real label is taken for the threshold label and gets no prediction."
  },
  {
   "property": "C87",
   "status": "partial",
   "theorems": [
    "Alipy.BR.C87_independent",
    "Alipy.BR.C87_trained_on_column",
    "Alipy.BR.C87_refused",
    "Alipy.BR.C87_constant_partial",
    "Alipy.BR.C87_minus_one_violation",
    "Alipy.BR.C87_agree_partial",
    "Alipy.BR.C87_other_classifier_violation"
   ],
   "note": "Proved for labels 0 and 1 and base classifiers SVC and LogisticRegression. Violations: with labels 1 and -1 a label no training example has is predicted as -1 but with probability 1 and the real value 1; for other base classifiers predict_real is 0 for every label with both values."
  },
  {
   "property": "C88",
   "status": "partial",
   "theorems": [
    "Alipy.Adaptive.C88_adaptive_values",
    "Alipy.Peek.C88_uncertainty",
    "Alipy.Peek.C88_qbc",
    "Alipy.Peek.C88_eer_partial",
    "Alipy.Peek.C88_eer_violation",
    "Alipy.Peek.C88_quire",
    "Alipy.Peek.C88_audi",
    "Alipy.Peek.C88_auro",
    "Alipy.Peek.C88_halc",
    "Alipy.Peek.C88_performance",
    "Alipy.Peek.C88_bmdr",
    "Alipy.Peek.C88_mmc_partial",
    "Alipy.Peek.C88_mmc_violation",
    "Alipy.Peek.C88_adaptive"
   ],
   "note": "Proved without restriction for uncertainty sampling, QBC, QUIRE, AUDI, AURO, Adaptive, HALC and Performance; for BMDR and SPAL if both classes are among the known labels. Violations: EER takes the classes from all labels, and a class that occurs only among unknown labels makes it raise; MMC decides from all labels whether all examples have equally many, and raises or not accordingly. Both are proved for label sets that agree in this respect."
  },
  {
   "property": "C89",
   "status": "partial",
   "theorems": [
    "Alipy.MLQuire.C89_value_partial",
    "Alipy.MLQuire.C89_select_partial",
    "Alipy.MLQuire.C89_downdate_violation",
    "Alipy.MLQuire.C89_choice_violation",
    "Alipy.MLQuire.C89_order_violation"
   ],
   "note": "Proved for a pool of at most two pairs, or of pairs of pairwise different labels, if the set of known pairs is iterated in sorted order. Violations: b.T.dot(b) of one-dimensional arrays is a number, so that with three or more pairs the inverse without a pair is wrong unless the pair is unrelated to all others, with a case in which a wrong pair is returned; the labels follow the iteration order of label_index while the indexes are sorted, so that labels are attributed to wrong pairs, with a case in which a wrong pair is returned."
  },
  {
   "property": "C90",
   "status": "partial",
   "theorems": [
    "Alipy.Adaptive.C90_uncertainty",
    "Alipy.Adaptive.C90_cardinality",
    "Alipy.Adaptive.C90_error",
    "Alipy.Adaptive.C90_select_partial",
    "Alipy.Adaptive.C90_returns",
    "Alipy.Adaptive.C90_other_classifier_violation"
   ],
   "note": "Proved as stated for the real values given by binary relevance. Violation: with a base classifier other than SVC and LogisticRegression (the documentation only asks for predict_proba) all examples have the same real values, hence the same uncertainty. For labels -1/1 the real values of labels that no labelled example has are wrong, see C87."
  },
  {
   "property": "C91",
   "status": "partial",
   "theorems": [
    "Alipy.Exper.C91_own_result_unique",
    "Alipy.Exper.C91_one_thread_partial",
    "Alipy.Exper.C91_sequential_partial",
    "Alipy.Exper.C91_any_schedule_partial",
    "Alipy.Exper.C91_shared_model_violation",
    "Alipy.Exper.C91_initial_point_stays",
    "Alipy.Exper.C91_time_limit_violation"
   ],
   "note": "Proved with max_thread=1 and with multi_thread=False; for any number of threads the bookkeeping (partition, queries, stopping) is right. Violations: the rounds share one model, so that with two threads a round can record the performance of the model of another round, and it keeps it; with time_limit the time is counted from the construction of the experiment, so that with multi_thread=False rounds after the one that used up the time make no query. fit and predict are one step each, query strategies keep no state between queries."
  },
  {
   "property": "C92",
   "status": "partial",
   "theorems": [
    "Alipy.Setup.C92_settings_partial",
    "Alipy.Setup.C92_results",
    "Alipy.Setup.C92_refused",
    "Alipy.Setup.C92_metric_argument_violation",
    "Alipy.Setup.C92_back_violation",
    "Alipy.Setup.C92_lost_exception_violation",
    "Alipy.Setup.C92_accumulates_violation",
    "Alipy.Setup.C92_failed_split_violation",
    "Alipy.Setup.C92_failed_strategy_violation"
   ],
   "note": "Proved for histories of calls that do not raise, without a predefined strategy after a user-defined one. Violations: performance_metric of the constructor is ignored; after a user-defined strategy QUIRE and graph density are not used at all and others get its keyword arguments; a failing split_AL or set_query_strategy changes the object; with threads exceptions of rounds are lost; with multi_thread=False results of repeated calls accumulate."
  },
  {
   "property": "C93",
   "status": "partial",
   "theorems": [
    "Alipy.PairSession.C93_lists",
    "Alipy.PairSession.C93_within_budget_partial",
    "Alipy.PairSession.C93_never_ends_violation",
    "Alipy.PairSession.C93_empty_queries_violation",
    "Alipy.PairSession.C93_lost_query_violation",
    "Alipy.PairSession.C93_feature_random",
    "Alipy.PairSession.C93_random_pairs",
    "Alipy.PairSession.C93_feature_batch_violation"
   ],
   "note": "Proved for strategies that always return a list of their own, and for the strategies as they are within a budget that keeps away from the end of the pool. Violations: with few unknown entries the strategies return the container itself; removing it from itself empties it, so that the State records an empty query and the workspace of the saver still has the entries as unknown. So a session without criterion, with a cost limit, or with 100 per cent never ends, and a session with a larger budget makes empty queries. QueryFeatureRandom raises ValueError with 2 or more, but fewer than batch_size unknown entries."
  },
  {
   "property": "C94",
   "status": "partial",
   "theorems": [
    "Alipy.GraphDensity.C94_call",
    "Alipy.GraphDensity.C94_series",
    "Alipy.GraphDensity.C94_raises_violation",
    "Alipy.GraphDensity.C94_negative_violation",
    "Alipy.GraphDensity.C94_object_kept_violation",
    "Alipy.GraphDensity.C94_weights",
    "Alipy.GraphDensity.C94_symmetric",
    "Alipy.GraphDensity.C94_density",
    "Alipy.GraphDensity.C94_density_range"
   ],
   "note": "Proved: the graph, the densities, and that a call and a series of calls are a greedy choice. Violations: when the greatest density left is negative (the rule once neighbours of each other have been taken) its neighbours are raised, not lowered; the changed densities stay in the object, so that a second experiment with the same object does not start from the densities of the graph. The nearest neighbours are those of the Manhattan distance whatever the metric; they are a parameter of the model."
  },
  {
   "property": "C95",
   "status": "partial",
   "theorems": [
    "Alipy.Alias.C95_record_partial",
    "Alipy.Alias.C95_train",
    "Alipy.Alias.C95_handed_out",
    "Alipy.Alias.C95_getitem_violation",
    "Alipy.Alias.C95_state_partial",
    "Alipy.Alias.C95_performance_violation",
    "Alipy.Alias.C95_initial_point_violation"
   ],
   "note": "Proved for programs that do not index the saver or iterate over it, and for performances and costs that are numbers or flat lists. Violations: saver[i] and iteration hand out the recorded State itself, so that set_value on it changes the record; performance and cost are copied at the top only, so that a later change of an inner object changes the state; initial_point is kept by reference."
  },
  {
   "property": "C96",
   "status": "partial",
   "theorems": [
    "Alipy.MetricSymmetry.C96_accuracy_vector",
    "Alipy.MetricSymmetry.C96_accuracy_matrix",
    "Alipy.MetricSymmetry.C96_zero_one_vector",
    "Alipy.MetricSymmetry.C96_zero_one_matrix",
    "Alipy.MetricSymmetry.C96_hamming_vector",
    "Alipy.MetricSymmetry.C96_hamming_matrix",
    "Alipy.MetricSymmetry.C96_roc_auc",
    "Alipy.MetricSymmetry.C96_precision_recall",
    "Alipy.MetricSymmetry.C96_one_error",
    "Alipy.MetricSymmetry.C96_ranking_loss",
    "Alipy.MetricSymmetry.C96_coverage",
    "Alipy.MetricSymmetry.C96_lrap",
    "Alipy.MetricSymmetry.C96_micro_auc",
    "Alipy.MetricSymmetry.C96_average_precision_examples",
    "Alipy.MetricSymmetry.C96_average_precision_labels_partial",
    "Alipy.MetricSymmetry.C96_average_precision_violation",
    "Alipy.MetricSymmetry.C96_roc_auc_monotone",
    "Alipy.MetricSymmetry.C96_ranking_monotone",
    "Alipy.MetricSymmetry.C96_micro_auc_monotone",
    "Alipy.MetricSymmetry.C96_one_error_violation",
    "Alipy.MetricSymmetry.C96_class_names",
    "Alipy.MetricSymmetry.C96_weight_unit",
    "Alipy.MetricSymmetry.C96_weight_unit_violation"
   ],
   "note": "Proved, including which exception is raised, for all metrics and orders, but not for the order of the labels in average_precision_score when an example has equal scores (violation: 1 or 1/2 for the same example). Violations: one_error changes when 1 is added to all scores; label_ranking_average_precision_score changes with the unit of the weights. Exact arithmetic."
  },
  {
   "property": "C97",
   "status": "partial",
   "theorems": [
    "Alipy.Rounding.C97_least_confident",
    "Alipy.Rounding.C97_least_confident_error",
    "Alipy.Rounding.C97_margin",
    "Alipy.Rounding.C97_margin_error",
    "Alipy.Rounding.C97_percent_not_late",
    "Alipy.Rounding.C97_percent_not_early",
    "Alipy.Rounding.C97_cost_limit",
    "Alipy.Rounding.C97_entropy",
    "Alipy.Rounding.C97_accuracy",
    "Alipy.Rounding.C97_accuracy_order",
    "Alipy.Rounding.C97_train_size",
    "Alipy.Rounding.C97_fraction_size",
    "Alipy.Rounding.C97_cost_limit_violation"
   ],
   "note": "Proved except for `cost_limit`, which is exact only up to the rounding error per query: `C97_cost_limit_violation` (queries of cost 1/m do not reach the limit 1 after m of them; with doubles, ten queries of cost 0.1 give 0.9999999999999999). Overflow, NaN and the error of `np.log` itself are not modelled (the latter is a parameter)."
  },
  {
   "property": "C98",
   "status": "partial",
   "theorems": [
    "Alipy.Resume.C98_same_end_partial",
    "Alipy.Resume.C98_same_failure_partial",
    "Alipy.Resume.C98_resumed_ends_partial",
    "Alipy.Resume.C98_queries_partial",
    "Alipy.Resume.C98_killed_while_saving_violation",
    "Alipy.Resume.C98_time_limit_violation"
   ],
   "note": "Proved for every criterion but `time_limit` and for interruptions at any point but within `save`. `C98_killed_while_saving_violation`: `save` empties the file before it writes (state_io.py line 161), so a process killed there leaves a file that cannot be loaded, and all of the record is lost. `C98_time_limit_violation`: the time starts anew when a session is resumed. Strategies with randomness or a memory of their own are not covered; a complete file is taken to give back the object saved."
  },
  {
   "property": "C99",
   "status": "partial",
   "theorems": [
    "Alipy.Perf.C99_accuracy",
    "Alipy.Perf.C99_hamming",
    "Alipy.Perf.C99_accuracy_rows",
    "Alipy.Perf.C99_hamming_cells",
    "Alipy.Perf.C99_unknown_name",
    "Alipy.Perf.C99_auc_column_partial",
    "Alipy.Perf.C99_auc_proba_violation",
    "Alipy.Perf.C99_auc_vector_violation",
    "Alipy.Perf.C99_ranking_metrics_violation",
    "Alipy.Perf.C99_experiment_auc"
   ],
   "note": "Proved for accuracy and Hamming loss of label vectors and of label matrices of at most two values, unknown names, for the area under the curve of scores in a table with one column, and for AlExperiment. Violations: for the metrics with scores only the first column is used (toolbox.py line 444), so that with the probabilities of predict_proba the result is one minus the area under the curve of the positive class; scores in one dimension raise IndexError; coverage_error, label_ranking_loss and label_ranking_average_precision_score raise for all arguments. one_error and f1_score are passed on (C63 says what one_error computes; f1_score is sklearn's)."
  },
  {
   "property": "C100",
   "status": "partial",
   "theorems": [
    "Alipy.Select.C100_classes",
    "Alipy.Select.C100_examples",
    "Alipy.Select.C100_committee",
    "Alipy.Select.C100_two_classes_partial",
    "Alipy.Select.C100_two_classes_ties_partial",
    "Alipy.Select.C100_certain_violation"
   ],
   "note": "The listing of classes, examples and committee members: proved. Two classes: proved if both probabilities are positive. Violation: the entropy measure replaces a probability of 0 by 1e-6 (query_labels.py line 212), so that an example whose class is certain is taken to be more uncertain than every example with a probability of at most 1e-7 for the other class, which the other two measures prefer."
  },
  {
   "property": "C101",
   "status": "proved",
   "theorems": [
    "Alipy.Fair.C101_split_count",
    "Alipy.Fair.C101_split_possible",
    "Alipy.Fair.C101_split",
    "Alipy.Fair.C101_all_class",
    "Alipy.Fair.C101_random_select",
    "Alipy.Fair.C101_random_sampling",
    "Alipy.Fair.C101_pairs",
    "Alipy.Fair.C101_instances",
    "Alipy.Fair.C101_features",
    "Alipy.Fair.C101_multi_label",
    "Alipy.Fair.C101_feature_split"
   ],
   "note": "Under the assumption that all permutations are equally likely effects of np.random.shuffle; probability is the number of permutations. Of multi-label and feature splits those that do not ask for all classes or features are covered (`C101_multi_label`, `C101_feature_split`)."
  },
  {
   "property": "C102",
   "status": "proved",
   "theorems": [
    "Alipy.Consensus.C102_votes",
    "Alipy.Consensus.C102_two_classes",
    "Alipy.Consensus.C102_kl",
    "Alipy.Consensus.C102_labels"
   ],
   "note": "Real logarithm, exact arithmetic. 0/1 outputs are subject to the refusal of unanimous committees stated in C55."
  },
  {
   "property": "C103",
   "status": "partial",
   "theorems": [
    "Alipy.TTest.C103_symmetric",
    "Alipy.TTest.C103_order",
    "Alipy.TTest.C103_scale",
    "Alipy.TTest.C103_same",
    "Alipy.TTest.C103_one_pair",
    "Alipy.TTest.C103_constant",
    "Alipy.TTest.C103_decision",
    "Alipy.TTest.C103_monotone",
    "Alipy.TTest.C103_docs_violation",
    "Alipy.TTest.C103_layout_violation",
    "Alipy.TTest.C103_rows_columns"
   ],
   "note": "Proved for arrays of one dimension and for two rows or two columns. Violations: the example of the docstring is said to give 1 but gives 0; a row beside an array of one dimension or a column raises AssertionError, a column as second argument beside an array of one dimension TypeError. The survival function of Student's distribution is a parameter; scipy.stats.ttest_rel is its formula, over the reals."
  },
  {
   "property": "C104",
   "status": "partial",
   "theorems": [
    "Alipy.Lal.C104_features_partial",
    "Alipy.Lal.C104_ranges",
    "Alipy.Lal.C104_trees",
    "Alipy.Lal.C104_alike",
    "Alipy.Lal.C104_selection",
    "Alipy.Lal.C104_untrained",
    "Alipy.Lal.C104_share_violation",
    "Alipy.Lal.C104_importance_violation",
    "Alipy.Lal.C104_binary"
   ],
   "note": "The features are proved for a positive and a non-positive label. Violations: with two positive labels (1 and 2) the share of positive labels is always 1; the fifth feature, called coefficient of variance of the importances, is the standard deviation divided by the number of features, the square of the number of features times less. The forest and the regressor are parameters, real numbers."
  },
  {
   "property": "C105",
   "status": "partial",
   "theorems": [
    "Alipy.Forms.C105_numbers_or_tuples",
    "Alipy.Forms.C105_collection_or_numbers",
    "Alipy.Forms.C105_empty_violation",
    "Alipy.Forms.C105_rows_violation",
    "Alipy.Forms.C105_default_order_violation",
    "Alipy.Forms.C105_feature_collection",
    "Alipy.Forms.C105_feature_message_violation",
    "Alipy.Forms.C105_toolbox_partial",
    "Alipy.Forms.C105_toolbox_violation",
    "Alipy.Forms.C105_toolbox_empty_violation"
   ],
   "note": "Proved: numbers and tuples are read as the same collection, for label and for feature queries; a collection and its column major numbers stand for the same pairs; FeatureIndexCollection is the label collection. Violations, each proved in general: an empty list or array is refused although an empty collection is accepted, so nothing-labelled-yet can only be said with a collection; a tuple may name a row outside the matrix; the default order of get_onedim_index is not the order in which strategies read numbers; every refusal by FeatureIndexCollection claims that the number of features could not be inferred, also when it was given; the toolbox refuses every array of numbers, because it passes the array under a wrong parameter name."
  },
  {
   "property": "C106",
   "status": "partial",
   "theorems": [
    "Alipy.PlotCheck.C106_batch_partial",
    "Alipy.PlotCheck.C106_batch_shown",
    "Alipy.PlotCheck.C106_batch_violation",
    "Alipy.PlotCheck.C106_continuity_partial",
    "Alipy.PlotCheck.C106_continuity_order_violation",
    "Alipy.PlotCheck.C106_continuity_mixed_violation",
    "Alipy.PlotCheck.C106_warning_violation",
    "Alipy.PlotCheck.C106_finite_partial",
    "Alipy.PlotCheck.C106_unchecked_violation"
   ],
   "note": "Proved: with StateIO objects added last, plotting goes on exactly if all performances are finite; _check_methods_continuity answers as documented if the initial points are of one type; when a batch size is shown. Violations, each proved in general: the warning is never given (the method is tested instead of called); nothing is checked if lists were added last; the last query of every fold is ignored for the batch size and folds with one query have none; two methods without one batch size count as having the same; the answer depends on the order of the methods if Python and numpy numbers are mixed as initial points."
  },
  {
   "property": "C107",
   "status": "partial",
   "theorems": [
    "Alipy.Progress.C107_progress",
    "Alipy.Progress.C107_current",
    "Alipy.Progress.C107_record",
    "Alipy.Progress.C107_failed_print_violation",
    "Alipy.Progress.C107_mixed_violation"
   ],
   "note": "Proved for performances that are numbers and at least one initial index and an interval of 1 or more (schedule, contents); independence of the record from printing holds for all performances. Violations, each proved in general: with both initial sets empty or interval 0, add_state raises ZeroDivisionError after having recorded the query; whether NaN is shown depends on the first performance alone, and a later performance that is not a number makes showing fail."
  },
  {
   "property": "C108",
   "status": "partial",
   "theorems": [
    "Alipy.Causal.C108_only_known_labels",
    "Alipy.Causal.C108_test_labels",
    "Alipy.Causal.C108_shared_model_violation"
   ],
   "note": "Proved for rounds that run one at a time (multi_thread=False or max_thread=1, see C91), for strategies that read the labels of labelled examples only (C88 says which do). Violation: with two threads the rounds share the model, so that there is a schedule in which the first query of round 0 is made with the model trained on the labelled examples of round 1, which may contain test examples of round 0."
  },
  {
   "property": "C109",
   "status": "partial",
   "theorems": [
    "Alipy.Afasmc.C109_threshold_partial",
    "Alipy.Afasmc.C109_steps",
    "Alipy.Afasmc.C109_rate_partial",
    "Alipy.Afasmc.C109_result_partial",
    "Alipy.Afasmc.C109_optimum",
    "Alipy.Afasmc.C109_linear_model",
    "Alipy.Afasmc.C109_not_orthogonal_violation"
   ],
   "note": "Proved in exact arithmetic if the eigenvectors that np.linalg.eig returns for a multiple eigenvalue other than 0 are orthogonal. Violation: np.linalg.eig (instead of eigh) does not promise this, and for a multiple of the identity with any other eigenvectors the result of _svd_threshold is not optimal. The early stop at a relative change of 1e-6 is part of the model and has no guarantee beyond the bound for the steps made; of the rounds, usually the first is returned (C59). The rounds all use the same linear model, fitted to the matrix with 0 for entries not observed (line 200 reads X_obr)."
  },
  {
   "property": "C110",
   "status": "proved",
   "theorems": [
    "Alipy.Features.C110_trace",
    "Alipy.Features.C110_best_rank",
    "Alipy.Features.C110_svd_exists",
    "Alipy.Features.C110_descent",
    "Alipy.Features.C110_error",
    "Alipy.Features.C110_changes",
    "Alipy.Features.C110_ends"
   ],
   "note": "Real arithmetic; TruncatedSVD is assumed to compute a truncated singular value decomposition exactly (that this is a best approximation of its rank, the theorem of Eckart and Young, and that it exists, is proved). That arpack refuses ranks that are not less than the number of columns is not modelled."
  },
  {
   "property": "C111",
   "status": "proved",
   "theorems": [
    "Alipy.Bmdr.C111_best_exists",
    "Alipy.Bmdr.C111_bmdr_converges",
    "Alipy.Bmdr.C111_spal_converges",
    "Alipy.Bmdr.C111_rate",
    "Alipy.Bmdr.C111_ends",
    "Alipy.Bmdr.C111_bmdr_select",
    "Alipy.Bmdr.C111_spal_select"
   ],
   "note": "Exact real arithmetic; np.linalg.pinv is any generalised inverse; the kernel matrix of the labelled examples is symmetric and positive semidefinite. MAX_ITER is the parameter n of C111_ends (the code stops after MAX_ITER rounds at the latest); the bound on the number of rounds is explicit but may exceed MAX_ITER. For predictions on examples with weight zero nothing is claimed. Which examples are selected from one model to the next is not covered (C76)."
  },
  {
   "property": "C112",
   "status": "partial",
   "theorems": [
    "Alipy.Bmdr.C112_bmdr",
    "Alipy.Bmdr.C112_spal",
    "Alipy.Bmdr.C112_bool_violation",
    "Alipy.Quire.C112_quire_partial",
    "Alipy.Quire.C112_quire_violation"
   ],
   "note": "BMDR and SPAL in full for integer labels (exact arithmetic, np.linalg.pinv the Moore-Penrose inverse). Findings: QUIRE does not recode the labels, so that with the classes 0 and 1 the selection changes when the names are exchanged (C112_quire_violation; with 1 and -1 it does not, C112_quire_partial); labels in an array of booleans all become 1 in BMDR and SPAL (C112_bool_violation)."
  },
  {
   "property": "C113",
   "status": "partial",
   "theorems": [
    "Alipy.Params.C113_experiment_partial",
    "Alipy.Params.C113_unknown_violation",
    "Alipy.Params.C113_qp_solver_violation",
    "Alipy.Params.C113_metric_violation",
    "Alipy.Params.C113_toolbox",
    "Alipy.Params.C113_toolbox_refused",
    "Alipy.Params.C113_toolbox_violation"
   ],
   "note": "All parameters of the constructors, for all strategies known by name, through the experiment and through the toolbox. Findings: an experiment silently ignores a parameter the strategy does not have, a misspelled one for instance (C113_unknown_violation), and so do the toolbox and the constructors of QueryInstanceRandom, QUIRE, BMDR, SPAL and LAL (C113_toolbox_violation); the others refuse it (C113_toolbox_refused). The option qp_solver of BMDR and SPAL cannot be set in an experiment: the code reads qp_sover (C113_qp_solver_violation). Parameters given to set_performance_metric are dropped (C113_metric_violation)."
  },
  {
   "property": "C114",
   "status": "proved",
   "theorems": [
    "Alipy.Exper.C114_curve",
    "Alipy.Exper.C114_num_of_queries"
   ],
   "note": "For runs with one round at a time (multi_thread=False, or max_thread=1); with several threads the model is shared (C91_shared_model_violation). The performance of the model is a number (metrics that return an array are not drawn)."
  },
  {
   "property": "C115",
   "status": "partial",
   "theorems": [
    "Alipy.CostSensitive.C115_optimal_partial",
    "Alipy.CostSensitive.C115_float_violation",
    "Alipy.CostSensitive.C115_capacity_violation",
    "Alipy.CostSensitive.C115_strategy_violation"
   ],
   "note": "Best selection proved if every cost within the capacity is an integer (floats above the capacity may occur) and the capacity is an integer. Violations, each proved in general: a float cost that is not above the capacity makes the call raise IndexError, also 2.0 (C115_float_violation); a float capacity, the documented type, raises TypeError (C115_capacity_violation); in QueryCostSensitiveHALC and QueryCostSensitivePerformance one class with a float cost makes all costs floats (C115_strategy_violation)."
  },
  {
   "property": "C116",
   "status": "proved",
   "theorems": [
    "Alipy.Oracles.C116_oracles",
    "Alipy.Oracles.C116_summary",
    "Alipy.ERepo.C116_element_repository",
    "Alipy.MRepo.C116_matrix_repository"
   ],
   "note": "The values in the tables are modelled, not their text. Oracles are functions of the query, so that an oracle named twice in one query gives the same answer twice; full_history shows it once and counts it twice. Lists given by the caller are values: changing them after the call is not modelled."
  },
  {
   "property": "C117",
   "status": "partial",
   "theorems": [
    "Alipy.ResultForms.C117_performances",
    "Alipy.ResultForms.C117_costs",
    "Alipy.ResultForms.C117_lists",
    "Alipy.ResultForms.C117_axis",
    "Alipy.ResultForms.C117_refused",
    "Alipy.ResultForms.C117_names_violation",
    "Alipy.ResultForms.C117_tuples_violation",
    "Alipy.ResultForms.C117_paths_violation",
    "Alipy.ResultForms.C117_empty_violation",
    "Alipy.ResultForms.C117_half_added_violation"
   ],
   "note": "Holds for every accepted form and content. Partial because get_methods_names reads an attribute that is never set and always raises AttributeError (C117_names_violation), the analyser of queries refuses the documented lists of (x, y) tuples (C117_tuples_violation), a list that begins with a path is refused though a container reads paths (C117_paths_violation), an analyser without methods cannot be printed (C117_empty_violation), and a method whose summary raises stays half added (C117_half_added_violation)."
  },
  {
   "property": "C118",
   "status": "proved",
   "theorems": [
    "Alipy.Kernels.C118_kernels",
    "Alipy.Kernels.C118_defaults",
    "Alipy.Kernels.C118_refused",
    "Alipy.Kernels.C118_psd",
    "Alipy.Kernels.C118_quire",
    "Alipy.Kernels.C118_ml_quire",
    "Alipy.Kernels.C118_initial",
    "Alipy.Kernels.C118_convex",
    "Alipy.Kernels.C118_local_is_global",
    "Alipy.Kernels.C118_admm",
    "Alipy.Kernels.C118_negative_violation"
   ],
   "note": "Exact real arithmetic; the kernels of sklearn are modelled by what they compute. Outside the statement: negative parameters are accepted, and then the constructor of QUIRE can fail (C118_negative_violation)."
  },
  {
   "property": "C119",
   "status": "proved",
   "theorems": [
    "Alipy.Eer.C119_log_loss",
    "Alipy.Eer.C119_select",
    "Alipy.Eer.C119_order",
    "Alipy.Eer.C119_zero_violation",
    "Alipy.Eer.C119_best_left_out_violation"
   ],
   "note": "Exact real arithmetic with NaN. Outside the statement: a probability of zero makes log_loss NaN (0 times log 0), and NaN is sorted last, so a query after which the model would exclude a class for some example is not made while there are enough others (C119_zero_violation), even if it is the best one (C119_best_left_out_violation). Other class labels: see C56."
  },
  {
   "property": "C120",
   "status": "proved",
   "theorems": [
    "Alipy.Files.C120_files",
    "Alipy.Files.C120_threads",
    "Alipy.Files.C120_saver",
    "Alipy.Files.C120_stateio",
    "Alipy.Files.C120_write",
    "Alipy.Files.C120_one_file_violation",
    "Alipy.Files.C120_methods_violation",
    "Alipy.Files.C120_mixed_split_violation"
   ],
   "note": "Files are written whole at once (crashes: C53). Outside the statement: if the path is not a directory that is there, all rounds are written to one file and only the last survives (C120_one_file_violation); two methods compared with one toolbox get savers with the same files, so the results of the first are lost, and get_stateio with saving_path=None saves though it is documented not to (C120_methods_violation); split_load can mix two splits (C120_mixed_split_violation)."
  },
  {
   "property": "C121",
   "status": "proved",
   "theorems": [
    "Alipy.Batches.C121_uncertainty",
    "Alipy.Batches.C121_committee",
    "Alipy.Batches.C121_lal",
    "Alipy.Batches.C121_density_weighted",
    "Alipy.Batches.C121_eer",
    "Alipy.Batches.C121_sequential",
    "Alipy.Batches.C121_coreset_history",
    "Alipy.Batches.C121_coreset",
    "Alipy.Batches.C121_graph_density"
   ],
   "note": "The selected sets are nested for the scoring strategies; the coreset and graph density results use C45 and C94. For density weighting a batch beyond the pool returns fewer examples (an example in the file, in general C31). BMDR and SPAL solve a joint problem for the batch and the random strategies draw anew: nothing of the kind is claimed for them."
  },
  {
   "property": "C122",
   "status": "proved",
   "theorems": [
    "Alipy.Perfect.C122_ranking_loss",
    "Alipy.Perfect.C122_coverage",
    "Alipy.Perfect.C122_lrap",
    "Alipy.Perfect.C122_average_precision",
    "Alipy.Perfect.C122_agree",
    "Alipy.Perfect.C122_auc",
    "Alipy.Perfect.C122_labels",
    "Alipy.Perfect.C122_label_rows"
   ],
   "note": "Uses the characterisations C37-C40, C64, C65. one_error is left out, as it is not an error (C63); so are weights of the average precisions (C65)."
  },
  {
   "property": "C123",
   "status": "proved",
   "theorems": [
    "Alipy.Geometry.C123_distances",
    "Alipy.Geometry.C123_coreset_order",
    "Alipy.Geometry.C123_coreset",
    "Alipy.Geometry.C123_density_weighted",
    "Alipy.Geometry.C123_rbf",
    "Alipy.Geometry.C123_kernels",
    "Alipy.Geometry.C123_quire"
   ],
   "note": "Exact real arithmetic (for rounding see C97). Graph density is left out: its densities exp(-d * gamma) with gamma fixed by the number of features do depend on the unit of the features."
  },
  {
   "property": "C124",
   "status": "proved",
   "theorems": [
    "Alipy.Exper.C124_start",
    "Alipy.Exper.C124_end",
    "Alipy.Exper.C124_number_of_queries",
    "Alipy.Exper.C124_curves"
   ],
   "note": "Builds on C80, C91 and C114. The order of the labelled examples differs between methods, and a learner that depends on it need not end at the same height; the plot interval has to divide the numbers of queries, as otherwise the curves stop before the end (C73)."
  },
  {
   "property": "C125",
   "status": "proved",
   "theorems": [
    "Alipy.CostSensitive.C125_knapsack",
    "Alipy.CostSensitive.C125_more_budget",
    "Alipy.CostSensitive.C125_poss",
    "Alipy.CostSensitive.C125_random",
    "Alipy.CostSensitive.C125_same_candidates",
    "Alipy.CostSensitive.C125_strategy_violation",
    "Alipy.Stop.C125_cost_limit",
    "Alipy.Noisy.C125_ceal",
    "Alipy.CostCurve.C125_cost_curve"
   ],
   "note": "Exact arithmetic. Outside the statement: HALC and Performance themselves depend on the unit of cost, because the budget is also taken as the number of candidates of a label, less one; with costs and budget multiplied by two or more the same pool gives a better selection (C125_strategy_violation). CEAL raises smaller costs to 1/10000."
  },
  {
   "property": "C126",
   "status": "proved",
   "theorems": [
    "Alipy.Workers.C126_any_schedule",
    "Alipy.Workers.C126_recovered",
    "Alipy.Workers.C126_target",
    "Alipy.Workers.C126_target_violation",
    "Alipy.Workers.C126_second_start_violation",
    "Alipy.Workers.C126_forms",
    "Alipy.Workers.C126_cold_start_violation",
    "Alipy.Workers.C126_inferred_violation"
   ],
   "note": "The workers reach shared objects (examples, labels, global_parameters) for reading only. Outside the statement: an empty labelled list together with a list of tuples makes two index collections, the unlabelled one of rows (C126_cold_start_violation); StateIO infers the number of labels from each list by itself, so a queried label that the labelled list does not have makes the workspace fail for good (C126_inferred_violation); a second start_all_threads on the same object raises RuntimeError (C126_second_start_violation); parameters after * are not seen, and a function that requires a further parameter is accepted though every thread fails (C126_target_violation). An exception in a worker is only printed by Python, and start_all_threads returns normally; save() before the start raises AttributeError. A list together with a collection is not modelled."
  },
  {
   "property": "C127",
   "status": "proved",
   "theorems": [
    "Alipy.Improve.C127_auc",
    "Alipy.Improve.C127_ranking_loss",
    "Alipy.Improve.C127_coverage",
    "Alipy.Improve.C127_lrap",
    "Alipy.Improve.C127_average_precision",
    "Alipy.Improve.C127_micro_auc",
    "Alipy.Improve.C127_lrap_ties_violation",
    "Alipy.Improve.C127_labels",
    "Alipy.Improve.C127_label_rows"
   ],
   "note": "Builds on C37 to C40 and C64 to C66; micro_auc_score as far as C66 goes (it is the mean over the classes; no ties between positive and other examples of a class). Outside the statement: with equal scores the two average precisions can fall when the score of a relevant label is raised (C127_lrap_ties_violation, for every number of labels). one_error is left out, see C63."
  },
  {
   "property": "C128",
   "status": "proved",
   "theorems": [
    "Alipy.ScaleUnits.C128_units",
    "Alipy.ScaleUnits.C128_mirrored",
    "Alipy.ScaleUnits.C128_again",
    "Alipy.ScaleUnits.C128_order",
    "Alipy.ScaleUnits.C128_standard_unit_violation",
    "Alipy.ScaleUnits.C128_standard_offset",
    "Alipy.ScaleUnits.C128_standard_twice_violation"
   ],
   "note": "Exact arithmetic. Outside the statement: StandardScale does depend on the unit: measured in a unit that makes the numbers u times as large the standardised numbers are u times as small (C128_standard_unit_violation), and applied twice it gives the differences to the mean in the original unit (C128_standard_twice_violation), both because it divides by the variance (C52)."
  },
  {
   "property": "C129",
   "status": "proved",
   "theorems": [
    "Alipy.Display.C129_apart",
    "Alipy.Display.C129_number",
    "Alipy.Display.C129_due",
    "Alipy.Display.C129_clock",
    "Alipy.Display.C129_not_started",
    "Alipy.Display.C129_ended_violation",
    "Alipy.Display.C129_moment",
    "Alipy.Display.C129_table",
    "Alipy.Display.C129_pop_violation"
   ],
   "note": "Exact arithmetic; the layout of the table and the rounding to three digits are not modelled. Outside the statement: the time of a round goes on after its thread has ended (C129_ended_violation); a worker that takes states back (recover_workspace, pop) while its line is made can end the main program with IndexError (C129_pop_violation); the number of queries is read before the performance, so the two can differ by the states added in between (C129_moment)."
  },
  {
   "property": "C130",
   "status": "proved",
   "theorems": [
    "Alipy.Shade.C130_lines",
    "Alipy.Shade.C130_area",
    "Alipy.Shade.C130_start",
    "Alipy.Shade.C130_between",
    "Alipy.Shade.C130_folds",
    "Alipy.Shade.C130_order",
    "Alipy.Shade.C130_interval_violation",
    "Alipy.Shade.C130_cost_lines",
    "Alipy.Shade.C130_cost_area",
    "Alipy.Shade.C130_shift_violation"
   ],
   "note": "Defects on record as theorems: with a start point and plot_interval k > 1 the mean of the first queries is drawn at k and its area at 1; with x_shift other than 0 the lines over costs are moved and their areas are not."
  },
  {
   "property": "C131",
   "status": "proved",
   "theorems": [
    "Alipy.Noisy.C131_plurality",
    "Alipy.Noisy.C131_most",
    "Alipy.Noisy.C131_oracles",
    "Alipy.Noisy.C131_oracles_object",
    "Alipy.Noisy.C131_better"
   ],
   "note": ""
  },
  {
   "property": "C132",
   "status": "proved",
   "theorems": [
    "Alipy.Noisy.C132_vote",
    "Alipy.Noisy.C132_iethresh",
    "Alipy.Noisy.C132_iethresh_run",
    "Alipy.Split.C132_split",
    "Alipy.Select.C132_committee"
   ],
   "note": "For the metrics see C96_class_names."
  },
  {
   "property": "C133",
   "status": "proved",
   "theorems": [
    "Alipy.Select.C133_entropy_score",
    "Alipy.Select.C133_entropy",
    "Alipy.Select.C133_least_confident",
    "Alipy.Select.C133_margin",
    "Alipy.Select.C133_margin_violation",
    "Alipy.Select.C133_even_entropy",
    "Alipy.Select.C133_even_least_confident",
    "Alipy.Select.C133_even_margin"
   ],
   "note": "On record as a theorem: the margin does not see evenness beyond the two most likely classes; moving probability from the second to the third makes the prediction evener and its score lower (C133_margin_violation)."
  },
  {
   "property": "C134",
   "status": "proved",
   "theorems": [
    "Alipy.CompletionForms.C134_forms",
    "Alipy.CompletionForms.C134_order",
    "Alipy.CompletionForms.C134_keeps",
    "Alipy.CompletionForms.C134_unobserved",
    "Alipy.CompletionForms.C134_mask",
    "Alipy.CompletionForms.C134_out_of_range",
    "Alipy.CompletionForms.C134_feature_out_of_range",
    "Alipy.CompletionForms.C134_row_violation",
    "Alipy.CompletionForms.C134_bounds_violation"
   ],
   "note": "The numerical part of the completion is a parameter (see C59 and C109). Outside the statement: an example outside the matrix is not noticed when tuples are read, so that one beyond the last raises IndexError and a negative one is counted from the end (C134_row_violation); nothing observed can only be said with a collection, and a completely observed matrix is accepted as indexes though refused as a mask (C134_bounds_violation)."
  },
  {
   "property": "C135",
   "status": "proved",
   "theorems": [
    "Alipy.Names.C135_call",
    "Alipy.Names.C135_program",
    "Alipy.Names.C135_construct",
    "Alipy.Names.C135_any_order",
    "Alipy.Names.C135_workspace",
    "Alipy.Names.C135_totals",
    "Alipy.Names.C135_oracle",
    "Alipy.Names.C135_select",
    "Alipy.Names.C135_split"
   ],
   "note": "The constructor of an IndexCollection sorts by name, so a renamed collection may have another order (C135_construct), and then pop, draws by position and removing a collection from itself take other examples. With all_class=True a split uses names as positions of y (C33)."
  },
  {
   "property": "C136",
   "status": "proved",
   "theorems": [
    "Alipy.Ends.C136_possible",
    "Alipy.Ends.C136_classes",
    "Alipy.Ends.C136_no_room",
    "Alipy.Ends.C136_matrix",
    "Alipy.Ends.C136_multi_label",
    "Alipy.Ends.C136_features",
    "Alipy.Ends.C136_geometric",
    "Alipy.Ends.C136_unlucky_violation"
   ],
   "note": "Default instance indexes (or any positions of the labels, C136_possible); labels without negative entries for matrices. The room is the number of labelled examples of the split, rounded twice, which can be less than what the check of the code computes (then the call is endless, C136_no_room). Outside the statement: split_multi_label raises the number of labelled rows to one only before the loop, so that with a single label and a share that rounds to zero one unlucky first draw makes it endless (C136_unlucky_violation)."
  },
  {
   "property": "C137",
   "status": "proved",
   "theorems": [
    "Alipy.LeaveOut.C137_uncertainty",
    "Alipy.LeaveOut.C137_distance",
    "Alipy.LeaveOut.C137_committee",
    "Alipy.LeaveOut.C137_committee_kl",
    "Alipy.LeaveOut.C137_committee_matrix_violation",
    "Alipy.LeaveOut.C137_ceal"
   ],
   "note": "Batch size positive. Committees whose members return matrices of zeros and ones are outside the statement: the outputs for the whole pool are checked to contain both numbers, so that a smaller pool can raise ValueError (C137_committee_matrix_violation). Strategies whose scores look at other unlabelled examples (expected error reduction, LAL, density weighting, coreset, graph density, BMDR, SPAL, QUIRE) are not consistent in this sense."
  },
  {
   "property": "C138",
   "status": "proved",
   "theorems": [
    "Alipy.Parts.C138_repeated_vectors",
    "Alipy.Parts.C138_repeated_matrices",
    "Alipy.Parts.C138_repeated_rankings",
    "Alipy.Parts.C138_precision_weights_violation",
    "Alipy.Parts.C138_joined_vectors",
    "Alipy.Parts.C138_joined_matrices",
    "Alipy.Parts.C138_joined_rankings",
    "Alipy.Parts.C138_joined_precisions",
    "Alipy.Parts.C138_joined_hamming",
    "Alipy.Parts.C138_joined_hamming_matrices"
   ],
   "note": "For zero_one_loss only normalize=True is meant (see C37 for False). The weights of label_ranking_average_precision_score are outside the statement (C65_lrap_weights_violation), and so are those of average_precision_score, which ignores them (C138_precision_weights_violation)."
  },
  {
   "property": "C139",
   "status": "proved",
   "theorems": [
    "Alipy.Parts.C139_reversed",
    "Alipy.Parts.C139_other_class",
    "Alipy.Parts.C139_exchanged",
    "Alipy.Parts.C139_ranking_loss"
   ],
   "note": "Built on C38_auc and C40_row; floating point rounding is not modelled."
  },
  {
   "property": "C140",
   "status": "proved",
   "theorems": [
    "Alipy.Limits.C140_goes_on",
    "Alipy.Limits.C140_experiment",
    "Alipy.Limits.C140_experiment_without",
    "Alipy.Limits.C140_session",
    "Alipy.Limits.C140_random_budget",
    "Alipy.Limits.C140_knapsack",
    "Alipy.Limits.C140_performance",
    "Alipy.Limits.C140_threshold"
   ],
   "note": "Percentages are between 0 and 1 (others raise or never stop, see C21). For random selection and the runs both calls have to return; what is labelled must not be looked at by the strategy through the criterion. With costs of zero QueryCostSensitivePerformance is outside the statement, because it offers the knapsack fewer candidates per label than the budget."
  },
  {
   "property": "C141",
   "status": "proved",
   "theorems": [
    "Alipy.LabelOrder.C141_mmc",
    "Alipy.LabelOrder.C141_adaptive",
    "Alipy.LabelOrder.C141_audi",
    "Alipy.LabelOrder.C141_auro",
    "Alipy.LabelOrder.C141_mark",
    "Alipy.LabelOrder.C141_halc_violation",
    "Alipy.MLQuire.C141_quire_values",
    "Alipy.MLQuire.C141_quire"
   ],
   "note": "For AUDI, AURO and multi-label QUIRE without ties (equally informative examples or labels are told apart by position); for multi-label QUIRE also if the set of known pairs is iterated in sorted order (otherwise labels are attributed to wrong pairs, C89_order_violation); for MMC and the adaptive strategy without restrictions. HALC is not part of the statement: C141_halc_violation shows that its informativeness does depend on the numbering, a leaf that is an only child counts if it is label 1 and not if it is label 2 or later (see C72)."
  },
  {
   "property": "C142",
   "status": "partial",
   "theorems": [
    "Alipy.AudiSpread.C142_epsilon",
    "Alipy.AudiSpread.C142_same_partial",
    "Alipy.AudiSpread.C142_deviation_partial",
    "Alipy.AudiSpread.C142_spread_violation"
   ],
   "note": "The code divides by the number of labels not asked for (the mask of the unlabelled pairs, multi_label.py line 582), which is at least 1 for every candidate: epsilon up to 1, so also the default 0.5, has no influence (C142_epsilon), and of equally deviating examples the one with more labels known is asked about (C142_spread_violation). What holds is that the selected example has the greatest deviation if equally many labels are left of all, and that a smaller deviation wins only if fewer labels are left."
  },
  {
   "property": "C143",
   "status": "proved",
   "theorems": [
    "Alipy.StaySelected.C143_least_confident",
    "Alipy.StaySelected.C143_margin",
    "Alipy.StaySelected.C143_distance",
    "Alipy.StaySelected.C143_entropy",
    "Alipy.StaySelected.C143_committee",
    "Alipy.StaySelected.C143_ceal_cheaper",
    "Alipy.StaySelected.C143_ceal_uncertain",
    "Alipy.StaySelected.C143_ceal_right",
    "Alipy.StaySelected.C143_threshold",
    "Alipy.StaySelected.C143_budget_ties",
    "Alipy.StaySelected.C143_budget_more_valuable",
    "Alipy.StaySelected.C143_budget_less_valuable",
    "Alipy.StaySelected.C143_budget_cheaper",
    "Alipy.StaySelected.C143_budget_dearer"
   ],
   "note": "The improvement of an example or oracle is strict for the uncertainty measures and the committee (otherwise a tie may be resolved otherwise); for entropy the probabilities are positive. IEthresh: scores that are not negative and an epsilon between 0 and 1. Which of several equally valuable selections the knapsack returns is C143_budget_ties."
  },
  {
   "property": "C144",
   "status": "proved",
   "theorems": [
    "Alipy.SameMeasure.C144_loss_is_missing_area",
    "Alipy.SameMeasure.C144_loss_with_ties",
    "Alipy.SameMeasure.C144_micro_is_mean",
    "Alipy.SameMeasure.C144_flipped",
    "Alipy.SameMeasure.C144_coverage",
    "Alipy.SameMeasure.C144_precision",
    "Alipy.SameMeasure.C144_two_precisions",
    "Alipy.SameMeasure.C144_vectors",
    "Alipy.SameMeasure.C144_matrices"
   ],
   "note": "For 0/1 labels. With ties label_ranking_loss counts a tie as a whole mistake and roc_auc_score as half of one, so only the inequality holds (C144_loss_with_ties). The weights of micro_auc_score do not matter when the scores of a column are distinct, because they are not used (C38). For examples with all or no labels the two average precisions differ (C65_skipped_violation)."
  },
  {
   "property": "C145",
   "status": "proved",
   "theorems": [
    "Alipy.Calls.C145_update",
    "Alipy.Calls.C145_difference",
    "Alipy.Calls.C145_pairs",
    "Alipy.Calls.C145_ask",
    "Alipy.Calls.C145_ask_labels",
    "Alipy.Calls.C145_add_knowledge",
    "Alipy.Calls.C145_several_oracles",
    "Alipy.Calls.C145_repository",
    "Alipy.Calls.C145_matrix_repository",
    "Alipy.Calls.C145_states"
   ],
   "note": "Pairs: for collections with a known number of labels and non-empty parts. Lists given to oracles and repositories have fitting lengths. If an entry is refused, the calls after it are not made."
  },
  {
   "property": "C146",
   "status": "proved",
   "theorems": [
    "Alipy.AnyOrder.C146_collections",
    "Alipy.AnyOrder.C146_workspace",
    "Alipy.AnyOrder.C146_totals",
    "Alipy.AnyOrder.C146_oracles",
    "Alipy.AnyOrder.C146_questions",
    "Alipy.AnyOrder.C146_repositories",
    "Alipy.AnyOrder.C146_repositories_examples",
    "Alipy.AnyOrder.C146_matrix_repositories"
   ],
   "note": "Repositories: histories without an index or an example stored twice (C29); matrix repositories: as constructed. An empty IndexCollection takes its type from the first index, so [1, True] is accepted and [True, 1] refused (example in Props/AnyOrder)."
  },
  {
   "property": "C147",
   "status": "proved",
   "theorems": [
    "Alipy.Criteria.C147_element_repository",
    "Alipy.Criteria.C147_matrix_repository",
    "Alipy.Criteria.C147_experiment"
   ],
   "note": "Percentages between 0 and 1, positive prices, and both sets non-empty at the start. AlExperiment records no costs, so every positive cost_limit is the same as no criterion (part of C147_experiment)."
  },
  {
   "property": "C148",
   "status": "proved",
   "theorems": [
    "Alipy.Undo.C148_added",
    "Alipy.Undo.C148_removed",
    "Alipy.Undo.C148_pairs",
    "Alipy.Undo.C148_repository",
    "Alipy.Undo.C148_matrix_repository",
    "Alipy.Undo.C148_state"
   ],
   "note": "Pairs: collections with a known number of labels, and not the one form that C08 shows to be misread. Element repositories: the index and the example are new (an index stored twice is not undone, see C29). Matrix repositories: the label and example have the shape of the others."
  },
  {
   "property": "C149",
   "status": "proved",
   "theorems": [
    "Alipy.Twice.C149_update",
    "Alipy.Twice.C149_difference",
    "Alipy.Twice.C149_pairs",
    "Alipy.Twice.C149_oracle",
    "Alipy.Twice.C149_matrix_repository",
    "Alipy.Twice.C149_matrix_discard",
    "Alipy.Twice.C149_discard",
    "Alipy.Twice.C149_repository_violation",
    "Alipy.Twice.C149_states",
    "Alipy.Twice.C149_stopping",
    "Alipy.Twice.C149_minmax",
    "Alipy.Twice.C149_standard_violation"
   ],
   "note": "Accepted calls. ElementRepository.add is outside the statement: adding the same entry again lists and charges it again (C149_repository_violation). StandardScale is outside it too: it divides by the variance, and applying it again returns the column minus its mean (C149_standard_violation). Discarding an index from an ElementRepository: the index is stored once."
  },
  {
   "property": "C150",
   "status": "proved",
   "theorems": [
    "Alipy.Chance.C150_auc",
    "Alipy.Chance.C150_auc_constant",
    "Alipy.Chance.C150_auc_range",
    "Alipy.Chance.C150_accuracy",
    "Alipy.Chance.C150_constant_accuracy",
    "Alipy.Chance.C150_ranking_loss",
    "Alipy.Chance.C150_flat"
   ],
   "note": "Accuracy and AUC of vectors without sample weights; the mean over orders is over all permutations, each counted once."
  },
  {
   "property": "C151",
   "status": "proved",
   "theorems": [
    "Alipy.Lal.C151_files",
    "Alipy.Lal.C151_learns",
    "Alipy.Lal.C151_once",
    "Alipy.Lal.C151_refused",
    "Alipy.Lal.C151_last",
    "Alipy.Lal.C151_broken_violation"
   ],
   "note": "The fitted regressor is random; a selector stands for the data it was fitted to. Outside the statement, proved as C151_broken_violation: if what the server sends cannot be read (a connection that breaks, or an error page, as the status is not looked at), it stays in the place of the file, is never downloaded again, and every later construction with that mode and directory fails until the file is removed by hand."
  },
  {
   "property": "C152",
   "status": "proved",
   "theorems": [
    "Alipy.MoreIsBetter.C152_budget",
    "Alipy.MoreIsBetter.C152_better_items",
    "Alipy.MoreIsBetter.C152_more_items",
    "Alipy.MoreIsBetter.C152_rounds",
    "Alipy.MoreIsBetter.C152_pairs",
    "Alipy.MoreIsBetter.C152_coreset",
    "Alipy.MoreIsBetter.C152_completion",
    "Alipy.MoreIsBetter.C152_pool",
    "Alipy.MoreIsBetter.C152_pool_committee",
    "Alipy.MoreIsBetter.C152_pool_distance",
    "Alipy.MoreIsBetter.C152_pool_divergence",
    "Alipy.MoreIsBetter.C152_pool_label_sets"
   ],
   "note": "POSS and AFASMC: for the same random draws and the same sequence of iterates, continued. The number of inner steps is that of one round of the outer loop (which objective the outer loop keeps: C59)."
  },
  {
   "property": "C153",
   "status": "proved",
   "theorems": [
    "Alipy.ThreadsObject.C153_recovered",
    "Alipy.ThreadsObject.C153_savers",
    "Alipy.ThreadsObject.C153_again",
    "Alipy.ThreadsObject.C153_globals_violation",
    "Alipy.ThreadsObject.C153_no_rounds_violation"
   ],
   "note": "os.path.abspath is assumed to leave absolute paths as they are. Outside the statement, proved as violations: the global parameters are in the breakpoint file, but recover does not pass them on, so start_all_threads() of the recovered object without them gives None to every worker, and the recovered object cannot be saved before it is started (C153_globals_violation); an experiment of no rounds cannot be recovered (C153_no_rounds_violation)."
  },
  {
   "property": "C154",
   "status": "proved",
   "theorems": [
    "Alipy.Ranges.C154_accuracy",
    "Alipy.Ranges.C154_accuracy_rows",
    "Alipy.Ranges.C154_ranking_loss",
    "Alipy.Ranges.C154_one_error",
    "Alipy.Ranges.C154_coverage",
    "Alipy.Ranges.C154_lrap",
    "Alipy.Ranges.C154_average_precision",
    "Alipy.Ranges.C154_micro_auc",
    "Alipy.Ranges.C154_curve",
    "Alipy.Ranges.C154_entropy",
    "Alipy.Ranges.C154_least_confident",
    "Alipy.Ranges.C154_margin",
    "Alipy.Ranges.C154_vote_entropy",
    "Alipy.Ranges.C154_kl",
    "Alipy.Ranges.C154_negative_violation"
   ],
   "note": "Real numbers instead of floats; the label ranking average precision is without weights (with weights C65 applies). The lower bounds of the entropies are -1e-9 and not 0, because the code adds 1e-9 inside the logarithm: a unanimous vote has a negative entropy (C154_negative_violation)."
  },
  {
   "property": "C155",
   "status": "proved",
   "theorems": [
    "Alipy.CostSensitive.C155_equal_costs",
    "Alipy.Select.C155_density",
    "Alipy.Noisy.C155_one_oracle",
    "Alipy.Noisy.C155_threshold_zero",
    "Alipy.RankMetrics.C155_equal_weights",
    "Alipy.CostCurve.C155_unit_costs"
   ],
   "note": "The count of taken items is for items of positive value (worthless ones may be left out). Density weighting: the batch is smaller than the pool, and for the entropy all probabilities are positive, since only uncertainty sampling replaces the others. The curves over cost end one query before the end of the shortest fold, because np.arange leaves its end out (C75)."
  },
  {
   "property": "C156",
   "status": "proved",
   "theorems": [
    "Alipy.MLIC.C156_multilabel",
    "Alipy.StateIO.C156_state",
    "Alipy.StateIO.C156_saver",
    "Alipy.StateIO.C156_refused_dict",
    "Alipy.StateIO.C156_dict_violation",
    "Alipy.Oracle.C156_oracle",
    "Alipy.Oracle.C156_oracle_violation",
    "Alipy.Oracle.C156_oracle_lists",
    "Alipy.Oracle.C156_multi_oracle",
    "Alipy.Oracles.C156_oracles",
    "Alipy.Oracles.C156_oracles_violation",
    "Alipy.ERepo.C156_element",
    "Alipy.ERepo.C156_element_query",
    "Alipy.Setup.C156_settings",
    "Alipy.Setup.C156_strategy_violation",
    "Alipy.Setup.C156_split_violation",
    "Alipy.ResultForms.C156_analyser",
    "Alipy.ResultForms.C156_analyser_violation",
    "Alipy.Files.C156_files"
   ],
   "note": "IndexCollection is in C04 (an update has stored the elements before the offending one). Costs of oracles are assumed to be arrays that can be added up, and the summary of results that could be read not to raise. Outside the statement, proved as violations: a dict given to add_state with all three keys is stored although the call raises (C156_dict_violation); without the cost it needs an oracle keeps the example of a refused entry (C156_oracle_violation); costs that cannot be added up leave a query in the history that is not charged (C156_oracles_violation); a strategy whose constructor raises leaves its name (C156_strategy_violation), a failed split_AL the mark of a split (C156_split_violation), a container that cannot be read the claim that all results are savers (C156_analyser_violation). MatrixRepository.add stores the label before it misses the example (C30)."
  },
  {
   "property": "C157",
   "status": "proved",
   "theorems": [
    "Alipy.Share.C157_accuracy",
    "Alipy.Share.C157_zero_one_loss",
    "Alipy.Share.C157_accuracy_rows",
    "Alipy.Share.C157_hamming",
    "Alipy.Share.C157_hamming_cells",
    "Alipy.Share.C157_ranking_loss",
    "Alipy.Share.C157_coverage",
    "Alipy.Share.C157_lrap",
    "Alipy.Share.C157_one_error",
    "Alipy.Share.C157_auc",
    "Alipy.Share.C157_vote",
    "Alipy.Share.C157_least_confident",
    "Alipy.Share.C157_margin",
    "Alipy.Share.C157_distance",
    "Alipy.Share.C157_entropy",
    "Alipy.Share.C157_committee",
    "Alipy.Share.C157_divergence"
   ],
   "note": "Rational numbers instead of floats. The one error is the one that is computed (C63). Ties among unchanged examples are excluded for the selection, because the order of equal scores is not determined. Label matrices have at most two different values (C37, C39)."
  },
  {
   "property": "C158",
   "status": "proved",
   "theorems": [
    "Alipy.SameRun.C158_experiment_or_script",
    "Alipy.SameRun.C158_both_end",
    "Alipy.SameRun.C158_any_repository",
    "Alipy.SameRun.C158_round"
   ],
   "note": "Strategies that do not look into the repository; the script is the loop of the examples (C80). For a round of AlExperiment the performances of the script are those recorded. The exception, cost_limit, is C24_cost_limit_violation."
  },
  {
   "property": "C159",
   "status": "proved",
   "theorems": [
    "Alipy.MLOracle.C159_flattened",
    "Alipy.MLOracle.C159_any_grouping",
    "Alipy.MLOracle.C159_integrated",
    "Alipy.MLOracle.C159_repeated"
   ],
   "note": "Legal indexes: labels within the width of the oracle; for flattening at least one pair. The statement about never costing more needs costs that are not negative. Oracles whose cost of an example is a list and not an array answer no such query at all (C27_list_costs_violation)."
  },
  {
   "property": "C160",
   "status": "proved",
   "theorems": [
    "Alipy.Pooled.C160_curve",
    "Alipy.Pooled.C160_between",
    "Alipy.Pooled.C160_states",
    "Alipy.Pooled.C160_lists",
    "Alipy.PooledCost.C160_costs"
   ],
   "note": "Exact numbers instead of floats. All folds have the same length: otherwise the table cuts all folds to the shortest (C74), also those of the longer experiment. Against the number of queries only plot_interval is varied. Over costs the initial points of the two experiments agree or a start point is given, because the code takes the initial point of the last fold for all (C75_initial_point_violation)."
  }
 ]
}