# Axioms of the theorems in MANIFEST.json

Output of `#print axioms` for every theorem, grouped. No other axioms occur.

## none (5 theorems)

* `Alipy.C04_empty_collection_is_poisoned_by_numpy_index`
* `Alipy.C05_randperm_default_start`
* `Alipy.ResultForms.C117_names_violation`
* `Alipy.ResultForms.C117_empty_violation`
* `Alipy.Setup.C156_split_violation`

## propext (38 theorems)

* `Alipy.C04_element_type_is_fixed`
* `Alipy.C04_add_rejects_exactly_other_types`
* `Alipy.C04_failed_update_applies_a_prefix`
* `Alipy.C31_not_positive`
* `Alipy.StateIO.C20_single_state_violation`
* `Alipy.Oracle.C25_refused_call_changes_nothing`
* `Alipy.Threads.C41_started_once`
* `Alipy.Noisy.C46_any_weights_violation`
* `Alipy.Noisy.C46_empty_raises`
* `Alipy.StateIO.C62_pop_default_violation`
* `Alipy.RankMetrics.C64_unique`
* `Alipy.TB.C82_given_splits`
* `Alipy.Peek.C88_adaptive`
* `Alipy.Setup.C92_results`
* `Alipy.Setup.C92_refused`
* `Alipy.Setup.C92_lost_exception_violation`
* `Alipy.Alias.C95_initial_point_violation`
* `Alipy.Forms.C105_empty_violation`
* `Alipy.Forms.C105_feature_collection`
* `Alipy.Forms.C105_toolbox_violation`
* `Alipy.Forms.C105_toolbox_empty_violation`
* `Alipy.PlotCheck.C106_warning_violation`
* `Alipy.PlotCheck.C106_unchecked_violation`
* `Alipy.Params.C113_metric_violation`
* `Alipy.ResultForms.C117_tuples_violation`
* `Alipy.ResultForms.C117_paths_violation`
* `Alipy.Files.C120_stateio`
* `Alipy.Calls.C145_update`
* `Alipy.Calls.C145_difference`
* `Alipy.Lal.C151_learns`
* `Alipy.Lal.C151_last`
* `Alipy.ThreadsObject.C153_no_rounds_violation`
* `Alipy.StateIO.C156_state`
* `Alipy.Oracle.C156_oracle_lists`
* `Alipy.Setup.C156_settings`
* `Alipy.Setup.C156_strategy_violation`
* `Alipy.ResultForms.C156_analyser_violation`
* `Alipy.Files.C156_files`

## Quot.sound, propext (105 theorems)

* `Alipy.C05_negative_k_is_not_refused`
* `Alipy.C31_nlargestarg_violation`
* `Alipy.C31_nlargestarg_all`
* `Alipy.MLIC.C07_negative_label_violation`
* `Alipy.MLIC.C07_compound_element_violation`
* `Alipy.MLIC.C08_tuple_with_list_violation`
* `Alipy.MLIC.C08_copied_collection_violation`
* `Alipy.C09_out_of_range_label_breaks_integration`
* `Alipy.MLIC.C12_sparse_mask_violation`
* `Alipy.MLIC.C12_full_or_empty_mask_violation`
* `Alipy.C13_refuses_partial`
* `Alipy.C13_negative_instance_violation`
* `Alipy.State.C15_set_value`
* `Alipy.Oracle.C25_query_by_index`
* `Alipy.Oracle.C25_query_by_example_partial`
* `Alipy.Oracle.C25_by_example_violation`
* `Alipy.Oracle.C25_failed_call_violation`
* `Alipy.Oracle.C26_wrong_exception_violation`
* `Alipy.Oracle.C26_unknown_example_partial`
* `Alipy.MLOracle.C27_out_of_range_labels`
* `Alipy.MLOracle.C27_list_costs_violation`
* `Alipy.MLOracle.C27_query_by_example_violation`
* `Alipy.ERepo.C29_clear_with_examples`
* `Alipy.ERepo.C29_equal_examples_violation`
* `Alipy.ERepo.C29_clear_violation`
* `Alipy.MRepo.C30_constructor_violation`
* `Alipy.MRepo.C30_constructor_stores`
* `Alipy.Threads.C41_foreign_threads_endless`
* `Alipy.Threads.C53_recover_succeeds`
* `Alipy.Select.C42_quire_violation`
* `Alipy.Select.C54_prediction_unchanged_partial`
* `Alipy.Select.C45_empty_violation`
* `Alipy.Select.C45_list_violation`
* `Alipy.Select.C45_too_many_violation`
* `Alipy.Select.C56_label_violation`
* `Alipy.Noisy.C46_winner_unique`
* `Alipy.Features.C47_afasmc_keeps`
* `Alipy.Features.C47_afasmc_noninterference`
* `Alipy.Features.C47_afasmc_fills`
* `Alipy.Features.C47_nan_violation`
* `Alipy.Features.C47_svd_keeps_partial`
* `Alipy.Features.C47_svd_no_iteration_violation`
* `Alipy.CostSensitive.C50_cost_length`
* `Alipy.Noisy.C58_last_example_violation`
* `Alipy.Noisy.C58_eval_cost_violation`
* `Alipy.Noisy.C58_few_labelled_violation`
* `Alipy.Noisy.C58_nearest_ignored`
* `Alipy.Features.C59_index_violation`
* `Alipy.Features.C60_most_variance_partial`
* `Alipy.Features.C60_observed_violation`
* `Alipy.Features.C60_unknown_ignored_violation`
* `Alipy.Features.C60_list_violation`
* `Alipy.Hierarchy.C70_shape`
* `Alipy.CostSensitive.C72_weights_violation`
* `Alipy.Analyser.C73_ragged_violation`
* `Alipy.Noisy.C81_last_example_violation`
* `Alipy.TB.C82_constructed_is_saved`
* `Alipy.Peek.C88_uncertainty`
* `Alipy.Peek.C88_qbc`
* `Alipy.Peek.C88_eer_violation`
* `Alipy.Peek.C88_mmc_partial`
* `Alipy.Peek.C88_mmc_violation`
* `Alipy.Setup.C92_metric_argument_violation`
* `Alipy.Setup.C92_back_violation`
* `Alipy.Setup.C92_accumulates_violation`
* `Alipy.PairSession.C93_feature_batch_violation`
* `Alipy.Alias.C95_getitem_violation`
* `Alipy.Rounding.C97_percent_not_late`
* `Alipy.Select.C100_classes`
* `Alipy.Lal.C104_trees`
* `Alipy.Lal.C104_alike`
* `Alipy.Lal.C104_untrained`
* `Alipy.Forms.C105_feature_message_violation`
* `Alipy.PlotCheck.C106_continuity_partial`
* `Alipy.PlotCheck.C106_continuity_order_violation`
* `Alipy.PlotCheck.C106_continuity_mixed_violation`
* `Alipy.PlotCheck.C106_finite_partial`
* `Alipy.ResultForms.C117_performances`
* `Alipy.ResultForms.C117_costs`
* `Alipy.ResultForms.C117_lists`
* `Alipy.ResultForms.C117_refused`
* `Alipy.ResultForms.C117_half_added_violation`
* `Alipy.Files.C120_threads`
* `Alipy.Files.C120_saver`
* `Alipy.Files.C120_one_file_violation`
* `Alipy.Workers.C126_target`
* `Alipy.Workers.C126_target_violation`
* `Alipy.Workers.C126_second_start_violation`
* `Alipy.Select.C132_committee`
* `Alipy.Names.C135_oracle`
* `Alipy.Names.C135_select`
* `Alipy.LeaveOut.C137_committee_matrix_violation`
* `Alipy.Limits.C140_random_budget`
* `Alipy.Calls.C145_pairs`
* `Alipy.Calls.C145_ask`
* `Alipy.Calls.C145_ask_labels`
* `Alipy.AnyOrder.C146_oracles`
* `Alipy.AnyOrder.C146_questions`
* `Alipy.Twice.C149_matrix_discard`
* `Alipy.ThreadsObject.C153_globals_violation`
* `Alipy.Select.C155_density`
* `Alipy.Oracle.C156_oracle`
* `Alipy.Oracle.C156_oracle_violation`
* `Alipy.Oracle.C156_multi_oracle`
* `Alipy.ResultForms.C156_analyser`

## Classical.choice, Quot.sound, propext (886 theorems)

* `Alipy.C01_no_index_twice`
* `Alipy.C02_update_is_union`
* `Alipy.C02_difference_is_set_difference_partial`
* `Alipy.C02_self_difference_violation`
* `Alipy.C02_single_operations`
* `Alipy.C02_constructor_partial`
* `Alipy.C02_mixed_constructor_violation`
* `Alipy.C03_update_appends_in_order`
* `Alipy.C03_difference_keeps_order`
* `Alipy.C03_pop_undoes_add`
* `Alipy.C04_one_element_type`
* `Alipy.C05_randperm_k`
* `Alipy.C05_randperm_all`
* `Alipy.C06_random_sampling`
* `Alipy.C31_nsmallestarg`
* `Alipy.C31_nlargestarg_partial`
* `Alipy.MLIC.C07_only_legal_pairs_partial`
* `Alipy.MLIC.C08_update_is_union_partial`
* `Alipy.MLIC.C08_difference_is_set_difference_partial`
* `Alipy.MLIC.C08_failed_list_update_changes_nothing`
* `Alipy.MLIC.C08_constructor`
* `Alipy.MLIC.C08_constructor_infers`
* `Alipy.C09_integrate_keeps_the_pairs`
* `Alipy.C09_flatten_of_integrate`
* `Alipy.MLIC.C10_unbroken_and_broken_partition`
* `Alipy.MLIC.C11_encode_then_decode`
* `Alipy.MLIC.C11_decode_then_encode`
* `Alipy.MLIC.C11_default_orders_differ`
* `Alipy.MLIC.C12_dense_mask_partial`
* `Alipy.MLIC.C12_mask_round_trip_partial`
* `Alipy.MLIC.C12_mask_is_decoded_exactly`
* `Alipy.C13_label_matrix`
* `Alipy.C13_Xy`
* `Alipy.C14_map_whole_index_to_train_partial`
* `Alipy.C14_list_argument_violation`
* `Alipy.C14_multi_label_partial`
* `Alipy.C14_label_size_shrinks_violation`
* `Alipy.State.C15_critical_entries_stay`
* `Alipy.State.C15_constructor_stores_the_arguments`
* `Alipy.State.C15_del_element`
* `Alipy.StateIO.C16_workspace_is_replay`
* `Alipy.StateIO.C16_workspace_single_label`
* `Alipy.StateIO.C16_workspace_multi_label`
* `Alipy.StateIO.C17_always_disjoint`
* `Alipy.StateIO.C17_nothing_lost_nothing_twice`
* `Alipy.StateIO.C17_single_label`
* `Alipy.StateIO.C18_recover_workspace_partial`
* `Alipy.StateIO.C18_recover_then_refresh`
* `Alipy.StateIO.C18_stale_totals_violation`
* `Alipy.StateIO.C19_totals_in_sync_partial`
* `Alipy.StateIO.C19_refresh_restores`
* `Alipy.StateIO.C19_pop_violation`
* `Alipy.StateIO.C19_late_cost_violation`
* `Alipy.StateIO.C19_dict_state_violation`
* `Alipy.StateIO.C20_check_batch_size_partial`
* `Alipy.StateIO.C20_last_state_ignored_violation`
* `Alipy.Stop.C21_constructor`
* `Alipy.Stop.C21_stop_iff_empty_or_bound_reached`
* `Alipy.Stop.C21_percentage_out_of_range`
* `Alipy.Stop.C21_initially_empty_pool_unnoticed`
* `Alipy.Stop.C21_constructor_truncates`
* `Alipy.Stop.C22_stop_is_permanent`
* `Alipy.Stop.C22_reset_is_a_new_object`
* `Alipy.C23_main_loop_ends_and_keeps_the_partition`
* `Alipy.C23_exactly_n_queries`
* `Alipy.C23_no_criterion_labels_everything`
* `Alipy.C23_empty_pool_is_queried`
* `Alipy.C24_cost_limit_partial`
* `Alipy.C24_cost_limit_violation`
* `Alipy.Oracle.C26_unknown_index_partial`
* `Alipy.MLOracle.C27_query_by_index_partial`
* `Alipy.MLOracle.C27_unknown_instance`
* `Alipy.Oracles.C28_cost_is_the_sum_partial`
* `Alipy.Oracles.C28_query_from_partial`
* `Alipy.Oracles.C28_query_from_s_partial`
* `Alipy.Oracles.C28_summary_adds_up`
* `Alipy.Oracles.C28_ragged_costs_violation`
* `Alipy.ERepo.C29_training_data_partial`
* `Alipy.ERepo.C29_retrieve_by_indexes_partial`
* `Alipy.ERepo.C29_retrieve_by_examples_partial`
* `Alipy.ERepo.C29_contains_and_discard`
* `Alipy.ERepo.C29_retrieve_last_label`
* `Alipy.ERepo.C29_repeated_index_violation`
* `Alipy.ERepo.C29_discard_after_repetition_violation`
* `Alipy.ERepo.C29_retrieve_last`
* `Alipy.ERepo.C29_discarded_owner`
* `Alipy.MRepo.C30_aligned_partial`
* `Alipy.MRepo.C30_retrieve_partial`
* `Alipy.MRepo.C30_update_stores_partial`
* `Alipy.MRepo.C30_failed_add_violation`
* `Alipy.MRepo.C30_clear_violation`
* `Alipy.MRepo.C30_add_partial`
* `Alipy.MRepo.C30_discard_index_partial`
* `Alipy.MRepo.C30_discard_example_partial`
* `Alipy.ERepo.C51_element_repository`
* `Alipy.MRepo.C51_matrix_add_partial`
* `Alipy.MRepo.C51_matrix_failed_add_violation`
* `Alipy.MRepo.C51_matrix_add`
* `Alipy.MRepo.C51_matrix_update`
* `Alipy.MRepo.C51_matrix_run`
* `Alipy.C32_split_partition`
* `Alipy.C32_split_sizes`
* `Alipy.C32_split_labelled_nonempty_partial`
* `Alipy.C32_empty_violation`
* `Alipy.C32_split_returns`
* `Alipy.C33_all_class_partial`
* `Alipy.C33_all_class_matrix_partial`
* `Alipy.C33_names_violation`
* `Alipy.C33_permuted_names_violation`
* `Alipy.C33_negative_violation`
* `Alipy.C33_zero_column_endless`
* `Alipy.C33_double_rounding_endless`
* `Alipy.C34_features_partition`
* `Alipy.C34_features_sizes_partial`
* `Alipy.C34_retry_size_violation`
* `Alipy.C34_features_all`
* `Alipy.C34_multi_label_partition`
* `Alipy.C34_multi_label_sizes`
* `Alipy.C34_multi_label_all`
* `Alipy.C34_shape_only_violation`
* `Alipy.C35_save_load_partial`
* `Alipy.C35_one_round_violation`
* `Alipy.C35_single_label_violation`
* `Alipy.C35_multi_label_violation`
* `Alipy.C35_stale_violation`
* `Alipy.C36_minmax`
* `Alipy.C36_minmax_nan`
* `Alipy.C36_minmax_returns`
* `Alipy.C52_standard_mean`
* `Alipy.C52_standard_variance_partial`
* `Alipy.C52_unit_variance_violation`
* `Alipy.C52_constant_violation`
* `Alipy.C37_accuracy_vectors`
* `Alipy.C37_accuracy_range`
* `Alipy.C37_accuracy_rows`
* `Alipy.C37_zero_one_loss`
* `Alipy.C37_zero_one_fraction`
* `Alipy.C37_mixed_violation`
* `Alipy.C37_three_values_violation`
* `Alipy.C37_count_violation`
* `Alipy.C38_auc`
* `Alipy.C38_range`
* `Alipy.C38_one_class`
* `Alipy.C38_order_invariant`
* `Alipy.C39_hamming_vectors`
* `Alipy.C39_hamming_matrices_partial`
* `Alipy.C39_symmetric`
* `Alipy.C39_range`
* `Alipy.C39_three_values_violation`
* `Alipy.C39_column_violation`
* `Alipy.C39_symmetric_matrices_partial`
* `Alipy.C39_range_matrices_partial`
* `Alipy.C40_row`
* `Alipy.C40_ranking_loss`
* `Alipy.C40_range`
* `Alipy.C40_minus_one_violation`
* `Alipy.C40_shape`
* `Alipy.Threads.C41_at_most_max_thread`
* `Alipy.Threads.C41_never_started_twice`
* `Alipy.Threads.C41_all_ended_when_done`
* `Alipy.Threads.C41_returns`
* `Alipy.Threads.C53_recover_partial`
* `Alipy.Threads.C53_unsaved_violation`
* `Alipy.Threads.C53_recover_again_partial`
* `Alipy.Threads.C53_finished_kept`
* `Alipy.Threads.C53_second_crash_violation`
* `Alipy.Threads.C53_race_violation`
* `Alipy.Threads.C53_exception_violation`
* `Alipy.Select.C42_uncertainty`
* `Alipy.Select.C42_qbc`
* `Alipy.Select.C42_random_partial`
* `Alipy.Select.C42_random_list_violation`
* `Alipy.Select.C42_density_partial`
* `Alipy.Select.C42_density_violation`
* `Alipy.Select.C42_graph_density`
* `Alipy.Select.C42_lal`
* `Alipy.Select.C42_quire_partial`
* `Alipy.Select.C43_margin`
* `Alipy.Select.C43_least_confident`
* `Alipy.Select.C43_distance`
* `Alipy.Select.C43_entropy`
* `Alipy.Select.C43_entropy_zeros`
* `Alipy.Select.C54_entropy_overwrites_violation`
* `Alipy.CostSensitive.C44_optimal`
* `Alipy.CostSensitive.C44_negative_cost_raises`
* `Alipy.Select.C45_two_approximation_partial`
* `Alipy.Select.C45_continues`
* `Alipy.Select.C45_stale_violation`
* `Alipy.CostSensitive.C49_best_generated_partial`
* `Alipy.CostSensitive.C49_infinite_violation`
* `Alipy.CostSensitive.C49_never_stuck`
* `Alipy.Select.C56_expected_loss_partial`
* `Alipy.Select.C56_minus_one_violation`
* `Alipy.Select.C56_minus_one_choice_violation`
* `Alipy.Noisy.C46_majority_partial`
* `Alipy.Noisy.C46_weights_ignored_violation`
* `Alipy.Noisy.C46_vote_of_list`
* `Alipy.Noisy.C46_vote_of_oracles`
* `Alipy.Features.C47_full_mask_raises`
* `Alipy.Features.C47_svd_leak_violation`
* `Alipy.Features.C47_svd_interference_violation`
* `Alipy.CostSensitive.C50_within_budget_partial`
* `Alipy.CostSensitive.C50_unit_cost`
* `Alipy.CostSensitive.C50_exhausted_violation`
* `Alipy.Noisy.C57_threshold_partial`
* `Alipy.Noisy.C57_scores_partial`
* `Alipy.Noisy.C57_single_violation`
* `Alipy.Noisy.C57_unknown_instance_violation`
* `Alipy.Noisy.C58_best_pair_partial`
* `Alipy.Features.C59_inner_best`
* `Alipy.Features.C59_returns_iterate_partial`
* `Alipy.Features.C59_first_round_violation`
* `Alipy.Features.C59_last_round_violation`
* `Alipy.Features.C60_first_missing`
* `Alipy.Features.C60_select_partial`
* `Alipy.Features.C60_stability_partial`
* `Alipy.Features.C60_nothing_observed_violation`
* `Alipy.Features.C60_afasmc_first`
* `Alipy.Features.C60_calls`
* `Alipy.Features.C60_most_changing_partial`
* `Alipy.MLSelect.checkInd_legal`
* `Alipy.MLSelect.C48_audi`
* `Alipy.MLSelect.C48_auro_partial`
* `Alipy.MLSelect.C48_auro_violation`
* `Alipy.MLSelect.C48_auro_infinite_violation`
* `Alipy.MLSelect.C48_quire`
* `Alipy.MLSelect.C48_random_pairs`
* `Alipy.MLSelect.C48_random_instances_partial`
* `Alipy.MLSelect.C48_random_instances_violation`
* `Alipy.Select.C55_vote_entropy`
* `Alipy.Select.C55_vote_entropy_labels`
* `Alipy.Select.C55_labels_accepted_partial`
* `Alipy.Select.C55_unanimous_violation`
* `Alipy.Select.C55_kl`
* `Alipy.Select.C55_density_least_confident`
* `Alipy.Select.C55_density_dominance_partial`
* `Alipy.Select.C55_density_margin`
* `Alipy.Select.C55_density_margin_violation`
* `Alipy.Select.C55_density_entropy`
* `Alipy.Quire.C61_inverse_violation`
* `Alipy.Quire.C61_downdate_violation`
* `Alipy.Quire.C61_minimum_partial`
* `Alipy.Quire.C61_single`
* `Alipy.Quire.C61_last_violation`
* `Alipy.Quire.C61_duplicates_violation`
* `Alipy.Quire.C61_choice_violation`
* `Alipy.StateIO.C62_actions`
* `Alipy.StateIO.C62_get_state`
* `Alipy.StateIO.C62_pop_returns`
* `Alipy.StateIO.C62_added`
* `Alipy.RankMetrics.C63_one_error_partial`
* `Alipy.RankMetrics.C63_perfect_violation`
* `Alipy.RankMetrics.C63_all_wrong_violation`
* `Alipy.RankMetrics.C64_coverage`
* `Alipy.RankMetrics.C64_exists`
* `Alipy.RankMetrics.C64_best`
* `Alipy.RankMetrics.C65_lrap`
* `Alipy.RankMetrics.C65_lrap_weights_violation`
* `Alipy.RankMetrics.C65_lrap_weighted_partial`
* `Alipy.RankMetrics.C65_average_precision_partial`
* `Alipy.RankMetrics.C65_skipped_violation`
* `Alipy.RankMetrics.C65_weights_ignored_violation`
* `Alipy.RankMetrics.C65_ties_violation`
* `Alipy.RankMetrics.C66_macro_partial`
* `Alipy.RankMetrics.C66_single_class_partial`
* `Alipy.RankMetrics.C66_not_micro_violation`
* `Alipy.RankMetrics.C66_one_class_violation`
* `Alipy.RankMetrics.C66_ties_violation`
* `Alipy.RankMetrics.C67_curve`
* `Alipy.RankMetrics.C67_ties_violation`
* `Alipy.RankMetrics.C67_no_positive`
* `Alipy.MLBatch.C68_batch_partial`
* `Alipy.MLBatch.C68_rest_violation`
* `Alipy.MLBatch.C68_moved_violation`
* `Alipy.MLBatch.C68_half_done_violation`
* `Alipy.MLBatch.C69_mmc_score`
* `Alipy.MLBatch.C69_mmc_best`
* `Alipy.MLBatch.C69_minus_one_violation`
* `Alipy.MLBatch.C69_adaptive`
* `Alipy.Hierarchy.C70_mark_partial`
* `Alipy.Hierarchy.C70_transposed_partial`
* `Alipy.Hierarchy.C70_direction_violation`
* `Alipy.Hierarchy.C70_missing_violation`
* `Alipy.Hierarchy.C70_one_step_violation`
* `Alipy.CostSensitive.C71_few_violation`
* `Alipy.CostSensitive.C71_performance_partial`
* `Alipy.CostSensitive.C71_halc_partial`
* `Alipy.CostSensitive.C71_halc_labelled_violation`
* `Alipy.CostSensitive.C71_off_by_one_violation`
* `Alipy.CostSensitive.C72_udes_partial`
* `Alipy.CostSensitive.C72_only_child_partial`
* `Alipy.CostSensitive.C72_root_violation`
* `Alipy.CostSensitive.C72_leaf_violation`
* `Alipy.CostSensitive.C72_inner_violation`
* `Alipy.Analyser.C73_curve_partial`
* `Alipy.Analyser.C73_kept_shift_violation`
* `Alipy.Analyser.C73_kept_shift_right_violation`
* `Alipy.Analyser.C73_list_last_violation`
* `Alipy.Analyser.C73_start_partial`
* `Alipy.Analyser.C73_start_initial_violation`
* `Alipy.Analyser.C73_start_interval_violation`
* `Alipy.Analyser.C73_start_interval_wrong_violation`
* `Alipy.Analyser.C74_mean_partial`
* `Alipy.Analyser.C74_deviation_violation`
* `Alipy.CostCurve.C75_total_cost`
* `Alipy.CostCurve.C75_curve_partial`
* `Alipy.CostCurve.C75_initial_point_violation`
* `Alipy.Bmdr.C76_select`
* `Alipy.Bmdr.C76_labels`
* `Alipy.Bmdr.C76_run`
* `Alipy.Bmdr.C77_z_step`
* `Alipy.Bmdr.C77_spal_z_step`
* `Alipy.Bmdr.C77_easiness`
* `Alipy.Bmdr.C77_tau_step`
* `Alipy.Bmdr.C77_spal_theta_step`
* `Alipy.Bmdr.C77_initial`
* `Alipy.Bmdr.C77_delta_step`
* `Alipy.Bmdr.C77_fixed_point`
* `Alipy.Bmdr.C77_spal_fixed_point`
* `Alipy.Bmdr.C77_round_easiness`
* `Alipy.Bmdr.C77_training_set`
* `Alipy.Bmdr.C78_objective_partial`
* `Alipy.Bmdr.C78_objective_violation`
* `Alipy.Bmdr.C78_round_partial`
* `Alipy.Kernel.C79_entry`
* `Alipy.Kernel.C79_range`
* `Alipy.Kernel.C79_order`
* `Alipy.Kernel.C79_psd`
* `Alipy.C80_element_repository`
* `Alipy.C80_matrix_repository`
* `Alipy.C80_budget`
* `Alipy.C80_queries`
* `Alipy.C80_strategies`
* `Alipy.Noisy.C81_all_oracles_partial`
* `Alipy.Noisy.C81_random_oracle_partial`
* `Alipy.Noisy.C81_later_oracle_not_asked_violation`
* `Alipy.Noisy.C81_later_oracle_random_violation`
* `Alipy.Noisy.C81_instance_partial`
* `Alipy.Noisy.C81_all_rounds_partial`
* `Alipy.Noisy.C81_random_rounds_partial`
* `Alipy.Noisy.C81_whole_pool_violation`
* `Alipy.Noisy.C81_list_asks_all_violation`
* `Alipy.TB.C82_split_is_saved_partial`
* `Alipy.TB.C82_reruns_agree_partial`
* `Alipy.TB.C82_file_path_violation`
* `Alipy.TB.C82_two_objects_violation`
* `Alipy.TB.C82_moved_violation`
* `Alipy.TB.C83_round_partial`
* `Alipy.TB.C83_cost_ignored_violation`
* `Alipy.TB.C83_no_oracle_violation`
* `Alipy.TB.C83_features_violation`
* `Alipy.TB.C83_names_violation`
* `Alipy.TB.C83_label_matrix_partial`
* `Alipy.TB.C83_matrix_repository_violation`
* `Alipy.LR.C84_predict`
* `Alipy.LR.C84_all_labels`
* `Alipy.LR.C85_update_helps`
* `Alipy.LR.C85_size_matters`
* `Alipy.LR.C85_weights`
* `Alipy.LR.C85_compared_with`
* `Alipy.LR.C85_step`
* `Alipy.LR.C85_train_returns`
* `Alipy.LR.C86_averages_partial`
* `Alipy.LR.C86_snapshots_partial`
* `Alipy.LR.C86_incremental_partial`
* `Alipy.LR.C86_no_restart_violation`
* `Alipy.LR.C86_less_relevant_violation`
* `Alipy.LR.C86_two_violation`
* `Alipy.BR.C87_independent`
* `Alipy.BR.C87_trained_on_column`
* `Alipy.BR.C87_refused`
* `Alipy.BR.C87_constant_partial`
* `Alipy.BR.C87_minus_one_violation`
* `Alipy.BR.C87_agree_partial`
* `Alipy.BR.C87_other_classifier_violation`
* `Alipy.Adaptive.C88_adaptive_values`
* `Alipy.Peek.C88_eer_partial`
* `Alipy.Peek.C88_quire`
* `Alipy.Peek.C88_audi`
* `Alipy.Peek.C88_auro`
* `Alipy.Peek.C88_halc`
* `Alipy.Peek.C88_performance`
* `Alipy.Peek.C88_bmdr`
* `Alipy.MLQuire.C89_value_partial`
* `Alipy.MLQuire.C89_select_partial`
* `Alipy.MLQuire.C89_downdate_violation`
* `Alipy.MLQuire.C89_choice_violation`
* `Alipy.MLQuire.C89_order_violation`
* `Alipy.Adaptive.C90_uncertainty`
* `Alipy.Adaptive.C90_cardinality`
* `Alipy.Adaptive.C90_error`
* `Alipy.Adaptive.C90_select_partial`
* `Alipy.Adaptive.C90_returns`
* `Alipy.Adaptive.C90_other_classifier_violation`
* `Alipy.Exper.C91_own_result_unique`
* `Alipy.Exper.C91_one_thread_partial`
* `Alipy.Exper.C91_sequential_partial`
* `Alipy.Exper.C91_any_schedule_partial`
* `Alipy.Exper.C91_shared_model_violation`
* `Alipy.Exper.C91_initial_point_stays`
* `Alipy.Exper.C91_time_limit_violation`
* `Alipy.Setup.C92_settings_partial`
* `Alipy.Setup.C92_failed_split_violation`
* `Alipy.Setup.C92_failed_strategy_violation`
* `Alipy.PairSession.C93_lists`
* `Alipy.PairSession.C93_within_budget_partial`
* `Alipy.PairSession.C93_never_ends_violation`
* `Alipy.PairSession.C93_empty_queries_violation`
* `Alipy.PairSession.C93_lost_query_violation`
* `Alipy.PairSession.C93_feature_random`
* `Alipy.PairSession.C93_random_pairs`
* `Alipy.GraphDensity.C94_call`
* `Alipy.GraphDensity.C94_series`
* `Alipy.GraphDensity.C94_raises_violation`
* `Alipy.GraphDensity.C94_negative_violation`
* `Alipy.GraphDensity.C94_object_kept_violation`
* `Alipy.GraphDensity.C94_weights`
* `Alipy.GraphDensity.C94_symmetric`
* `Alipy.GraphDensity.C94_density`
* `Alipy.GraphDensity.C94_density_range`
* `Alipy.Alias.C95_record_partial`
* `Alipy.Alias.C95_train`
* `Alipy.Alias.C95_handed_out`
* `Alipy.Alias.C95_state_partial`
* `Alipy.Alias.C95_performance_violation`
* `Alipy.MetricSymmetry.C96_accuracy_vector`
* `Alipy.MetricSymmetry.C96_accuracy_matrix`
* `Alipy.MetricSymmetry.C96_zero_one_vector`
* `Alipy.MetricSymmetry.C96_zero_one_matrix`
* `Alipy.MetricSymmetry.C96_hamming_vector`
* `Alipy.MetricSymmetry.C96_hamming_matrix`
* `Alipy.MetricSymmetry.C96_roc_auc`
* `Alipy.MetricSymmetry.C96_precision_recall`
* `Alipy.MetricSymmetry.C96_one_error`
* `Alipy.MetricSymmetry.C96_ranking_loss`
* `Alipy.MetricSymmetry.C96_coverage`
* `Alipy.MetricSymmetry.C96_lrap`
* `Alipy.MetricSymmetry.C96_micro_auc`
* `Alipy.MetricSymmetry.C96_average_precision_examples`
* `Alipy.MetricSymmetry.C96_average_precision_labels_partial`
* `Alipy.MetricSymmetry.C96_average_precision_violation`
* `Alipy.MetricSymmetry.C96_roc_auc_monotone`
* `Alipy.MetricSymmetry.C96_ranking_monotone`
* `Alipy.MetricSymmetry.C96_micro_auc_monotone`
* `Alipy.MetricSymmetry.C96_one_error_violation`
* `Alipy.MetricSymmetry.C96_class_names`
* `Alipy.MetricSymmetry.C96_weight_unit`
* `Alipy.MetricSymmetry.C96_weight_unit_violation`
* `Alipy.Rounding.C97_least_confident`
* `Alipy.Rounding.C97_least_confident_error`
* `Alipy.Rounding.C97_margin`
* `Alipy.Rounding.C97_margin_error`
* `Alipy.Rounding.C97_percent_not_early`
* `Alipy.Rounding.C97_cost_limit`
* `Alipy.Rounding.C97_entropy`
* `Alipy.Rounding.C97_accuracy`
* `Alipy.Rounding.C97_accuracy_order`
* `Alipy.Rounding.C97_train_size`
* `Alipy.Rounding.C97_fraction_size`
* `Alipy.Rounding.C97_cost_limit_violation`
* `Alipy.Resume.C98_same_end_partial`
* `Alipy.Resume.C98_same_failure_partial`
* `Alipy.Resume.C98_resumed_ends_partial`
* `Alipy.Resume.C98_queries_partial`
* `Alipy.Resume.C98_killed_while_saving_violation`
* `Alipy.Resume.C98_time_limit_violation`
* `Alipy.Perf.C99_accuracy`
* `Alipy.Perf.C99_hamming`
* `Alipy.Perf.C99_accuracy_rows`
* `Alipy.Perf.C99_hamming_cells`
* `Alipy.Perf.C99_unknown_name`
* `Alipy.Perf.C99_auc_column_partial`
* `Alipy.Perf.C99_auc_proba_violation`
* `Alipy.Perf.C99_auc_vector_violation`
* `Alipy.Perf.C99_ranking_metrics_violation`
* `Alipy.Perf.C99_experiment_auc`
* `Alipy.Select.C100_examples`
* `Alipy.Select.C100_committee`
* `Alipy.Select.C100_two_classes_partial`
* `Alipy.Select.C100_two_classes_ties_partial`
* `Alipy.Select.C100_certain_violation`
* `Alipy.Fair.C101_split_count`
* `Alipy.Fair.C101_split_possible`
* `Alipy.Fair.C101_split`
* `Alipy.Fair.C101_all_class`
* `Alipy.Fair.C101_random_select`
* `Alipy.Fair.C101_random_sampling`
* `Alipy.Fair.C101_pairs`
* `Alipy.Fair.C101_instances`
* `Alipy.Fair.C101_features`
* `Alipy.Fair.C101_multi_label`
* `Alipy.Fair.C101_feature_split`
* `Alipy.Consensus.C102_votes`
* `Alipy.Consensus.C102_two_classes`
* `Alipy.Consensus.C102_kl`
* `Alipy.Consensus.C102_labels`
* `Alipy.TTest.C103_symmetric`
* `Alipy.TTest.C103_order`
* `Alipy.TTest.C103_scale`
* `Alipy.TTest.C103_same`
* `Alipy.TTest.C103_one_pair`
* `Alipy.TTest.C103_constant`
* `Alipy.TTest.C103_decision`
* `Alipy.TTest.C103_monotone`
* `Alipy.TTest.C103_docs_violation`
* `Alipy.TTest.C103_layout_violation`
* `Alipy.TTest.C103_rows_columns`
* `Alipy.Lal.C104_features_partial`
* `Alipy.Lal.C104_ranges`
* `Alipy.Lal.C104_selection`
* `Alipy.Lal.C104_share_violation`
* `Alipy.Lal.C104_importance_violation`
* `Alipy.Lal.C104_binary`
* `Alipy.Forms.C105_numbers_or_tuples`
* `Alipy.Forms.C105_collection_or_numbers`
* `Alipy.Forms.C105_rows_violation`
* `Alipy.Forms.C105_default_order_violation`
* `Alipy.Forms.C105_toolbox_partial`
* `Alipy.PlotCheck.C106_batch_partial`
* `Alipy.PlotCheck.C106_batch_shown`
* `Alipy.PlotCheck.C106_batch_violation`
* `Alipy.Progress.C107_progress`
* `Alipy.Progress.C107_current`
* `Alipy.Progress.C107_record`
* `Alipy.Progress.C107_failed_print_violation`
* `Alipy.Progress.C107_mixed_violation`
* `Alipy.Causal.C108_only_known_labels`
* `Alipy.Causal.C108_test_labels`
* `Alipy.Causal.C108_shared_model_violation`
* `Alipy.Afasmc.C109_threshold_partial`
* `Alipy.Afasmc.C109_steps`
* `Alipy.Afasmc.C109_rate_partial`
* `Alipy.Afasmc.C109_result_partial`
* `Alipy.Afasmc.C109_optimum`
* `Alipy.Afasmc.C109_linear_model`
* `Alipy.Afasmc.C109_not_orthogonal_violation`
* `Alipy.Features.C110_trace`
* `Alipy.Features.C110_best_rank`
* `Alipy.Features.C110_svd_exists`
* `Alipy.Features.C110_descent`
* `Alipy.Features.C110_error`
* `Alipy.Features.C110_changes`
* `Alipy.Features.C110_ends`
* `Alipy.Bmdr.C111_best_exists`
* `Alipy.Bmdr.C111_bmdr_converges`
* `Alipy.Bmdr.C111_spal_converges`
* `Alipy.Bmdr.C111_rate`
* `Alipy.Bmdr.C111_ends`
* `Alipy.Bmdr.C111_bmdr_select`
* `Alipy.Bmdr.C111_spal_select`
* `Alipy.Bmdr.C112_bmdr`
* `Alipy.Bmdr.C112_spal`
* `Alipy.Bmdr.C112_bool_violation`
* `Alipy.Quire.C112_quire_partial`
* `Alipy.Quire.C112_quire_violation`
* `Alipy.Params.C113_experiment_partial`
* `Alipy.Params.C113_unknown_violation`
* `Alipy.Params.C113_qp_solver_violation`
* `Alipy.Params.C113_toolbox`
* `Alipy.Params.C113_toolbox_refused`
* `Alipy.Params.C113_toolbox_violation`
* `Alipy.Exper.C114_curve`
* `Alipy.Exper.C114_num_of_queries`
* `Alipy.CostSensitive.C115_optimal_partial`
* `Alipy.CostSensitive.C115_float_violation`
* `Alipy.CostSensitive.C115_capacity_violation`
* `Alipy.CostSensitive.C115_strategy_violation`
* `Alipy.Oracles.C116_oracles`
* `Alipy.Oracles.C116_summary`
* `Alipy.ERepo.C116_element_repository`
* `Alipy.MRepo.C116_matrix_repository`
* `Alipy.ResultForms.C117_axis`
* `Alipy.Kernels.C118_kernels`
* `Alipy.Kernels.C118_defaults`
* `Alipy.Kernels.C118_refused`
* `Alipy.Kernels.C118_psd`
* `Alipy.Kernels.C118_quire`
* `Alipy.Kernels.C118_ml_quire`
* `Alipy.Kernels.C118_initial`
* `Alipy.Kernels.C118_convex`
* `Alipy.Kernels.C118_local_is_global`
* `Alipy.Kernels.C118_admm`
* `Alipy.Kernels.C118_negative_violation`
* `Alipy.Eer.C119_log_loss`
* `Alipy.Eer.C119_select`
* `Alipy.Eer.C119_order`
* `Alipy.Eer.C119_zero_violation`
* `Alipy.Eer.C119_best_left_out_violation`
* `Alipy.Files.C120_files`
* `Alipy.Files.C120_write`
* `Alipy.Files.C120_methods_violation`
* `Alipy.Files.C120_mixed_split_violation`
* `Alipy.Batches.C121_uncertainty`
* `Alipy.Batches.C121_committee`
* `Alipy.Batches.C121_lal`
* `Alipy.Batches.C121_density_weighted`
* `Alipy.Batches.C121_eer`
* `Alipy.Batches.C121_sequential`
* `Alipy.Batches.C121_coreset_history`
* `Alipy.Batches.C121_coreset`
* `Alipy.Batches.C121_graph_density`
* `Alipy.Perfect.C122_ranking_loss`
* `Alipy.Perfect.C122_coverage`
* `Alipy.Perfect.C122_lrap`
* `Alipy.Perfect.C122_average_precision`
* `Alipy.Perfect.C122_agree`
* `Alipy.Perfect.C122_auc`
* `Alipy.Perfect.C122_labels`
* `Alipy.Perfect.C122_label_rows`
* `Alipy.Geometry.C123_distances`
* `Alipy.Geometry.C123_coreset_order`
* `Alipy.Geometry.C123_coreset`
* `Alipy.Geometry.C123_density_weighted`
* `Alipy.Geometry.C123_rbf`
* `Alipy.Geometry.C123_kernels`
* `Alipy.Geometry.C123_quire`
* `Alipy.Exper.C124_start`
* `Alipy.Exper.C124_end`
* `Alipy.Exper.C124_number_of_queries`
* `Alipy.Exper.C124_curves`
* `Alipy.CostSensitive.C125_knapsack`
* `Alipy.CostSensitive.C125_more_budget`
* `Alipy.CostSensitive.C125_poss`
* `Alipy.CostSensitive.C125_random`
* `Alipy.CostSensitive.C125_same_candidates`
* `Alipy.CostSensitive.C125_strategy_violation`
* `Alipy.Stop.C125_cost_limit`
* `Alipy.Noisy.C125_ceal`
* `Alipy.CostCurve.C125_cost_curve`
* `Alipy.Workers.C126_any_schedule`
* `Alipy.Workers.C126_recovered`
* `Alipy.Workers.C126_forms`
* `Alipy.Workers.C126_cold_start_violation`
* `Alipy.Workers.C126_inferred_violation`
* `Alipy.Improve.C127_auc`
* `Alipy.Improve.C127_ranking_loss`
* `Alipy.Improve.C127_coverage`
* `Alipy.Improve.C127_lrap`
* `Alipy.Improve.C127_average_precision`
* `Alipy.Improve.C127_micro_auc`
* `Alipy.Improve.C127_lrap_ties_violation`
* `Alipy.Improve.C127_labels`
* `Alipy.Improve.C127_label_rows`
* `Alipy.ScaleUnits.C128_units`
* `Alipy.ScaleUnits.C128_mirrored`
* `Alipy.ScaleUnits.C128_again`
* `Alipy.ScaleUnits.C128_order`
* `Alipy.ScaleUnits.C128_standard_unit_violation`
* `Alipy.ScaleUnits.C128_standard_offset`
* `Alipy.ScaleUnits.C128_standard_twice_violation`
* `Alipy.Display.C129_apart`
* `Alipy.Display.C129_number`
* `Alipy.Display.C129_due`
* `Alipy.Display.C129_clock`
* `Alipy.Display.C129_not_started`
* `Alipy.Display.C129_ended_violation`
* `Alipy.Display.C129_moment`
* `Alipy.Display.C129_table`
* `Alipy.Display.C129_pop_violation`
* `Alipy.Shade.C130_lines`
* `Alipy.Shade.C130_area`
* `Alipy.Shade.C130_start`
* `Alipy.Shade.C130_between`
* `Alipy.Shade.C130_folds`
* `Alipy.Shade.C130_order`
* `Alipy.Shade.C130_interval_violation`
* `Alipy.Shade.C130_cost_lines`
* `Alipy.Shade.C130_cost_area`
* `Alipy.Shade.C130_shift_violation`
* `Alipy.Noisy.C131_plurality`
* `Alipy.Noisy.C131_most`
* `Alipy.Noisy.C131_oracles`
* `Alipy.Noisy.C131_oracles_object`
* `Alipy.Noisy.C131_better`
* `Alipy.Noisy.C132_vote`
* `Alipy.Noisy.C132_iethresh`
* `Alipy.Noisy.C132_iethresh_run`
* `Alipy.Split.C132_split`
* `Alipy.Select.C133_entropy_score`
* `Alipy.Select.C133_entropy`
* `Alipy.Select.C133_least_confident`
* `Alipy.Select.C133_margin`
* `Alipy.Select.C133_margin_violation`
* `Alipy.Select.C133_even_entropy`
* `Alipy.Select.C133_even_least_confident`
* `Alipy.Select.C133_even_margin`
* `Alipy.CompletionForms.C134_forms`
* `Alipy.CompletionForms.C134_order`
* `Alipy.CompletionForms.C134_keeps`
* `Alipy.CompletionForms.C134_unobserved`
* `Alipy.CompletionForms.C134_mask`
* `Alipy.CompletionForms.C134_out_of_range`
* `Alipy.CompletionForms.C134_feature_out_of_range`
* `Alipy.CompletionForms.C134_row_violation`
* `Alipy.CompletionForms.C134_bounds_violation`
* `Alipy.Names.C135_call`
* `Alipy.Names.C135_program`
* `Alipy.Names.C135_construct`
* `Alipy.Names.C135_any_order`
* `Alipy.Names.C135_workspace`
* `Alipy.Names.C135_totals`
* `Alipy.Names.C135_split`
* `Alipy.Ends.C136_possible`
* `Alipy.Ends.C136_classes`
* `Alipy.Ends.C136_no_room`
* `Alipy.Ends.C136_matrix`
* `Alipy.Ends.C136_multi_label`
* `Alipy.Ends.C136_features`
* `Alipy.Ends.C136_geometric`
* `Alipy.Ends.C136_unlucky_violation`
* `Alipy.LeaveOut.C137_uncertainty`
* `Alipy.LeaveOut.C137_distance`
* `Alipy.LeaveOut.C137_committee`
* `Alipy.LeaveOut.C137_committee_kl`
* `Alipy.LeaveOut.C137_ceal`
* `Alipy.Parts.C138_repeated_vectors`
* `Alipy.Parts.C138_repeated_matrices`
* `Alipy.Parts.C138_repeated_rankings`
* `Alipy.Parts.C138_precision_weights_violation`
* `Alipy.Parts.C138_joined_vectors`
* `Alipy.Parts.C138_joined_matrices`
* `Alipy.Parts.C138_joined_rankings`
* `Alipy.Parts.C138_joined_precisions`
* `Alipy.Parts.C138_joined_hamming`
* `Alipy.Parts.C138_joined_hamming_matrices`
* `Alipy.Parts.C139_reversed`
* `Alipy.Parts.C139_other_class`
* `Alipy.Parts.C139_exchanged`
* `Alipy.Parts.C139_ranking_loss`
* `Alipy.Limits.C140_goes_on`
* `Alipy.Limits.C140_experiment`
* `Alipy.Limits.C140_experiment_without`
* `Alipy.Limits.C140_session`
* `Alipy.Limits.C140_knapsack`
* `Alipy.Limits.C140_performance`
* `Alipy.Limits.C140_threshold`
* `Alipy.LabelOrder.C141_mmc`
* `Alipy.LabelOrder.C141_adaptive`
* `Alipy.LabelOrder.C141_audi`
* `Alipy.LabelOrder.C141_auro`
* `Alipy.LabelOrder.C141_mark`
* `Alipy.LabelOrder.C141_halc_violation`
* `Alipy.MLQuire.C141_quire_values`
* `Alipy.MLQuire.C141_quire`
* `Alipy.AudiSpread.C142_epsilon`
* `Alipy.AudiSpread.C142_same_partial`
* `Alipy.AudiSpread.C142_deviation_partial`
* `Alipy.AudiSpread.C142_spread_violation`
* `Alipy.StaySelected.C143_least_confident`
* `Alipy.StaySelected.C143_margin`
* `Alipy.StaySelected.C143_distance`
* `Alipy.StaySelected.C143_entropy`
* `Alipy.StaySelected.C143_committee`
* `Alipy.StaySelected.C143_ceal_cheaper`
* `Alipy.StaySelected.C143_ceal_uncertain`
* `Alipy.StaySelected.C143_ceal_right`
* `Alipy.StaySelected.C143_threshold`
* `Alipy.StaySelected.C143_budget_ties`
* `Alipy.StaySelected.C143_budget_more_valuable`
* `Alipy.StaySelected.C143_budget_less_valuable`
* `Alipy.StaySelected.C143_budget_cheaper`
* `Alipy.StaySelected.C143_budget_dearer`
* `Alipy.SameMeasure.C144_loss_is_missing_area`
* `Alipy.SameMeasure.C144_loss_with_ties`
* `Alipy.SameMeasure.C144_micro_is_mean`
* `Alipy.SameMeasure.C144_flipped`
* `Alipy.SameMeasure.C144_coverage`
* `Alipy.SameMeasure.C144_precision`
* `Alipy.SameMeasure.C144_two_precisions`
* `Alipy.SameMeasure.C144_vectors`
* `Alipy.SameMeasure.C144_matrices`
* `Alipy.Calls.C145_add_knowledge`
* `Alipy.Calls.C145_several_oracles`
* `Alipy.Calls.C145_repository`
* `Alipy.Calls.C145_matrix_repository`
* `Alipy.Calls.C145_states`
* `Alipy.AnyOrder.C146_collections`
* `Alipy.AnyOrder.C146_workspace`
* `Alipy.AnyOrder.C146_totals`
* `Alipy.AnyOrder.C146_repositories`
* `Alipy.AnyOrder.C146_repositories_examples`
* `Alipy.AnyOrder.C146_matrix_repositories`
* `Alipy.Criteria.C147_element_repository`
* `Alipy.Criteria.C147_matrix_repository`
* `Alipy.Criteria.C147_experiment`
* `Alipy.Undo.C148_added`
* `Alipy.Undo.C148_removed`
* `Alipy.Undo.C148_pairs`
* `Alipy.Undo.C148_repository`
* `Alipy.Undo.C148_matrix_repository`
* `Alipy.Undo.C148_state`
* `Alipy.Twice.C149_update`
* `Alipy.Twice.C149_difference`
* `Alipy.Twice.C149_pairs`
* `Alipy.Twice.C149_oracle`
* `Alipy.Twice.C149_matrix_repository`
* `Alipy.Twice.C149_discard`
* `Alipy.Twice.C149_repository_violation`
* `Alipy.Twice.C149_states`
* `Alipy.Twice.C149_stopping`
* `Alipy.Twice.C149_minmax`
* `Alipy.Twice.C149_standard_violation`
* `Alipy.Chance.C150_auc`
* `Alipy.Chance.C150_auc_constant`
* `Alipy.Chance.C150_auc_range`
* `Alipy.Chance.C150_accuracy`
* `Alipy.Chance.C150_constant_accuracy`
* `Alipy.Chance.C150_ranking_loss`
* `Alipy.Chance.C150_flat`
* `Alipy.Lal.C151_files`
* `Alipy.Lal.C151_once`
* `Alipy.Lal.C151_refused`
* `Alipy.Lal.C151_broken_violation`
* `Alipy.MoreIsBetter.C152_budget`
* `Alipy.MoreIsBetter.C152_better_items`
* `Alipy.MoreIsBetter.C152_more_items`
* `Alipy.MoreIsBetter.C152_rounds`
* `Alipy.MoreIsBetter.C152_pairs`
* `Alipy.MoreIsBetter.C152_coreset`
* `Alipy.MoreIsBetter.C152_completion`
* `Alipy.MoreIsBetter.C152_pool`
* `Alipy.MoreIsBetter.C152_pool_committee`
* `Alipy.MoreIsBetter.C152_pool_distance`
* `Alipy.MoreIsBetter.C152_pool_divergence`
* `Alipy.MoreIsBetter.C152_pool_label_sets`
* `Alipy.ThreadsObject.C153_recovered`
* `Alipy.ThreadsObject.C153_savers`
* `Alipy.ThreadsObject.C153_again`
* `Alipy.Ranges.C154_accuracy`
* `Alipy.Ranges.C154_accuracy_rows`
* `Alipy.Ranges.C154_ranking_loss`
* `Alipy.Ranges.C154_one_error`
* `Alipy.Ranges.C154_coverage`
* `Alipy.Ranges.C154_lrap`
* `Alipy.Ranges.C154_average_precision`
* `Alipy.Ranges.C154_micro_auc`
* `Alipy.Ranges.C154_curve`
* `Alipy.Ranges.C154_entropy`
* `Alipy.Ranges.C154_least_confident`
* `Alipy.Ranges.C154_margin`
* `Alipy.Ranges.C154_vote_entropy`
* `Alipy.Ranges.C154_kl`
* `Alipy.Ranges.C154_negative_violation`
* `Alipy.CostSensitive.C155_equal_costs`
* `Alipy.Noisy.C155_one_oracle`
* `Alipy.Noisy.C155_threshold_zero`
* `Alipy.RankMetrics.C155_equal_weights`
* `Alipy.CostCurve.C155_unit_costs`
* `Alipy.MLIC.C156_multilabel`
* `Alipy.StateIO.C156_saver`
* `Alipy.StateIO.C156_refused_dict`
* `Alipy.StateIO.C156_dict_violation`
* `Alipy.Oracles.C156_oracles`
* `Alipy.Oracles.C156_oracles_violation`
* `Alipy.ERepo.C156_element`
* `Alipy.ERepo.C156_element_query`
* `Alipy.Share.C157_accuracy`
* `Alipy.Share.C157_zero_one_loss`
* `Alipy.Share.C157_accuracy_rows`
* `Alipy.Share.C157_hamming`
* `Alipy.Share.C157_hamming_cells`
* `Alipy.Share.C157_ranking_loss`
* `Alipy.Share.C157_coverage`
* `Alipy.Share.C157_lrap`
* `Alipy.Share.C157_one_error`
* `Alipy.Share.C157_auc`
* `Alipy.Share.C157_vote`
* `Alipy.Share.C157_least_confident`
* `Alipy.Share.C157_margin`
* `Alipy.Share.C157_distance`
* `Alipy.Share.C157_entropy`
* `Alipy.Share.C157_committee`
* `Alipy.Share.C157_divergence`
* `Alipy.SameRun.C158_experiment_or_script`
* `Alipy.SameRun.C158_both_end`
* `Alipy.SameRun.C158_any_repository`
* `Alipy.SameRun.C158_round`
* `Alipy.MLOracle.C159_flattened`
* `Alipy.MLOracle.C159_any_grouping`
* `Alipy.MLOracle.C159_integrated`
* `Alipy.MLOracle.C159_repeated`
* `Alipy.Pooled.C160_curve`
* `Alipy.Pooled.C160_between`
* `Alipy.Pooled.C160_states`
* `Alipy.Pooled.C160_lists`
* `Alipy.PooledCost.C160_costs`
