# Axioms of the theorems in MANIFEST.json

Output of `#print axioms`, grouped. All names are in the namespace `Acv`.

## Classical.choice, Quot.sound, propext

`C01_leaf_rectangles_partition`, `C02_leaf_variables_complete`, `C03_predict_is_sum_of_leaf_values`, `C03_tree_limit`, `C04_depth_is_height`, `C05_weights_count_rows`, `C06_leaf_estimator_is_shapley_value`, `C06_players_partition`, `C07_efficiency`, `C07_efficiency_columns`, `C08_unused_variable_zero`, `C09_group_members_share_value`, `C10_additive_and_linear`, `C100_partial`, `C100_structure`, `C100_json`, `C100_gap`, `C100_claim_default`, `C100_threshold_false`, `C100_names`, `C100_names_false`, `C100_stripped_false`, `C100_space_repeats`, `C100_categorical`, `C100_words`, `C101_local`, `C101_local_history`, `C101_regional`, `C101_regional_samples`, `C101_regional_needs_local`, `C101_other_observations`, `C101_other_regions`, `C101_own_false`, `C101_regional_false`, `C101_position_partial`, `C101_position_false`, `C102_memory_partial`, `C102_refines`, `C102_single`, `C102_single_tree`, `C102_depth`, `C102_offsets`, `C102_columns_false`, `C102_overflow_false`, `C102_single_false`, `C102_bounds`, `C102_single_negative`, `C103_rounding`, `C103_predict`, `C103_predict_double`, `C103_shapley`, `C103_exact`, `C103_shapley_double`, `C103_efficiency`, `C103_cancellation_false`, `C103_nearest`, `C103_ties`, `C104_sdp`, `C104_exp`, `C104_cdf`, `C104_weights`, `C104_exact`, `C104_sdp_double`, `C104_zero`, `C104_level`, `C104_explanations`, `C104_tree_exp`, `C104_tree_exp_double`, `C104_level_false`, `C105_groups`, `C105_valid`, `C105_shap`, `C105_local_sdp`, `C105_ends`, `C105_single_raises`, `C105_python_raises`, `C105_clustering_false`, `C105_claim_false`, `C105_overlap_raises`, `C106_nearest`, `C106_cast`, `C106_same_leaf`, `C106_efficiency`, `C106_left`, `C106_false`, `C107_isinstance`, `C107_branch`, `C107_subclass`, `C107_balanced`, `C107_loaded_partial`, `C107_silent`, `C107_ngboost`, `C107_booster`, `C107_agnostic`, `C107_false`, `C107_kind`, `C108_vector`, `C108_false`, `C109_always`, `C109_negative`, `C109_no_effect`, `C109_maxrule`, `C109_false`, `C109_step`, `C11_v2_efficiency_partial`, `C11_v2_efficiency_false`, `C11_v2_ungrouped_zero`, `C110_values`, `C110_target`, `C110_raises`, `C110_magic`, `C110_cardinality_false`, `C111_reported_partial`, `C111_single`, `C111_false`, `C111_value_false`, `C112_local`, `C112_regional_partial`, `C112_regional_samples`, `C112_weights_claim`, `C112_weights_false`, `C112_wanted_claim`, `C112_wanted_false`, `C113_forest`, `C113_weights`, `C113_cdp`, `C113_search`, `C113_leaf`, `C113_sdp`, `C113_active`, `C113_py`, `C113_min_node_false`, `C113_cf_false`, `C114_shap_of_exp_partial`, `C114_symmetry_partial`, `C114_null_partial`, `C114_efficiency_partial`, `C114_false`, `C115_predict`, `C115_leaf`, `C115_sdp`, `C115_forest`, `C115_cdp`, `C115_rule_partial`, `C115_rule_false`, `C116_predict`, `C116_leaf`, `C116_sdp`, `C116_forest`, `C116_cdp`, `C116_search`, `C116_limit_false`, `C117_predict`, `C117_leaf`, `C117_active`, `C117_sdp`, `C117_forest`, `C117_cdp`, `C117_search_order`, `C117_search`, `C117_search_small_partial`, `C117_search_small_false`, `C118_predict`, `C118_exp`, `C118_shapley`, `C118_more_columns`, `C118_sdp`, `C118_forest`, `C118_cond`, `C118_rule`, `C118_search`, `C118_sufficient`, `C118_cat_false`, `C118_search_false`, `C119_forest`, `C119_rule`, `C119_cond`, `C119_level`, `C119_copies`, `C12_cache_agrees`, `C12_other_coalitions_differ`, `C120_cat`, `C120_total`, `C120_false`, `C121_predict`, `C121_shapley`, `C121_shapley_py`, `C121_exp`, `C121_sdp`, `C121_forest`, `C121_cond`, `C121_search`, `C121_false`, `C122_minimal`, `C122_minimal_clf`, `C122_all`, `C122_false`, `C123_minimal`, `C123_all`, `C123_false`, `C124_sdp`, `C124_cdp`, `C124_search`, `C124_all`, `C124_forest`, `C124_reg_partial`, `C124_reg_false`, `C124_reg_drops`, `C125_rows_partial`, `C125_agree`, `C125_false`, `C125_rules`, `C126_cat`, `C126_norm`, `C126_exp_partial`, `C126_shap_partial`, `C126_claim`, `C126_constant_claim`, `C126_false`, `C127_cat`, `C127_norm`, `C127_notoptimized`, `C127_discrete`, `C127_shap_partial`, `C127_exp_claim`, `C127_shap_claim`, `C127_false`, `C127_normalized_false`, `C128_order`, `C128_parts`, `C128_again`, `C128_wsdp_again`, `C128_grow_false`, `C128_grow_values`, `C129_sdp`, `C129_classes`, `C129_search`, `C129_v0`, `C129_exp`, `C129_percentile`, `C129_quantile`, `C129_quantile_diff`, `C129_leaves`, `C129_clf`, `C129_quantile_claim`, `C129_quantile_false`, `C13_race_free_schedule_independent`, `C13_race_loses_update`, `C13_shapley_schedule_independent`, `C13_accumulation`, `C13_exp`, `C13_exp_cat`, `C13_sdp_clf_cat`, `C13_sdp_clf`, `C13_shapley_any_arithmetic`, `C13_tables_any_arithmetic`, `C13_exact_instance`, `C13_tables_exact_instance`, `C130_leaves`, `C130_cat`, `C130_forest`, `C130_percentile_equal`, `C130_percentile_partial`, `C130_quantile_partial`, `C130_percentile_false`, `C130_quantile_false`, `C130_model_false`, `C131_reported`, `C131_python`, `C131_explained_partial`, `C131_explained_false`, `C132_up_to_fifteen`, `C132_answers_iff`, `C132_all_explained`, `C132_hard_sample`, `C132_no_stop`, `C132_reported_partial`, `C132_claim_false`, `C133_shapley`, `C133_normalized`, `C133_active`, `C133_search_partial`, `C133_sdp_order`, `C133_search_false`, `C133_stop_false`, `C134_efficiency`, `C134_forest`, `C134_new_observation`, `C135_cdf`, `C135_rules_partial`, `C135_numbering_false`, `C135_python_false`, `C136_depth_partial`, `C136_joined_partial`, `C136_false`, `C136_python_partial`, `C137_forest`, `C137_exp`, `C137_sdp_partial`, `C137_repeated_false`, `C137_reg`, `C137_reg_python_partial`, `C137_reg_repeated_false`, `C138_dominance`, `C138_bounds`, `C138_compare`, `C138_normalised`, `C138_swing_bounds`, `C138_swing`, `C138_exp_partial`, `C138_exp_order_partial`, `C138_sign_false`, `C139_groups`, `C139_companions`, `C139_normalized`, `C14_binomial_exact`, `C14_rounded`, `C14_double`, `C14_double_false`, `C140_value`, `C140_zero`, `C140_dummy_false`, `C15_buffers_too_small`, `C15_buffers_large_enough_partial`, `C15_fits_iff`, `C16_null_variables_zero`, `C16_straddling_coalition_nonzero`, `C16_empty_active_nan`, `C17_active_is_shapley_value`, `C17_active_efficiency`, `C17_empty_leaf_nan`, `C18_adaptive_rows`, `C18_documented_layout_differs`, `nullRow_length`, `C19_python_sdp_probability`, `C19_cat_sdp_probability`, `C19_cython_false`, `C19_cython_endpoints_partial`, `C19_cat_is_frequency`, `C19_python_formula`, `C19_cython_formula`, `C20_cython_false`, `C20_python_false`, `C20_background_row_on_threshold`, `C20_full_coalition_is_prediction_partial`, `C20_exp_is_leaf_game`, `C20_python_combination`, `C20_cat_is_conditional_mean`, `C21_sdp_ddp_are_probabilities`, `C21_sum_is_live_fraction`, `C21_complement_false`, `C21_complement_partial`, `C21_is_mean_frequency`, `C22_cell_is_same_route`, `C22_full_set_is_leaf`, `C23_cython_false`, `C23_cython_min_size_partial`, `C24_reads_outside_false`, `C24_depends_on_forest_only_partial`, `C24_balanced`, `C25_huge_values_false`, `C25_rule_contains_instance_partial`, `C26_same_sdp_in_rule`, `C26_rule_sdp_is_sdp`, `C27_weights`, `C27_sum_one_false`, `C27_sum_one_partial`, `C28_cdf`, `C28_partial`, `C28_empty_cell_false`, `C29_reported_partial`, `C29_full_one`, `C29_not_found`, `C29_clf_reported_partial`, `C29_full_set_false`, `C30_independent_rf`, `C30_independent_clf`, `C30_independent_msdp`, `C31_frequency_rf`, `C31_frequency_clf`, `C31_frequency_msdp`, `C32_all_sufficient`, `C32_global`, `C33_complete_partial`, `C33_each_once`, `C33_cut`, `C33_false_16`, `C33_read_beyond`, `C34_partition`, `C34_of_search`, `C35_local`, `C36_max_rule`, `C36_returns`, `C36_one_column_raises`, `C36_volume_grows`, `C36_contains_instance`, `C37_contains_original`, `C37_algo2_contains`, `C37_union_one_column_partial`, `C37_algo2_one_column_partial`, `C37_corner_false`, `C37_one_neighbour`, `C38_remove_in`, `C38_unique_sorted`, `C38_wsdp_partial`, `C38_wsdp_coverage_false`, `C38_wsdp_duplicates_vanish`, `C38_old_wsdp_pairing_false`, `C39_classifier_partial`, `C39_regression_partial`, `C39_classifier_unfiltered`, `C39_regression_unfiltered`, `C39_fitted_classifier`, `C39_false`, `C39_raises`, `C39_small_coverage`, `C39_nan_hides`, `C40_sample`, `C40_inside`, `C40_returns`, `C40_old_sampler`, `C40_end_to_end`, `C40_greedy`, `C41_partial`, `C42_partial`, `C42_structure`, `C42_weights`, `C42_columns_false`, `C42_one_hot_false`, `C42_nan_false`, `C43_partial`, `C43_sindex`, `C43_threshold`, `C43_structure`, `C43_tree`, `C43_double_false`, `C43_layout`, `C44_partial`, `C44_structure`, `C44_nan_false`, `C44_zero_false`, `C44_category_false`, `C44_raises`, `C44_category`, `C45_defined`, `C45_range`, `C45_monotone`, `C45_sorter`, `C45_zero_weight`, `C45_scale`, `C45_value_partial`, `C45_forest`, `C46_parts`, `C46_signs`, `C46_counts`, `C46_coalitions`, `C47_selection`, `C47_local`, `C47_regional`, `C47_run_partial`, `C47_regression_level_false`, `C48_rf_rule_weights_partial`, `C48_own_target_is_sdp`, `C48_cond`, `C48_intv`, `C48_intv_false`, `C48_ddp_intv`, `C49_python_equals_cython`, `C49_singleton_group_raises`, `C49_empty_leaf_nan`, `C50_padded_partial`, `C50_padded_clf_partial`, `C50_padded_msdp`, `C50_null_row`, `C50_stale_false`, `C51_background_partial`, `C51_gap_false`, `C52_partial`, `C52_close_rules_false`, `C53_coverage_partial`, `C53_classifier`, `C53_regression`, `C53_empty_coverage_false`, `C53_frequency`, `C54_rows_kept`, `C54_cells`, `C54_weights`, `C54_point`, `C55_partial`, `C55_vanishes`, `C56_enlarged`, `C56_returns`, `C56_all_leaves`, `C57_leaves`, `C57_accuracy_partial`, `C57_row_false`, `C57_accuracy_false`, `C58_coverage_partial`, `C58_coverage_false`, `C59_order_partial`, `C59_ties_false`, `C60_shapley_partial`, `C60_efficiency`, `C60_direct_false`, `C60_direct_value`, `C60_direct_first_value`, `C60_direct_last_value`, `C60_direct_steps`, `C61_regressor`, `C61_classifier`, `C61_boosting`, `C61_single`, `C62_tree`, `C62_refused`, `C62_forest`, `C62_boosting`, `C63_stacked`, `C64_boosting_partial`, `C64_forest`, `C64_forest_false`, `C64_rounds_false`, `C64_shap_false`, `C65_scores`, `C65_partial`, `C65_false`, `C66_leaf`, `C66_inner`, `C66_predict_partial`, `C66_one_column_false`, `C67_partial`, `C67_predict_partial`, `C67_categorical_false`, `C68_structure`, `C68_partial`, `C68_threshold_false`, `C68_gap`, `C69_frequency_partial`, `C69_small_tolerance`, `C69_offset_partial`, `C69_python`, `C69_zero_false`, `C69_offset_false`, `C70_independent_partial`, `C70_all_columns_partial`, `C70_python`, `C70_independent_false`, `C70_range_false`, `C70_unreachable_leaves`, `C70_three_trees`, `C71_reported_partial`, `C71_independent`, `C71_frequency`, `C71_single_tree_partial`, `C71_groups_false`, `C72_convex_combination`, `C72_is_normalised_game`, `C72_extremes_partial`, `C72_extremes_false`, `C72_empty_leaf_nan`, `C73_is_shapley_value`, `C73_efficiency_partial`, `C73_efficiency_false`, `C73_unused_variable_zero`, `C73_not_values_of_exp_normalized`, `C74_cache_agrees_false`, `C74_cache_agrees_partial`, `C74_cache_exact`, `C75_enumeration_is_shapley_value`, `C75_notoptimized_partial`, `C75_discrete`, `C75_discrete_needs_equal_row`, `C76_divergent_partial`, `C76_counterfactual_partial`, `C76_intv_partial`, `C76_not_found`, `C76_frequency`, `C76_independent`, `C76_full_set_false`, `C77_sets_partial`, `C77_probabilities_shifted`, `C77_divergent_false`, `C78_cython_is_python`, `C78_quantile`, `C78_diff`, `C78_diff_defined`, `C78_diff_reflect_partial`, `C78_diff_ties_false`, `C79_rule`, `C79_contains_partial`, `C79_huge_values_false`, `C79_fails_iff`, `C79_forest_rows_false`, `C79_sdp_false`, `C79_never_extended`, `C80_is_mean_frequency`, `C80_versions_agree`, `C80_early_stop_false`, `C80_rule_partial`, `C80_maxrule`, `C80_search_partial`, `C81_is_mean_frequency`, `C81_probability`, `C81_exp`, `C81_python_is_cython_partial`, `C81_python_is_cython_false`, `C82_clusters`, `C82_partition`, `C82_groups_partial`, `C82_groups_false`, `C82_groups_twice`, `C83_variables`, `C83_coalitions`, `C83_coalition_value`, `C84_python_swing`, `C84_python_swing_clf`, `C84_efficiency`, `C84_python_is_cython`, `C85_active_python_value_partial`, `C85_active_python_is_cython`, `C85_active_python_efficiency`, `C85_active_python_null`, `C85_on_split_false`, `C86_msdp_clf`, `C86_msdp_reg`, `C86_msdp_range`, `C86_sufficient`, `C86_threshold`, `C86_not_monotone`, `C86_search`, `C86_search_values`, `C87_search`, `C87_stop`, `C87_value`, `C87_empty`, `C87_range_false`, `C87_importance`, `C88_rebuild`, `C88_others`, `C88_children`, `C88_leaves_proba`, `C89_compatible`, `C89_range`, `C89_tree_mean`, `C89_tree_frequency_partial`, `C89_clf_frequency_partial`, `C89_reg_frequency_partial`, `C89_boxes_false`, `C89_empty_false`, `C89_forest_mean`, `C89_reg_forest_partial`, `C89_reg_forest_number`, `C89_forest_false`, `C90_search_agrees_partial`, `C90_search_returns`, `C90_search_returns_16`, `C90_search_out_of_bounds`, `C90_claim_false`, `C90_shap_nopa`, `C90_shap_parallel`, `C90_active_nopa`, `C90_exp`, `C90_exp_cat`, `C90_sdp_clf_cat`, `C90_sdp_clf`, `C91_coverage`, `C91_accuracy_regression`, `C91_accuracy_binary_partial`, `C91_accuracy_changed`, `C91_accuracy_false`, `C91_original_false`, `C91_alltests_false`, `C91_alltests_raises`, `C91_alltests_outside`, `C91_alltests_figures`, `C92_weights`, `C92_rule_partial`, `C92_same_in_rule`, `C92_same_probability`, `C92_scalar_raises`, `C92_scalar_false`, `C92_classifier_ignores_t`, `C92_answers`, `C93_returned`, `C93_chosen_partial`, `C93_unique_false`, `C93_regional`, `C93_binary`, `C93_leaves`, `C93_origin`, `C93_no_target`, `C93_regression_raises`, `C93_original_accuracy`, `C94_number_raises`, `C94_number_false`, `C94_answers_partial`, `C94_sdp`, `C94_agree`, `C94_cdf_partial`, `C94_cdf_raises`, `C94_cdf_false`, `C94_quantile`, `C94_columns`, `C94_importance_partial`, `C94_sufficient_partial`, `C94_wide_raises`, `C94_acx`, `C95_no_new_points`, `C95_rule_kept`, `C95_all_points_partial`, `C95_points_lost`, `C95_best`, `C95_tolerance`, `C95_adjacent`, `C95_overapprox`, `C95_edges`, `C95_best_last`, `C96_conditional`, `C96_best`, `C96_unique`, `C96_error`, `C96_given`, `C96_order`, `C96_marginal`, `C96_independent`, `C96_shape_partial`, `C96_shape_false`, `C97_partial`, `C97_iff`, `C97_neighbour`, `C97_false`, `C98_print_partial`, `C98_print_false`, `C98_local`, `C98_global`, `C98_output_partial`, `C98_output_false`, `C98_page`, `C98_page_partial`, `C98_page_false`, `C99_plot`, `C99_no_plot`, `C99_page`, `C99_page_partial`, `C99_page_false`

## Quot.sound, propext

`C101_out_of_order`, `C107_stacked`, `C108_matrix_partial`, `C110_names`, `C112_tests`, `C128_grow_claim`, `C128_grow_order_claim`, `C13_complete_schedule_exists`, `C13_row_loop`, `C132_sixteen`, `C15_max_var_is_last_tree`, `C23_python_min_size`, `C23_cython_cell_may_be_empty`, `C24_interior_trees`, `C37_bounds`, `C41_false`, `C41_frozen`, `C41_predict`, `C41_failed_fit`, `C41_rules`, `C43_buffer_partial`, `C43_buffer_iff`, `C43_false`, `C43_gbtree`, `C44_complete`, `C63_incomplete`, `C67_structure`, `C79_no_columns`, `C86_players_15`, `C90_reg_agrees`

## propext

`C14_rejected_argument`, `C41_not_fitted`

## none

`C88_leaves_proba_empty`
