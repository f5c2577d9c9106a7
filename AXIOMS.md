# Axioms per theorem

Printed by `#print axioms` (namespace `GPyOpt.Props`).

| theorem | axioms |
|---|---|
| `C01_zip_unzip` | propext, Classical.choice, Quot.sound |
| `C02_encode_injective` | propext, Classical.choice, Quot.sound |
| `C02_unzip_zip` | propext, Classical.choice, Quot.sound |
| `C03_round_in_domain` | propext, Classical.choice, Quot.sound |
| `C04_round_fixed` | propext, Classical.choice, Quot.sound |
| `C04_round_idempotent` | propext, Classical.choice, Quot.sound |
| `C05_round_nearest` | propext, Classical.choice, Quot.sound |
| `C06_round_bandit_counterexample` | propext, Classical.choice, Quot.sound |
| `C06_round_bandit_partial` | propext, Classical.choice, Quot.sound |
| `C07_bandit_counterexample` | propext, Quot.sound |
| `C07_columns_bounds` | propext, Classical.choice, Quot.sound |
| `C07_columns_decode` | propext, Classical.choice, Quot.sound |
| `C07_columns_hold_encoding` | propext, Classical.choice, Quot.sound |
| `C07_columns_round` | propext, Classical.choice, Quot.sound |
| `C07_discrete_grid` | propext, Classical.choice, Quot.sound |
| `C07_layout` | propext, Classical.choice, Quot.sound |
| `C07_subspace` | propext, Classical.choice, Quot.sound |
| `C07_tiling` | propext, Classical.choice, Quot.sound |
| `C08_validation_counterexample` | propext, Quot.sound |
| `C08_validation_partial` | propext, Classical.choice, Quot.sound |
| `C09_collision` | propext, Quot.sound |
| `C09_find_variable` | propext, Classical.choice, Quot.sound |
| `C09_unknown_name` | propext, Quot.sound |
| `C100_as_good_as_samples_partial` | propext, Classical.choice, Quot.sound |
| `C100_rounding_counterexample` | propext, Classical.choice, Quot.sound |
| `C101_bandit_counterexample` | propext, Classical.choice, Quot.sound |
| `C101_before_run_counterexample` | propext, Classical.choice, Quot.sound |
| `C101_constraints_counterexample` | propext, Classical.choice, Quot.sound |
| `C101_cost_counterexample` | propext, Classical.choice, Quot.sound |
| `C101_modular_counterexample` | propext, Classical.choice, Quot.sound |
| `C101_report_partial` | propext, Classical.choice, Quot.sound |
| `C102_files_keep_run` | propext, Classical.choice, Quot.sound |
| `C102_files_partial` | propext, Classical.choice, Quot.sound |
| `C102_max_time_counterexample` | propext, Classical.choice, Quot.sound |
| `C102_modular_counterexample` | propext, Classical.choice, Quot.sound |
| `C103_plot_before_fit` | propext, Classical.choice, Quot.sound |
| `C103_plot_keeps_data` | propext, Classical.choice, Quot.sound |
| `C103_plot_resets_counterexample` | propext, Classical.choice, Quot.sound |
| `C103_plotted_acquisition` | propext, Classical.choice, Quot.sound |
| `C103_plotted_data_counterexample` | propext, Classical.choice, Quot.sound |
| `C103_plotted_data_partial` | propext, Classical.choice, Quot.sound |
| `C104_convergence_counterexample` | propext, Classical.choice, Quot.sound |
| `C104_convergence_partial` | propext, Classical.choice, Quot.sound |
| `C105_ask_tell` | propext, Classical.choice, Quot.sound |
| `C106_exhaustive_partial` | propext, Classical.choice, Quot.sound |
| `C106_gives_up_counterexample` | propext, Classical.choice, Quot.sound |
| `C106_progress` | propext, Classical.choice, Quot.sound |
| `C107_fitted_to_data` | propext, Quot.sound |
| `C107_forest_partial` | propext, Classical.choice, Quot.sound |
| `C107_single_rows_counterexample` | propext, Classical.choice, Quot.sound |
| `C107_warped` | propext, Classical.choice, Quot.sound |
| `C108_noise_ignored_counterexample` | propext, Classical.choice, Quot.sound |
| `C108_noise_partial` | propext, Classical.choice, Quot.sound |
| `C109_later_data_counterexample` | propext, Classical.choice, Quot.sound |
| `C109_warp_range_partial` | propext, Classical.choice, Quot.sound |
| `C10_bounds_to_space` | propext, Classical.choice, Quot.sound |
| `C110_categorical_counterexample` | propext, Classical.choice, Quot.sound |
| `C110_entropy_spaces_partial` | propext, Classical.choice, Quot.sound |
| `C110_many_variables_counterexample` | propext, Classical.choice, Quot.sound |
| `C111_components_counterexample` | propext, Classical.choice, Quot.sound |
| `C111_components_partial` | propext, Quot.sound |
| `C111_local_penalization_counterexample` | propext |
| `C111_model_without_type` | propext, Quot.sound |
| `C112_consumed_counterexample` | propext, Quot.sound |
| `C112_dictionaries` | propext, Quot.sound |
| `C112_space_partial` | propext |
| `C113_final_counterexample` | propext, Classical.choice, Quot.sound |
| `C113_logger_file_partial` | propext, Classical.choice, Quot.sound |
| `C113_one_headline` | propext, Classical.choice, Quot.sound |
| `C114_language_counterexample` | propext, Classical.choice, Quot.sound |
| `C114_loader_partial` | propext, Classical.choice, Quot.sound |
| `C114_relative_path_counterexample` | propext, Classical.choice, Quot.sound |
| `C115_best_guess` | propext, Classical.choice, Quot.sound |
| `C115_best_value` | propext, Quot.sound |
| `C115_evaluate_counterexample` | propext, Classical.choice, Quot.sound |
| `C115_evaluate_partial` | propext, Classical.choice, Quot.sound |
| `C115_integrated_counterexample` | propext, Classical.choice, Quot.sound |
| `C115_integrated_gradient_counterexample` | propext, Classical.choice, Quot.sound |
| `C115_integrated_gradient_partial` | propext, Classical.choice, Quot.sound |
| `C115_integrated_partial` | propext, Classical.choice, Quot.sound |
| `C115_moment_derivatives` | propext, Classical.choice, Quot.sound |
| `C115_moments` | propext, Classical.choice, Quot.sound |
| `C115_uniform_samples` | propext, Classical.choice, Quot.sound |
| `C116_affine_run` | propext, Classical.choice, Quot.sound |
| `C116_normalize_affine` | propext, Classical.choice, Quot.sound |
| `C116_scaled_run` | propext, Classical.choice, Quot.sound |
| `C116_scaled_suggestion` | propext, Classical.choice, Quot.sound |
| `C116_unnormalized_counterexample` | propext, Classical.choice, Quot.sound |
| `C117_known_points` | propext, Classical.choice, Quot.sound |
| `C117_order_of_context` | propext, Classical.choice, Quot.sound |
| `C117_order_of_points` | propext, Classical.choice, Quot.sound |
| `C117_zero_point_counterexample` | propext, Classical.choice, Quot.sound |
| `C118_constraints_refused` | propext, Classical.choice, Quot.sound |
| `C118_mcmc_counterexample` | propext, Classical.choice, Quot.sound |
| `C118_mcmc_index_error` | propext, Classical.choice, Quot.sound |
| `C118_scores` | propext, Classical.choice, Quot.sound |
| `C118_thompson_anchors_partial` | propext, Classical.choice, Quot.sound |
| `C119_nan_counterexample` | propext, Classical.choice, Quot.sound |
| `C119_normalize_partial` | propext, Classical.choice, Quot.sound |
| `C119_normalized_counterexample` | propext, Classical.choice, Quot.sound |
| `C119_results_partial` | propext, Classical.choice, Quot.sound |
| `C11_indicator` | propext, Classical.choice, Quot.sound |
| `C11_indicator_total` | propext, Classical.choice, Quot.sound |
| `C120_missing_output_counterexample` | propext, Classical.choice, Quot.sound |
| `C120_numbers_partial` | propext, Classical.choice, Quot.sound |
| `C120_refused` | propext |
| `C120_two_rows_counterexample` | propext |
| `C120_wrong_optimum_counterexample` | propext, Classical.choice, Quot.sound |
| `C121_local_penalization_partial` | propext, Quot.sound |
| `C121_mcmc_counterexample` | propext, Quot.sound |
| `C121_single_location` | propext, Quot.sound |
| `C122_arms` | propext, Classical.choice, Quot.sound |
| `C122_context` | propext, Classical.choice, Quot.sound |
| `C122_no_arm_left` | propext, Classical.choice, Quot.sound |
| `C122_run` | propext, Classical.choice, Quot.sound |
| `C122_suggestion_exists` | propext, Classical.choice, Quot.sound |
| `C123_cost_counterexample` | propext, Classical.choice, Quot.sound |
| `C123_initial` | propext, Classical.choice, Quot.sound |
| `C123_initial_counterexample` | propext, Classical.choice, Quot.sound |
| `C123_pure_partial` | propext, Classical.choice, Quot.sound |
| `C123_run_partial` | propext, Classical.choice, Quot.sound |
| `C124_caller_partial` | propext, Classical.choice, Quot.sound |
| `C124_initial_counterexample` | propext, Classical.choice, Quot.sound |
| `C124_opt_counterexample` | propext, Classical.choice, Quot.sound |
| `C124_own` | propext, Classical.choice, Quot.sound |
| `C125_ei` | propext, Classical.choice, Quot.sound |
| `C125_integrated_partial` | propext, Classical.choice, Quot.sound |
| `C125_lcb` | propext, Classical.choice, Quot.sound |
| `C125_mpi` | propext, Classical.choice, Quot.sound |
| `C126_ei` | propext, Classical.choice, Quot.sound |
| `C126_integrated_ei_counterexample` | propext, Classical.choice, Quot.sound |
| `C126_integrated_partial` | propext, Classical.choice, Quot.sound |
| `C126_lcb` | propext, Classical.choice, Quot.sound |
| `C126_mpi` | propext, Classical.choice, Quot.sound |
| `C127_curve_hidden_counterexample` | propext, Classical.choice, Quot.sound |
| `C127_curve_partial` | propext, Classical.choice, Quot.sound |
| `C127_one_input` | propext, Classical.choice, Quot.sound |
| `C127_suggested_counterexample` | propext, Quot.sound |
| `C127_suggested_partial` | propext, Classical.choice, Quot.sound |
| `C127_two_inputs` | propext, Classical.choice, Quot.sound |
| `C128_designs` | propext, Classical.choice, Quot.sound |
| `C128_grid` | propext, Classical.choice, Quot.sound |
| `C128_one_counterexample` | propext, Classical.choice, Quot.sound |
| `C129_constant_counterexample` | propext, Classical.choice, Quot.sound |
| `C129_range` | propext, Classical.choice, Quot.sound |
| `C129_stats_order_partial` | propext, Classical.choice, Quot.sound |
| `C129_strict_counterexample` | propext, Classical.choice, Quot.sound |
| `C12_bounds` | propext, Classical.choice, Quot.sound |
| `C12_bounds_error` | propext, Quot.sound |
| `C12_bounds_values` | propext, Classical.choice, Quot.sound |
| `C12_empty_discrete` | propext, Quot.sound |
| `C130_fixed` | propext, Classical.choice, Quot.sound |
| `C130_in_domain` | propext, Classical.choice, Quot.sound |
| `C130_nearest_counterexample` | propext, Classical.choice, Quot.sound |
| `C130_nearest_partial` | propext, Classical.choice, Quot.sound |
| `C131_independent` | propext, Classical.choice, Quot.sound |
| `C132_constrained_uniform` | propext, Classical.choice, Quot.sound |
| `C132_unconstrained_uniform` | propext, Classical.choice, Quot.sound |
| `C133_almost_surely` | propext, Classical.choice, Quot.sound |
| `C133_design_found` | propext, Classical.choice, Quot.sound |
| `C133_never_found` | propext, Classical.choice, Quot.sound |
| `C134_constant_counterexample` | propext, Classical.choice, Quot.sound |
| `C134_entries_counterexample` | propext, Classical.choice, Quot.sound |
| `C134_expressions_partial` | propext, Classical.choice, Quot.sound |
| `C134_rowwise_partial` | propext, Classical.choice, Quot.sound |
| `C134_shapes_counterexample` | propext, Classical.choice, Quot.sound |
| `C134_sum_counterexample` | propext, Classical.choice, Quot.sound |
| `C135_same_constraint_partial` | propext, Classical.choice, Quot.sound |
| `C135_threads_counterexample` | propext, Classical.choice, Quot.sound |
| `C135_uninterrupted_partial` | propext, Classical.choice, Quot.sound |
| `C136_improvement` | propext, Classical.choice, Quot.sound |
| `C136_lcb` | propext, Classical.choice, Quot.sound |
| `C136_lcb_order` | propext, Classical.choice, Quot.sound |
| `C137_evaluations_partial` | propext, Classical.choice, Quot.sound |
| `C137_read_back_partial` | propext, Classical.choice, Quot.sound |
| `C137_windows_counterexample` | propext, Classical.choice, Quot.sound |
| `C138_interval_counterexample` | propext, Classical.choice, Quot.sound |
| `C138_resume_file_partial` | propext, Classical.choice, Quot.sound |
| `C138_resume_partial` | propext, Classical.choice, Quot.sound |
| `C139_reported_in_domain` | propext, Classical.choice, Quot.sound |
| `C139_reported_is_best` | propext, Classical.choice, Quot.sound |
| `C13_expanded_config` | propext, Classical.choice, Quot.sound |
| `C13_names` | propext, Classical.choice, Quot.sound |
| `C13_names_counterexample` | propext, Quot.sound |
| `C140_object_raises_nothing` | propext, Classical.choice, Quot.sound |
| `C140_run_completes` | propext, Classical.choice, Quot.sound |
| `C140_run_raises_nothing` | propext, Classical.choice, Quot.sound |
| `C141_budgets_only_cut` | propext, Classical.choice, Quot.sound |
| `C141_clock_irrelevant` | propext, Classical.choice, Quot.sound |
| `C141_evaluation_time_counterexample` | propext, Classical.choice, Quot.sound |
| `C142_bandit_conversion` | propext, Classical.choice, Quot.sound |
| `C142_bandit_encode_counterexample` | propext, Classical.choice, Quot.sound |
| `C142_categories_counterexample` | propext, Classical.choice, Quot.sound |
| `C142_data_stay_rectangular` | propext, Classical.choice, Quot.sound |
| `C142_decode` | propext, Classical.choice, Quot.sound |
| `C142_encode` | propext, Classical.choice, Quot.sound |
| `C142_encode_array` | propext, Classical.choice, Quot.sound |
| `C142_round` | propext, Classical.choice, Quot.sound |
| `C142_round_bandit` | propext, Classical.choice, Quot.sound |
| `C142_round_no_variables` | propext, Classical.choice, Quot.sound |
| `C142_round_one_row` | propext, Classical.choice, Quot.sound |
| `C142_round_refused` | propext, Classical.choice, Quot.sound |
| `C142_short_refused_partial` | propext, Classical.choice, Quot.sound |
| `C142_silent_change` | propext, Classical.choice, Quot.sound |
| `C142_superfluous_counterexample` | propext, Classical.choice, Quot.sound |
| `C142_truncated_counterexample` | propext, Classical.choice, Quot.sound |
| `C142_wide_data_counterexample` | propext, Classical.choice, Quot.sound |
| `C143_different_files` | propext, Classical.choice, Quot.sound |
| `C143_different_names` | propext, Classical.choice, Quot.sound |
| `C143_filename_counterexample` | propext, Quot.sound |
| `C143_files_are_kept_partial` | propext, Classical.choice, Quot.sound |
| `C143_logger_content` | propext, Classical.choice, Quot.sound |
| `C143_same_second_counterexample` | propext, Quot.sound |
| `C143_underscore_counterexample` | propext, Classical.choice, Quot.sound |
| `C144_calls_before_files` | propext, Classical.choice, Quot.sound |
| `C144_completed` | propext, Quot.sound |
| `C144_content_partial` | propext, Quot.sound |
| `C144_cut_file` | propext, Classical.choice, Quot.sound |
| `C144_evaluations_lost_counterexample` | propext, Quot.sound |
| `C144_exception_counterexample` | propext, Classical.choice, Quot.sound |
| `C144_old_file_lost_counterexample` | propext, Quot.sound |
| `C144_other_files` | propext, Quot.sound |
| `C144_readable_partial` | propext, Classical.choice, Quot.sound |
| `C144_wrong_number_counterexample` | propext, Classical.choice, Quot.sound |
| `C145_constraints_counterexample` | propext, Classical.choice, Quot.sound |
| `C145_context_counterexample` | propext, Classical.choice, Quot.sound |
| `C145_creation_effect` | propext, Classical.choice, Quot.sound |
| `C145_creation_keeps` | propext, Classical.choice, Quot.sound |
| `C145_legacy_counterexample` | propext, Classical.choice, Quot.sound |
| `C145_meaning` | propext, Classical.choice, Quot.sound |
| `C145_second_space` | propext, Classical.choice, Quot.sound |
| `C145_space_partial` | propext, Classical.choice, Quot.sound |
| `C145_variables_partial` | propext, Classical.choice, Quot.sound |
| `C146_consistent` | propext, Classical.choice, Quot.sound |
| `C146_dedup_counterexample` | propext, Classical.choice, Quot.sound |
| `C146_dedup_low` | propext, Classical.choice, Quot.sound |
| `C146_dedup_rows` | propext, Classical.choice, Quot.sound |
| `C146_missed` | propext, Classical.choice, Quot.sound |
| `C146_optimum` | propext, Classical.choice, Quot.sound |
| `C146_random_rows` | propext, Classical.choice, Quot.sound |
| `C147_accepted` | propext, Classical.choice, Quot.sound |
| `C147_collision_counterexample` | propext, Classical.choice, Quot.sound |
| `C147_designs` | propext, Classical.choice, Quot.sound |
| `C147_positions` | propext, Classical.choice, Quot.sound |
| `C147_runs` | propext, Classical.choice, Quot.sound |
| `C147_space` | propext, Classical.choice, Quot.sound |
| `C147_suggestions` | propext, Classical.choice, Quot.sound |
| `C147_unnamed_counterexample` | propext, Quot.sound |
| `C148_probability` | propext, Classical.choice, Quot.sound |
| `C148_rounding_counterexample` | propext, Classical.choice, Quot.sound |
| `C148_run` | propext, Classical.choice, Quot.sound |
| `C148_step` | propext, Classical.choice, Quot.sound |
| `C149_normalize` | propext, Classical.choice, Quot.sound |
| `C149_regression` | propext, Classical.choice, Quot.sound |
| `C149_repetition_counterexample` | propext, Classical.choice, Quot.sound |
| `C149_run_partial` | propext, Classical.choice, Quot.sound |
| `C149_suggest` | propext, Classical.choice, Quot.sound |
| `C149_tie_counterexample` | propext, Classical.choice, Quot.sound |
| `C149_unevaluated_partial` | propext, Classical.choice, Quot.sound |
| `C14_bandit_failure` | propext, Quot.sound |
| `C14_dimensions` | propext, Classical.choice, Quot.sound |
| `C150_better_kept` | propext, Classical.choice, Quot.sound |
| `C150_close_excluded` | propext, Classical.choice, Quot.sound |
| `C150_estimated_constant` | propext, Classical.choice, Quot.sound |
| `C150_preferred` | propext, Classical.choice, Quot.sound |
| `C150_slope_counterexample` | propext, Classical.choice, Quot.sound |
| `C151_grid_covers` | propext, Classical.choice, Quot.sound |
| `C151_grid_error` | propext, Classical.choice, Quot.sound |
| `C151_latin_covers` | propext, Classical.choice, Quot.sound |
| `C151_latin_error` | propext, Classical.choice, Quot.sound |
| `C151_random_error` | propext, Classical.choice, Quot.sound |
| `C151_single_point_counterexample` | propext, Classical.choice, Quot.sound |
| `C152_first_location` | propext, Classical.choice, Quot.sound |
| `C152_lcb_error` | propext, Classical.choice, Quot.sound |
| `C152_other_transform` | propext, Classical.choice, Quot.sound |
| `C152_same_order` | propext, Classical.choice, Quot.sound |
| `C152_switch_counterexample` | propext, Classical.choice, Quot.sound |
| `C153_as_one_process` | propext, Classical.choice, Quot.sound |
| `C153_evaluation_time_counterexample` | propext, Classical.choice, Quot.sound |
| `C153_exception_counterexample` | propext, Classical.choice, Quot.sound |
| `C153_one_process` | propext, Classical.choice, Quot.sound |
| `C153_processes_do_not_matter` | propext, Classical.choice, Quot.sound |
| `C153_returns` | propext, Classical.choice, Quot.sound |
| `C154_description` | propext, Classical.choice, Quot.sound |
| `C154_designs` | propext, Classical.choice, Quot.sound |
| `C154_encodings` | propext, Classical.choice, Quot.sound |
| `C154_feasible` | propext, Classical.choice, Quot.sound |
| `C154_penalizer_counterexample` | propext, Classical.choice, Quot.sound |
| `C154_penalizer_scale` | propext, Classical.choice, Quot.sound |
| `C154_pending_counterexample` | propext, Classical.choice, Quot.sound |
| `C154_random_batch_counterexample` | propext, Classical.choice, Quot.sound |
| `C154_runs_partial` | propext, Classical.choice, Quot.sound |
| `C154_stop_counterexample` | propext, Classical.choice, Quot.sound |
| `C154_stop_off` | propext, Classical.choice, Quot.sound |
| `C154_stop_scale` | propext, Classical.choice, Quot.sound |
| `C154_suggestions_partial` | propext, Classical.choice, Quot.sound |
| `C155_encodings` | propext, Classical.choice, Quot.sound |
| `C155_exists` | propext, Classical.choice, Quot.sound |
| `C155_pending_counterexample` | propext, Classical.choice, Quot.sound |
| `C155_random_batch_counterexample` | propext, Classical.choice, Quot.sound |
| `C155_restricted_partial` | propext, Classical.choice, Quot.sound |
| `C155_runs_partial` | propext, Classical.choice, Quot.sound |
| `C155_samples` | propext, Classical.choice, Quot.sound |
| `C155_suggestions_partial` | propext, Classical.choice, Quot.sound |
| `C156_acquisition` | propext, Classical.choice, Quot.sound |
| `C156_designs` | propext, Classical.choice, Quot.sound |
| `C156_indicator` | propext, Classical.choice, Quot.sound |
| `C156_none` | propext, Quot.sound |
| `C156_none_counterexample` | propext, Classical.choice, Quot.sound |
| `C156_redundant` | propext, Quot.sound |
| `C156_runs` | propext, Classical.choice, Quot.sound |
| `C156_scaled` | propext, Classical.choice, Quot.sound |
| `C156_set` | propext, Quot.sound |
| `C156_suggestions` | propext, Classical.choice, Quot.sound |
| `C157_acquisitions` | propext, Classical.choice, Quot.sound |
| `C157_context_exists` | propext, Classical.choice, Quot.sound |
| `C157_context_runs_partial` | propext, Classical.choice, Quot.sound |
| `C157_context_suggestions_partial` | propext, Classical.choice, Quot.sound |
| `C157_designs_counterexample` | propext, Classical.choice, Quot.sound |
| `C157_designs_partial` | propext, Classical.choice, Quot.sound |
| `C157_draws` | propext, Classical.choice, Quot.sound |
| `C157_encodings` | propext, Classical.choice, Quot.sound |
| `C157_exists` | propext, Classical.choice, Quot.sound |
| `C157_runs_partial` | propext, Classical.choice, Quot.sound |
| `C157_suggestions_partial` | propext, Classical.choice, Quot.sound |
| `C157_unique_counterexample` | propext, Classical.choice, Quot.sound |
| `C158_constructor` | propext, Classical.choice, Quot.sound |
| `C158_start` | propext, Classical.choice, Quot.sound |
| `C158_times_counterexample` | propext, Classical.choice, Quot.sound |
| `C158_user_partial` | propext, Classical.choice, Quot.sound |
| `C159_discrete_counterexample` | propext, Classical.choice, Quot.sound |
| `C159_run_partial` | propext, Classical.choice, Quot.sound |
| `C159_suggestion_partial` | propext, Classical.choice, Quot.sound |
| `C159_threshold` | propext, Classical.choice, Quot.sound |
| `C15_no_values` | propext, Classical.choice, Quot.sound |
| `C15_random_design` | propext, Classical.choice, Quot.sound |
| `C160_in_turn` | propext, Classical.choice, Quot.sound |
| `C160_overlap_counterexample` | propext, Classical.choice, Quot.sound |
| `C161_by_name` | propext, Classical.choice, Quot.sound |
| `C161_context_counterexample` | propext, Classical.choice, Quot.sound |
| `C161_fitted_partial` | propext, Classical.choice, Quot.sound |
| `C161_local_penalization_counterexample` | propext, Classical.choice, Quot.sound |
| `C161_named_evaluator_partial` | propext, Classical.choice, Quot.sound |
| `C161_never_fitted_counterexample` | propext, Classical.choice, Quot.sound |
| `C161_no_optimizer_counterexample` | propext, Classical.choice, Quot.sound |
| `C161_objects_used` | propext, Classical.choice, Quot.sound |
| `C161_own_model_counterexample` | propext, Classical.choice, Quot.sound |
| `C161_penalized_object_counterexample` | propext, Classical.choice, Quot.sound |
| `C162_fixed_cost_counterexample` | propext, Classical.choice, Quot.sound |
| `C162_order_only` | propext, Classical.choice, Quot.sound |
| `C162_penalized_costs_counterexample` | propext, Classical.choice, Quot.sound |
| `C162_penalized_costs_partial` | propext, Classical.choice, Quot.sound |
| `C162_proportional_costs_partial` | propext, Classical.choice, Quot.sound |
| `C162_same_run` | propext, Classical.choice, Quot.sound |
| `C162_time_unit_counterexample` | propext, Classical.choice, Quot.sound |
| `C162_tolerance_counterexample` | propext, Classical.choice, Quot.sound |
| `C163_arms_partial` | propext, Classical.choice, Quot.sound |
| `C163_finite_domain` | propext, Classical.choice, Quot.sound |
| `C163_no_location_twice_partial` | propext, Classical.choice, Quot.sound |
| `C163_one_worker` | propext, Classical.choice, Quot.sound |
| `C163_origin_counterexample` | propext, Classical.choice, Quot.sound |
| `C163_same_locations_counterexample` | propext, Classical.choice, Quot.sound |
| `C164_default_bounds_counterexample` | propext, Classical.choice, Quot.sound |
| `C164_ranking` | propext, Classical.choice, Quot.sound |
| `C164_refused` | propext, Classical.choice, Quot.sound |
| `C164_unit_cube_partial` | propext, Classical.choice, Quot.sound |
| `C165_batch_of_one_counterexample` | propext, Classical.choice, Quot.sound |
| `C165_larger_batch_partial` | propext, Classical.choice, Quot.sound |
| `C165_origin_counterexample` | propext, Classical.choice, Quot.sound |
| `C165_penalized_counterexample` | propext, Classical.choice, Quot.sound |
| `C165_penalized_first_partial` | propext, Classical.choice, Quot.sound |
| `C165_sequential_first_partial` | propext, Classical.choice, Quot.sound |
| `C166_common_partial` | propext, Classical.choice, Quot.sound |
| `C166_design` | propext, Classical.choice, Quot.sound |
| `C166_evaluators_partial` | propext, Classical.choice, Quot.sound |
| `C166_lipschitz_draws` | propext, Classical.choice, Quot.sound |
| `C166_numbers` | propext, Classical.choice, Quot.sound |
| `C166_run_partial` | propext, Classical.choice, Quot.sound |
| `C166_stepwise_counterexample` | propext, Classical.choice, Quot.sound |
| `C166_stepwise_partial` | propext, Classical.choice, Quot.sound |
| `C166_suggest_counterexample` | propext, Classical.choice, Quot.sound |
| `C166_suggestion_partial` | propext, Classical.choice, Quot.sound |
| `C166_thompson_counterexample` | propext, Classical.choice, Quot.sound |
| `C167_cost_counterexample` | propext, Classical.choice, Quot.sound |
| `C167_initial` | propext, Classical.choice, Quot.sound |
| `C167_interrupted` | propext, Classical.choice, Quot.sound |
| `C167_last_moment` | propext, Classical.choice, Quot.sound |
| `C167_prefix` | propext, Classical.choice, Quot.sound |
| `C167_processes` | propext, Classical.choice, Quot.sound |
| `C167_results` | propext, Classical.choice, Quot.sound |
| `C167_resume_counterexample` | propext, Classical.choice, Quot.sound |
| `C167_resume_partial` | propext, Classical.choice, Quot.sound |
| `C167_suggest` | propext, Classical.choice, Quot.sound |
| `C168_description` | propext, Classical.choice, Quot.sound |
| `C168_designs` | propext, Classical.choice, Quot.sound |
| `C168_draws` | propext, Classical.choice, Quot.sound |
| `C168_encodings` | propext, Classical.choice, Quot.sound |
| `C168_frequencies` | propext, Classical.choice, Quot.sound |
| `C168_noTie` | propext, Classical.choice, Quot.sound |
| `C168_rounding` | propext, Classical.choice, Quot.sound |
| `C168_runs_partial` | propext, Classical.choice, Quot.sound |
| `C168_suggestions_partial` | propext, Classical.choice, Quot.sound |
| `C168_tie_counterexample` | propext, Classical.choice, Quot.sound |
| `C168_weight_counterexample` | propext, Classical.choice, Quot.sound |
| `C169_centre_counterexample` | propext, Classical.choice, Quot.sound |
| `C169_flat_counterexample` | propext, Classical.choice, Quot.sound |
| `C169_gradients_partial` | propext, Classical.choice, Quot.sound |
| `C169_infeasible_counterexample` | propext, Classical.choice, Quot.sound |
| `C169_underflow_counterexample` | propext, Classical.choice, Quot.sound |
| `C169_uninformative_counterexample` | propext, Classical.choice, Quot.sound |
| `C169_values` | propext, Classical.choice, Quot.sound |
| `C169_zero_counterexample` | propext, Classical.choice, Quot.sound |
| `C16_constrained_design` | propext, Classical.choice, Quot.sound |
| `C16_feasible_returns` | propext, Classical.choice, Quot.sound |
| `C16_infeasible_never_returns` | propext, Classical.choice, Quot.sound |
| `C170_cost_counterexample` | propext, Classical.choice, Quot.sound |
| `C170_gradients` | propext, Classical.choice, Quot.sound |
| `C170_integrated_gradients` | propext, Classical.choice, Quot.sound |
| `C170_integrated_values` | propext, Classical.choice, Quot.sound |
| `C170_penalized_gradients_counterexample` | propext, Classical.choice, Quot.sound |
| `C170_penalized_gradients_partial` | propext, Classical.choice, Quot.sound |
| `C170_penalized_shape_counterexample` | propext, Classical.choice, Quot.sound |
| `C170_penalized_values` | propext, Classical.choice, Quot.sound |
| `C170_values` | propext, Classical.choice, Quot.sound |
| `C171_numbers` | propext, Classical.choice, Quot.sound |
| `C171_optimum` | propext, Classical.choice, Quot.sound |
| `C171_range_counterexample` | propext, Classical.choice, Quot.sound |
| `C171_stats_counterexample` | propext, Classical.choice, Quot.sound |
| `C171_times_counterexample` | propext, Classical.choice, Quot.sound |
| `C171_times_partial` | propext, Classical.choice, Quot.sound |
| `C172_jitter_counterexample` | propext, Classical.choice, Quot.sound |
| `C172_probability` | propext, Classical.choice, Quot.sound |
| `C172_run` | propext, Classical.choice, Quot.sound |
| `C172_step` | propext, Classical.choice, Quot.sound |
| `C173_blind_counterexample` | propext, Classical.choice, Quot.sound |
| `C173_partial` | propext, Classical.choice, Quot.sound |
| `C173_zero_counterexample` | propext, Classical.choice, Quot.sound |
| `C174_designs_partial` | propext, Classical.choice, Quot.sound |
| `C174_draws` | propext, Classical.choice, Quot.sound |
| `C174_encodings` | propext, Classical.choice, Quot.sound |
| `C174_grid_counterexample` | propext, Classical.choice, Quot.sound |
| `C174_random_batch_counterexample` | propext, Classical.choice, Quot.sound |
| `C174_runs_partial` | propext, Classical.choice, Quot.sound |
| `C174_suggestions_partial` | propext, Classical.choice, Quot.sound |
| `C175_designs` | propext, Classical.choice, Quot.sound |
| `C175_draws` | propext, Classical.choice, Quot.sound |
| `C175_encodings_partial` | propext, Classical.choice, Quot.sound |
| `C175_random_batch_counterexample` | propext, Classical.choice, Quot.sound |
| `C175_rows` | propext, Classical.choice, Quot.sound |
| `C175_runs_partial` | propext, Classical.choice, Quot.sound |
| `C175_stop_counterexample` | propext, Classical.choice, Quot.sound |
| `C175_suggestions_partial` | propext, Classical.choice, Quot.sound |
| `C175_tie_counterexample` | propext, Classical.choice, Quot.sound |
| `C176_jitter_counterexample` | propext, Classical.choice, Quot.sound |
| `C176_no_jitter_counterexample` | propext, Classical.choice, Quot.sound |
| `C176_probability` | propext, Classical.choice, Quot.sound |
| `C176_run` | propext, Classical.choice, Quot.sound |
| `C176_step` | propext, Classical.choice, Quot.sound |
| `C177_data` | propext, Classical.choice, Quot.sound |
| `C177_optimum` | propext, Classical.choice, Quot.sound |
| `C177_search` | propext, Classical.choice, Quot.sound |
| `C177_sharp_counterexample` | propext, Classical.choice, Quot.sound |
| `C178_feasible` | propext, Classical.choice, Quot.sound |
| `C178_positive_counterexample` | propext, Classical.choice, Quot.sound |
| `C178_rounding_counterexample` | propext, Classical.choice, Quot.sound |
| `C178_search` | propext, Classical.choice, Quot.sound |
| `C178_step` | propext, Classical.choice, Quot.sound |
| `C179_dropped_counterexample` | propext, Classical.choice, Quot.sound |
| `C179_run` | propext, Classical.choice, Quot.sound |
| `C179_step` | propext, Classical.choice, Quot.sound |
| `C17_constraints_refused` | propext, Classical.choice, Quot.sound |
| `C17_latin_sobol` | propext, Classical.choice, Quot.sound |
| `C180_batch` | propext, Classical.choice, Quot.sound |
| `C180_penalized_counterexample` | propext, Classical.choice, Quot.sound |
| `C180_run` | propext, Classical.choice, Quot.sound |
| `C181_run` | propext, Classical.choice, Quot.sound |
| `C181_zero_counterexample` | propext, Classical.choice, Quot.sound |
| `C182_run` | propext, Classical.choice, Quot.sound |
| `C183_ei_run` | propext, Classical.choice, Quot.sound |
| `C183_mpi_run` | propext, Classical.choice, Quot.sound |
| `C183_penalized` | propext, Classical.choice, Quot.sound |
| `C184_first` | propext, Classical.choice, Quot.sound |
| `C184_run` | propext, Classical.choice, Quot.sound |
| `C184_transformed` | propext, Classical.choice, Quot.sound |
| `C185_costs_counterexample` | propext, Classical.choice, Quot.sound |
| `C185_run` | propext, Classical.choice, Quot.sound |
| `C186_costs_counterexample` | propext, Classical.choice, Quot.sound |
| `C186_run` | propext, Classical.choice, Quot.sound |
| `C187_ei_run` | propext, Classical.choice, Quot.sound |
| `C187_mpi_run` | propext, Classical.choice, Quot.sound |
| `C188_run` | propext, Classical.choice, Quot.sound |
| `C18_iroot` | propext, Classical.choice, Quot.sound |
| `C18_iroot_zero` | propext, Quot.sound |
| `C19_grid` | propext, Classical.choice, Quot.sound |
| `C20_bandit_counterexample` | propext, Classical.choice, Quot.sound |
| `C20_bandit_partial` | propext, Classical.choice, Quot.sound |
| `C21_all_zero_counterexample` | propext, Quot.sound |
| `C21_duplicates_bandit` | propext, Classical.choice, Quot.sound |
| `C21_duplicates_partial` | propext, Classical.choice, Quot.sound |
| `C21_duplicates_sound` | propext, Classical.choice, Quot.sound |
| `C22_context_expansion` | propext, Classical.choice, Quot.sound |
| `C23_context_partition` | propext, Classical.choice, Quot.sound |
| `C23_unknown_rejected` | propext, Classical.choice, Quot.sound |
| `C24_anchor_points` | propext, Classical.choice, Quot.sound |
| `C24_anchor_points_sound` | propext, Classical.choice, Quot.sound |
| `C25_unique_anchor_points` | propext, Classical.choice, Quot.sound |
| `C26_apply_optimizer` | propext, Classical.choice, Quot.sound |
| `C26_uses_optimizer` | propext, Classical.choice, Quot.sound |
| `C27_best_candidate` | propext, Classical.choice, Quot.sound |
| `C27_candidate_exists` | propext, Classical.choice, Quot.sound |
| `C28_constrained_suggestion_exists` | propext, Classical.choice, Quot.sound |
| `C28_context_outside_counterexample` | propext, Classical.choice, Quot.sound |
| `C28_pending_zero_counterexample` | propext, Classical.choice, Quot.sound |
| `C28_sequential_partial` | propext, Classical.choice, Quot.sound |
| `C28_suggestion_exists` | propext, Classical.choice, Quot.sound |
| `C29_batch_size_one_counterexample` | propext, Classical.choice, Quot.sound |
| `C29_random_batch_partial` | propext, Classical.choice, Quot.sound |
| `C29_zero_optimum_counterexample` | propext, Classical.choice, Quot.sound |
| `C30_pending_zero_counterexample` | propext, Classical.choice, Quot.sound |
| `C30_thompson_batch_exists` | propext, Classical.choice, Quot.sound |
| `C30_thompson_batch_partial` | propext, Classical.choice, Quot.sound |
| `C31_random_batch_size` | propext, Classical.choice, Quot.sound |
| `C31_thompson_batch_size` | propext, Classical.choice, Quot.sound |
| `C32_local_penalization` | propext, Classical.choice, Quot.sound |
| `C32_local_penalization_domain` | propext, Classical.choice, Quot.sound |
| `C32_local_penalization_total` | propext, Quot.sound |
| `C33_dedup_partial` | propext, Classical.choice, Quot.sound |
| `C33_local_penalization_counterexample` | propext, Classical.choice, Quot.sound |
| `C34_constraints_counterexample` | propext, Classical.choice, Quot.sound |
| `C34_constraints_partial` | propext, Classical.choice, Quot.sound |
| `C35_data_aligned` | propext, Classical.choice, Quot.sound |
| `C35_objective_values` | propext, Classical.choice, Quot.sound |
| `C36_append_only` | propext, Classical.choice, Quot.sound |
| `C37_iteration_budget` | propext, Classical.choice, Quot.sound |
| `C37_no_limits` | propext, Classical.choice, Quot.sound |
| `C37_terminates` | propext, Classical.choice, Quot.sound |
| `C38_stop_conditions` | propext, Classical.choice, Quot.sound |
| `C39_reported_optimum` | propext, Classical.choice, Quot.sound |
| `C40_failed_objective_counterexample` | propext, Classical.choice, Quot.sound |
| `C40_failed_objective_partial` | propext, Classical.choice, Quot.sound |
| `C41_suggest_keeps_data` | propext, Classical.choice, Quot.sound |
| `C41_suggest_then_run` | propext, Classical.choice, Quot.sound |
| `C42_update_interval` | propext, Classical.choice, Quot.sound |
| `C43_parameter_rows` | propext, Classical.choice, Quot.sound |
| `C43_parameter_values` | propext, Classical.choice, Quot.sound |
| `C44_no_repeated_evaluation` | propext, Classical.choice, Quot.sound |
| `C45_stepwise_run` | propext, Classical.choice, Quot.sound |
| `C46_maximization` | propext, Classical.choice, Quot.sound |
| `C46_user_outputs_counterexample` | propext, Classical.choice, Quot.sound |
| `C47_saved_evaluations` | propext, Classical.choice, Quot.sound |
| `C48_parallel_equals_sequential` | propext, Classical.choice, Quot.sound |
| `C48_zero_processes_counterexample` | propext, Quot.sound |
| `C49_fallback_partial` | propext, Classical.choice, Quot.sound |
| `C49_worker_failure_counterexample` | propext, Classical.choice, Quot.sound |
| `C50_deadlock_counterexample` | propext, Classical.choice, Quot.sound |
| `C50_terminates_partial` | propext, Classical.choice, Quot.sound |
| `C51_cost_data_partial` | propext, Classical.choice, Quot.sound |
| `C51_loop_cost_data` | propext, Classical.choice, Quot.sound |
| `C51_parallel_times_counterexample` | propext, Quot.sound |
| `C51_update_error` | propext, Quot.sound |
| `C52_evaluation_time_counterexample` | propext, Classical.choice, Quot.sound |
| `C52_given_cost_partial` | propext, Classical.choice, Quot.sound |
| `C53_refused` | propext, Classical.choice, Quot.sound |
| `C53_stats_normalization` | propext, Classical.choice, Quot.sound |
| `C54_range_normalization` | propext, Classical.choice, Quot.sound |
| `C55_merge` | propext, Classical.choice, Quot.sound |
| `C56_thinning` | propext, Classical.choice, Quot.sound |
| `C56_zero_interval` | propext |
| `C57_expected_improvement` | propext, Classical.choice, Quot.sound |
| `C57_probability_of_improvement` | propext, Classical.choice, Quot.sound |
| `C58_clipped_counterexample` | propext, Classical.choice, Quot.sound |
| `C58_ei_gradient` | propext, Classical.choice, Quot.sound |
| `C59_lcb_gradient` | propext, Classical.choice, Quot.sound |
| `C59_mpi_gradient` | propext, Classical.choice, Quot.sound |
| `C60_weighted_gradient` | propext, Classical.choice, Quot.sound |
| `C61_ei_gradient_counterexample` | propext, Classical.choice, Quot.sound |
| `C61_ei_partial` | propext, Classical.choice, Quot.sound |
| `C61_ei_value_counterexample` | propext, Classical.choice, Quot.sound |
| `C61_lcb` | propext, Classical.choice, Quot.sound |
| `C61_mpi` | propext, Classical.choice, Quot.sound |
| `C62_default_transform_counterexample` | propext, Classical.choice, Quot.sound |
| `C62_first_point_partial` | propext, Classical.choice, Quot.sound |
| `C62_gradient_iff_partial` | propext, Classical.choice, Quot.sound |
| `C62_penalized_gradient_counterexample` | propext, Classical.choice, Quot.sound |
| `C63_penalization_raises` | propext, Classical.choice, Quot.sound |
| `C64_estimate_bounds` | propext, Classical.choice, Quot.sound |
| `C64_lipschitz` | propext, Classical.choice, Quot.sound |
| `C65_exception_counterexample` | propext, Classical.choice, Quot.sound |
| `C65_mcmc_predictions` | propext, Classical.choice, Quot.sound |
| `C65_mcmc_total` | propext, Classical.choice, Quot.sound |
| `C66_merge` | propext, Quot.sound |
| `C66_section_over_value` | propext, Quot.sound |
| `C67_intervals` | propext |
| `C67_output_schedule` | propext, Classical.choice, Quot.sound |
| `C68_evaluators_counterexample` | propext, Classical.choice, Quot.sound |
| `C68_evaluators_partial` | propext, Classical.choice, Quot.sound |
| `C69_selection_counterexample` | propext, Classical.choice, Quot.sound |
| `C69_selection_partial` | propext, Classical.choice, Quot.sound |
| `C69_selectors` | propext, Classical.choice, Quot.sound |
| `C70_warped_columns_counterexample` | propext, Classical.choice, Quot.sound |
| `C70_warped_columns_partial` | propext, Classical.choice, Quot.sound |
| `C71_belief_normalized` | propext, Classical.choice, Quot.sound |
| `C72_final_messages` | propext, Classical.choice, Quot.sound |
| `C72_marginal` | propext, Classical.choice, Quot.sound |
| `C73_ackley_partial` | propext, Classical.choice, Quot.sound |
| `C73_alpine1_partial` | propext, Classical.choice, Quot.sound |
| `C73_alpine2_partial` | propext, Classical.choice, Quot.sound |
| `C73_beale_counterexample` | propext, Classical.choice, Quot.sound |
| `C73_branin_partial` | propext, Classical.choice, Quot.sound |
| `C73_camel_partial` | propext, Classical.choice, Quot.sound |
| `C73_cosines_counterexample` | propext, Classical.choice, Quot.sound |
| `C73_dropwave_counterexample` | propext, Classical.choice, Quot.sound |
| `C73_eggholder_partial` | propext, Classical.choice, Quot.sound |
| `C73_forrester_counterexample` | propext, Classical.choice, Quot.sound |
| `C73_gSobol_partial` | propext, Classical.choice, Quot.sound |
| `C73_goldstein_partial` | propext, Classical.choice, Quot.sound |
| `C73_mccormick_partial` | propext, Classical.choice, Quot.sound |
| `C73_powers_partial` | propext, Classical.choice, Quot.sound |
| `C73_rosenbrock_partial` | propext, Classical.choice, Quot.sound |
| `C74_arguments_partial` | propext, Quot.sound |
| `C74_budget_partial` | propext, Classical.choice, Quot.sound |
| `C74_check_stop_partial` | propext, Classical.choice, Quot.sound |
| `C74_driver_counterexample` | propext, Classical.choice, Quot.sound |
| `C74_unit_counterexample` | propext, Classical.choice, Quot.sound |
| `C75_constraint_coordinates_counterexample` | propext, Classical.choice, Quot.sound |
| `C75_constraint_coordinates_partial` | propext, Classical.choice, Quot.sound |
| `C76_latin_stratified` | propext, Classical.choice, Quot.sound |
| `C77_models_counterexample` | propext, Classical.choice, Quot.sound |
| `C77_models_partial` | propext, Classical.choice, Quot.sound |
| `C77_names` | propext, Classical.choice, Quot.sound |
| `C78_copy_counterexample` | propext |
| `C78_copy_partial` | propext, Quot.sound |
| `C78_copy_without_data` | propext, Quot.sound |
| `C78_fitted_data` | propext, Quot.sound |
| `C79_logged_incumbent` | propext, Classical.choice, Quot.sound |
| `C80_clipped_counterexample` | propext, Classical.choice, Quot.sound |
| `C80_gp_acquisition_gradients_partial` | propext, Classical.choice, Quot.sound |
| `C81_penalizer_counterexample` | propext, Classical.choice, Quot.sound |
| `C81_penalizer_partial` | propext, Classical.choice, Quot.sound |
| `C82_covariance_derivative` | propext, Classical.choice, Quot.sound |
| `C82_marginal_consistency` | propext, Classical.choice, Quot.sound |
| `C82_mean_derivatives` | propext, Classical.choice, Quot.sound |
| `C83_first_derivatives` | propext, Classical.choice, Quot.sound |
| `C83_second_derivatives_counterexample` | propext, Classical.choice, Quot.sound |
| `C83_second_derivatives_partial` | propext, Classical.choice, Quot.sound |
| `C84_packed_product` | propext, Classical.choice, Quot.sound |
| `C84_packing` | propext, Quot.sound |
| `C85_cavity` | propext, Classical.choice, Quot.sound |
| `C85_moment_matching` | propext, Classical.choice, Quot.sound |
| `C85_step_partial` | propext, Classical.choice, Quot.sound |
| `C85_step_range` | propext, Classical.choice, Quot.sound |
| `C85_threshold_counterexample` | propext, Classical.choice, Quot.sound |
| `C86_threshold_counterexample` | propext, Classical.choice, Quot.sound |
| `C86_two_points_belief_partial` | propext, Classical.choice, Quot.sound |
| `C86_two_points_close` | propext, Classical.choice, Quot.sound |
| `C86_two_points_far` | propext, Classical.choice, Quot.sound |
| `C86_two_points_partial` | propext, Classical.choice, Quot.sound |
| `C87_value` | propext, Classical.choice, Quot.sound |
| `C88_predicted_change_partial` | propext, Classical.choice, Quot.sound |
| `C88_second_order_counterexample` | propext, Classical.choice, Quot.sound |
| `C88_second_order_partial` | propext, Classical.choice, Quot.sound |
| `C89_first_belief_partial` | propext, Classical.choice, Quot.sound |
| `C89_stale_belief_counterexample` | propext, Classical.choice, Quot.sound |
| `C90_innovations` | propext, Classical.choice, Quot.sound |
| `C90_positive` | propext, Classical.choice, Quot.sound |
| `C91_covariance_counterexample` | propext, Classical.choice, Quot.sound |
| `C91_covariance_partial` | propext, Classical.choice, Quot.sound |
| `C92_inside` | propext, Classical.choice, Quot.sound |
| `C92_representer_points` | propext, Classical.choice, Quot.sound |
| `C92_rows` | propext, Classical.choice, Quot.sound |
| `C93_alpine1_counterexample` | propext, Classical.choice, Quot.sound |
| `C93_outputs_partial` | propext, Classical.choice, Quot.sound |
| `C93_wrong_dimension_counterexample` | propext, Classical.choice, Quot.sound |
| `C94_initial_data` | propext, Classical.choice, Quot.sound |
| `C94_misaligned_counterexample` | propext, Classical.choice, Quot.sound |
| `C94_outputs_without_locations_counterexample` | propext, Classical.choice, Quot.sound |
| `C94_without_objective` | propext, Classical.choice, Quot.sound |
| `C95_num_cores_counterexample` | propext, Classical.choice, Quot.sound |
| `C95_outputs_partial` | propext, Classical.choice, Quot.sound |
| `C96_evaluated_before_refused_counterexample` | propext, Classical.choice, Quot.sound |
| `C96_refused_before_evaluation_partial` | propext, Classical.choice, Quot.sound |
| `C97_called_inside_domain` | propext, Classical.choice, Quot.sound |
| `C97_given_locations_counterexample` | propext, Classical.choice, Quot.sound |
| `C98_direct_cma` | propext |
| `C98_gradient_argument_counterexample` | propext |
| `C98_lbfgs` | propext, Classical.choice, Quot.sound |
| `C99_context_gradient` | propext, Classical.choice, Quot.sound |
