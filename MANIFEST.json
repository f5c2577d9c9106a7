{
 "claims": [
  {
   "property": "C01",
   "status": "proved",
   "theorems": [
    "GPyOpt.Props.C01_zip_unzip"
   ],
   "note": "Non-empty matrices; zero-row matrices are excluded (numpy turns them into a 1x0 array)."
  },
  {
   "property": "C02",
   "status": "proved",
   "theorems": [
    "GPyOpt.Props.C02_unzip_zip",
    "GPyOpt.Props.C02_encode_injective"
   ],
   "note": ""
  },
  {
   "property": "C03",
   "status": "proved",
   "theorems": [
    "GPyOpt.Props.C03_round_in_domain"
   ],
   "note": ""
  },
  {
   "property": "C04",
   "status": "proved",
   "theorems": [
    "GPyOpt.Props.C04_round_fixed",
    "GPyOpt.Props.C04_round_idempotent"
   ],
   "note": ""
  },
  {
   "property": "C05",
   "status": "proved",
   "theorems": [
    "GPyOpt.Props.C05_round_nearest"
   ],
   "note": ""
  },
  {
   "property": "C06",
   "status": "partial",
   "theorems": [
    "GPyOpt.Props.C06_round_bandit_partial",
    "GPyOpt.Props.C06_round_bandit_counterexample"
   ],
   "note": "Proved for one bandit variable; false for several (counterexample proved)."
  },
  {
   "property": "C07",
   "status": "proved",
   "theorems": [
    "GPyOpt.Props.C07_layout",
    "GPyOpt.Props.C07_tiling",
    "GPyOpt.Props.C07_columns_hold_encoding",
    "GPyOpt.Props.C07_columns_decode",
    "GPyOpt.Props.C07_columns_round",
    "GPyOpt.Props.C07_columns_bounds",
    "GPyOpt.Props.C07_bandit_counterexample",
    "GPyOpt.Props.C07_subspace",
    "GPyOpt.Props.C07_discrete_grid"
   ],
   "note": "Non-bandit spaces; for bandits the recorded columns are wrong (counterexample proved)."
  },
  {
   "property": "C08",
   "status": "partial",
   "theorems": [
    "GPyOpt.Props.C08_validation_partial",
    "GPyOpt.Props.C08_validation_counterexample"
   ],
   "note": "Full iff except for descriptors with a dimensionality but no name, which raise KeyError (counterexample proved)."
  },
  {
   "property": "C09",
   "status": "proved",
   "theorems": [
    "GPyOpt.Props.C09_find_variable",
    "GPyOpt.Props.C09_unknown_name",
    "GPyOpt.Props.C09_collision"
   ],
   "note": ""
  },
  {
   "property": "C10",
   "status": "proved",
   "theorems": [
    "GPyOpt.Props.C10_bounds_to_space"
   ],
   "note": ""
  },
  {
   "property": "C11",
   "status": "proved",
   "theorems": [
    "GPyOpt.Props.C11_indicator",
    "GPyOpt.Props.C11_indicator_total"
   ],
   "note": ""
  },
  {
   "property": "C12",
   "status": "proved",
   "theorems": [
    "GPyOpt.Props.C12_bounds",
    "GPyOpt.Props.C12_bounds_values",
    "GPyOpt.Props.C12_bounds_error",
    "GPyOpt.Props.C12_empty_discrete"
   ],
   "note": ""
  },
  {
   "property": "C13",
   "status": "proved",
   "theorems": [
    "GPyOpt.Props.C13_expanded_config",
    "GPyOpt.Props.C13_names",
    "GPyOpt.Props.C13_names_counterexample"
   ],
   "note": "the names agree too, unless a descriptor has no name or asks for dimensionality 1 explicitly"
  },
  {
   "property": "C14",
   "status": "proved",
   "theorems": [
    "GPyOpt.Props.C14_dimensions",
    "GPyOpt.Props.C14_bandit_failure"
   ],
   "note": ""
  },
  {
   "property": "C15",
   "status": "proved",
   "theorems": [
    "GPyOpt.Props.C15_random_design",
    "GPyOpt.Props.C15_no_values"
   ],
   "note": "unconstrained spaces; constrained ones are C16"
  },
  {
   "property": "C16",
   "status": "proved",
   "theorems": [
    "GPyOpt.Props.C16_constrained_design",
    "GPyOpt.Props.C16_infeasible_never_returns",
    "GPyOpt.Props.C16_feasible_returns"
   ],
   "note": "constraints are evaluated on objective rows by the code; see C75 for the coordinate mismatch"
  },
  {
   "property": "C17",
   "status": "proved",
   "theorems": [
    "GPyOpt.Props.C17_latin_sobol",
    "GPyOpt.Props.C17_constraints_refused"
   ],
   "note": ""
  },
  {
   "property": "C18",
   "status": "proved",
   "theorems": [
    "GPyOpt.Props.C18_iroot",
    "GPyOpt.Props.C18_iroot_zero"
   ],
   "note": ""
  },
  {
   "property": "C19",
   "status": "proved",
   "theorems": [
    "GPyOpt.Props.C19_grid"
   ],
   "note": ""
  },
  {
   "property": "C20",
   "status": "partial",
   "theorems": [
    "GPyOpt.Props.C20_bandit_partial",
    "GPyOpt.Props.C20_bandit_counterexample"
   ],
   "note": "proved for one bandit variable; false for several (columns overlap)"
  },
  {
   "property": "C21",
   "status": "partial",
   "theorems": [
    "GPyOpt.Props.C21_duplicates_partial",
    "GPyOpt.Props.C21_duplicates_bandit",
    "GPyOpt.Props.C21_duplicates_sound",
    "GPyOpt.Props.C21_all_zero_counterexample"
   ],
   "note": "complete unless the list of pending or ignored points is all zero: the code tests it with np.any and then drops it (counterexample theorem)"
  },
  {
   "property": "C22",
   "status": "proved",
   "theorems": [
    "GPyOpt.Props.C22_context_expansion"
   ],
   "note": ""
  },
  {
   "property": "C23",
   "status": "proved",
   "theorems": [
    "GPyOpt.Props.C23_context_partition",
    "GPyOpt.Props.C23_unknown_rejected"
   ],
   "note": ""
  },
  {
   "property": "C24",
   "status": "proved",
   "theorems": [
    "GPyOpt.Props.C24_anchor_points",
    "GPyOpt.Props.C24_anchor_points_sound"
   ],
   "note": "exact description for spaces without constraints and for constraints under which the samples are found; soundness in all cases; spaces without bandit variable, context values inside the domain"
  },
  {
   "property": "C25",
   "status": "proved",
   "theorems": [
    "GPyOpt.Props.C25_unique_anchor_points"
   ],
   "note": ""
  },
  {
   "property": "C26",
   "status": "proved",
   "theorems": [
    "GPyOpt.Props.C26_apply_optimizer",
    "GPyOpt.Props.C26_uses_optimizer"
   ],
   "note": "context values inside the domain (otherwise see C28_context_outside_counterexample)"
  },
  {
   "property": "C27",
   "status": "proved",
   "theorems": [
    "GPyOpt.Props.C27_best_candidate",
    "GPyOpt.Props.C27_candidate_exists"
   ],
   "note": ""
  },
  {
   "property": "C28",
   "status": "partial",
   "theorems": [
    "GPyOpt.Props.C28_sequential_partial",
    "GPyOpt.Props.C28_suggestion_exists",
    "GPyOpt.Props.C28_constrained_suggestion_exists",
    "GPyOpt.Props.C28_pending_zero_counterexample",
    "GPyOpt.Props.C28_context_outside_counterexample"
   ],
   "note": "full property except that all-zero matrices of pending/ignored points are not avoided, and context values outside of the domain are changed by rounding (both refuted by counterexample theorems); suggestions exist also in constrained spaces, if feasible rows keep being sampled"
  },
  {
   "property": "C29",
   "status": "partial",
   "theorems": [
    "GPyOpt.Props.C29_random_batch_partial",
    "GPyOpt.Props.C29_batch_size_one_counterexample",
    "GPyOpt.Props.C29_zero_optimum_counterexample"
   ],
   "note": "members lie in the domain, agree with the context and are distinct/fresh; false for batch size one and for an all-zero optimum, which the duplicate test drops (counterexample theorems)"
  },
  {
   "property": "C30",
   "status": "partial",
   "theorems": [
    "GPyOpt.Props.C30_thompson_batch_partial",
    "GPyOpt.Props.C30_thompson_batch_exists",
    "GPyOpt.Props.C30_pending_zero_counterexample"
   ],
   "note": "an all-zero matrix of pending or ignored points is not avoided (negation proved); the batch exists for components that do not raise, in spaces without constraints or if the samples are found"
  },
  {
   "property": "C31",
   "status": "proved",
   "theorems": [
    "GPyOpt.Props.C31_random_batch_size",
    "GPyOpt.Props.C31_thompson_batch_size"
   ],
   "note": ""
  },
  {
   "property": "C32",
   "status": "proved",
   "theorems": [
    "GPyOpt.Props.C32_local_penalization",
    "GPyOpt.Props.C32_local_penalization_total",
    "GPyOpt.Props.C32_local_penalization_domain"
   ],
   "note": ""
  },
  {
   "property": "C33",
   "status": "partial",
   "theorems": [
    "GPyOpt.Props.C33_dedup_partial",
    "GPyOpt.Props.C33_local_penalization_counterexample"
   ],
   "note": "false for local penalization, which ignores the duplicate manager after the first point (counterexample theorem)"
  },
  {
   "property": "C34",
   "status": "partial",
   "theorems": [
    "GPyOpt.Props.C34_constraints_partial",
    "GPyOpt.Props.C34_constraints_counterexample"
   ],
   "note": "the suggestion is feasible whenever some optimized candidate is feasible with positive acquisition; false in general (negative acquisitions, or zero everywhere)"
  },
  {
   "property": "C35",
   "status": "proved",
   "theorems": [
    "GPyOpt.Props.C35_data_aligned",
    "GPyOpt.Props.C35_objective_values"
   ],
   "note": ""
  },
  {
   "property": "C36",
   "status": "proved",
   "theorems": [
    "GPyOpt.Props.C36_append_only"
   ],
   "note": ""
  },
  {
   "property": "C37",
   "status": "proved",
   "theorems": [
    "GPyOpt.Props.C37_iteration_budget",
    "GPyOpt.Props.C37_terminates",
    "GPyOpt.Props.C37_no_limits"
   ],
   "note": ""
  },
  {
   "property": "C38",
   "status": "proved",
   "theorems": [
    "GPyOpt.Props.C38_stop_conditions"
   ],
   "note": ""
  },
  {
   "property": "C39",
   "status": "proved",
   "theorems": [
    "GPyOpt.Props.C39_reported_optimum"
   ],
   "note": ""
  },
  {
   "property": "C40",
   "status": "partial",
   "theorems": [
    "GPyOpt.Props.C40_failed_objective_partial",
    "GPyOpt.Props.C40_failed_objective_counterexample"
   ],
   "note": "false: the locations of the batch are stored before the objective is called and stay without outputs when it raises; later runs keep the shift and report a wrong optimum (counterexample theorem). Proved: only an exception of the objective itself, or of the model of the evaluation time, can cause this"
  },
  {
   "property": "C41",
   "status": "proved",
   "theorems": [
    "GPyOpt.Props.C41_suggest_keeps_data",
    "GPyOpt.Props.C41_suggest_then_run"
   ],
   "note": ""
  },
  {
   "property": "C42",
   "status": "proved",
   "theorems": [
    "GPyOpt.Props.C42_update_interval"
   ],
   "note": ""
  },
  {
   "property": "C43",
   "status": "proved",
   "theorems": [
    "GPyOpt.Props.C43_parameter_rows",
    "GPyOpt.Props.C43_parameter_values"
   ],
   "note": "the values for models whose parameters are determined by the fits made"
  },
  {
   "property": "C44",
   "status": "proved",
   "theorems": [
    "GPyOpt.Props.C44_no_repeated_evaluation"
   ],
   "note": "also for the random-batch and Thompson-sampling evaluators; spaces without bandit variable"
  },
  {
   "property": "C45",
   "status": "proved",
   "theorems": [
    "GPyOpt.Props.C45_stepwise_run"
   ],
   "note": ""
  },
  {
   "property": "C46",
   "status": "proved",
   "theorems": [
    "GPyOpt.Props.C46_maximization",
    "GPyOpt.Props.C46_user_outputs_counterexample"
   ],
   "note": ""
  },
  {
   "property": "C47",
   "status": "proved",
   "theorems": [
    "GPyOpt.Props.C47_saved_evaluations"
   ],
   "note": ""
  },
  {
   "property": "C48",
   "status": "proved",
   "theorems": [
    "GPyOpt.Props.C48_parallel_equals_sequential",
    "GPyOpt.Props.C48_zero_processes_counterexample"
   ],
   "note": "any number of processes >= 1 and every interleaving; with num_cores=0 the code silently returns zeros (second theorem). The objective is a function of the location; the operating system is the transition system of Model/Parallel."
  },
  {
   "property": "C49",
   "status": "partial",
   "theorems": [
    "GPyOpt.Props.C49_fallback_partial",
    "GPyOpt.Props.C49_worker_failure_counterexample"
   ],
   "note": "false: an exception in a worker blocks the parent for ever, for every schedule (negation proved); the fall back happens when processes cannot be started"
  },
  {
   "property": "C50",
   "status": "partial",
   "theorems": [
    "GPyOpt.Props.C50_terminates_partial",
    "GPyOpt.Props.C50_deadlock_counterexample"
   ],
   "note": "terminates for every schedule if the objective does not raise and every message fits into its pipe; otherwise no schedule terminates with a result (negation proved), because the parent joins the workers before reading the pipes"
  },
  {
   "property": "C51",
   "status": "partial",
   "theorems": [
    "GPyOpt.Props.C51_cost_data_partial",
    "GPyOpt.Props.C51_loop_cost_data",
    "GPyOpt.Props.C51_parallel_times_counterexample",
    "GPyOpt.Props.C51_update_error"
   ],
   "note": "full property for times of sequential evaluations (and of single rows), for arbitrary sequences of updates and inside the loop; false for the times of parallel evaluations of several rows (negation proved)"
  },
  {
   "property": "C52",
   "status": "partial",
   "theorems": [
    "GPyOpt.Props.C52_given_cost_partial",
    "GPyOpt.Props.C52_evaluation_time_counterexample"
   ],
   "note": "false: the loop updates another cost model than the one the acquisition uses, which is never fitted (negation proved); given cost functions do reach the acquisition"
  },
  {
   "property": "C53",
   "status": "proved",
   "theorems": [
    "GPyOpt.Props.C53_stats_normalization",
    "GPyOpt.Props.C53_refused"
   ],
   "note": ""
  },
  {
   "property": "C54",
   "status": "proved",
   "theorems": [
    "GPyOpt.Props.C54_range_normalization"
   ],
   "note": ""
  },
  {
   "property": "C55",
   "status": "proved",
   "theorems": [
    "GPyOpt.Props.C55_merge"
   ],
   "note": ""
  },
  {
   "property": "C56",
   "status": "proved",
   "theorems": [
    "GPyOpt.Props.C56_thinning",
    "GPyOpt.Props.C56_zero_interval"
   ],
   "note": "interval 0 is refused (second theorem)"
  },
  {
   "property": "C57",
   "status": "proved",
   "theorems": [
    "GPyOpt.Props.C57_expected_improvement",
    "GPyOpt.Props.C57_probability_of_improvement"
   ],
   "note": "stronger than asked: EI is the expected improvement and MPI the probability of improvement of a normal variable"
  },
  {
   "property": "C58",
   "status": "proved",
   "theorems": [
    "GPyOpt.Props.C58_ei_gradient",
    "GPyOpt.Props.C58_clipped_counterexample"
   ],
   "note": "deviation above the clipping threshold 1e-10; GP models always report at least 1e-5. Below it the gradient is wrong (second theorem)"
  },
  {
   "property": "C59",
   "status": "proved",
   "theorems": [
    "GPyOpt.Props.C59_mpi_gradient",
    "GPyOpt.Props.C59_lcb_gradient"
   ],
   "note": ""
  },
  {
   "property": "C60",
   "status": "proved",
   "theorems": [
    "GPyOpt.Props.C60_weighted_gradient"
   ],
   "note": ""
  },
  {
   "property": "C61",
   "status": "partial",
   "theorems": [
    "GPyOpt.Props.C61_ei_partial",
    "GPyOpt.Props.C61_mpi",
    "GPyOpt.Props.C61_lcb",
    "GPyOpt.Props.C61_ei_value_counterexample",
    "GPyOpt.Props.C61_ei_gradient_counterexample"
   ],
   "note": "false for EI_MCMC with nonzero jitter, which enters with the wrong sign (negations proved for value and gradient); proved for jitter 0, and for MPI_MCMC and LCB_MCMC"
  },
  {
   "property": "C62",
   "status": "partial",
   "theorems": [
    "GPyOpt.Props.C62_first_point_partial",
    "GPyOpt.Props.C62_gradient_iff_partial",
    "GPyOpt.Props.C62_penalized_gradient_counterexample",
    "GPyOpt.Props.C62_default_transform_counterexample"
   ],
   "note": "false: the penalizer gradient lacks the direction (negation proved for almost every location, with the exact condition); proved for the first point of a batch"
  },
  {
   "property": "C63",
   "status": "proved",
   "theorems": [
    "GPyOpt.Props.C63_penalization_raises"
   ],
   "note": ""
  },
  {
   "property": "C64",
   "status": "proved",
   "theorems": [
    "GPyOpt.Props.C64_estimate_bounds",
    "GPyOpt.Props.C64_lipschitz"
   ],
   "note": "that the optimizer finds the maximum is a hypothesis of the Lipschitz part only"
  },
  {
   "property": "C65",
   "status": "proved",
   "theorems": [
    "GPyOpt.Props.C65_mcmc_predictions",
    "GPyOpt.Props.C65_mcmc_total",
    "GPyOpt.Props.C65_exception_counterexample"
   ],
   "note": "for predictions that do not raise; if one raises, the parameters are not restored (third theorem)"
  },
  {
   "property": "C66",
   "status": "proved",
   "theorems": [
    "GPyOpt.Props.C66_merge",
    "GPyOpt.Props.C66_section_over_value"
   ],
   "note": ""
  },
  {
   "property": "C67",
   "status": "proved",
   "theorems": [
    "GPyOpt.Props.C67_output_schedule",
    "GPyOpt.Props.C67_intervals"
   ],
   "note": ""
  },
  {
   "property": "C68",
   "status": "partial",
   "theorems": [
    "GPyOpt.Props.C68_evaluators_partial",
    "GPyOpt.Props.C68_evaluators_counterexample"
   ],
   "note": "documented combinations are right; unknown names give no evaluator and no error, and local penalization on top of a local penalization acquisition raises UnboundLocalError (negations proved)"
  },
  {
   "property": "C69",
   "status": "partial",
   "theorems": [
    "GPyOpt.Props.C69_selection_partial",
    "GPyOpt.Props.C69_selection_counterexample",
    "GPyOpt.Props.C69_selectors"
   ],
   "note": "acquisitions: full property. Models: the documented names warperdGP and InputWarpedGP are not accepted (negation proved)"
  },
  {
   "property": "C70",
   "status": "partial",
   "theorems": [
    "GPyOpt.Props.C70_warped_columns_partial",
    "GPyOpt.Props.C70_warped_columns_counterexample"
   ],
   "note": "true exactly for layouts where no categorical variable with two or more categories precedes a continuous or discrete one (equivalence proved), false otherwise"
  },
  {
   "property": "C71",
   "status": "proved",
   "theorems": [
    "GPyOpt.Props.C71_belief_normalized"
   ],
   "note": ""
  },
  {
   "property": "C72",
   "status": "proved",
   "theorems": [
    "GPyOpt.Props.C72_marginal",
    "GPyOpt.Props.C72_final_messages"
   ],
   "note": "for every reachable state of the propagation, not only one step"
  },
  {
   "property": "C73",
   "status": "partial",
   "theorems": [
    "GPyOpt.Props.C73_rosenbrock_partial",
    "GPyOpt.Props.C73_powers_partial",
    "GPyOpt.Props.C73_goldstein_partial",
    "GPyOpt.Props.C73_branin_partial",
    "GPyOpt.Props.C73_mccormick_partial",
    "GPyOpt.Props.C73_camel_partial",
    "GPyOpt.Props.C73_alpine1_partial",
    "GPyOpt.Props.C73_alpine2_partial",
    "GPyOpt.Props.C73_ackley_partial",
    "GPyOpt.Props.C73_gSobol_partial",
    "GPyOpt.Props.C73_eggholder_partial",
    "GPyOpt.Props.C73_beale_counterexample",
    "GPyOpt.Props.C73_dropwave_counterexample",
    "GPyOpt.Props.C73_cosines_counterexample",
    "GPyOpt.Props.C73_forrester_counterexample"
   ],
   "note": "right (up to the digits given) for rosenbrock, powers, goldstein, branin, mccormick, sixhumpcamel, alpine1, alpine2, ackley, eggholder; false for beale, dropwave, cosines and forrester (negations proved)"
  },
  {
   "property": "C74",
   "status": "partial",
   "theorems": [
    "GPyOpt.Props.C74_check_stop_partial",
    "GPyOpt.Props.C74_budget_partial",
    "GPyOpt.Props.C74_arguments_partial",
    "GPyOpt.Props.C74_driver_counterexample",
    "GPyOpt.Props.C74_unit_counterexample"
   ],
   "note": "false: run() raises TypeError for every valid configuration, and would count minutes as seconds (negations proved); the stop criterion and the iteration budget are right"
  },
  {
   "property": "C75",
   "status": "partial",
   "theorems": [
    "GPyOpt.Props.C75_constraint_coordinates_partial",
    "GPyOpt.Props.C75_constraint_coordinates_counterexample"
   ],
   "note": "proved when no categorical variable has exactly one category; with single-category variables only, both dimensionalities coincide, and constraints are evaluated on encoded rows (negation proved)"
  },
  {
   "property": "C76",
   "status": "proved",
   "theorems": [
    "GPyOpt.Props.C76_latin_stratified"
   ],
   "note": "the Latin hypercube itself comes from the library pyDOE; that it is one is the hypothesis"
  },
  {
   "property": "C77",
   "status": "partial",
   "theorems": [
    "GPyOpt.Props.C77_models_partial",
    "GPyOpt.Props.C77_models_counterexample",
    "GPyOpt.Props.C77_names"
   ],
   "note": "false for RF and warpedGP, with which no suggestion and no acquisition is ever made (negation proved); true for the Gaussian process models"
  },
  {
   "property": "C78",
   "status": "partial",
   "theorems": [
    "GPyOpt.Props.C78_copy_partial",
    "GPyOpt.Props.C78_copy_counterexample",
    "GPyOpt.Props.C78_fitted_data",
    "GPyOpt.Props.C78_copy_without_data"
   ],
   "note": "proved for the GP model; false for the GP_MCMC model, whose copy() always raises TypeError (negation proved)"
  },
  {
   "property": "C79",
   "status": "proved",
   "theorems": [
    "GPyOpt.Props.C79_logged_incumbent"
   ],
   "note": ""
  },
  {
   "property": "C80",
   "status": "partial",
   "theorems": [
    "GPyOpt.Props.C80_gp_acquisition_gradients_partial",
    "GPyOpt.Props.C80_clipped_counterexample"
   ],
   "note": "true where the predictive variance exceeds 1e-10, false below (negation proved)"
  },
  {
   "property": "C81",
   "status": "partial",
   "theorems": [
    "GPyOpt.Props.C81_penalizer_partial",
    "GPyOpt.Props.C81_penalizer_counterexample"
   ],
   "note": "false: the square root is applied to a standard deviation (negation proved)"
  },
  {
   "property": "C82",
   "status": "proved",
   "theorems": [
    "GPyOpt.Props.C82_mean_derivatives",
    "GPyOpt.Props.C82_covariance_derivative",
    "GPyOpt.Props.C82_marginal_consistency"
   ],
   "note": "messages held fixed, as the derivation in the code does; covariance derivatives along symmetric directions"
  },
  {
   "property": "C83",
   "status": "partial",
   "theorems": [
    "GPyOpt.Props.C83_first_derivatives",
    "GPyOpt.Props.C83_second_derivatives_partial",
    "GPyOpt.Props.C83_second_derivatives_counterexample"
   ],
   "note": "first derivatives: full property. Second derivatives: false, the code squares Zm elementwise instead of taking the outer product (negation proved, with the exact condition under which an entry is right)"
  },
  {
   "property": "C84",
   "status": "proved",
   "theorems": [
    "GPyOpt.Props.C84_packing",
    "GPyOpt.Props.C84_packed_product"
   ],
   "note": ""
  },
  {
   "property": "C85",
   "status": "partial",
   "theorems": [
    "GPyOpt.Props.C85_moment_matching",
    "GPyOpt.Props.C85_cavity",
    "GPyOpt.Props.C85_step_partial",
    "GPyOpt.Props.C85_step_range",
    "GPyOpt.Props.C85_threshold_counterexample"
   ],
   "note": "true up to 7e-24 (variance) for every cavity with variance in [5e-21, 10] and mean between -6 and 5 deviations, in every state; false for large variances, where the code replaces the message by its threshold (negation proved)"
  },
  {
   "property": "C86",
   "status": "partial",
   "theorems": [
    "GPyOpt.Props.C86_two_points_close",
    "GPyOpt.Props.C86_two_points_partial",
    "GPyOpt.Props.C86_two_points_belief_partial",
    "GPyOpt.Props.C86_two_points_far",
    "GPyOpt.Props.C86_threshold_counterexample"
   ],
   "note": "exact up to 6e-25/variance for every positive definite covariance whose difference has a variance in [1e-20, 20] and means at most five deviations apart; false for outputs of large scale, where the message is replaced by a threshold (negation proved); beyond 6 deviations the code cuts off"
  },
  {
   "property": "C87",
   "status": "proved",
   "theorems": [
    "GPyOpt.Props.C87_value"
   ],
   "note": ""
  },
  {
   "property": "C88",
   "status": "partial",
   "theorems": [
    "GPyOpt.Props.C88_predicted_change_partial",
    "GPyOpt.Props.C88_second_order_partial",
    "GPyOpt.Props.C88_second_order_counterexample",
    "GPyOpt.Props.C83_second_derivatives_counterexample"
   ],
   "note": "the prediction is the current belief plus the covariance and first order mean terms, which are the derivatives of the belief with the messages held fixed, plus half the quadratic form of the second mean derivatives; the form is the second derivative exactly under a condition on the first derivatives; false in general: negation proved for a posterior with two points"
  },
  {
   "property": "C89",
   "status": "partial",
   "theorems": [
    "GPyOpt.Props.C89_first_belief_partial",
    "GPyOpt.Props.C89_stale_belief_counterexample"
   ],
   "note": "false: the belief is computed at the first evaluation and kept for ever (negation proved for every history); the first evaluation is right"
  },
  {
   "property": "C90",
   "status": "proved",
   "theorems": [
    "GPyOpt.Props.C90_innovations",
    "GPyOpt.Props.C90_positive"
   ],
   "note": "covariances as variances of all linear combinations; exact if the variance at the location is at least the clipping threshold 1e-10, positive everywhere"
  },
  {
   "property": "C91",
   "status": "partial",
   "theorems": [
    "GPyOpt.Props.C91_covariance_partial",
    "GPyOpt.Props.C91_covariance_counterexample"
   ],
   "note": "false: negative covariances are clipped to 1e-10 and the result can be indefinite (negation proved); right exactly when no entry is below the threshold"
  },
  {
   "property": "C92",
   "status": "proved",
   "theorems": [
    "GPyOpt.Props.C92_representer_points",
    "GPyOpt.Props.C92_inside",
    "GPyOpt.Props.C92_rows"
   ],
   "note": ""
  },
  {
   "property": "C93",
   "status": "partial",
   "theorems": [
    "GPyOpt.Props.C93_outputs_partial",
    "GPyOpt.Props.C93_alpine1_counterexample",
    "GPyOpt.Props.C93_wrong_dimension_counterexample"
   ],
   "note": "false for alpine1 with noise (n by n output) and for wrong dimensions, which give a string or are accepted (negations proved)"
  },
  {
   "property": "C94",
   "status": "partial",
   "theorems": [
    "GPyOpt.Props.C94_initial_data",
    "GPyOpt.Props.C94_without_objective",
    "GPyOpt.Props.C94_outputs_without_locations_counterexample",
    "GPyOpt.Props.C94_misaligned_counterexample"
   ],
   "note": "the three cases, the order and the number of evaluations are right; false: outputs without locations are discarded and lengths are not compared (negations proved)"
  },
  {
   "property": "C95",
   "status": "partial",
   "theorems": [
    "GPyOpt.Props.C95_num_cores_counterexample",
    "GPyOpt.Props.C95_outputs_partial"
   ],
   "note": "false: the batch size is used in place of num_cores, and then an exception of the objective is never reported (negation proved for every schedule); whenever both return, the outputs do not depend on the number of processes"
  },
  {
   "property": "C96",
   "status": "partial",
   "theorems": [
    "GPyOpt.Props.C96_evaluated_before_refused_counterexample",
    "GPyOpt.Props.C96_refused_before_evaluation_partial"
   ],
   "note": "false for unknown acquisitions, models and evaluators (negation proved); right for the space, the data and the design"
  },
  {
   "property": "C97",
   "status": "proved",
   "theorems": [
    "GPyOpt.Props.C97_called_inside_domain",
    "GPyOpt.Props.C97_given_locations_counterexample"
   ],
   "note": "locations given by the user are not checked, which is shown by the counterexample"
  },
  {
   "property": "C98",
   "status": "partial",
   "theorems": [
    "GPyOpt.Props.C98_lbfgs",
    "GPyOpt.Props.C98_direct_cma",
    "GPyOpt.Props.C98_gradient_argument_counterexample"
   ],
   "note": "right for f alone and with f_df; false for df without f_df, which raises NameError whatever the arguments (negation proved)"
  },
  {
   "property": "C99",
   "status": "proved",
   "theorems": [
    "GPyOpt.Props.C99_context_gradient"
   ],
   "note": "the derivative along the free variables, from the derivative of the acquisition; zero components of context variables do not enter"
  },
  {
   "property": "C100",
   "status": "partial",
   "theorems": [
    "GPyOpt.Props.C100_as_good_as_samples_partial",
    "GPyOpt.Props.C100_rounding_counterexample"
   ],
   "note": "right for continuous variables, with constraints, contexts and duplicate avoidance; false with discrete variables, where the final rounding can make it worse (negation proved)"
  },
  {
   "property": "C101",
   "status": "partial",
   "theorems": [
    "GPyOpt.Props.C101_report_partial",
    "GPyOpt.Props.C101_modular_counterexample",
    "GPyOpt.Props.C101_before_run_counterexample",
    "GPyOpt.Props.C101_constraints_counterexample",
    "GPyOpt.Props.C101_cost_counterexample",
    "GPyOpt.Props.C101_bandit_counterexample"
   ],
   "note": "right for BayesianOptimization objects on spaces without bandit variables, except the lines about constraints and cost; false for ModularBayesianOptimization objects, for these two lines and for bandits (negations proved)"
  },
  {
   "property": "C102",
   "status": "partial",
   "theorems": [
    "GPyOpt.Props.C102_files_keep_run",
    "GPyOpt.Props.C102_files_partial",
    "GPyOpt.Props.C102_modular_counterexample",
    "GPyOpt.Props.C102_max_time_counterexample"
   ],
   "note": "the run is never changed and a failed run writes nothing; contents complete for BayesianOptimization objects; false for ModularBayesianOptimization objects with a report file and for runs without any model update with a models file (negations proved)"
  },
  {
   "property": "C103",
   "status": "partial",
   "theorems": [
    "GPyOpt.Props.C103_plot_keeps_data",
    "GPyOpt.Props.C103_plotted_data_partial",
    "GPyOpt.Props.C103_plot_before_fit",
    "GPyOpt.Props.C103_plotted_acquisition",
    "GPyOpt.Props.C103_plot_resets_counterexample",
    "GPyOpt.Props.C103_plotted_data_counterexample"
   ],
   "note": "data and later runs are unchanged and the acquisition curve is right; the records are reset, and the plotted data lack the last evaluations unless the model was fitted in the last round (negations proved)"
  },
  {
   "property": "C104",
   "status": "partial",
   "theorems": [
    "GPyOpt.Props.C104_convergence_partial",
    "GPyOpt.Props.C104_convergence_counterexample"
   ],
   "note": "right after a completed run of aligned data; false before a run and after a failed one (negation proved)"
  },
  {
   "property": "C105",
   "status": "proved",
   "theorems": [
    "GPyOpt.Props.C105_ask_tell"
   ],
   "note": "any batch size, evaluator, budget and context; with a larger update interval the two differ, shown by an example"
  },
  {
   "property": "C106",
   "status": "partial",
   "theorems": [
    "GPyOpt.Props.C106_exhaustive_partial",
    "GPyOpt.Props.C106_progress",
    "GPyOpt.Props.C106_gives_up_counterexample"
   ],
   "note": "everything but the last sentence, which is false: the error is raised when all sampled points are duplicates, although points are left (negation proved); with reliable components a run makes all its iterations or raises this error"
  },
  {
   "property": "C107",
   "status": "partial",
   "theorems": [
    "GPyOpt.Props.C107_forest_partial",
    "GPyOpt.Props.C107_single_rows_counterexample",
    "GPyOpt.Props.C107_fitted_to_data",
    "GPyOpt.Props.C107_warped"
   ],
   "note": "right for forests whose trees accept single rows; scikit-learn 0.19 and later refuse them and every prediction raises (negation proved)"
  },
  {
   "property": "C108",
   "status": "partial",
   "theorems": [
    "GPyOpt.Props.C108_noise_partial",
    "GPyOpt.Props.C108_noise_ignored_counterexample"
   ],
   "note": "right for regression and MCMC models; false for sparse, warped and input-warped models, which never receive the variance (negation proved)"
  },
  {
   "property": "C109",
   "status": "partial",
   "theorems": [
    "GPyOpt.Props.C109_warp_range_partial",
    "GPyOpt.Props.C109_later_data_counterexample"
   ],
   "note": "right for the data of the first update; false afterwards: the range is never updated (negation proved)"
  },
  {
   "property": "C110",
   "status": "partial",
   "theorems": [
    "GPyOpt.Props.C110_entropy_spaces_partial",
    "GPyOpt.Props.C110_categorical_counterexample",
    "GPyOpt.Props.C110_many_variables_counterexample"
   ],
   "note": "right for continuous and discrete variables and an even number of representer points that is at least twice the number of variables; false in every space with a categorical variable, and with the default number of points for more than 25 variables (negations proved)"
  },
  {
   "property": "C111",
   "status": "partial",
   "theorems": [
    "GPyOpt.Props.C111_components_partial",
    "GPyOpt.Props.C111_components_counterexample",
    "GPyOpt.Props.C111_local_penalization_counterexample",
    "GPyOpt.Props.C111_model_without_type"
   ],
   "note": "right for the model GP, the acquisitions EI and MPI and all evaluators; false: integrated acquisitions are replaced by the plain ones, other models and acquisitions cannot be created, local penalization cannot be used (negations proved)"
  },
  {
   "property": "C112",
   "status": "partial",
   "theorems": [
    "GPyOpt.Props.C112_space_partial",
    "GPyOpt.Props.C112_dictionaries",
    "GPyOpt.Props.C112_consumed_counterexample"
   ],
   "note": "the space is the one the texts mean; false for the configuration, which is changed and refused the second time (negation proved for every configuration)"
  },
  {
   "property": "C113",
   "status": "partial",
   "theorems": [
    "GPyOpt.Props.C113_logger_file_partial",
    "GPyOpt.Props.C113_one_headline",
    "GPyOpt.Props.C113_final_counterexample"
   ],
   "note": "right for all but the final iteration, which a logger with a positive interval never writes (negation proved)"
  },
  {
   "property": "C114",
   "status": "partial",
   "theorems": [
    "GPyOpt.Props.C114_loader_partial",
    "GPyOpt.Props.C114_relative_path_counterexample",
    "GPyOpt.Props.C114_language_counterexample"
   ],
   "note": "right for absolute paths and Python; relative paths are applied twice, and other languages raise UnboundLocalError (negations proved)"
  },
  {
   "property": "C115",
   "status": "partial",
   "theorems": [
    "GPyOpt.Props.C115_uniform_samples",
    "GPyOpt.Props.C115_moments",
    "GPyOpt.Props.C115_moment_derivatives",
    "GPyOpt.Props.C115_evaluate_partial",
    "GPyOpt.Props.C115_evaluate_counterexample",
    "GPyOpt.Props.C115_integrated_partial",
    "GPyOpt.Props.C115_integrated_counterexample",
    "GPyOpt.Props.C115_integrated_gradient_partial",
    "GPyOpt.Props.C115_integrated_gradient_counterexample",
    "GPyOpt.Props.C115_best_value",
    "GPyOpt.Props.C115_best_guess"
   ],
   "note": "samples, moments, best_value and best_guess: full property; evaluate_function has one column per input, and the integrated acquisition, with and without gradients, asks for a missing attribute (negations proved)"
  },
  {
   "property": "C116",
   "status": "proved",
   "theorems": [
    "GPyOpt.Props.C116_scaled_run",
    "GPyOpt.Props.C116_scaled_suggestion",
    "GPyOpt.Props.C116_affine_run",
    "GPyOpt.Props.C116_normalize_affine",
    "GPyOpt.Props.C116_unnormalized_counterexample"
   ],
   "note": "components see the outputs only through the model; normalize(\"stats\") gives the model the same outputs in every unit; without normalization the claim is false (negation proved)"
  },
  {
   "property": "C117",
   "status": "partial",
   "theorems": [
    "GPyOpt.Props.C117_known_points",
    "GPyOpt.Props.C117_order_of_points",
    "GPyOpt.Props.C117_order_of_context",
    "GPyOpt.Props.C117_zero_point_counterexample"
   ],
   "note": "order, repetitions and context: full property; a location can move between lists unless it is left in, or put into, a pending or ignored matrix that is entirely zero (negation proved)"
  },
  {
   "property": "C118",
   "status": "partial",
   "theorems": [
    "GPyOpt.Props.C118_scores",
    "GPyOpt.Props.C118_thompson_anchors_partial",
    "GPyOpt.Props.C118_mcmc_index_error",
    "GPyOpt.Props.C118_mcmc_counterexample",
    "GPyOpt.Props.C118_constraints_refused"
   ],
   "note": "right for models that predict one mean and deviation per location; false for MCMC models, which return lists: there are several scores per location, and the lookup raises IndexError exactly if one of the best scores belongs to another sample than the first (proved for all inputs); as an option of the acquisition optimizer it is refused in every constrained space, because of its Sobol design (proved for all inputs)"
  },
  {
   "property": "C119",
   "status": "partial",
   "theorems": [
    "GPyOpt.Props.C119_results_partial",
    "GPyOpt.Props.C119_normalize_partial",
    "GPyOpt.Props.C119_nan_counterexample",
    "GPyOpt.Props.C119_normalized_counterexample"
   ],
   "note": "false: the first nan is the reported optimum and turns Y_best and all normalized outputs into nan (proved for all data with a nan); without nan the results are those of C39 and C53"
  },
  {
   "property": "C120",
   "status": "partial",
   "theorems": [
    "GPyOpt.Props.C120_numbers_partial",
    "GPyOpt.Props.C120_refused",
    "GPyOpt.Props.C120_two_rows_counterexample",
    "GPyOpt.Props.C120_wrong_optimum_counterexample",
    "GPyOpt.Props.C120_missing_output_counterexample"
   ],
   "note": "right for results with one number and for results that are not columns; columns with several or no rows are accepted and misalign the data (negations proved)"
  },
  {
   "property": "C121",
   "status": "partial",
   "theorems": [
    "GPyOpt.Props.C121_local_penalization_partial",
    "GPyOpt.Props.C121_single_location",
    "GPyOpt.Props.C121_mcmc_counterexample"
   ],
   "note": "right for all models but GP_MCMC, for which every batch of two or more locations raises TypeError (proved for all inputs)"
  },
  {
   "property": "C122",
   "status": "proved",
   "theorems": [
    "GPyOpt.Props.C122_arms",
    "GPyOpt.Props.C122_suggestion_exists",
    "GPyOpt.Props.C122_no_arm_left",
    "GPyOpt.Props.C122_run",
    "GPyOpt.Props.C122_context"
   ],
   "note": "one bandit variable, all evaluators, with and without constraints; several bandit variables: C06, C20. Batch size 1 of the random evaluator: C29; all-zero pending or ignored matrices: C21; de-duplication with local penalization: C33"
  },
  {
   "property": "C123",
   "status": "partial",
   "theorems": [
    "GPyOpt.Props.C123_run_partial",
    "GPyOpt.Props.C123_pure_partial",
    "GPyOpt.Props.C123_initial",
    "GPyOpt.Props.C123_initial_counterexample",
    "GPyOpt.Props.C123_cost_counterexample"
   ],
   "note": "true for objects with outputs and without modelled evaluation times, and for objectives that do not write; false otherwise (negations proved): initial locations are evaluated in place, so that the recorded locations and the caller's array are what the objective leaves, and the model of the evaluation times is trained at the modified locations"
  },
  {
   "property": "C124",
   "status": "partial",
   "theorems": [
    "GPyOpt.Props.C124_caller_partial",
    "GPyOpt.Props.C124_own",
    "GPyOpt.Props.C124_initial_counterexample",
    "GPyOpt.Props.C124_opt_counterexample"
   ],
   "note": "true from the first completed iteration on, for all arrays passed or received except x_opt; false before, when the optimizer uses the caller's arrays, and for x_opt, which is a view of the recorded locations (negations proved)"
  },
  {
   "property": "C125",
   "status": "partial",
   "theorems": [
    "GPyOpt.Props.C125_ei",
    "GPyOpt.Props.C125_lcb",
    "GPyOpt.Props.C125_mpi",
    "GPyOpt.Props.C125_integrated_partial",
    "GPyOpt.Props.C126_integrated_ei_counterexample"
   ],
   "note": "one model: full property, with strict versions; integrated acquisitions: LCB, EI without jitter, and EI and MPI for equal deviations; false for the integrated EI with jitter (negation proved)"
  },
  {
   "property": "C126",
   "status": "partial",
   "theorems": [
    "GPyOpt.Props.C126_ei",
    "GPyOpt.Props.C126_mpi",
    "GPyOpt.Props.C126_lcb",
    "GPyOpt.Props.C126_integrated_partial",
    "GPyOpt.Props.C126_integrated_ei_counterexample"
   ],
   "note": "one model: full property; integrated MPI and LCB: full property; false for the integrated EI, whose jitter is added instead of subtracted (negation proved)"
  },
  {
   "property": "C127",
   "status": "partial",
   "theorems": [
    "GPyOpt.Props.C127_one_input",
    "GPyOpt.Props.C127_curve_partial",
    "GPyOpt.Props.C127_curve_hidden_counterexample",
    "GPyOpt.Props.C127_two_inputs",
    "GPyOpt.Props.C127_suggested_partial",
    "GPyOpt.Props.C127_suggested_counterexample"
   ],
   "note": "mean, band and contours: full property; the acquisition curve is right if the lower band reaches zero and invisible if it is well above zero (negation proved); suggestions are right without categorical variables, with one of two categories the plot raises IndexError (negation proved)"
  },
  {
   "property": "C128",
   "status": "proved",
   "theorems": [
    "GPyOpt.Props.C128_designs",
    "GPyOpt.Props.C128_grid",
    "GPyOpt.Props.C128_one_counterexample"
   ],
   "note": "every precision p >= 2 and every rounding to nearest, no overflow and underflow; the number 1 of the unit interval has to be excluded (negation proved; the libraries do not return it); grids of up to 2^(p-2) points"
  },
  {
   "property": "C129",
   "status": "partial",
   "theorems": [
    "GPyOpt.Props.C129_range",
    "GPyOpt.Props.C129_stats_order_partial",
    "GPyOpt.Props.C129_constant_counterexample",
    "GPyOpt.Props.C129_strict_counterexample"
   ],
   "note": "range normalization: full property except that different outputs may become equal; statistics: the order is never reversed; equal outputs may become -1 and different outputs equal (negations proved)"
  },
  {
   "property": "C130",
   "status": "partial",
   "theorems": [
    "GPyOpt.Props.C130_in_domain",
    "GPyOpt.Props.C130_fixed",
    "GPyOpt.Props.C130_nearest_partial",
    "GPyOpt.Props.C130_nearest_counterexample"
   ],
   "note": "domain and fixed points: full property; the chosen value is nearest up to the relative error 2^(2-p), exactly nearest is false (negation proved)"
  },
  {
   "property": "C131",
   "status": "proved",
   "theorems": [
    "GPyOpt.Props.C131_independent"
   ],
   "note": "dictionaries at addresses, programs that write any content into any reachable dictionary; lists in configurations are values"
  },
  {
   "property": "C132",
   "status": "proved",
   "theorems": [
    "GPyOpt.Props.C132_constrained_uniform",
    "GPyOpt.Props.C132_unconstrained_uniform"
   ],
   "note": "counts the outcomes of a generator with M numbers in the unit interval, for every M; different outcomes have to be different values (no repeated values, lower bounds below upper bounds)"
  },
  {
   "property": "C133",
   "status": "proved",
   "theorems": [
    "GPyOpt.Props.C133_design_found",
    "GPyOpt.Props.C133_almost_surely",
    "GPyOpt.Props.C133_never_found"
   ],
   "note": "explicit exponential bound for a uniform generator, and almost sure termination for independent rounds of any distribution (product measure of Mathlib)"
  },
  {
   "property": "C134",
   "status": "partial",
   "theorems": [
    "GPyOpt.Props.C134_expressions_partial",
    "GPyOpt.Props.C134_rowwise_partial",
    "GPyOpt.Props.C134_shapes_counterexample",
    "GPyOpt.Props.C134_entries_counterexample",
    "GPyOpt.Props.C134_constant_counterexample",
    "GPyOpt.Props.C134_sum_counterexample"
   ],
   "note": "right for arithmetic expressions of columns (or of slices with one column), for which the indicator is the one that the rest of the model uses; false for mixtures and sums over everything, which work for one location and raise for several, and for single entries, which make a location depend on the others (negations proved)"
  },
  {
   "property": "C135",
   "status": "partial",
   "theorems": [
    "GPyOpt.Props.C135_same_constraint_partial",
    "GPyOpt.Props.C135_uninterrupted_partial",
    "GPyOpt.Props.C135_threads_counterexample"
   ],
   "note": "false: the compiled constraint is kept under a global name, and a schedule gives one thread the indicator of the constraint of another (negation proved for all constraints); right for a single common constraint under every schedule, and for threads that are not interrupted between compilation and call"
  },
  {
   "property": "C136",
   "status": "proved",
   "theorems": [
    "GPyOpt.Props.C136_improvement",
    "GPyOpt.Props.C136_lcb",
    "GPyOpt.Props.C136_lcb_order"
   ],
   "note": "backward error in the mean and relative error in the value, with explicit constants, for every arithmetic with relative error at most 1e-8 per operation and library call; no overflow and underflow"
  },
  {
   "property": "C137",
   "status": "partial",
   "theorems": [
    "GPyOpt.Props.C137_read_back_partial",
    "GPyOpt.Props.C137_evaluations_partial",
    "GPyOpt.Props.C137_windows_counterexample"
   ],
   "note": "at the level of characters, with the state machine of the csv reader; right where lines end with \\n and names have no carriage returns; false on Windows, where the reader finds an empty row after every row (negation proved for all tables without line breaks)"
  },
  {
   "property": "C138",
   "status": "partial",
   "theorems": [
    "GPyOpt.Props.C138_resume_partial",
    "GPyOpt.Props.C138_resume_file_partial",
    "GPyOpt.Props.C138_interval_counterexample"
   ],
   "note": "for models that are refitted in every iteration, deterministic suggestions that depend on the data and the last fit, deterministic objectives and cost models other than evaluation_time; false with model_update_interval larger than 1 (negation proved): the new object refits at once, a single object would have waited"
  },
  {
   "property": "C139",
   "status": "proved",
   "theorems": [
    "GPyOpt.Props.C139_reported_is_best",
    "GPyOpt.Props.C139_reported_in_domain"
   ],
   "note": "about the calls of the user's function as they are recorded; the location is in the domain under the hypotheses of C97"
  },
  {
   "property": "C140",
   "status": "proved",
   "theorems": [
    "GPyOpt.Props.C140_run_raises_nothing",
    "GPyOpt.Props.C140_run_completes",
    "GPyOpt.Props.C140_object_raises_nothing"
   ],
   "note": "all four evaluators with and without de-duplication; a random batch with de-duplication needs a batch size of two or more; termination for budgets of iterations without a limit of time; initial outputs need not be given and the cost may be the evaluation time; constrained spaces included, if the designs are found and the anchor points are scored by the acquisition"
  },
  {
   "property": "C141",
   "status": "partial",
   "theorems": [
    "GPyOpt.Props.C141_clock_irrelevant",
    "GPyOpt.Props.C141_budgets_only_cut",
    "GPyOpt.Props.C141_evaluation_time_counterexample"
   ],
   "note": "for components that do not read the elapsed time and cost models other than evaluation_time; with the latter the clock decides where the objective is evaluated (negation proved)"
  },
  {
   "property": "C142",
   "status": "partial",
   "theorems": [
    "GPyOpt.Props.C142_encode",
    "GPyOpt.Props.C142_encode_array",
    "GPyOpt.Props.C142_silent_change",
    "GPyOpt.Props.C142_decode",
    "GPyOpt.Props.C142_round",
    "GPyOpt.Props.C142_round_refused",
    "GPyOpt.Props.C142_round_one_row",
    "GPyOpt.Props.C142_round_no_variables",
    "GPyOpt.Props.C142_bandit_conversion",
    "GPyOpt.Props.C142_bandit_encode_counterexample",
    "GPyOpt.Props.C142_round_bandit",
    "GPyOpt.Props.C142_short_refused_partial",
    "GPyOpt.Props.C142_superfluous_counterexample",
    "GPyOpt.Props.C142_categories_counterexample",
    "GPyOpt.Props.C142_truncated_counterexample",
    "GPyOpt.Props.C142_data_stay_rectangular",
    "GPyOpt.Props.C142_wide_data_counterexample"
   ],
   "note": "the exact set of accepted rows, what they are taken for, and the exceptions of the others; false as stated: superfluous entries, negative and fractional categories and truncated last categories are accepted, and encoding a row on a bandit space drops it (negations proved)"
  },
  {
   "property": "C143",
   "status": "partial",
   "theorems": [
    "GPyOpt.Props.C143_different_files",
    "GPyOpt.Props.C143_different_names",
    "GPyOpt.Props.C143_files_are_kept_partial",
    "GPyOpt.Props.C143_logger_content",
    "GPyOpt.Props.C143_same_second_counterexample",
    "GPyOpt.Props.C143_filename_counterexample",
    "GPyOpt.Props.C143_underscore_counterexample"
   ],
   "note": "true for default names and different readings of the clock (dates are not padded, but unique); false for experiments in the same second and for names set in the configuration (negations proved)"
  },
  {
   "property": "C144",
   "status": "partial",
   "theorems": [
    "GPyOpt.Props.C144_content_partial",
    "GPyOpt.Props.C144_completed",
    "GPyOpt.Props.C144_calls_before_files",
    "GPyOpt.Props.C144_other_files",
    "GPyOpt.Props.C144_cut_file",
    "GPyOpt.Props.C144_readable_partial",
    "GPyOpt.Props.C144_evaluations_lost_counterexample",
    "GPyOpt.Props.C144_exception_counterexample",
    "GPyOpt.Props.C144_old_file_lost_counterexample",
    "GPyOpt.Props.C144_wrong_number_counterexample"
   ],
   "note": "at every crash point the file has its old content or the beginning of the new table, and all rows but the last of a cut file are true; false as stated: nothing is written before the loop has ended or if the run raises, saving first empties the old file, and the last row of a cut file can be wrong (negations proved)"
  },
  {
   "property": "C145",
   "status": "partial",
   "theorems": [
    "GPyOpt.Props.C145_creation_effect",
    "GPyOpt.Props.C145_creation_keeps",
    "GPyOpt.Props.C145_meaning",
    "GPyOpt.Props.C145_variables_partial",
    "GPyOpt.Props.C145_space_partial",
    "GPyOpt.Props.C145_second_space",
    "GPyOpt.Props.C145_constraints_counterexample",
    "GPyOpt.Props.C145_context_counterexample",
    "GPyOpt.Props.C145_legacy_counterexample"
   ],
   "note": "variables, bounds, encoding and rounding never depend on later changes, creating other spaces changes nothing, and only dictionaries with the legacy key are written; false as stated: constraints and the domains used for anchor points in a context stay shared with the caller (negations proved)"
  },
  {
   "property": "C146",
   "status": "partial",
   "theorems": [
    "GPyOpt.Props.C146_random_rows",
    "GPyOpt.Props.C146_missed",
    "GPyOpt.Props.C146_optimum",
    "GPyOpt.Props.C146_consistent",
    "GPyOpt.Props.C146_dedup_rows",
    "GPyOpt.Props.C146_dedup_low",
    "GPyOpt.Props.C146_dedup_counterexample"
   ],
   "note": "without de-duplication and context: full property, for adversarial models that may even know the draws, with the exact constants; false with de-duplication (negation proved): the samples are sorted, and the batch takes the lexicographically smallest unknown ones, so that more samples make large locations less likely"
  },
  {
   "property": "C147",
   "status": "partial",
   "theorems": [
    "GPyOpt.Props.C147_accepted",
    "GPyOpt.Props.C147_space",
    "GPyOpt.Props.C147_designs",
    "GPyOpt.Props.C147_suggestions",
    "GPyOpt.Props.C147_runs",
    "GPyOpt.Props.C147_positions",
    "GPyOpt.Props.C147_collision_counterexample",
    "GPyOpt.Props.C147_unnamed_counterexample"
   ],
   "note": "full property (acceptance with the same exception, all conversions, designs, evaluators and whole runs, also with bandit variables) if variables with a dimensionality are named and expanded names are distinct; false otherwise (negations proved): 'x' of dimensionality 2 and 'x_1' collide, so that a context fixes another variable, and an unnamed variable with dimensionality 1 is a KeyError"
  },
  {
   "property": "C148",
   "status": "partial",
   "theorems": [
    "GPyOpt.Props.C148_step",
    "GPyOpt.Props.C148_run",
    "GPyOpt.Props.C148_probability",
    "GPyOpt.Props.C148_rounding_counterexample"
   ],
   "note": "full property for continuous variables without constraints and evaluation of one location at a time (any context, with or without de-duplication, standardized outputs); false with discrete variables (negation proved): the optimum of the acquisition is rounded to a location with another value of the acquisition"
  },
  {
   "property": "C149",
   "status": "partial",
   "theorems": [
    "GPyOpt.Props.C149_run_partial",
    "GPyOpt.Props.C149_unevaluated_partial",
    "GPyOpt.Props.C149_suggest",
    "GPyOpt.Props.C149_normalize",
    "GPyOpt.Props.C149_regression",
    "GPyOpt.Props.C149_repetition_counterexample",
    "GPyOpt.Props.C149_tie_counterexample"
   ],
   "note": "suggestions: full property; runs: full property if the last two initial rows are the same in both orders or eps is negative, and up to ties of the minimum; false otherwise (negations proved): with the default eps a repeated observation at the end of the data ends the run before the first evaluation, and the first of two minimizers is reported"
  },
  {
   "property": "C150",
   "status": "proved",
   "theorems": [
    "GPyOpt.Props.C150_better_kept",
    "GPyOpt.Props.C150_preferred",
    "GPyOpt.Props.C150_close_excluded",
    "GPyOpt.Props.C150_estimated_constant",
    "GPyOpt.Props.C150_slope_counterexample"
   ],
   "note": "exact factors, any deviations; the estimated constant under the assumption that its optimizer finds the steepest slope; the condition on the slope is needed (negation without it proved: the penalty is unbounded)"
  },
  {
   "property": "C151",
   "status": "proved",
   "theorems": [
    "GPyOpt.Props.C151_grid_covers",
    "GPyOpt.Props.C151_grid_error",
    "GPyOpt.Props.C151_latin_covers",
    "GPyOpt.Props.C151_latin_error",
    "GPyOpt.Props.C151_random_error",
    "GPyOpt.Props.C151_single_point_counterexample"
   ],
   "note": "from construction to report; grid: objectives that depend on the continuous variables (the other columns of a grid design are random); random: also with constraints, against models that know the draws; fewer than 2^d points make a grid of the lower corner only (proved)"
  },
  {
   "property": "C152",
   "status": "partial",
   "theorems": [
    "GPyOpt.Props.C152_same_order",
    "GPyOpt.Props.C152_other_transform",
    "GPyOpt.Props.C152_first_location",
    "GPyOpt.Props.C152_lcb_error",
    "GPyOpt.Props.C152_switch_counterexample"
   ],
   "note": "full property for EI and MPI, for other transforms, and for LCB with all values greater (or all at most) -40; false for LCB in exact arithmetic (negation proved): the two formulas of softplus do not meet at 40, which inverts the order of values that differ by at most 2 exp(-40)"
  },
  {
   "property": "C153",
   "status": "partial",
   "theorems": [
    "GPyOpt.Props.C153_one_process",
    "GPyOpt.Props.C153_processes_do_not_matter",
    "GPyOpt.Props.C153_as_one_process",
    "GPyOpt.Props.C153_returns",
    "GPyOpt.Props.C153_exception_counterexample",
    "GPyOpt.Props.C153_evaluation_time_counterexample"
   ],
   "note": "full property for runs that return, without limit of time and with cost models other than evaluation_time; such runs exist if the objective does not raise and messages fit into the pipes; false otherwise (negations proved): an objective that raises makes a run with several processes wait forever, and the costs of several processes have the wrong shape for the model of the evaluation time"
  },
  {
   "property": "C154",
   "status": "partial",
   "theorems": [
    "GPyOpt.Props.C154_description",
    "GPyOpt.Props.C154_encodings",
    "GPyOpt.Props.C154_feasible",
    "GPyOpt.Props.C154_designs",
    "GPyOpt.Props.C154_suggestions_partial",
    "GPyOpt.Props.C154_runs_partial",
    "GPyOpt.Props.C154_stop_off",
    "GPyOpt.Props.C154_stop_scale",
    "GPyOpt.Props.C154_pending_counterexample",
    "GPyOpt.Props.C154_random_batch_counterexample",
    "GPyOpt.Props.C154_stop_counterexample",
    "GPyOpt.Props.C154_penalizer_scale",
    "GPyOpt.Props.C154_penalizer_counterexample"
   ],
   "note": "domains, conversions, designs: full property; suggestions and runs for all evaluators and contexts, where a shift of units needs duplicate logic without pending points and random batches, and the tolerance eps has to be converted; false otherwise (negations proved): np.any ignores points at the origin, eps is in the units of the variables, and the penalizers use Euclidean distances, which depend on the ratio of the units. That model, acquisition and local optimizer respect the units is a hypothesis"
  },
  {
   "property": "C155",
   "status": "partial",
   "theorems": [
    "GPyOpt.Props.C155_exists",
    "GPyOpt.Props.C155_encodings",
    "GPyOpt.Props.C155_samples",
    "GPyOpt.Props.C155_suggestions_partial",
    "GPyOpt.Props.C155_restricted_partial",
    "GPyOpt.Props.C155_runs_partial",
    "GPyOpt.Props.C155_random_batch_counterexample",
    "GPyOpt.Props.C155_pending_counterexample"
   ],
   "note": "existence of the smaller problem, encodings and sampling: full property; suggestions for all evaluators without pending or ignored points, and without random batches under duplicate logic (both false otherwise, negations proved: np.any ignores points at the origin); runs whose data lie in the context. The constraints of the smaller problem are those of the full one, which the code applies to the free variables alone. That local optimizers look only at rows of the free columns is a hypothesis"
  },
  {
   "property": "C156",
   "status": "proved",
   "theorems": [
    "GPyOpt.Props.C156_indicator",
    "GPyOpt.Props.C156_acquisition",
    "GPyOpt.Props.C156_designs",
    "GPyOpt.Props.C156_suggestions",
    "GPyOpt.Props.C156_runs",
    "GPyOpt.Props.C156_set",
    "GPyOpt.Props.C156_scaled",
    "GPyOpt.Props.C156_redundant",
    "GPyOpt.Props.C156_none",
    "GPyOpt.Props.C156_none_counterexample"
   ],
   "note": "constraints are functions of a row that raise nothing on rows of the right width; a problem without constraints and one whose constraints every row meets agree as long as only random designs are drawn (negation for the others proved). That local optimizers look only at rows of the free columns is a hypothesis"
  },
  {
   "property": "C157",
   "status": "partial",
   "theorems": [
    "GPyOpt.Props.C157_exists",
    "GPyOpt.Props.C157_draws",
    "GPyOpt.Props.C157_encodings",
    "GPyOpt.Props.C157_acquisitions",
    "GPyOpt.Props.C157_designs_partial",
    "GPyOpt.Props.C157_suggestions_partial",
    "GPyOpt.Props.C157_runs_partial",
    "GPyOpt.Props.C157_context_exists",
    "GPyOpt.Props.C157_context_suggestions_partial",
    "GPyOpt.Props.C157_context_runs_partial",
    "GPyOpt.Props.C157_designs_counterexample",
    "GPyOpt.Props.C157_unique_counterexample"
   ],
   "note": "false in general (negations proved): Sobol designs assign their columns by position and grids enumerate rows by position, and samples without repetition are sorted by their first column before the first ones are kept, so random and Thompson batches with duplicate logic depend on the order. Proved for random and Latin designs and all evaluators that keep repetitions, without and in a context (the same context, which names its variables); anchors of Thompson sampling come from a Sobol design, for which the claim is false. In a context pending and ignored points are not covered. That local optimizers treat coordinates alike is a hypothesis"
  },
  {
   "property": "C158",
   "status": "partial",
   "theorems": [
    "GPyOpt.Props.C158_start",
    "GPyOpt.Props.C158_constructor",
    "GPyOpt.Props.C158_user_partial",
    "GPyOpt.Props.C158_times_counterexample"
   ],
   "note": "full property for the constructor and the start of the run, state for state; outputs from the user: same data and results for objectives that are functions of the location and components that use the data only. False for models of the evaluation time (negation proved for all objectives): only the start of the run keeps the times of the initial evaluations. With maximize=True the user has to negate the outputs (C46)"
  },
  {
   "property": "C159",
   "status": "partial",
   "theorems": [
    "GPyOpt.Props.C159_threshold",
    "GPyOpt.Props.C159_suggestion_partial",
    "GPyOpt.Props.C159_run_partial",
    "GPyOpt.Props.C159_discrete_counterexample"
   ],
   "note": "suggestions and runs on continuous variables, with constraints (EI, MPI) and contexts; false with discrete variables (negation proved): the optimum of the acquisition is rounded to a known location although a better sample was drawn. Local optimizers that do not get worse and the samples of the code are as in C100"
  },
  {
   "property": "C160",
   "status": "proved",
   "theorems": [
    "GPyOpt.Props.C160_in_turn",
    "GPyOpt.Props.C160_overlap_counterexample"
   ],
   "note": "for components that do not remember earlier fits (a fit depends on its data; hyper-parameters kept as a warm start and the state of entropy search, C89, are excluded by hypothesis); the negation is proved for overlapping calls"
  },
  {
   "property": "C161",
   "status": "partial",
   "theorems": [
    "GPyOpt.Props.C161_objects_used",
    "GPyOpt.Props.C161_by_name",
    "GPyOpt.Props.C161_fitted_partial",
    "GPyOpt.Props.C161_named_evaluator_partial",
    "GPyOpt.Props.C161_own_model_counterexample",
    "GPyOpt.Props.C161_never_fitted_counterexample",
    "GPyOpt.Props.C161_context_counterexample",
    "GPyOpt.Props.C161_local_penalization_counterexample",
    "GPyOpt.Props.C161_penalized_object_counterexample",
    "GPyOpt.Props.C161_no_optimizer_counterexample"
   ],
   "note": "proved where no acquisition object is passed or it has the passed model object as its model; false otherwise: the loop fits a model that the acquisition does not use, local penalization ignores the context with an acquisition object and refuses model objects; acquisition objects on another space are not modelled"
  },
  {
   "property": "C162",
   "status": "partial",
   "theorems": [
    "GPyOpt.Props.C162_order_only",
    "GPyOpt.Props.C162_proportional_costs_partial",
    "GPyOpt.Props.C162_same_run",
    "GPyOpt.Props.C162_penalized_costs_partial",
    "GPyOpt.Props.C162_fixed_cost_counterexample",
    "GPyOpt.Props.C162_tolerance_counterexample",
    "GPyOpt.Props.C162_time_unit_counterexample",
    "GPyOpt.Props.C162_penalized_costs_counterexample"
   ],
   "note": "proved for every evaluator and strictly increasing transformation of the acquisition, for sorting routines and local optimizers that only compare values, and from it for proportional costs (for local penalization with an error bound instead of equality); false for optimizers with an absolute tolerance (L-BFGS), for the modelled evaluation time, and for penalized acquisitions"
  },
  {
   "property": "C163",
   "status": "partial",
   "theorems": [
    "GPyOpt.Props.C163_no_location_twice_partial",
    "GPyOpt.Props.C163_arms_partial",
    "GPyOpt.Props.C163_finite_domain",
    "GPyOpt.Props.C163_one_worker",
    "GPyOpt.Props.C163_same_locations_counterexample",
    "GPyOpt.Props.C163_origin_counterexample"
   ],
   "note": "proved by induction on the schedule for the sequential, random and Thompson evaluators, on spaces without bandits and on one bandit variable, if a location of zeros, where the domain has one, is in the initial data; false for that location, without de-duplication (the default), and for local penalization"
  },
  {
   "property": "C164",
   "status": "partial",
   "theorems": [
    "GPyOpt.Props.C164_unit_cube_partial",
    "GPyOpt.Props.C164_ranking",
    "GPyOpt.Props.C164_refused",
    "GPyOpt.Props.C164_default_bounds_counterexample"
   ],
   "note": "the indices are defined as variances of conditional means under product measures; proved for variables uniform on the unit interval, the ranking for every interval; false on the bounds (-4, 6) that the object has by default; coefficients that are not positive are a TypeError, not the message of the code"
  },
  {
   "property": "C165",
   "status": "partial",
   "theorems": [
    "GPyOpt.Props.C165_larger_batch_partial",
    "GPyOpt.Props.C165_sequential_first_partial",
    "GPyOpt.Props.C165_penalized_first_partial",
    "GPyOpt.Props.C165_batch_of_one_counterexample",
    "GPyOpt.Props.C165_origin_counterexample",
    "GPyOpt.Props.C165_penalized_counterexample"
   ],
   "note": "false with de-duplication for random batches of one location, where the suggestion is the origin, and for the first location of local penalization, which ignores de-duplication; proved otherwise for all spaces, also with bandit variables"
  },
  {
   "property": "C166",
   "status": "partial",
   "theorems": [
    "GPyOpt.Props.C166_design",
    "GPyOpt.Props.C166_suggestion_partial",
    "GPyOpt.Props.C166_run_partial",
    "GPyOpt.Props.C166_common_partial",
    "GPyOpt.Props.C166_stepwise_partial",
    "GPyOpt.Props.C166_evaluators_partial",
    "GPyOpt.Props.C166_numbers",
    "GPyOpt.Props.C166_lipschitz_draws",
    "GPyOpt.Props.C166_stepwise_counterexample",
    "GPyOpt.Props.C166_suggest_counterexample",
    "GPyOpt.Props.C166_thompson_counterexample"
   ],
   "note": "common numbers proved for all evaluators, for Thompson sampling without de-duplication (with it the count depends on the data); runs in parts proved for batches of one size (so for the sequential evaluator and local penalization, and without de-duplication for all) with fits that do not draw, and false where fits draw their restarts (default); a suggestion before a run changes the run"
  },
  {
   "property": "C167",
   "status": "partial",
   "theorems": [
    "GPyOpt.Props.C167_last_moment",
    "GPyOpt.Props.C167_interrupted",
    "GPyOpt.Props.C167_initial",
    "GPyOpt.Props.C167_prefix",
    "GPyOpt.Props.C167_results",
    "GPyOpt.Props.C167_suggest",
    "GPyOpt.Props.C167_resume_partial",
    "GPyOpt.Props.C167_resume_counterexample",
    "GPyOpt.Props.C167_processes",
    "GPyOpt.Props.C167_cost_counterexample"
   ],
   "note": "what is left is proved for every moment; continuing is proved where the user removes the locations without output, the model is refitted in every iteration and the cost is not the evaluation time; without the removal the data are shifted; an interrupt in the first update of the evaluation-time cost makes every later evaluation raise; with several processes the interrupt is swallowed"
  },
  {
   "property": "C168",
   "status": "partial",
   "theorems": [
    "GPyOpt.Props.C168_description",
    "GPyOpt.Props.C168_encodings",
    "GPyOpt.Props.C168_rounding",
    "GPyOpt.Props.C168_noTie",
    "GPyOpt.Props.C168_designs",
    "GPyOpt.Props.C168_draws",
    "GPyOpt.Props.C168_frequencies",
    "GPyOpt.Props.C168_suggestions_partial",
    "GPyOpt.Props.C168_runs_partial",
    "GPyOpt.Props.C168_tie_counterexample",
    "GPyOpt.Props.C168_weight_counterexample"
   ],
   "note": "half way between two values of a discrete variable rounding takes the one that is listed first, so suggestions and runs are equal when no result of a local optimizer is such a tie; a value listed twice is drawn twice as often"
  },
  {
   "property": "C169",
   "status": "partial",
   "theorems": [
    "GPyOpt.Props.C169_values",
    "GPyOpt.Props.C169_gradients_partial",
    "GPyOpt.Props.C169_underflow_counterexample",
    "GPyOpt.Props.C169_uninformative_counterexample",
    "GPyOpt.Props.C169_flat_counterexample",
    "GPyOpt.Props.C169_zero_counterexample",
    "GPyOpt.Props.C169_infeasible_counterexample",
    "GPyOpt.Props.C169_centre_counterexample"
   ],
   "note": "values and gradients are finite, and those of the real model of C62, for a lower confidence bound between -709 and 709, a positive improvement and locations that are not in the batch; a bound above 746 makes every value inf and every gradient nan, a bound below -710 every gradient zero; the gradient is nan at infeasible locations and infinite or nan at points of the batch"
  },
  {
   "property": "C170",
   "status": "partial",
   "theorems": [
    "GPyOpt.Props.C170_values",
    "GPyOpt.Props.C170_gradients",
    "GPyOpt.Props.C170_integrated_values",
    "GPyOpt.Props.C170_integrated_gradients",
    "GPyOpt.Props.C170_penalized_values",
    "GPyOpt.Props.C170_penalized_gradients_partial",
    "GPyOpt.Props.C170_penalized_gradients_counterexample",
    "GPyOpt.Props.C170_penalized_shape_counterexample",
    "GPyOpt.Props.C170_cost_counterexample"
   ],
   "note": "holds for all acquisitions except the gradient of local penalization, which is right for one location only: for as many locations as columns the scales are exchanged, otherwise the shapes do not fit; a user-defined cost must return one column, an array of one dimension gives an (n, n) acquisition"
  },
  {
   "property": "C171",
   "status": "partial",
   "theorems": [
    "GPyOpt.Props.C171_optimum",
    "GPyOpt.Props.C171_numbers",
    "GPyOpt.Props.C171_stats_counterexample",
    "GPyOpt.Props.C171_range_counterexample",
    "GPyOpt.Props.C171_times_partial",
    "GPyOpt.Props.C171_times_counterexample"
   ],
   "note": "the reported optimum is right; finite outputs give finite normalized outputs, but one inf turns every normalized output into -inf or nan (standard normalization) or into -1 or nan (range); a measured time of zero gives the cost model -inf"
  },
  {
   "property": "C172",
   "status": "proved",
   "theorems": [
    "GPyOpt.Props.C172_step",
    "GPyOpt.Props.C172_run",
    "GPyOpt.Props.C172_probability",
    "GPyOpt.Props.C172_jitter_counterexample"
   ],
   "note": "expected improvement with the incumbent of the model (smallest mean at the data); errors of the computed acquisition are a parameter; the last theorem shows that the jitter in the bound cannot be left out. Rounding of discrete variables breaks such bounds (C148_rounding_counterexample), so the variables are continuous"
  },
  {
   "property": "C173",
   "status": "partial",
   "theorems": [
    "GPyOpt.Props.C173_zero_counterexample",
    "GPyOpt.Props.C173_blind_counterexample",
    "GPyOpt.Props.C173_partial"
   ],
   "note": "false where the values underflow: zero values and gradients (first theorem), suggestions that do not depend on the model (second theorem, continuous variables). Up to 36 deviations above the target density, probability and improvement are numbers of full precision, so that C136 applies"
  },
  {
   "property": "C174",
   "status": "partial",
   "theorems": [
    "GPyOpt.Props.C174_encodings",
    "GPyOpt.Props.C174_designs_partial",
    "GPyOpt.Props.C174_draws",
    "GPyOpt.Props.C174_suggestions_partial",
    "GPyOpt.Props.C174_runs_partial",
    "GPyOpt.Props.C174_grid_counterexample",
    "GPyOpt.Props.C174_random_batch_counterexample"
   ],
   "note": "false for grid designs and for random batches with duplicate logic (counterexamples). Proved for the other designs and evaluators; for every source of random numbers of the larger problem there is a corresponding one of the smaller problem. Local optimizers are assumed to leave the fixed columns alone; no pending or ignored points"
  },
  {
   "property": "C175",
   "status": "partial",
   "theorems": [
    "GPyOpt.Props.C175_encodings_partial",
    "GPyOpt.Props.C175_rows",
    "GPyOpt.Props.C175_designs",
    "GPyOpt.Props.C175_draws",
    "GPyOpt.Props.C175_suggestions_partial",
    "GPyOpt.Props.C175_runs_partial",
    "GPyOpt.Props.C175_tie_counterexample",
    "GPyOpt.Props.C175_stop_counterexample",
    "GPyOpt.Props.C175_random_batch_counterexample"
   ],
   "note": "false for ties between columns, for random batches with duplicate logic and for eps of 1 or more (counterexamples). Proved for all designs, for all evaluators without duplicate logic, for sequential and local penalization with it, and for runs with eps below 1; local optimizers return rows in which one column of every category is the greatest; no pending or ignored points, no context"
  },
  {
   "property": "C176",
   "status": "proved",
   "theorems": [
    "GPyOpt.Props.C176_step",
    "GPyOpt.Props.C176_run",
    "GPyOpt.Props.C176_probability",
    "GPyOpt.Props.C176_no_jitter_counterexample",
    "GPyOpt.Props.C176_jitter_counterexample"
   ],
   "note": "probability of improvement with the incumbent of the model (smallest mean at the data); errors eta of the computed acquisition turn 2*w into w+w' with 2*eta < Phi(-w)-Phi(-w'); the last two theorems show that the jitter is needed and that nothing is said below it. Continuous variables only, as in C148 and C172"
  },
  {
   "property": "C177",
   "status": "proved",
   "theorems": [
    "GPyOpt.Props.C177_data",
    "GPyOpt.Props.C177_optimum",
    "GPyOpt.Props.C177_search",
    "GPyOpt.Props.C177_sharp_counterexample"
   ],
   "note": "the objective is a function of the number of the call and the location, so the noise may depend on everything; C177_data holds for every relation between locations and outputs. C177_search has the restrictions of C148: continuous variables, suggestions one at a time"
  },
  {
   "property": "C178",
   "status": "proved",
   "theorems": [
    "GPyOpt.Props.C178_step",
    "GPyOpt.Props.C178_feasible",
    "GPyOpt.Props.C178_search",
    "GPyOpt.Props.C178_positive_counterexample",
    "GPyOpt.Props.C178_rounding_counterexample"
   ],
   "note": "the statement says where it ends: C178_positive_counterexample is a run with LCB, a positive objective and no normalization that evaluates and reports an infeasible location. Exact arithmetic: an acquisition that underflows to zero (C173) is not positive. Continuous variables, suggestions one at a time; with a context the design filters by the constraints of other columns (C75), so feasible samples are assumed there"
  },
  {
   "property": "C179",
   "status": "proved",
   "theorems": [
    "GPyOpt.Props.C179_step",
    "GPyOpt.Props.C179_run",
    "GPyOpt.Props.C179_dropped_counterexample"
   ],
   "note": "contains C177_search (sequential evaluator). Thompson batches are not covered: their anchor points are chosen by a draw of the model, not by the acquisition. Continuous variables without constraints; with de-duplication and the random evaluator zero is not a location of the domain, C179_dropped_counterexample shows why"
  },
  {
   "property": "C180",
   "status": "proved",
   "theorems": [
    "GPyOpt.Props.C180_batch",
    "GPyOpt.Props.C180_run",
    "GPyOpt.Props.C180_penalized_counterexample"
   ],
   "note": "contains C178_feasible (sequential evaluator). For Thompson sampling the acquisition has to be defined in the whole domain. The negation for local penalization is about the real-valued model of LP.py; it gives a model, Lipschitz constant and minimum for which every feasible location is worse than a given infeasible one"
  },
  {
   "property": "C181",
   "status": "proved",
   "theorems": [
    "GPyOpt.Props.C181_run",
    "GPyOpt.Props.C181_zero_counterexample"
   ],
   "note": "C172_run with constraints, and without context and costs. Contains no assumption about the model outside the feasible set. The acquisition is a positive rational number within eta of expected improvement"
  },
  {
   "property": "C182",
   "status": "proved",
   "theorems": [
    "GPyOpt.Props.C182_run"
   ],
   "note": "C176_run with constraints, and without context and costs. Contains no assumption about the model outside the feasible set. The acquisition is a positive rational number within eta of the probability of improvement; C181_zero_counterexample shows that positivity is needed, for any acquisition"
  },
  {
   "property": "C183",
   "status": "proved",
   "theorems": [
    "GPyOpt.Props.C183_ei_run",
    "GPyOpt.Props.C183_mpi_run",
    "GPyOpt.Props.C183_penalized"
   ],
   "note": "C172_run and C176_run for batches, without constraints and costs. hzero is needed for random batches with de-duplication: C179_dropped_counterexample shows the location zero being dropped. Thompson batches are not covered: their first location is the best sample of the Thompson acquisition"
  },
  {
   "property": "C184",
   "status": "proved",
   "theorems": [
    "GPyOpt.Props.C184_transformed",
    "GPyOpt.Props.C184_first",
    "GPyOpt.Props.C184_run"
   ],
   "note": "C184_transformed is about exact real numbers; C184_first and C184_run assume that the computed values separate feasible locations from others (separates_of_near: errors below half of the least difference). Further locations: C180_penalized_counterexample. Ties, as by an acquisition that is rounded to zero: C181_zero_counterexample"
  },
  {
   "property": "C185",
   "status": "proved",
   "theorems": [
    "GPyOpt.Props.C185_run",
    "GPyOpt.Props.C185_costs_counterexample"
   ],
   "note": "C183_ei_run with costs, without constraints. The cost of a location is a real number between lo > 0 and hi, the acquisition is ordered as the expected improvement per cost up to 2 eta"
  },
  {
   "property": "C186",
   "status": "proved",
   "theorems": [
    "GPyOpt.Props.C186_run",
    "GPyOpt.Props.C186_costs_counterexample"
   ],
   "note": "C183_mpi_run with costs, without constraints. The cost of a location is a real number between lo > 0 and hi, the acquisition is ordered as the probability of improvement per cost up to 2 eta; such a w' exists whenever the error is below the probability per cost at -w (tendsto_ncdf_atBot)"
  },
  {
   "property": "C187",
   "status": "proved",
   "theorems": [
    "GPyOpt.Props.C187_ei_run",
    "GPyOpt.Props.C187_mpi_run"
   ],
   "note": "C183 with constraints and no context. The acquisition orders the feasible locations as EI or MPI up to 2 eta, and separates them from the others (separates_plain, separates_of_near); the intervals contain the objective in the whole domain because the remaining locations of a batch need not be feasible, and the best value is over all evaluated locations"
  },
  {
   "property": "C188",
   "status": "proved",
   "theorems": [
    "GPyOpt.Props.C188_run"
   ],
   "note": "C183_ei_run for EI_MCMC, without constraints and costs. All samples of the hyper-parameters have intervals containing the objective and share the standardization, and the acquisition is ordered as eiMcmcValue up to 2 eta"
  }
 ]
}