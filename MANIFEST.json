{
 "claims": [
  {
   "property": "C01",
   "status": "proved",
   "theorems": [
    "Extensisq.C01_never_past_t_bound",
    "Extensisq.C01_never_past_t_bound_default",
    "Extensisq.C01_counterexample_without_proviso",
    "Extensisq.C01_counterexample_large_safety"
   ],
   "note": ""
  },
  {
   "property": "C02",
   "status": "proved",
   "theorems": [
    "Extensisq.C02_direction",
    "Extensisq.C02_strict_advance",
    "Extensisq.C02_monotone_history"
   ],
   "note": ""
  },
  {
   "property": "C03",
   "status": "proved",
   "theorems": [
    "Extensisq.C03_max_step"
   ],
   "note": ""
  },
  {
   "property": "C04",
   "status": "proved",
   "theorems": [
    "Extensisq.C04_final",
    "Extensisq.C04_finished_on_t_bound"
   ],
   "note": ""
  },
  {
   "property": "C05",
   "status": "proved",
   "theorems": [
    "Extensisq.C05_preliminary_estimate",
    "Extensisq.C05_accepted_error_below_one",
    "Extensisq.C05_failed_step_keeps_solution",
    "Extensisq.C05_nonfinite_fails",
    "Extensisq.C05_successful_step_is_rk_step"
   ],
   "note": ""
  },
  {
   "property": "C06",
   "status": "proved",
   "theorems": [
    "Extensisq.C06_step_returns_within",
    "Extensisq.C06_step_returns",
    "Extensisq.C06_diverges_with_g_one"
   ],
   "note": ""
  },
  {
   "property": "C07",
   "status": "proved",
   "theorems": [
    "Extensisq.C07_growth_limits",
    "Extensisq.C07_max_factor_values",
    "Extensisq.C07_standard_controller_unlimited"
   ],
   "note": ""
  },
  {
   "property": "C08",
   "status": "proved",
   "theorems": [
    "Extensisq.C08_evaluations_success",
    "Extensisq.C08_evaluations_failure",
    "Extensisq.C08_evaluations_history"
   ],
   "note": ""
  },
  {
   "property": "C09",
   "status": "proved",
   "theorems": [
    "Extensisq.C09_nystrom",
    "Extensisq.C09_counter_one_step",
    "Extensisq.C09_counter_counts_rejections",
    "Extensisq.C09_methods"
   ],
   "note": ""
  },
  {
   "property": "C10",
   "status": "proved",
   "theorems": [
    "Extensisq.C10_stored_derivative_current"
   ],
   "note": ""
  },
  {
   "property": "C11",
   "status": "proved",
   "theorems": [
    "Extensisq.C11_raises_iff",
    "Extensisq.C11_error_order",
    "Extensisq.C11_bounds"
   ],
   "note": ""
  },
  {
   "property": "C12",
   "status": "proved",
   "theorems": [
    "Extensisq.C12_scale",
    "Extensisq.C12_norm",
    "Extensisq.C12_acceptance",
    "Extensisq.C12_monotone_tol"
   ],
   "note": ""
  },
  {
   "property": "C13",
   "status": "proved",
   "theorems": [
    "Extensisq.C13_predefined_values",
    "Extensisq.C13_accepted_iff",
    "Extensisq.C13_names",
    "Extensisq.C13_documented_names_rejected",
    "Extensisq.C13_values",
    "Extensisq.C13_predefined_safety"
   ],
   "note": ""
  },
  {
   "property": "C14",
   "status": "proved",
   "theorems": [
    "Extensisq.C14_range",
    "Extensisq.C14_lower_bound",
    "Extensisq.C14_stage_times",
    "Extensisq.C14_shipped_not_clipped"
   ],
   "note": ""
  },
  {
   "property": "C15",
   "status": "proved",
   "theorems": [
    "Extensisq.C15_lipschitz_estimate",
    "Extensisq.C15_not_too_small",
    "Extensisq.C15_time_derivative",
    "Extensisq.C15_tolerance_parameter",
    "Extensisq.C15_sampling_point",
    "Extensisq.C15_evaluations",
    "Extensisq.C15_given_time_derivative",
    "Extensisq.C15_first_step_usable",
    "Extensisq.C15_no_evaluations_with_jacobian",
    "Extensisq.C15_infinite_sample_point"
   ],
   "note": ""
  },
  {
   "property": "C16",
   "status": "proved",
   "theorems": [
    "Extensisq.C16_dense_output",
    "Extensisq.C16_linear_invariant_conserved"
   ],
   "note": ""
  },
  {
   "property": "C17",
   "status": "proved",
   "theorems": [
    "Extensisq.C17_runs",
    "Extensisq.C17_step_mirror",
    "Extensisq.C17_time_reversal"
   ],
   "note": ""
  },
  {
   "property": "C18",
   "status": "proved",
   "theorems": [
    "Extensisq.C18_linear_change_of_variables"
   ],
   "note": ""
  },
  {
   "property": "C19",
   "status": "proved",
   "theorems": [
    "Extensisq.C19_time_as_state"
   ],
   "note": ""
  },
  {
   "property": "C20",
   "status": "proved",
   "theorems": [
    "Extensisq.C20_quadrature_exact",
    "Extensisq.C20_error_zero"
   ],
   "note": ""
  },
  {
   "property": "C21",
   "status": "proved",
   "theorems": [
    "Extensisq.C21_linear_taylor"
   ],
   "note": ""
  },
  {
   "property": "C22",
   "status": "proved",
   "theorems": [
    "Extensisq.C22_BS5_preliminary_scale",
    "Extensisq.C22_main_order",
    "Extensisq.C22_embedded_order",
    "Extensisq.C22_error_order",
    "Extensisq.C22_error_order_sharp",
    "Extensisq.C22_BS5_preliminary",
    "Extensisq.C22_CFMR7osc_preliminary"
   ],
   "note": ""
  },
  {
   "property": "C23",
   "status": "proved",
   "theorems": [
    "Extensisq.C23_horner_polynomial",
    "Extensisq.C23_horner_start",
    "Extensisq.C23_horner_end",
    "Extensisq.C23_horner_end_solution"
   ],
   "note": ""
  },
  {
   "property": "C24",
   "status": "proved",
   "theorems": [
    "Extensisq.C24_cubic_ends",
    "Extensisq.C24_cubic_exact",
    "Extensisq.C24_cubic_derivatives"
   ],
   "note": ""
  },
  {
   "property": "C25",
   "status": "proved",
   "theorems": [
    "Extensisq.C25_quintic_eq_old",
    "Extensisq.C25_quintic_ends",
    "Extensisq.C25_quintic_exact",
    "Extensisq.C25_quintic_velocity_is_derivative",
    "Extensisq.C25_quintic_acceleration"
   ],
   "note": ""
  },
  {
   "property": "C26",
   "status": "proved",
   "theorems": [
    "Extensisq.C26_nystrom_polynomial",
    "Extensisq.C26_nystrom_start",
    "Extensisq.C26_nystrom_end",
    "Extensisq.C26_nystrom_velocity_is_derivative"
   ],
   "note": ""
  },
  {
   "property": "C27",
   "status": "proved",
   "theorems": [
    "Extensisq.C27_dense_output_C1",
    "Extensisq.C27_cubic_C1",
    "Extensisq.C27_BS5_C1",
    "Extensisq.C27_decimal_defect",
    "Extensisq.C27_pieces_join"
   ],
   "note": ""
  },
  {
   "property": "C28",
   "status": "proved",
   "theorems": [
    "Extensisq.C28_dense_output_effect",
    "Extensisq.C28_dense_output_harmless"
   ],
   "note": ""
  },
  {
   "property": "C29",
   "status": "proved",
   "theorems": [
    "Extensisq.C29_quadratic_roots"
   ],
   "note": ""
  },
  {
   "property": "C30",
   "status": "proved",
   "theorems": [
    "Extensisq.C30_stiffness_detection_harmless",
    "Extensisq.C30_disabled"
   ],
   "note": ""
  },
  {
   "property": "C31",
   "status": "proved",
   "theorems": [
    "Extensisq.C31_counters",
    "Extensisq.C31_average_step",
    "Extensisq.C31_test_frequency",
    "Extensisq.C31_small_interval_never_succeeds",
    "Extensisq.C31_no_zero_division",
    "Extensisq.C31_raises_when_step_would_succeed"
   ],
   "note": ""
  },
  {
   "property": "C32",
   "status": "proved",
   "theorems": [
    "Extensisq.C32_factors_in_range",
    "Extensisq.C32_twiddle_never_grows",
    "Extensisq.C32_quit_changes_slowly",
    "Extensisq.C32_retry_shrinks",
    "Extensisq.C32_step_returns_within",
    "Extensisq.C32_step_returns"
   ],
   "note": ""
  },
  {
   "property": "C33",
   "status": "proved",
   "theorems": [
    "Extensisq.C33_accepted_solution",
    "Extensisq.C33_strict_advance",
    "Extensisq.C33_never_past_t_bound",
    "Extensisq.C33_max_step",
    "Extensisq.C33_failed_step_keeps_solution",
    "Extensisq.C33_cost",
    "Extensisq.C33_nan_is_too_small"
   ],
   "note": ""
  },
  {
   "property": "C34",
   "status": "proved",
   "theorems": [
    "Extensisq.C34_never_past_t_bound",
    "Extensisq.C34_strict_advance",
    "Extensisq.C34_max_step",
    "Extensisq.C34_finished_on_t_bound",
    "Extensisq.C34_failed_step_keeps_solution"
   ],
   "note": ""
  },
  {
   "property": "C35",
   "status": "proved",
   "theorems": [
    "Extensisq.C35_step_returns_within",
    "Extensisq.C35_step_returns",
    "Extensisq.C35_jacobian_evaluations"
   ],
   "note": ""
  },
  {
   "property": "C36",
   "status": "proved",
   "theorems": [
    "Extensisq.C36_linear_mode",
    "Extensisq.C36_linear_exact",
    "Extensisq.C36_linear_constraints"
   ],
   "note": ""
  },
  {
   "property": "C37",
   "status": "proved",
   "theorems": [
    "Extensisq.C37_factors_current",
    "Extensisq.C37_current_flag"
   ],
   "note": ""
  },
  {
   "property": "C38",
   "status": "proved",
   "theorems": [
    "Extensisq.C38_solution",
    "Extensisq.C38_stage_equations",
    "Extensisq.C38_constraints"
   ],
   "note": ""
  },
  {
   "property": "C39",
   "status": "proved",
   "theorems": [
    "Extensisq.C39_gives_up",
    "Extensisq.C39_start_consistent",
    "Extensisq.C39_rate",
    "Extensisq.C39_newton_contract",
    "Extensisq.C39_nonfinite_rejected"
   ],
   "note": ""
  },
  {
   "property": "C40",
   "status": "proved",
   "theorems": [
    "Extensisq.C40_linear_invariants"
   ],
   "note": ""
  },
  {
   "property": "C41",
   "status": "proved",
   "theorems": [
    "Extensisq.C41_A_stable",
    "Extensisq.C41_L_stable",
    "Extensisq.C41_Kv3I_limit",
    "Extensisq.C41_TRX2_limit",
    "Extensisq.C41_TRX2_imaginary",
    "Extensisq.C41_linear_mode",
    "Extensisq.C41_histories",
    "Extensisq.C41_test_equation"
   ],
   "note": ""
  },
  {
   "property": "C42",
   "status": "proved",
   "theorems": [
    "Extensisq.C42_stages_match_step",
    "Extensisq.C42_choice",
    "Extensisq.C42_negative_rho_jac"
   ],
   "note": ""
  },
  {
   "property": "C43",
   "status": "proved",
   "theorems": [
    "Extensisq.C43_never_past_t_bound",
    "Extensisq.C43_accepted",
    "Extensisq.C43_finished_on_t_bound",
    "Extensisq.C43_failed_step_keeps_solution",
    "Extensisq.C43_no_exception",
    "Extensisq.C43_retry_shrinks",
    "Extensisq.C43_step_limit",
    "Extensisq.C43_next_step",
    "Extensisq.C43_step_returns",
    "Extensisq.C43_rejections_counted",
    "Extensisq.C43_exceeds_max_step",
    "Extensisq.C43_first_step_not_limited",
    "Extensisq.C43_initial_step_wrong_side"
   ],
   "note": ""
  },
  {
   "property": "C44",
   "status": "proved",
   "theorems": [
    "Extensisq.C44_linear_functional",
    "Extensisq.C44_constant",
    "Extensisq.C44_linear_invariant",
    "Extensisq.C44_equilibrium",
    "Extensisq.C44_stage_times",
    "Extensisq.C44_stage_values_match_times"
   ],
   "note": ""
  },
  {
   "property": "C45",
   "status": "proved",
   "theorems": [
    "Extensisq.C45_order_bounds",
    "Extensisq.C45_order_changes",
    "Extensisq.C45_indices",
    "Extensisq.C45_indices_dense"
   ],
   "note": ""
  },
  {
   "property": "C46",
   "status": "proved",
   "theorems": [
    "Extensisq.C46_distinct_times",
    "Extensisq.C46_retry_halves",
    "Extensisq.C46_bounds",
    "Extensisq.C46_progress",
    "Extensisq.C46_progress_finite",
    "Extensisq.C46_returns",
    "Extensisq.C46_hangs_at_zero",
    "Extensisq.C46_stuck",
    "Extensisq.C46_stuck_witness"
   ],
   "note": ""
  },
  {
   "property": "C47",
   "status": "proved",
   "theorems": [
    "Extensisq.C47_restored",
    "Extensisq.C47_reads"
   ],
   "note": ""
  },
  {
   "property": "C48",
   "status": "proved",
   "theorems": [
    "Extensisq.C48_polynomial",
    "Extensisq.C48_ends",
    "Extensisq.C48_slopes",
    "Extensisq.C48_extrapolated"
   ],
   "note": ""
  },
  {
   "property": "C49",
   "status": "proved",
   "theorems": [
    "Extensisq.C49_packing",
    "Extensisq.C49_unpacking",
    "Extensisq.C49_inverse",
    "Extensisq.C49_equations",
    "Extensisq.C49_decoupled",
    "Extensisq.C49_tolerances"
   ],
   "note": ""
  },
  {
   "property": "C50",
   "status": "proved",
   "theorems": [
    "Extensisq.C50_sparsity_sound",
    "Extensisq.C50_sparsity_sharp",
    "Extensisq.C50_approx_jac"
   ],
   "note": ""
  },
  {
   "property": "C51",
   "status": "proved",
   "theorems": [
    "Extensisq.C51_adjoint_equals_forward",
    "Extensisq.C51_adjoint_is_derivative"
   ],
   "note": ""
  },
  {
   "property": "C52",
   "status": "proved",
   "theorems": [
    "Extensisq.C52_adjoint_equals_forward",
    "Extensisq.C52_adjoint_is_derivative"
   ],
   "note": ""
  },
  {
   "property": "C53",
   "status": "proved",
   "theorems": [
    "Extensisq.C53_coefficients",
    "Extensisq.C53_estimate",
    "Extensisq.C53_step_unaffected",
    "Extensisq.C53_every_step_eventually_accepted",
    "Extensisq.C53_independent_without_scaling",
    "Extensisq.C53_witness"
   ],
   "note": ""
  },
  {
   "property": "C54",
   "status": "proved",
   "theorems": [
    "Extensisq.C54_Fi5N_ignores_argument",
    "Extensisq.C54_others_use_argument",
    "Extensisq.C54_Fi5N_differs"
   ],
   "note": ""
  },
  {
   "property": "C55",
   "status": "proved",
   "theorems": [
    "Extensisq.C55_stored_acceleration_current",
    "Extensisq.C55_successful_step_is_nystrom_step",
    "Extensisq.C55_uniform_motion",
    "Extensisq.C55_uniform_motion_history",
    "Extensisq.C55_nystrom_step_is_rk_step",
    "Extensisq.C55_constructor_requires",
    "Extensisq.C55_constructor_accepts",
    "Extensisq.C55_odd_rejected",
    "Extensisq.C55_check_is_local",
    "Extensisq.C55_equal_halves_detected",
    "Extensisq.C55_tables_shape",
    "Extensisq.C55_free_fall"
   ],
   "note": ""
  },
  {
   "property": "C56",
   "status": "proved",
   "theorems": [
    "Extensisq.C56_values",
    "Extensisq.C56_derivatives",
    "Extensisq.C56_joins"
   ],
   "note": ""
  },
  {
   "property": "C57",
   "status": "proved",
   "theorems": [
    "Extensisq.C57_history_attributes",
    "Extensisq.C57_controller_data_defined"
   ],
   "note": ""
  },
  {
   "property": "C58",
   "status": "proved",
   "theorems": [
    "Extensisq.C58_step_size_positive",
    "Extensisq.C58_spurious_failure",
    "Extensisq.C58_counterexample_tiny_error"
   ],
   "note": ""
  },
  {
   "property": "C59",
   "status": "proved",
   "theorems": [
    "Extensisq.C59_local_error_order",
    "Extensisq.C59_attempt"
   ],
   "note": ""
  },
  {
   "property": "C60",
   "status": "proved",
   "theorems": [
    "Extensisq.C60_dense_accuracy",
    "Extensisq.C60_BS5_dense_accuracy"
   ],
   "note": ""
  },
  {
   "property": "C61",
   "status": "proved",
   "theorems": [
    "Extensisq.C61_cubic_after_failure",
    "Extensisq.C61_interpolant_after_failure"
   ],
   "note": ""
  },
  {
   "property": "C62",
   "status": "proved",
   "theorems": [
    "Extensisq.C62_cost",
    "Extensisq.C62_free_answer",
    "Extensisq.C62_iterates",
    "Extensisq.C62_exact_cost",
    "Extensisq.C62_no_division_by_zero",
    "Extensisq.C62_first_try_witness"
   ],
   "note": ""
  },
  {
   "property": "C63",
   "status": "proved",
   "theorems": [
    "Extensisq.C63_reported_roots",
    "Extensisq.C63_reported_stiff",
    "Extensisq.C63_exact_quadratic"
   ],
   "note": ""
  },
  {
   "property": "C64",
   "status": "proved",
   "theorems": [
    "Extensisq.C64_no_exception",
    "Extensisq.C64_step_size_limits"
   ],
   "note": ""
  },
  {
   "property": "C65",
   "status": "proved",
   "theorems": [
    "Extensisq.C65_forward_parts",
    "Extensisq.C65_sensitivity_is_derivative",
    "Extensisq.C65_sens_forward"
   ],
   "note": ""
  },
  {
   "property": "C66",
   "status": "proved",
   "theorems": [
    "Extensisq.C66_jac_end",
    "Extensisq.C66_jac_int"
   ],
   "note": ""
  },
  {
   "property": "C67",
   "status": "proved",
   "theorems": [
    "Extensisq.C67_age",
    "Extensisq.C67_retry_fresh",
    "Extensisq.C67_const_jac_once"
   ],
   "note": ""
  },
  {
   "property": "C68",
   "status": "proved",
   "theorems": [
    "Extensisq.C68_evaluations",
    "Extensisq.C68_never_much_too_large",
    "Extensisq.C68_nonneg",
    "Extensisq.C68_invariant_subspace",
    "Extensisq.C68_scalar_jacobian",
    "Extensisq.C68_eigenvector_start",
    "Extensisq.C68_first_evaluation_at_origin",
    "Extensisq.C68_first_evaluation_close",
    "Extensisq.C68_next_evaluation_close",
    "Extensisq.C68_flip_leaves_neighbourhood"
   ],
   "note": ""
  },
  {
   "property": "C69",
   "status": "proved",
   "theorems": [
    "Extensisq.C69_test_equation",
    "Extensisq.C69_contractive",
    "Extensisq.C69_solver_never_diverges"
   ],
   "note": ""
  },
  {
   "property": "C70",
   "status": "proved",
   "theorems": [
    "Extensisq.C70_local_error"
   ],
   "note": ""
  },
  {
   "property": "C71",
   "status": "proved",
   "theorems": [
    "Extensisq.C71_main_order",
    "Extensisq.C71_error_order",
    "Extensisq.C71_local_error_order",
    "Extensisq.C71_attempt"
   ],
   "note": ""
  },
  {
   "property": "C72",
   "status": "proved",
   "theorems": [
    "Extensisq.C72_options",
    "Extensisq.C72_start",
    "Extensisq.C72_end",
    "Extensisq.C72_interpolant1_replaces_position",
    "Extensisq.C72_other_interpolants_keep_state",
    "Extensisq.C72_velocity_is_derivative",
    "Extensisq.C72_end_accelerations",
    "Extensisq.C72_dense_accuracy",
    "Extensisq.C72_quintic_ends",
    "Extensisq.C72_interpolant1_changes_solution"
   ],
   "note": ""
  },
  {
   "property": "C73",
   "status": "proved",
   "theorems": [
    "Extensisq.C73_step_law",
    "Extensisq.C73_second_order",
    "Extensisq.C73_first_step",
    "Extensisq.C73_standard_aims_at_safety",
    "Extensisq.C73_set_point"
   ],
   "note": ""
  },
  {
   "property": "C74",
   "status": "proved",
   "theorems": [
    "Extensisq.C74_fallback_accuracy",
    "Extensisq.C74_fifth_order_accuracy"
   ],
   "note": ""
  },
  {
   "property": "C75",
   "status": "proved",
   "theorems": [
    "Extensisq.C75_dense_output_C1",
    "Extensisq.C75_dense_accuracy"
   ],
   "note": ""
  },
  {
   "property": "C76",
   "status": "proved",
   "theorems": [
    "Extensisq.C76_ends",
    "Extensisq.C76_slopes",
    "Extensisq.C76_tables_ends",
    "Extensisq.C76_tables_slopes",
    "Extensisq.C76_default_not_smooth",
    "Extensisq.C76_values",
    "Extensisq.C76_C1",
    "Extensisq.C76_KC3I_exact"
   ],
   "note": ""
  },
  {
   "property": "C77",
   "status": "proved",
   "theorems": [
    "Extensisq.C77_history",
    "Extensisq.C77_adams",
    "Extensisq.C77_polynomials_exist"
   ],
   "note": ""
  },
  {
   "property": "C78",
   "status": "proved",
   "theorems": [
    "Extensisq.C78_filtered",
    "Extensisq.C78_step_law",
    "Extensisq.C78_first_step",
    "Extensisq.C78_second_order"
   ],
   "note": ""
  },
  {
   "property": "C79",
   "status": "proved",
   "theorems": [
    "Extensisq.C79_counters",
    "Extensisq.C79_attempts",
    "Extensisq.C79_attempt_work",
    "Extensisq.C79_kept"
   ],
   "note": ""
  },
  {
   "property": "C80",
   "status": "proved",
   "theorems": [
    "Extensisq.C80_counters",
    "Extensisq.C80_maxm",
    "Extensisq.C80_power_method_calls"
   ],
   "note": ""
  },
  {
   "property": "C81",
   "status": "proved",
   "theorems": [
    "Extensisq.C81_attempts",
    "Extensisq.C81_first_step",
    "Extensisq.C81_next_step",
    "Extensisq.C81_aims_at_tolerance"
   ],
   "note": ""
  },
  {
   "property": "C82",
   "status": "proved",
   "theorems": [
    "Extensisq.C82_step",
    "Extensisq.C82_gstr",
    "Extensisq.C82_attempt"
   ],
   "note": ""
  },
  {
   "property": "C83",
   "status": "proved",
   "theorems": [
    "Extensisq.C83_selection",
    "Extensisq.C83_constant"
   ],
   "note": ""
  },
  {
   "property": "C84",
   "status": "proved",
   "theorems": [
    "Extensisq.C84_first_size",
    "Extensisq.C84_success",
    "Extensisq.C84_failure",
    "Extensisq.C84_decides",
    "Extensisq.C84_retry",
    "Extensisq.C84_start",
    "Extensisq.C84_warnings",
    "Extensisq.C84_no_warning"
   ],
   "note": ""
  },
  {
   "property": "C85",
   "status": "proved",
   "theorems": [
    "Extensisq.C85_main_order",
    "Extensisq.C85_embedded_order",
    "Extensisq.C85_error_order",
    "Extensisq.C85_KC4Ia_order",
    "Extensisq.C85_KC_error",
    "Extensisq.C85_sharp",
    "Extensisq.C85_local_error",
    "Extensisq.C85_estimate",
    "Extensisq.C85_filter",
    "Extensisq.C85_rounded",
    "Extensisq.C85_stages_exist",
    "Extensisq.C85_linear_mode"
   ],
   "note": ""
  },
  {
   "property": "C86",
   "status": "proved",
   "theorems": [
    "Extensisq.C86_main_order",
    "Extensisq.C86_error_order",
    "Extensisq.C86_interpolant_order",
    "Extensisq.C86_sharp",
    "Extensisq.C86_local_error",
    "Extensisq.C86_Ts5"
   ],
   "note": ""
  },
  {
   "property": "C87",
   "status": "proved",
   "theorems": [
    "Extensisq.C87_BS5_dense_error",
    "Extensisq.C87_global_error",
    "Extensisq.C87_max_step_error",
    "Extensisq.C87_dense_error"
   ],
   "note": ""
  },
  {
   "property": "C88",
   "status": "proved",
   "theorems": [
    "Extensisq.C88_root_jacobian",
    "Extensisq.C88_consistent_values",
    "Extensisq.C88_consistent_derivative",
    "Extensisq.C88_derivative_solves",
    "Extensisq.C88_index_test",
    "Extensisq.C88_failures",
    "Extensisq.C88_reduced_jacobian",
    "Extensisq.C88_time_derivative",
    "Extensisq.C88_ode_derivative",
    "Extensisq.C88_true_derivative",
    "Extensisq.C88_algebraic_slice",
    "Extensisq.C88_dae_detection",
    "Extensisq.C88_zero_mass_matrix",
    "Extensisq.C88_array_atol",
    "Extensisq.C88_example",
    "Extensisq.C88_wrong_jacobian"
   ],
   "note": ""
  },
  {
   "property": "C89",
   "status": "proved",
   "theorems": [
    "Extensisq.C89_progress",
    "Extensisq.C89_progress_esdirk",
    "Extensisq.C89_attempt_not_small",
    "Extensisq.C89_run",
    "Extensisq.C89_stage_times",
    "Extensisq.C89_shipped_nodes",
    "Extensisq.C89_agrees_with_driver",
    "Extensisq.C89_agrees_with_esdirk"
   ],
   "note": ""
  },
  {
   "property": "C90",
   "status": "proved",
   "theorems": [
    "Extensisq.C90_no_overshoot",
    "Extensisq.C90_no_overshoot_esdirk",
    "Extensisq.C90_landing",
    "Extensisq.C90_landing_esdirk",
    "Extensisq.C90_exact_cases",
    "Extensisq.C90_short_fails",
    "Extensisq.C90_short_fails_esdirk",
    "Extensisq.C90_short_example",
    "Extensisq.C90_short_example_esdirk"
   ],
   "note": ""
  },
  {
   "property": "C91",
   "status": "proved",
   "theorems": [
    "Extensisq.C91_function_accepted_iff",
    "Extensisq.C91_forward_accepted_iff",
    "Extensisq.C91_adjoint_accepted_iff",
    "Extensisq.C91_unnamed",
    "Extensisq.C91_named_errors",
    "Extensisq.C91_list_atol_example",
    "Extensisq.C91_scalar_g_example",
    "Extensisq.C91_forward_errors"
   ],
   "note": ""
  },
  {
   "property": "C92",
   "status": "proved",
   "theorems": [
    "Extensisq.C92_lost_after_failure",
    "Extensisq.C92_dense_C1",
    "Extensisq.C92_pieces_join",
    "Extensisq.C92_dense_accuracy"
   ],
   "note": ""
  },
  {
   "property": "C93",
   "status": "proved",
   "theorems": [
    "Extensisq.C93_global_error",
    "Extensisq.C93_max_step_error"
   ],
   "note": ""
  },
  {
   "property": "C94",
   "status": "proved",
   "theorems": [
    "Extensisq.C94_possible",
    "Extensisq.C94_rk_stiff_warning",
    "Extensisq.C94_rk_oscillation_warning",
    "Extensisq.C94_rk_messages",
    "Extensisq.C94_rk_stiff_warns",
    "Extensisq.C94_ny_real_warning",
    "Extensisq.C94_ny_complex_warning",
    "Extensisq.C94_ny_oscillation_warning",
    "Extensisq.C94_ny_unexpected",
    "Extensisq.C94_ny_messages",
    "Extensisq.C94_no_roots_witness",
    "Extensisq.C94_ny_unexpected_witness"
   ],
   "note": ""
  },
  {
   "property": "C95",
   "status": "proved",
   "theorems": [
    "Extensisq.C95_global_error",
    "Extensisq.C95_max_step_error",
    "Extensisq.C95_dense_error"
   ],
   "note": ""
  },
  {
   "property": "C96",
   "status": "proved",
   "theorems": [
    "Extensisq.C96_accepted_iff",
    "Extensisq.C96_exceptions",
    "Extensisq.C96_ready",
    "Extensisq.C96_first_step",
    "Extensisq.C96_h_start_end",
    "Extensisq.C96_h_start_end_reached",
    "Extensisq.C96_constants",
    "Extensisq.C96_run_inside",
    "Extensisq.C96_stiffness_argument",
    "Extensisq.C96_CKdisc",
    "Extensisq.C96_nystrom_accepted_iff",
    "Extensisq.C96_nystrom_ready",
    "Extensisq.C96_first_step_positive",
    "Extensisq.C96_shipped",
    "Extensisq.C96_direction",
    "Extensisq.C96_defaults"
   ],
   "note": ""
  },
  {
   "property": "C97",
   "status": "proved",
   "theorems": [
    "Extensisq.C97_accepted_iff",
    "Extensisq.C97_jacobian_mode",
    "Extensisq.C97_mass_matrix",
    "Extensisq.C97_mass_forms",
    "Extensisq.C97_ready",
    "Extensisq.C97_constants",
    "Extensisq.C97_run_inside",
    "Extensisq.C97_h_start_end"
   ],
   "note": ""
  },
  {
   "property": "C98",
   "status": "proved",
   "theorems": [
    "Extensisq.C98_cheb_accepted_iff",
    "Extensisq.C98_cheb_ready",
    "Extensisq.C98_cheb_mmax",
    "Extensisq.C98_cheb_hmin",
    "Extensisq.C98_cheb_minus_infinity",
    "Extensisq.C98_swag_accepted_iff",
    "Extensisq.C98_swag_ready",
    "Extensisq.C98_swag_h_start_end"
   ],
   "note": ""
  },
  {
   "property": "C99",
   "status": "proved",
   "theorems": [
    "Extensisq.C99_any_tableau",
    "Extensisq.C99_row_sums",
    "Extensisq.C99_weights",
    "Extensisq.C99_global_error",
    "Extensisq.C99_floor",
    "Extensisq.C99_max_step_error",
    "Extensisq.C99_dense_error"
   ],
   "note": ""
  },
  {
   "property": "C100",
   "status": "proved",
   "theorems": [
    "Extensisq.C100_runge_kutta",
    "Extensisq.C100_bs5",
    "Extensisq.C100_cfmr7osc",
    "Extensisq.C100_nystrom",
    "Extensisq.C100_nystrom_extended",
    "Extensisq.C100_esdirk",
    "Extensisq.C100_ssv2stab",
    "Extensisq.C100_ssv2stab_reused",
    "Extensisq.C100_swag",
    "Extensisq.C100_ckdisc",
    "Extensisq.C100_ckdisc_copies",
    "Extensisq.C100_swag_copy",
    "Extensisq.C100_ckdisc_fallback",
    "Extensisq.C100_swag_argument_returned",
    "Extensisq.C100_fi5n_interpolant1"
   ],
   "note": ""
  },
  {
   "property": "C101",
   "status": "proved",
   "theorems": [
    "Extensisq.C101_runge_kutta",
    "Extensisq.C101_bs5",
    "Extensisq.C101_cfmr7osc",
    "Extensisq.C101_nystrom",
    "Extensisq.C101_nystrom_extended",
    "Extensisq.C101_esdirk",
    "Extensisq.C101_ssv2stab",
    "Extensisq.C101_ssv2stab_reused",
    "Extensisq.C101_swag",
    "Extensisq.C101_ckdisc",
    "Extensisq.C101_ckdisc_copies",
    "Extensisq.C101_swag_copy",
    "Extensisq.C101_reused_buffer"
   ],
   "note": ""
  },
  {
   "property": "C102",
   "status": "proved",
   "theorems": [
    "Extensisq.C102_horner",
    "Extensisq.C102_cubic",
    "Extensisq.C102_horner_nystrom",
    "Extensisq.C102_quintic",
    "Extensisq.C102_piecewise_cubic",
    "Extensisq.C102_piecewise_cubic_empty",
    "Extensisq.C102_linear",
    "Extensisq.C102_swag"
   ],
   "note": ""
  },
  {
   "property": "C103",
   "status": "proved",
   "theorems": [
    "Extensisq.C103_global_error",
    "Extensisq.C103_max_step_error",
    "Extensisq.C103_linear_mode",
    "Extensisq.C103_KC4Ia",
    "Extensisq.C103_KC4Ia_floor",
    "Extensisq.C103_residual"
   ],
   "note": ""
  },
  {
   "property": "C104",
   "status": "proved",
   "theorems": [
    "Extensisq.C104_weights_positive",
    "Extensisq.C104_dot",
    "Extensisq.C104_real_roots",
    "Extensisq.C104_complex_roots",
    "Extensisq.C104_units_complex",
    "Extensisq.C104_units_real",
    "Extensisq.C104_units_weights",
    "Extensisq.C104_permutation",
    "Extensisq.C104_real_as_complex"
   ],
   "note": ""
  },
  {
   "property": "C105",
   "status": "proved",
   "theorems": [
    "Extensisq.C105_global_error",
    "Extensisq.C105_converges",
    "Extensisq.C105_dense",
    "Extensisq.C105_dense_converges"
   ],
   "note": ""
  },
  {
   "property": "C106",
   "status": "proved",
   "theorems": [
    "Extensisq.C106_conditions",
    "Extensisq.C106_KC_dense",
    "Extensisq.C106_KC3I_dense",
    "Extensisq.C106_KC4Ia_dense",
    "Extensisq.C106_HS_dense",
    "Extensisq.C106_HS_max_step",
    "Extensisq.C106_KC_max_step"
   ],
   "note": ""
  },
  {
   "property": "C107",
   "status": "proved",
   "theorems": [
    "Extensisq.C107_inexact_data",
    "Extensisq.C107_inexact_data_decimal",
    "Extensisq.C107_max_step",
    "Extensisq.C107_two_runs"
   ],
   "note": ""
  },
  {
   "property": "C108",
   "status": "proved",
   "theorems": [
    "Extensisq.C108_runge_kutta",
    "Extensisq.C108_nystrom",
    "Extensisq.C108_esdirk",
    "Extensisq.C108_kc4i",
    "Extensisq.C108_kc4i_never_finishes",
    "Extensisq.C108_swag",
    "Extensisq.C108_h_start",
    "Extensisq.C108_h_start_short",
    "Extensisq.C108_ssv2stab"
   ],
   "note": ""
  },
  {
   "property": "C109",
   "status": "proved",
   "theorems": [
    "Extensisq.C109_forward",
    "Extensisq.C109_adjoint_end",
    "Extensisq.C109_adjoint_int",
    "Extensisq.C109_adjoint_end_BS5",
    "Extensisq.C109_adjoint_int_BS5"
   ],
   "note": ""
  },
  {
   "property": "C110",
   "status": "proved",
   "theorems": [
    "Extensisq.C110_explicit",
    "Extensisq.C110_CKdisc",
    "Extensisq.C110_esdirk",
    "Extensisq.C110_swag",
    "Extensisq.C110_ssv2stab",
    "Extensisq.C110_ssv2stab_needs_bound",
    "Extensisq.C110_swag_needs_nonzero_time"
   ],
   "note": ""
  },
  {
   "property": "C111",
   "status": "proved",
   "theorems": [
    "Extensisq.C111_controller_grows",
    "Extensisq.C111_no_rejections",
    "Extensisq.C111_finishes",
    "Extensisq.C111_pre_bound",
    "Extensisq.C111_err_bound",
    "Extensisq.C111_arrays",
    "Extensisq.C111_decay"
   ],
   "note": ""
  },
  {
   "property": "C112",
   "status": "proved",
   "theorems": [
    "Extensisq.C112_tolerance_error",
    "Extensisq.C112_max_step",
    "Extensisq.C112_norm_controls",
    "Extensisq.C112_arrays",
    "Extensisq.C112_decay"
   ],
   "note": ""
  },
  {
   "property": "C113",
   "status": "proved",
   "theorems": [
    "Extensisq.C113_controller_steers",
    "Extensisq.C113_work",
    "Extensisq.C113_BS5_pre",
    "Extensisq.C113_CFMR7osc_pre",
    "Extensisq.C113_arrays",
    "Extensisq.C113_decay"
   ],
   "note": ""
  },
  {
   "property": "C114",
   "status": "proved",
   "theorems": [
    "Extensisq.C114_swag_progress",
    "Extensisq.C114_swag_no_overshoot",
    "Extensisq.C114_swag_step_size",
    "Extensisq.C114_swag_end",
    "Extensisq.C114_swag_last",
    "Extensisq.C114_swag_zero_step",
    "Extensisq.C114_agrees_with_swag",
    "Extensisq.C114_cheb_no_overshoot",
    "Extensisq.C114_cheb_end",
    "Extensisq.C114_cheb_gives_up",
    "Extensisq.C114_cheb_stalls",
    "Extensisq.C114_agrees_with_cheb",
    "Extensisq.C114_swag_example",
    "Extensisq.C114_cheb_example"
   ],
   "note": ""
  },
  {
   "property": "C115",
   "status": "proved",
   "theorems": [
    "Extensisq.C115_finishes",
    "Extensisq.C115_tolerance_error",
    "Extensisq.C115_work",
    "Extensisq.C115_err_bound",
    "Extensisq.C115_norm_controls",
    "Extensisq.C115_arrays",
    "Extensisq.C115_oscillator",
    "Extensisq.C115_quadrature"
   ],
   "note": ""
  },
  {
   "property": "C116",
   "status": "proved",
   "theorems": [
    "Extensisq.C116_stable_step",
    "Extensisq.C116_stable_step_Me4",
    "Extensisq.C116_stable_difference",
    "Extensisq.C116_unstable_step_rational",
    "Extensisq.C116_unstable_step",
    "Extensisq.C116_stable_history",
    "Extensisq.C116_verdict_not_stiff",
    "Extensisq.C116_verdict_stiff",
    "Extensisq.C116_merson_exceeds"
   ],
   "note": ""
  },
  {
   "property": "C117",
   "status": "proved",
   "theorems": [
    "Extensisq.C117_real_roots_decay",
    "Extensisq.C117_complex_roots_decay",
    "Extensisq.C117_verdict_real_pair",
    "Extensisq.C117_verdict_complex_pair",
    "Extensisq.C117_rectangle_exceeds",
    "Extensisq.C117_real_sharp"
   ],
   "note": ""
  },
  {
   "property": "C118",
   "status": "proved",
   "theorems": [
    "Extensisq.C118_secondary_A_stable",
    "Extensisq.C118_secondary_Kv3I",
    "Extensisq.C118_secondary_limit",
    "Extensisq.C118_estimate_bounded",
    "Extensisq.C118_estimate_limit",
    "Extensisq.C118_linear_mode",
    "Extensisq.C118_test_equation"
   ],
   "note": ""
  },
  {
   "property": "C119",
   "status": "proved",
   "theorems": [
    "Extensisq.C119_inexact_data",
    "Extensisq.C119_max_step",
    "Extensisq.C119_two_runs"
   ],
   "note": ""
  },
  {
   "property": "C120",
   "status": "proved",
   "theorems": [
    "Extensisq.C120_restarts",
    "Extensisq.C120_restarts_nystrom",
    "Extensisq.C120_max_step_piece"
   ],
   "note": ""
  },
  {
   "property": "C121",
   "status": "proved",
   "theorems": [
    "Extensisq.C121_runge_kutta",
    "Extensisq.C121_momentum",
    "Extensisq.C121_free_fall",
    "Extensisq.C121_nystrom_dense",
    "Extensisq.C121_chebyshev",
    "Extensisq.C121_chebyshev_dense",
    "Extensisq.C121_multistep",
    "Extensisq.C121_multistep_dense"
   ],
   "note": ""
  },
  {
   "property": "C122",
   "status": "proved",
   "theorems": [
    "Extensisq.C122_step",
    "Extensisq.C122_runge_kutta",
    "Extensisq.C122_nystrom",
    "Extensisq.C122_norm",
    "Extensisq.C122_units"
   ],
   "note": ""
  },
  {
   "property": "C123",
   "status": "proved",
   "theorems": [
    "Extensisq.C123_norm_complex",
    "Extensisq.C123_complex",
    "Extensisq.C123_norm_copies",
    "Extensisq.C123_copies"
   ],
   "note": ""
  },
  {
   "property": "C124",
   "status": "proved",
   "theorems": [
    "Extensisq.C124_step",
    "Extensisq.C124_run",
    "Extensisq.C124_stages",
    "Extensisq.C124_units"
   ],
   "note": ""
  },
  {
   "property": "C125",
   "status": "proved",
   "theorems": [
    "Extensisq.C125_step",
    "Extensisq.C125_run",
    "Extensisq.C125_units"
   ],
   "note": ""
  },
  {
   "property": "C126",
   "status": "proved",
   "theorems": [
    "Extensisq.C126_step",
    "Extensisq.C126_run",
    "Extensisq.C126_dense",
    "Extensisq.C126_norm",
    "Extensisq.C126_units"
   ],
   "note": ""
  },
  {
   "property": "C127",
   "status": "proved",
   "theorems": [
    "Extensisq.C127_step",
    "Extensisq.C127_runge_kutta",
    "Extensisq.C127_nystrom",
    "Extensisq.C127_floor"
   ],
   "note": ""
  },
  {
   "property": "C128",
   "status": "proved",
   "theorems": [
    "Extensisq.C128_step",
    "Extensisq.C128_dense",
    "Extensisq.C128_run",
    "Extensisq.C128_norm"
   ],
   "note": ""
  },
  {
   "property": "C129",
   "status": "proved",
   "theorems": [
    "Extensisq.C129_step",
    "Extensisq.C129_run",
    "Extensisq.C129_exact_solve",
    "Extensisq.C129_floor"
   ],
   "note": ""
  },
  {
   "property": "C130",
   "status": "proved",
   "theorems": [
    "Extensisq.C130_step",
    "Extensisq.C130_run",
    "Extensisq.C130_stages",
    "Extensisq.C130_estimator",
    "Extensisq.C130_code"
   ],
   "note": ""
  },
  {
   "property": "C131",
   "status": "proved",
   "theorems": [
    "Extensisq.C131_step",
    "Extensisq.C131_nystrom"
   ],
   "note": ""
  }
 ]
}