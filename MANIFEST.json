{
 "claims": [
  {
   "property": "C01",
   "status": "proved",
   "theorems": [
    "MPOpt.C01_lgr_nodes",
    "MPOpt.C01_lgl_nodes",
    "MPOpt.C01_cgl_nodes",
    "MPOpt.C01_lg_false",
    "MPOpt.C01_unknown_scheme_false",
    "MPOpt.C01_lg_composite_false",
    "MPOpt.C01_unknown_scheme_composite_false",
    "MPOpt.C01_jacobi_contract",
    "MPOpt.C01_contracts_satisfiable"
   ],
   "note": "LGR/LGL from the contract of scipy's j_roots, CGL from the real cosine; LG and unknown schemes are refuted. The contract of j_roots is met by exactly one list (C01_jacobi_contract)."
  },
  {
   "property": "C02",
   "status": "proved",
   "theorems": [
    "MPOpt.C02_basis_cardinal",
    "MPOpt.C02_basis_sum_one"
   ],
   "note": "All distinct node lists, both matrix methods."
  },
  {
   "property": "C03",
   "status": "proved",
   "theorems": [
    "MPOpt.C03_interp_exact",
    "MPOpt.C03_interp_at_node"
   ],
   "note": ""
  },
  {
   "property": "C04",
   "status": "proved",
   "theorems": [
    "MPOpt.C04_diff_exact",
    "MPOpt.C04_diff_rows_sum_zero",
    "MPOpt.C04_second_is_square",
    "MPOpt.C04_other_order_raises"
   ],
   "note": ""
  },
  {
   "property": "C05",
   "status": "proved",
   "theorems": [
    "MPOpt.C05_quadrature_exact",
    "MPOpt.C05_weights_sum",
    "MPOpt.C05_lgr_gauss",
    "MPOpt.C05_lgl_gauss",
    "MPOpt.C05_lgr_first_weight_zero",
    "MPOpt.C05_quadrature_integral",
    "MPOpt.polyIntegral_eq_intervalIntegral"
   ],
   "note": ""
  },
  {
   "property": "C06",
   "status": "proved",
   "theorems": [
    "MPOpt.C06_composite_diff"
   ],
   "note": ""
  },
  {
   "property": "C07",
   "status": "proved",
   "theorems": [
    "MPOpt.C07_composite_quadrature_defect",
    "MPOpt.C07_single_segment",
    "MPOpt.C07_zero_first_weight",
    "MPOpt.C07_lgr",
    "MPOpt.C07_lgr_gauss",
    "MPOpt.C07_lgl_false",
    "MPOpt.C07_lgr_order1_false",
    "MPOpt.C07_cgl_false"
   ],
   "note": "The positive cases and the refutations named in the property; the defect theorem gives the exact error."
  },
  {
   "property": "C08",
   "status": "proved",
   "theorems": [
    "MPOpt.C08_composite_interp",
    "MPOpt.C08_composite_interp_derivative",
    "MPOpt.C08_short_taus_raise"
   ],
   "note": ""
  },
  {
   "property": "C09",
   "status": "proved",
   "theorems": [
    "MPOpt.C09_interp_agree",
    "MPOpt.C09_diff_agree",
    "MPOpt.C09_quad_agree"
   ],
   "note": ""
  },
  {
   "property": "C10",
   "status": "proved",
   "theorems": [
    "MPOpt.C10_variables_once",
    "MPOpt.C10_adaptive_variables_once"
   ],
   "note": ""
  },
  {
   "property": "C11",
   "status": "proved",
   "theorems": [
    "MPOpt.C11_bounds_aligned",
    "MPOpt.C11_adaptive_bounds_aligned"
   ],
   "note": ""
  },
  {
   "property": "C12",
   "status": "proved",
   "theorems": [
    "MPOpt.C12_lengths",
    "MPOpt.C12_adaptive_lengths"
   ],
   "note": ""
  },
  {
   "property": "C13",
   "status": "proved",
   "theorems": [
    "MPOpt.C13_time_grid",
    "MPOpt.C13_segment_ends",
    "MPOpt.C13_strictly_increasing"
   ],
   "note": ""
  },
  {
   "property": "C14",
   "status": "proved",
   "theorems": [
    "MPOpt.C14_dynamics_rows",
    "MPOpt.C14_feasible_iff"
   ],
   "note": "Row block and end-to-end equivalence with the physical problem."
  },
  {
   "property": "C15",
   "status": "proved",
   "theorems": [
    "MPOpt.C15_path_rows",
    "MPOpt.C15_terminal_rows",
    "MPOpt.C15_objective",
    "MPOpt.C14_feasible_iff",
    "MPOpt.C15_adaptive_objective"
   ],
   "note": ""
  },
  {
   "property": "C16",
   "status": "proved",
   "theorems": [
    "MPOpt.C16_link_rows",
    "MPOpt.C16_bad_link_count_raises",
    "MPOpt.C14_feasible_iff"
   ],
   "note": ""
  },
  {
   "property": "C17",
   "status": "proved",
   "theorems": [
    "MPOpt.C17_scaling_invariant",
    "MPOpt.mkDisc_withScales",
    "MPOpt.C17_scaling_diff_u_false"
   ],
   "note": "Invariant when diff_u is off; refuted with diff_u on."
  },
  {
   "property": "C18",
   "status": "proved",
   "theorems": [
    "MPOpt.C18_midpoint_rows",
    "MPOpt.C14_feasible_iff"
   ],
   "note": ""
  },
  {
   "property": "C19",
   "status": "proved",
   "theorems": [
    "MPOpt.C19_continuity_rows",
    "MPOpt.C19_real_time_iff",
    "MPOpt.C19_real_time_false",
    "MPOpt.C19_adaptive_ignores_flags"
   ],
   "note": ""
  },
  {
   "property": "C20",
   "status": "proved",
   "theorems": [
    "MPOpt.C20_guess",
    "MPOpt.C20_controls_false",
    "MPOpt.C20_adaptive_guess",
    "MPOpt.C20_adaptive_guess_sum"
   ],
   "note": "States, times and parameters as documented; the control rows are refuted when there are two or more controls."
  },
  {
   "property": "C21",
   "status": "proved",
   "theorems": [
    "MPOpt.C21_no_solution",
    "MPOpt.C21_warm_start",
    "MPOpt.C21_guess_unused"
   ],
   "note": ""
  },
  {
   "property": "C22",
   "status": "proved",
   "theorems": [
    "MPOpt.C22_options_ipopt",
    "MPOpt.C22_options_other",
    "MPOpt.C22_h_history_independent",
    "MPOpt.C22_h_other_solver_false"
   ],
   "note": "Base class as stated; in the h-adaptive class options are history independent but other solvers also get ipopt.print_level (refuted)."
  },
  {
   "property": "C23",
   "status": "proved",
   "theorems": [
    "MPOpt.C23_life_cycle",
    "MPOpt.C23_user_edits_unseen",
    "MPOpt.C23_after_failure_false"
   ],
   "note": "All histories without exceptions; refuted after a failed reinitialisation. C23_user_edits_unseen: unless the user assigns opt._ocp, see C75."
  },
  {
   "property": "C24",
   "status": "proved",
   "theorems": [
    "MPOpt.C24_within_bounds",
    "MPOpt.C24_parameters_false"
   ],
   "note": "States, controls and the diagonal of the parameter table are within bounds; with two or more parameters the off-diagonal entries of that table are not (counterexample)."
  },
  {
   "property": "C25",
   "status": "proved",
   "theorems": [
    "MPOpt.C25_get_data",
    "MPOpt.C25_round_trip",
    "MPOpt.C25_default_phases",
    "MPOpt.C25_original",
    "MPOpt.C25_one_parameter",
    "MPOpt.C25_parameters_false"
   ],
   "note": "States, controls and times exactly; parameters exactly with scaling=True or one parameter, otherwise get_data returns a table of quotients (closed form proved)."
  },
  {
   "property": "C26",
   "status": "proved",
   "theorems": [
    "MPOpt.C26_get_data",
    "MPOpt.C26_interpolated_at",
    "MPOpt.C26_count",
    "MPOpt.C26_ends",
    "MPOpt.C26_increasing"
   ],
   "note": ""
  },
  {
   "property": "C27",
   "status": "proved",
   "theorems": [
    "MPOpt.C27_partition",
    "MPOpt.C27_exactly_one_segment",
    "MPOpt.C27_order_kept",
    "MPOpt.C27_bad_sum_raises",
    "MPOpt.C27_within_tolerance",
    "MPOpt.C27_order_tolerance",
    "MPOpt.C27_within_tolerance_loses_end"
   ],
   "note": "Partition for widths summing to exactly 1; within the 1e-6 tolerance for all nodes up to the end of the last segment, and the end node can be lost (concrete case proved)."
  },
  {
   "property": "C28",
   "status": "proved",
   "theorems": [
    "MPOpt.C28_midpoints",
    "MPOpt.C28_spectral",
    "MPOpt.C28_fixed_one_segment",
    "MPOpt.C28_fixed_contains_end"
   ],
   "note": "True for mid-points, spectral and one-segment fixed grids; false for every fixed grid with two or more segments, which always contains the end node."
  },
  {
   "property": "C29",
   "status": "proved",
   "theorems": [
    "MPOpt.C29_residual_is_defect",
    "MPOpt.C29_zero_at_collocation_nodes",
    "MPOpt.C29_point",
    "MPOpt.C29_default_grid",
    "MPOpt.C29_shared_node_from_right_false"
   ],
   "note": "Closed form of the residual for every solution and every requested point; zero at the nodes each segment owns. At a shared node seen from its right segment the claim is false (example)."
  },
  {
   "property": "C30",
   "status": "proved",
   "theorems": [
    "MPOpt.C30_own_grid_type",
    "MPOpt.C30_uses_phase_zero_type",
    "MPOpt.C30_same_as_phase_zero",
    "MPOpt.C30_false",
    "MPOpt.C30_requests_differ"
   ],
   "note": "True when all phases share one type; the type of phase 0 is always used; counterexample with two types."
  },
  {
   "property": "C31",
   "status": "proved",
   "theorems": [
    "MPOpt.C31_merge_split"
   ],
   "note": ""
  },
  {
   "property": "C32",
   "status": "proved",
   "theorems": [
    "MPOpt.C32_equal_area",
    "MPOpt.C32_sum_one_false",
    "MPOpt.C32_zero_area_nan"
   ],
   "note": ""
  },
  {
   "property": "C33",
   "status": "proved",
   "theorems": [
    "MPOpt.C33_widths_at_times"
   ],
   "note": ""
  },
  {
   "property": "C34",
   "status": "proved",
   "theorems": [
    "MPOpt.C34_interior_instants",
    "MPOpt.C34_steepest_false"
   ],
   "note": ""
  },
  {
   "property": "C35",
   "status": "proved",
   "theorems": [
    "MPOpt.C35_clamp",
    "MPOpt.C35_below_lbh"
   ],
   "note": ""
  },
  {
   "property": "C36",
   "status": "proved",
   "theorems": [
    "MPOpt.C36_consistent_pair",
    "MPOpt.C36_no_iterations"
   ],
   "note": ""
  },
  {
   "property": "C37",
   "status": "proved",
   "theorems": [
    "MPOpt.C37_meshes_valid"
   ],
   "note": ""
  },
  {
   "property": "C38",
   "status": "proved",
   "theorems": [
    "MPOpt.C38_feasible_iff",
    "MPOpt.C38_mid_time",
    "MPOpt.C38_covers_phase",
    "MPOpt.C38_trajectories"
   ],
   "note": "Feasibility characterised exactly. The residual bounded by the tolerance is that of the scaled states, weighted with the width."
  },
  {
   "property": "C39",
   "status": "proved",
   "theorems": [
    "MPOpt.C39_default_valid",
    "MPOpt.C39_no_phases_raises"
   ],
   "note": ""
  },
  {
   "property": "C40",
   "status": "proved",
   "theorems": [
    "MPOpt.C40_validate_iff",
    "MPOpt.C40_nlp_bounds_ordered",
    "MPOpt.C40_adaptive_bounds_ordered"
   ],
   "note": ""
  },
  {
   "property": "C41",
   "status": "proved",
   "theorems": [
    "MPOpt.C41_constructs_iff",
    "MPOpt.C41_limits",
    "MPOpt.C41_saturation",
    "MPOpt.C41_solve_ph_false",
    "MPOpt.C41_split",
    "MPOpt.C41_two_phases_lost"
   ],
   "note": "Limits and saturation as stated; solve_ph always raises UnboundLocalError. The mesh update it would perform keeps the width sum for one phase and loses phases otherwise."
  },
  {
   "property": "C42",
   "status": "proved",
   "theorems": [
    "MPOpt.C42_refines",
    "MPOpt.C42_keeps",
    "MPOpt.C42_short_raises",
    "MPOpt.C42_long_unchanged",
    "MPOpt.C42_not_a_maximum_false"
   ],
   "note": ""
  },
  {
   "property": "C43",
   "status": "proved",
   "theorems": [
    "MPOpt.C43_orders",
    "MPOpt.C43_wrong_length",
    "MPOpt.C43_lgr_setup",
    "MPOpt.C43_lgl_setup",
    "MPOpt.C43_cgl_setup"
   ],
   "note": ""
  },
  {
   "property": "C44",
   "status": "proved",
   "theorems": [
    "MPOpt.C44_uniform_times",
    "MPOpt.C44_one_segment",
    "MPOpt.C44_gap_false"
   ],
   "note": "All times are equally spaced times of the phase, with one left out: the last one of the first segment."
  },
  {
   "property": "C45",
   "status": "proved",
   "theorems": [
    "MPOpt.C45_succeeds_iff",
    "MPOpt.C45_phase_succeeds_iff",
    "MPOpt.C45_values_bounded",
    "MPOpt.C45_false"
   ],
   "note": "Returned values are in [-1,1]; exact success condition; counterexample raising AssertionError."
  },
  {
   "property": "C46",
   "status": "proved",
   "theorems": [
    "MPOpt.C46_vars_per_phase_iff"
   ],
   "note": ""
  },
  {
   "property": "C47",
   "status": "proved",
   "theorems": [
    "MPOpt.C47_coherent",
    "MPOpt.C47_diff",
    "MPOpt.C47_quad",
    "MPOpt.C47_interp",
    "MPOpt.C47_named",
    "MPOpt.C47_segment_names",
    "MPOpt.C47_composites",
    "MPOpt.C47_integer_key_false"
   ],
   "note": "Custom nodes stored under a string key never disturb the integer keys; custom nodes under an integer key do (counterexample)."
  },
  {
   "property": "C48",
   "status": "proved",
   "theorems": [
    "MPOpt.C48_zero_residual",
    "MPOpt.C48_state_residual",
    "MPOpt.C48_integrated_state",
    "MPOpt.C48_default_grid"
   ],
   "note": ""
  },
  {
   "property": "C49",
   "status": "proved",
   "theorems": [
    "MPOpt.C49_stored",
    "MPOpt.C49_mpopt",
    "MPOpt.C49_adaptive",
    "MPOpt.C49_h_adaptive",
    "MPOpt.C49_solve",
    "MPOpt.C49_false",
    "MPOpt.C49_failure_propagates"
   ],
   "note": "Statement is false as the property says; what is stored is stated for process_results of every class and for solve."
  },
  {
   "property": "C50",
   "status": "proved",
   "theorems": [
    "MPOpt.C50_second_derivative",
    "MPOpt.C50_default_grid"
   ],
   "note": "The values on the default grid are those for its points given explicitly."
  },
  {
   "property": "C51",
   "status": "proved",
   "theorems": [
    "MPOpt.C51_abs_max_residual",
    "MPOpt.C51_empty_segment"
   ],
   "note": ""
  },
  {
   "property": "C52",
   "status": "proved",
   "theorems": [
    "MPOpt.C52_solve_feasible",
    "MPOpt.C52_solve_returns",
    "MPOpt.exampleE"
   ],
   "note": "The solver is an arbitrary function of the call it receives. exampleE: a concrete run meeting the hypotheses of C52 and C53."
  },
  {
   "property": "C53",
   "status": "proved",
   "theorems": [
    "MPOpt.C53_solve_optimal"
   ],
   "note": "Cost with the composite quadrature weights of the scheme (C07 says what these integrate)."
  },
  {
   "property": "C54",
   "status": "proved",
   "theorems": [
    "MPOpt.C54_adaptive_feasible",
    "MPOpt.C54_adaptive_returns",
    "MPOpt.exampleAdaptive",
    "MPOpt.C54_constructed"
   ],
   "note": "process_results for the solution returned last. exampleAdaptive: a concrete run meeting the hypotheses of C54 and C55."
  },
  {
   "property": "C55",
   "status": "proved",
   "theorems": [
    "MPOpt.C55_adaptive_optimal"
   ],
   "note": "Cost with the composite quadrature weights of the scheme."
  },
  {
   "property": "C56",
   "status": "proved",
   "theorems": [
    "MPOpt.C56_exact_feasible",
    "MPOpt.C56_solve",
    "MPOpt.exampleCalls"
   ],
   "note": "The continuous-time problem is stated in Spec/Continuous.lean with one-sided derivatives. Concrete case after exampleR in Props/ExactExample."
  },
  {
   "property": "C57",
   "status": "proved",
   "theorems": [
    "MPOpt.C57_cost",
    "MPOpt.C57_lgr_integrates",
    "MPOpt.C57_solve_beats",
    "MPOpt.exampleR"
   ],
   "note": "Compares with solutions representable on the mesh; nothing is said about convergence. exampleR: a concrete run."
  },
  {
   "property": "C58",
   "status": "proved",
   "theorems": [
    "MPOpt.C58_collocation_exact",
    "MPOpt.C58_solve",
    "MPOpt.exampleCalls"
   ],
   "note": "Concrete case at the end of Props/ExactExample."
  },
  {
   "property": "C59",
   "status": "proved",
   "theorems": [
    "MPOpt.C59_h_feasible",
    "MPOpt.exampleH",
    "MPOpt.C59_given_false",
    "MPOpt.C59_constructed"
   ],
   "note": "Fails for initial solutions made by the caller (counterexample). exampleH: a concrete run on two segments meeting the hypotheses of C59, C61 and C62."
  },
  {
   "property": "C60",
   "status": "proved",
   "theorems": [
    "MPOpt.C60_h_optimal",
    "MPOpt.exampleHOptimal"
   ],
   "note": "Least cost for the stored widths only; widths themselves are not optimised. exampleHOptimal: a concrete run."
  },
  {
   "property": "C61",
   "status": "proved",
   "theorems": [
    "MPOpt.C61_reported_error"
   ],
   "note": "Check points are those of the 'fixed' grid, max(sum of orders + 2, 17) per phase. A computed run with nonzero error is in Props/HEndExample."
  },
  {
   "property": "C62",
   "status": "proved",
   "theorems": [
    "MPOpt.C62_h_returns"
   ],
   "note": "Also the example that meets the hypotheses of C59."
  },
  {
   "property": "C63",
   "status": "proved",
   "theorems": [
    "MPOpt.C63_exact_feasible",
    "MPOpt.C63_adaptive_beats"
   ],
   "note": "Hypotheses met by a control with a kink off the uniform mesh (Props/ExactFreeExample)."
  },
  {
   "property": "C64",
   "status": "proved",
   "theorems": [
    "MPOpt.C64_h_beats"
   ],
   "note": "Hypotheses met by a run of the residual method (Props/ExactFreeExample)."
  },
  {
   "property": "C65",
   "status": "proved",
   "theorems": [
    "MPOpt.C65_midpoints",
    "MPOpt.C65_spectral_false",
    "MPOpt.C65_blind_example"
   ],
   "note": "True for mid-points; false for the spectral grid when orders are _MAX_GRID_POINTS + 2, with an example reporting 0 for a trajectory with residual 5/24."
  },
  {
   "property": "C66",
   "status": "proved",
   "theorems": [
    "MPOpt.C66_single",
    "MPOpt.C66_uniform",
    "MPOpt.C66_plot",
    "MPOpt.C66_default_plot",
    "MPOpt.C66_ragged_raises",
    "MPOpt.C66_default_raises",
    "MPOpt.C66_first_phase_false",
    "MPOpt.C66_example"
   ],
   "note": "The 2-norm is an arbitrary function of the row. Ragged lists become object arrays, as in numpy 1.22. C66_example meets the hypotheses of C66_plot and C66_default_raises."
  },
  {
   "property": "C67",
   "status": "proved",
   "theorems": [
    "MPOpt.C67_lgr",
    "MPOpt.C67_lgl",
    "MPOpt.C67_lgr_composite",
    "MPOpt.C67_lgr_nonneg"
   ],
   "note": "Given the contract of j_roots (C01). Order 1 is excluded. CGL weights are not treated. Examples with the exact Jacobi roots follow the theorems."
  },
  {
   "property": "C68",
   "status": "proved",
   "theorems": [
    "MPOpt.C68_solve",
    "MPOpt.C68_adaptive",
    "MPOpt.C68_h",
    "MPOpt.exampleWS",
    "MPOpt.exampleAdaptWS",
    "MPOpt.exampleHWS",
    "MPOpt.scriptWithSolution_eq"
   ],
   "note": "Given the contract of j_roots (C01) and a globally optimal NLP solver; exact arithmetic. exampleWS, exampleAdaptWS, exampleHWS: runs meeting the hypotheses, among them the script's own call."
  },
  {
   "property": "C69",
   "status": "proved",
   "theorems": [
    "MPOpt.C69_scripts_ready",
    "MPOpt.C69_moon_solve",
    "MPOpt.C69_moon_adaptive",
    "MPOpt.exampleML",
    "MPOpt.exampleAdaptML"
   ],
   "note": "Given the contract of j_roots (C01); exact arithmetic. exampleML, exampleAdaptML: runs meeting the hypotheses for all orders at least 4, among them the script's own call."
  },
  {
   "property": "C70",
   "status": "proved",
   "theorems": [
    "MPOpt.C70_solve",
    "MPOpt.C70_solve_box",
    "MPOpt.C70_adaptive",
    "MPOpt.C70_adaptive_sublevel",
    "MPOpt.C70_h"
   ],
   "note": "Hypotheses met by the moon lander (exampleML, exampleAdaptML) and by the Van der Pol problem (exampleVdp, exampleVdpAdaptive, exampleVdpH). For mpopt_adaptive the first call; for mpopt_h_adaptive any calls but those with the equal-area method for residuals."
  },
  {
   "property": "C71",
   "status": "proved",
   "theorems": [
    "MPOpt.C71_plot_phases",
    "MPOpt.C71_too_many",
    "MPOpt.C71_plot_x",
    "MPOpt.C71_plot_x_all",
    "MPOpt.C71_plot_x_groups",
    "MPOpt.C71_plot_x_group",
    "MPOpt.C71_plot_u",
    "MPOpt.C71_plot_u_none",
    "MPOpt.C71_plot_phase",
    "MPOpt.C71_labels_shift",
    "MPOpt.C71_plot_residuals",
    "MPOpt.C71_dynamics_residuals",
    "MPOpt.C71_state_residuals",
    "MPOpt.C71_both_residuals",
    "MPOpt.C71_all_points",
    "MPOpt.C71_figures",
    "MPOpt.C71_solve_plot",
    "MPOpt.C71_mixed_false",
    "MPOpt.examplePlot"
   ],
   "note": "Figures as data; matplotlib itself is not modelled. examplePlot: a run of solve meeting the hypotheses of C71_solve_plot; further examples follow it."
  },
  {
   "property": "C72",
   "status": "proved",
   "theorems": [
    "MPOpt.C72_course",
    "MPOpt.C72_record",
    "MPOpt.C72_record_last",
    "MPOpt.C72_unchanged",
    "MPOpt.C72_single",
    "MPOpt.C72_reasons"
   ],
   "note": "Stages are computed by a recursion without the variables of the loop (Spec/HCourse). Runs ending for each of the four reasons, and an object meeting the hypotheses of C72_reasons, follow in Props/HStop."
  },
  {
   "property": "C73",
   "status": "proved",
   "theorems": [
    "MPOpt.C73_error",
    "MPOpt.C73_exact",
    "MPOpt.C73_reported",
    "MPOpt.C73_h_adaptive",
    "MPOpt.exampleGrow"
   ],
   "note": "Gronwall. How much the residual varies between check points is a hypothesis (DefectVaries): the code does not look there. exampleGrow: hypotheses of C73_reported met; exampleHExact: those on the run in C73_h_adaptive."
  },
  {
   "property": "C74",
   "status": "proved",
   "theorems": [
    "MPOpt.C74_cgl",
    "MPOpt.C74_composite_positive",
    "MPOpt.C74_too_small",
    "MPOpt.C74_constant",
    "MPOpt.C74_minimum_time"
   ],
   "note": "CGL: real cosine (IsCosine); LGL: contract of j_roots. The hypothesis PositiveRule is met for both schemes (cgl_positive, lgl_positive); examples follow C74_minimum_time."
  },
  {
   "property": "C75",
   "status": "proved",
   "theorems": [
    "MPOpt.C75_current_problem",
    "MPOpt.C75_unassigned_edits",
    "MPOpt.C75_assigned_edits",
    "MPOpt.C75_resolve",
    "MPOpt.C75_adaptive_resolve",
    "MPOpt.C75_settings_ignored",
    "MPOpt.C75_h_resolve",
    "MPOpt.C75_h_stale_false",
    "MPOpt.exampleResolve"
   ],
   "note": "C75_h_stale_false: mpopt_h_adaptive may return the old solution after an edit of the constraints. exampleResolve: hypotheses of C75_resolve met. Three shipped scripts (falcon9_booster_landing*.py) edit the user's object and reinitialise without assigning it: C75_unassigned_edits."
  },
  {
   "property": "C76",
   "status": "proved",
   "theorems": [
    "MPOpt.C76_first_segment",
    "MPOpt.C76_infeasible",
    "MPOpt.C76_nothing_feasible",
    "MPOpt.C76_solve_fails",
    "MPOpt.C76_adaptive_fails",
    "MPOpt.C76_h_fails",
    "MPOpt.C76_example",
    "MPOpt.C76_first_segment_case"
   ],
   "note": "C76_example: a problem with a solution of which the NLP is infeasible on every LGR mesh. C76_first_segment_case: the hypotheses are met by a trajectory that leaves the equilibrium on the second segment."
  },
  {
   "property": "C77",
   "status": "proved",
   "theorems": [
    "MPOpt.C77_defect",
    "MPOpt.C77_small_defect",
    "MPOpt.C77_error",
    "MPOpt.C77_recorded",
    "MPOpt.C77_lebesgue",
    "MPOpt.C77_converges",
    "MPOpt.C77_solve",
    "MPOpt.exampleStep"
   ],
   "note": "The response, and bounds on rates, controls and Lipschitz constants, are hypotheses (Tame); exampleStep meets them. C76 limits what can be collocated on the first segment."
  },
  {
   "property": "C78",
   "status": "proved",
   "theorems": [
    "MPOpt.C78_bound",
    "MPOpt.C78_limit",
    "MPOpt.C78_cost",
    "MPOpt.C78_lgr",
    "MPOpt.C78_solve",
    "MPOpt.exampleCallsFine",
    "MPOpt.C78_share_lost",
    "MPOpt.C78_wrong_preference",
    "MPOpt.C78_example"
   ],
   "note": "Node values of a fixed trajectory (Samples); nothing is said about minimisers. LGR: contract of j_roots; CGL: real cosine. C78_example also shows that such meshes exist; an example for C78_lgr follows it."
  },
  {
   "property": "C79",
   "status": "proved",
   "theorems": [
    "MPOpt.C79_exists",
    "MPOpt.C79_unique",
    "MPOpt.C79_shadow",
    "MPOpt.C79_fine",
    "MPOpt.C79_global",
    "MPOpt.C79_solve",
    "MPOpt.C79_example"
   ],
   "note": "Real numbers. Lipschitz constants and the distance from the sides of the box are hypotheses; C79_example meets them with dynamics that are Lipschitz on bounded sets only."
  },
  {
   "property": "C80",
   "status": "proved",
   "theorems": [
    "MPOpt.C80_flown",
    "MPOpt.C80_cost",
    "MPOpt.C80_lgr",
    "MPOpt.C80_fine",
    "MPOpt.C80_solve",
    "MPOpt.C80_solve_best",
    "MPOpt.C80_example",
    "MPOpt.C80_lgr_example"
   ],
   "note": "Real numbers. Lipschitz constants, variation of the controls and distance from the sides of the box are hypotheses on the plan (Sized). C80_example: a plan that is not a motion meets those of C80_flown; C80_lgr_example: those of the LGR theorems. Minimisers are compared with piecewise polynomial competitors only; C84 compares with all smooth ones."
  },
  {
   "property": "C81",
   "status": "proved",
   "theorems": [
    "MPOpt.C81_near_iff",
    "MPOpt.C81_exact",
    "MPOpt.C81_solve_near",
    "MPOpt.C81_solve_near_optimal",
    "MPOpt.C81_solve_returns",
    "MPOpt.exampleN"
   ],
   "note": "Tolerances are absolute, in the scaled units of the NLP; what a solver reports about them is not modelled. exampleN: a run meeting the hypotheses in which the point returned is no exact solution."
  },
  {
   "property": "C82",
   "status": "proved",
   "theorems": [
    "MPOpt.C82_defect",
    "MPOpt.C82_small_defect",
    "MPOpt.C82_error",
    "MPOpt.C82_fine",
    "MPOpt.C82_global",
    "MPOpt.C82_flown",
    "MPOpt.C82_cost",
    "MPOpt.C82_lgr",
    "MPOpt.C82_fine_plan",
    "MPOpt.C82_solve",
    "MPOpt.C82_solve_best",
    "MPOpt.C82_example"
   ],
   "note": "Real numbers; sizes of problem and plan are hypotheses (Sized), as in C80. With tolerances 0 it is C77, C79 and C80. C82_example: a plan that misses initial state, dynamics and target meets the hypotheses of C82_flown; those of the LGR theorems are met by the plan of C80_lgr_example with any tolerances."
  },
  {
   "property": "C83",
   "status": "proved",
   "theorems": [
    "MPOpt.C83_bounds",
    "MPOpt.C83_rate",
    "MPOpt.C83_consistent",
    "MPOpt.C83_fine",
    "MPOpt.C83_solve",
    "MPOpt.C83_example",
    "MPOpt.exampleCallsFine"
   ],
   "note": "Real numbers. Samples: node values of the solution. C83_example: exponential growth and decay meet the hypotheses of C83_fine on LGR meshes."
  },
  {
   "property": "C84",
   "status": "proved",
   "theorems": [
    "MPOpt.C84_solve_best",
    "MPOpt.C84_cost",
    "MPOpt.C84_solve_flown",
    "MPOpt.C84_limit",
    "MPOpt.C84_example",
    "MPOpt.C84_example_runs"
   ],
   "note": "Real numbers; sizes of the plan are hypotheses (Sized), as in C80 and C82, since a minimiser may oscillate. C84_example: for x' = a x all runs meet them, whatever the solver returns within its promise; C84_example_runs: there are such runs. Promise of the solver: BestNear, global up to eta0 within its own tolerances."
  },
  {
   "property": "C85",
   "status": "proved",
   "theorems": [
    "MPOpt.C85_draw",
    "MPOpt.C85_draw_groups",
    "MPOpt.C85_draw_markers",
    "MPOpt.C85_unchanged",
    "MPOpt.C85_figure",
    "MPOpt.C85_meaning",
    "MPOpt.C85_groups",
    "MPOpt.C85_markers",
    "MPOpt.C85_example",
    "MPOpt.C85_markers_example"
   ],
   "note": "C85_example: hypotheses of C85_unchanged and C85_figure met; C85_markers_example: a run of 76 iterations that returns, and raises when watched; an example for C85_groups lies between them. What was drawn before an exception is kept up to the last complete drawing."
  },
  {
   "property": "C86",
   "status": "proved",
   "theorems": [
    "MPOpt.C86_near_iff",
    "MPOpt.C86_exact",
    "MPOpt.C86_covers_phase",
    "MPOpt.C86_adaptive_near",
    "MPOpt.C86_adaptive_near_optimal",
    "MPOpt.C86_adaptive_returns",
    "MPOpt.C86_residuals_need_sum",
    "MPOpt.C86_h_near",
    "MPOpt.C86_h_near_optimal",
    "MPOpt.exampleFreeNear",
    "MPOpt.exampleHNear",
    "MPOpt.C86_coarse_false"
   ],
   "note": "Tolerances are absolute, in the scaled units of the NLP, as in C81. exampleFreeNear, exampleHNear: runs meeting the hypotheses in which what the solver returns is no exact solution. C86_coarse_false: solver tolerance 1/100 respected, solve returns, process_results does not."
  },
  {
   "property": "C87",
   "status": "proved",
   "theorems": [
    "MPOpt.C87_filled_widths",
    "MPOpt.C87_filled",
    "MPOpt.C87_ends_near",
    "MPOpt.C87_flown",
    "MPOpt.C87_fine_plan",
    "MPOpt.C87_adaptive_flown",
    "MPOpt.C87_h_flown",
    "MPOpt.C87_h_best",
    "MPOpt.C87_h_example",
    "MPOpt.C87_h_example_runs"
   ],
   "note": "Real numbers; sizes of the plan are hypotheses, as in C82. C87_h_example: every run for x' = a x meets the hypotheses of C87_h_flown and C87_h_best; C87_h_example_runs: there are such runs. C88_example does the same for C87_filled, C87_ends_near, C87_flown, C87_fine_plan and C87_adaptive_flown."
  },
  {
   "property": "C88",
   "status": "proved",
   "theorems": [
    "MPOpt.C88_bounds",
    "MPOpt.C88_consistent",
    "MPOpt.C88_fine",
    "MPOpt.C88_lipschitz",
    "MPOpt.C88_adaptive_best",
    "MPOpt.C88_limit",
    "MPOpt.C88_fine_example",
    "MPOpt.C88_example",
    "MPOpt.C88_example_runs"
   ],
   "note": "Real numbers; sizes of the plan are hypotheses, as in C84. C88_example: for x' = a x all runs of mpopt_adaptive meet them; C88_example_runs: there are such runs."
  },
  {
   "property": "C89",
   "status": "proved",
   "theorems": [
    "MPOpt.C89_exact",
    "MPOpt.C89_nodes",
    "MPOpt.C89_conserved",
    "MPOpt.C89_driven",
    "MPOpt.C89_too_steep",
    "MPOpt.C89_solve",
    "MPOpt.C89_adaptive",
    "MPOpt.C89_h",
    "MPOpt.C89_nothing_feasible",
    "MPOpt.C89_adaptive_fails",
    "MPOpt.C89_example",
    "MPOpt.C89_driven_case"
   ],
   "note": "C89_example: x1' = t^d beside a controlled state, for every d and all LGR meshes: exact when d is below the orders, infeasible when d is the first order."
  },
  {
   "property": "C90",
   "status": "proved",
   "theorems": [
    "MPOpt.C90_defect",
    "MPOpt.C90_lgr",
    "MPOpt.C90_single",
    "MPOpt.C90_change",
    "MPOpt.C90_mayer_cost",
    "MPOpt.C90_mayer_iff",
    "MPOpt.C90_solve",
    "MPOpt.C90_continuous",
    "MPOpt.exampleMayer",
    "MPOpt.C90_mayer_false",
    "MPOpt.C90_lgl_false"
   ],
   "note": "C90_defect: what is missing for other schemes, exactly. C90_continuous asks for running costs continuous in time along the solution (real numbers). exampleMayer: both runs meeting the hypotheses of C90_solve, on two LGR segments of order 2. C90_mayer_false, C90_lgl_false: what does not hold."
  },
  {
   "property": "C91",
   "status": "proved",
   "theorems": [
    "MPOpt.C91_chosen",
    "MPOpt.C91_all",
    "MPOpt.C91_same_entry",
    "MPOpt.C91_default_grid",
    "MPOpt.C91_out_of_range",
    "MPOpt.C91_relative",
    "MPOpt.C91_plot",
    "MPOpt.C91_plot_missing",
    "MPOpt.C91_plot_empty",
    "MPOpt.C91_chosen_example",
    "MPOpt.C91_chosen_values",
    "MPOpt.C91_default_values",
    "MPOpt.C91_out_of_range_example",
    "MPOpt.C91_relative_example",
    "MPOpt.C91_relative_large",
    "MPOpt.C91_plot_example",
    "MPOpt.C91_plot_refused"
   ],
   "note": "Phases are non-negative numbers. C91_plot asks for one phase or equally many points in all segments, as C66_uniform. C91_relative asks for integrated states that are not all 0; otherwise numpy continues with nan or inf. C91_relative_large: values outside [-1,1]. C91_plot_refused: the claim that plot=True only adds a figure is false."
  },
  {
   "property": "C92",
   "status": "proved",
   "theorems": [
    "MPOpt.within_times",
    "MPOpt.C92_box",
    "MPOpt.C92_adaptive_box",
    "MPOpt.C92_negative_infeasible",
    "MPOpt.C92_zero_scale",
    "MPOpt.C92_adaptive_infeasible",
    "MPOpt.C92_example",
    "MPOpt.C92_zero_example"
   ],
   "note": "Bounds only: with scale zero the physical values divide by zero, which casadi answers with nan or inf and the model with 0. C92_example: validate accepts a problem with a negative scale whose NLP is infeasible in both classes."
  },
  {
   "property": "C93",
   "status": "proved",
   "theorems": [
    "MPOpt.C93_relative",
    "MPOpt.C93_relative_range",
    "MPOpt.C93_relative_zero",
    "MPOpt.C93_plot",
    "MPOpt.C93_plot_refused",
    "MPOpt.C93_interpolate",
    "MPOpt.C93_interpolate_index",
    "MPOpt.C93_relative_example",
    "MPOpt.C93_relative_values",
    "MPOpt.C93_relative_zero_example",
    "MPOpt.C93_plot_example",
    "MPOpt.C93_plot_values",
    "MPOpt.C93_interpolate_values"
   ],
   "note": "A division by zero, after which numpy goes on with nan or inf, is the exception nonFinite of the model. The norm is any function of the row. Ragged lists of times: numpy 1.22, which setup.py pins, makes an array of objects of them and the reshaping of the norms fails; later versions fail when stacking."
  },
  {
   "property": "C94",
   "status": "proved",
   "theorems": [
    "MPOpt.C94_unreached",
    "MPOpt.C94_zero",
    "MPOpt.C94_meshes",
    "MPOpt.C94_equal_widths",
    "MPOpt.C94_widths",
    "MPOpt.C94_last_phase",
    "MPOpt.C94_progress",
    "MPOpt.C94_stuck",
    "MPOpt.C94_repeats",
    "MPOpt.C94_returns",
    "MPOpt.C94_returns_one",
    "MPOpt.C94_one_good_phase",
    "MPOpt.C94_env_regular",
    "MPOpt.C94_feasible",
    "MPOpt.made_of_mkPh",
    "MPOpt.C94_example_widths",
    "MPOpt.C94_example_stuck",
    "MPOpt.C94_example_phase",
    "MPOpt.C94_feasible_example"
   ],
   "note": "Solver, residuals and second derivatives are any functions; residuals come by phase and segment, which C94_env_regular proves of the methods of the object. Orders at least 1. C94_feasible speaks of meshes whose nodes the collocation library gives, as C52. C94_feasible_example: a run meeting its hypotheses."
  },
  {
   "property": "C95",
   "status": "proved",
   "theorems": [
    "MPOpt.C95_same_solutions",
    "MPOpt.C95_order_one",
    "MPOpt.C95_costs",
    "MPOpt.C95_never_worse",
    "MPOpt.C95_h_same",
    "MPOpt.C95_costs_example",
    "MPOpt.C95_never_worse_example",
    "MPOpt.C95_h_example",
    "MPOpt.C95_hump",
    "MPOpt.C95_above"
   ],
   "note": "Costs are those of the collocated problems (composite quadrature); runs are assumed to return, see C52, C54 and C62 for when they do."
  },
  {
   "property": "C96",
   "status": "proved",
   "theorems": [
    "MPOpt.C96_solves",
    "MPOpt.C96_adaptive",
    "MPOpt.C96_cost",
    "MPOpt.C96_ready",
    "MPOpt.C96_guess",
    "MPOpt.C96_feasible",
    "MPOpt.C96_optimal",
    "MPOpt.C96_adaptive_optimal",
    "MPOpt.C96_autonomous",
    "MPOpt.C96_later",
    "MPOpt.C96_later_optimal",
    "MPOpt.C96_example",
    "MPOpt.C96_later_false"
   ],
   "note": "Positive units; scale factors are converted with the units. C96_example: a run meeting the hypotheses of C96_feasible and C96_optimal in other units. ocpClockless meets those of C96_later; C96_later_false: with the final time as cost the claim is false."
  },
  {
   "property": "C97",
   "status": "proved",
   "theorems": [
    "MPOpt.C97_unknown_method",
    "MPOpt.C97_same_as_plain",
    "MPOpt.C97_example"
   ],
   "note": "tolChange (the class attribute _TOL_SEG_WIDTH_CHANGE) is assumed not negative. C97_example: two refining calls and a misspelt one, on a shipped problem, for all numbers of segments and orders from 2."
  },
  {
   "property": "C98",
   "status": "proved",
   "theorems": [
    "MPOpt.C98_solve",
    "MPOpt.C98_h",
    "MPOpt.C98_adaptive",
    "MPOpt.C98_true",
    "MPOpt.C98_coarse",
    "MPOpt.C98_coarse_exists",
    "MPOpt.exampleSch",
    "MPOpt.exampleAdaptSch",
    "MPOpt.exampleHSch_calls",
    "MPOpt.scriptSchwartz_eq"
   ],
   "note": "Real numbers, the decimal numbers of the script as exact fractions. C98_coarse: on one segment of order one the claim is false (cost 81.05), C98_coarse_exists that such trajectories exist. exampleSch, exampleAdaptSch, exampleHSch_calls: runs meeting the hypotheses; the script's own call follows the last. Nothing is said about orders between those named."
  },
  {
   "property": "C99",
   "status": "proved",
   "theorems": [
    "MPOpt.C99_cut",
    "MPOpt.SolvesOCP.join",
    "MPOpt.exists_cut",
    "MPOpt.C99_cost",
    "MPOpt.twice_weights",
    "MPOpt.lgr_first_zero",
    "MPOpt.C99_runs",
    "MPOpt.C99_lost",
    "MPOpt.exampleCut"
   ],
   "note": "SolvesOCP.join and exists_cut: every trajectory of either problem has its counterpart. Parameters are left out: the library does not tie those of two phases together. exampleCut: both runs meeting the hypotheses of C99_runs."
  },
  {
   "property": "C100",
   "status": "proved",
   "theorems": [
    "MPOpt.C100_dynamics",
    "MPOpt.C100_problem",
    "MPOpt.C100_weights",
    "MPOpt.C100_cost",
    "MPOpt.C100_solve",
    "MPOpt.C100_schemes",
    "MPOpt.C100_push",
    "MPOpt.C100_push_runs",
    "MPOpt.C100_push_truth",
    "MPOpt.C100_push_best"
   ],
   "note": "C100_push_runs: the runs exist. C100_push_best compares with continuous controls. CGL needs cos 0 = 1 and cos pi = -1."
  },
  {
   "property": "C101",
   "status": "proved",
   "theorems": [
    "MPOpt.C101_taylor",
    "MPOpt.C101_rate",
    "MPOpt.C101_consistent",
    "MPOpt.C101_cost",
    "MPOpt.C101_nodes",
    "MPOpt.C101_lgr_cost",
    "MPOpt.C101_solve",
    "MPOpt.C101_example"
   ],
   "note": "Real numbers. Upper bounds only: nothing is said about how much below the true optimum a discrete cost may be (see C84). C101_example: for x' = a x, every order p >= 2 and every number of segments there are such runs, and all of them obey the bound."
  },
  {
   "property": "C102",
   "status": "proved",
   "theorems": [
    "MPOpt.C102_solves",
    "MPOpt.C102_solve",
    "MPOpt.C102_cheaper",
    "MPOpt.C102_adaptive",
    "MPOpt.C102_h",
    "MPOpt.C102_example",
    "MPOpt.C102_example_forward"
   ],
   "note": "Costs are those of the collocated problems. C102_example: two runs meeting the hypotheses; the looser problem is strictly cheaper there."
  },
  {
   "property": "C103",
   "status": "proved",
   "theorems": [
    "MPOpt.C103_local",
    "MPOpt.C103_local_adaptive",
    "MPOpt.C103_local_h",
    "MPOpt.C103_mix",
    "MPOpt.C103_global",
    "MPOpt.C103_global_h",
    "MPOpt.C103_unique",
    "MPOpt.C103_shipped",
    "MPOpt.C103_nonconvex_false"
   ],
   "note": "Local: no solution vector with all entries closer than some eps is better. C103_nonconvex_false is also a run with a solver that is local but not global. ocpWS_convex: the shipped problem meets the hypotheses."
  },
  {
   "property": "C104",
   "status": "proved",
   "theorems": [
    "MPOpt.tausFn_moved",
    "MPOpt.compWeights_moved",
    "MPOpt.C104_solves",
    "MPOpt.C104_solves_free",
    "MPOpt.C104_adaptive",
    "MPOpt.C104_cost",
    "MPOpt.C104_feasible",
    "MPOpt.C104_optimal",
    "MPOpt.C104_free",
    "MPOpt.C104_adaptive_optimal",
    "MPOpt.C104_defect",
    "MPOpt.C104_unconverted",
    "MPOpt.C104_slopes_matter",
    "MPOpt.C104_late",
    "MPOpt.C104_late_start",
    "MPOpt.C104_late_example",
    "MPOpt.exampleInterval",
    "MPOpt.exampleIntervalAdaptive"
   ],
   "note": "mpopt_h_adaptive is left out. exampleInterval, exampleIntervalAdaptive: runs meeting the hypotheses; C104_late_example: a solved object for C104_late_start."
  },
  {
   "property": "C105",
   "status": "proved",
   "theorems": [
    "MPOpt.C105_solves",
    "MPOpt.C105_solves_adaptive",
    "MPOpt.C105_solve",
    "MPOpt.C105_adaptive",
    "MPOpt.C105_h",
    "MPOpt.C105_first_phase_false",
    "MPOpt.C105_guess_false",
    "MPOpt.C105_example"
   ],
   "note": "C105_example: two runs meeting the hypotheses, with states, controls and path constraints exchanged. mid_residuals and slope bounds need the scale factors of states and controls renumbered as well."
  },
  {
   "property": "C106",
   "status": "proved",
   "theorems": [
    "MPOpt.C106_bound",
    "MPOpt.C106_continuous",
    "MPOpt.C106_lgr",
    "MPOpt.C106_solve",
    "MPOpt.C106_adaptive",
    "MPOpt.C106_h",
    "MPOpt.C106_mine_true",
    "MPOpt.C106_mine_solve",
    "MPOpt.C106_mine_adaptive",
    "MPOpt.C106_mine_h",
    "MPOpt.C106_mine_returns",
    "MPOpt.exampleMine",
    "MPOpt.exampleCertAdaptive",
    "MPOpt.exampleCertH",
    "MPOpt.C106_not_lobatto",
    "MPOpt.scriptMine_eq"
   ],
   "note": "The running cost u^2/x - u of the mine example is undefined at x = 0; there any value of at least |u| is allowed. exampleMine: the shipped call mpopt(ocp, 1, 30) returns with a perfect solver, and its cost is within 1e-18 of the true optimum; exampleCertAdaptive and exampleCertH: runs of the other classes."
  },
  {
   "property": "C107",
   "status": "proved",
   "theorems": [
    "MPOpt.C107_forward",
    "MPOpt.timesOrdered_default",
    "MPOpt.timesOrdered_Sch",
    "MPOpt.C107_at_least",
    "MPOpt.C107_race_true",
    "MPOpt.C107_race_attained",
    "MPOpt.C107_race_turn",
    "MPOpt.C107_solve",
    "MPOpt.C107_adaptive",
    "MPOpt.C107_h",
    "MPOpt.C107_solve_returns",
    "MPOpt.exampleRace",
    "MPOpt.exampleRaceAdaptive",
    "MPOpt.exampleRaceH",
    "MPOpt.C107_stay_true",
    "MPOpt.C107_stay_cost",
    "MPOpt.C107_never",
    "MPOpt.scriptRace_eq",
    "MPOpt.scriptStay_eq"
   ],
   "note": "scriptRace and scriptStay use the default time bounds, phase links and settings of the constructor. exampleRace, exampleRaceAdaptive, exampleRaceH: runs of the three classes with a perfect solver."
  },
  {
   "property": "C108",
   "status": "proved",
   "theorems": [
    "MPOpt.C108_blocked",
    "MPOpt.C108_blocked_continuous",
    "MPOpt.C108_rises",
    "MPOpt.C108_rises_continuous",
    "MPOpt.C108_refuted",
    "MPOpt.C108_refuted_continuous",
    "MPOpt.C108_solve",
    "MPOpt.C108_solve_shows",
    "MPOpt.C108_adaptive",
    "MPOpt.C108_h",
    "MPOpt.C108_test",
    "MPOpt.C108_test_solve",
    "MPOpt.exampleTest",
    "MPOpt.C108_haste",
    "MPOpt.C108_moon",
    "MPOpt.scriptTest_eq"
   ],
   "note": "scriptTest is the fixture test_ocp (tests/test_mpopt.py:88-110). Runs that meet the hypotheses of C108_moon: exampleML. For mpopt_h_adaptive the claim is about calls that end with widths filling the phases (C37)."
  },
  {
   "property": "C109",
   "status": "proved",
   "theorems": [
    "MPOpt.C109_exact",
    "MPOpt.C109_continuous",
    "MPOpt.C109_launch",
    "MPOpt.C109_launch_continuous",
    "MPOpt.C109_launch_cost",
    "MPOpt.C109_solve",
    "MPOpt.C109_adaptive",
    "MPOpt.C109_h",
    "MPOpt.C109_script",
    "MPOpt.exampleLaunch",
    "MPOpt.Launch.script_eq"
   ],
   "note": "The theorems about the launcher hold for any dynamics with the script's mass equation and any terminal constraints; exampleLaunch runs one of them (the launcher held on the ground). Whether the script's own forces and target admit a trajectory on a given mesh is not claimed."
  },
  {
   "property": "C110",
   "status": "proved",
   "theorems": [
    "MPOpt.C110_cosines",
    "MPOpt.C110_guess",
    "MPOpt.C110_four",
    "MPOpt.C110_accepted"
   ],
   "note": "Where CasADi yields nan (zero division, acos outside [-1,1]) the model has the values of Mathlib; at the states of the claim all these functions are defined."
  },
  {
   "property": "C111",
   "status": "proved",
   "theorems": [
    "MPOpt.C111_feasible",
    "MPOpt.C111_adaptive_feasible",
    "MPOpt.C111_cost",
    "MPOpt.C111_continuous",
    "MPOpt.C111_solve",
    "MPOpt.C111_adaptive",
    "MPOpt.C111_h",
    "MPOpt.C111_vdp_idle",
    "MPOpt.C111_vdp_parameter",
    "MPOpt.C111_vdp_solve",
    "MPOpt.C111_vdp_adaptive",
    "MPOpt.C111_vdp_h",
    "MPOpt.C111_vdp_returns",
    "MPOpt.C111_vdp_adaptive_returns",
    "MPOpt.C111_vdp_h_returns",
    "MPOpt.exampleVdp",
    "MPOpt.exampleVdpAdaptive",
    "MPOpt.exampleVdpH",
    "MPOpt.scriptVdp_eq"
   ],
   "note": "scriptVdp_eq: the script builds ocpVdp. The lower bound 5/8 is by C106. exampleVdp: the shipped call with 50 segments; exampleVdpH: the shipped loop, for every number of segments."
  },
  {
   "property": "C112",
   "status": "proved",
   "theorems": [
    "MPOpt.C112_integrates",
    "MPOpt.C112_sharp",
    "MPOpt.C112_certificate",
    "MPOpt.C112_solve_certificate",
    "MPOpt.C112_solve_beats",
    "MPOpt.C112_rest",
    "MPOpt.C112_adaptive_certificate",
    "MPOpt.C112_adaptive_beats",
    "MPOpt.C112_adaptive_rest",
    "MPOpt.C112_h_certificate",
    "MPOpt.C112_h_rest",
    "MPOpt.C112_fixture",
    "MPOpt.C112_fixture_adaptive",
    "MPOpt.C112_fixture_h",
    "MPOpt.C112_fixture_returns",
    "MPOpt.exampleFixtures",
    "MPOpt.fixtureVdp_eq"
   ],
   "note": "fixtureVdp_eq: the fixture builds ocpFix. exampleFixtures: the three fixtures with one segment of order 15."
  },
  {
   "property": "C113",
   "status": "proved",
   "theorems": [
    "MPOpt.C113_event",
    "MPOpt.C113_links",
    "MPOpt.C113_event_raises",
    "MPOpt.C113_nlp",
    "MPOpt.C113_nlp_adaptive",
    "MPOpt.C113_data",
    "MPOpt.C113_data_raises",
    "MPOpt.C113_residuals",
    "MPOpt.C113_states",
    "MPOpt.C113_last_fixed",
    "MPOpt.C113_last_states",
    "MPOpt.C113_last_raises",
    "MPOpt.C113_last_dynamics",
    "MPOpt.C113_last_second",
    "MPOpt.exampleNegativeLink",
    "MPOpt.exampleNegativePhase"
   ],
   "note": "Solution functions: those of mpopt, which mpopt_h_adaptive inherits. exampleNegativePhase: 1 works and -1 raises on the same solution."
  },
  {
   "property": "C114",
   "status": "proved",
   "theorems": [
    "MPOpt.lgr_right_rule",
    "MPOpt.lgr_deficit",
    "MPOpt.C114_balance",
    "MPOpt.C114_shrink",
    "MPOpt.C114_falls",
    "MPOpt.C114_solve",
    "MPOpt.C114_adaptive",
    "MPOpt.C114_h",
    "MPOpt.C114_still",
    "MPOpt.C114_still_phase",
    "MPOpt.C114_stuck",
    "MPOpt.C114_lobatto",
    "MPOpt.C114_turn",
    "MPOpt.C114_turn_solve",
    "MPOpt.C114_turn_adaptive",
    "MPOpt.C114_turn_h",
    "MPOpt.C114_turn_lobatto",
    "MPOpt.exampleTurn",
    "MPOpt.exampleTurnLobatto",
    "MPOpt.exampleLoss",
    "MPOpt.exampleFall",
    "MPOpt.scriptTurn_eq"
   ],
   "note": "exampleLoss, exampleFall: moving trajectories that lose. exampleTurn: for every number of segments of order 2."
  },
  {
   "property": "C115",
   "status": "proved",
   "theorems": [
    "MPOpt.C115_solves",
    "MPOpt.C115_cost",
    "MPOpt.C115_reached",
    "MPOpt.C115_best",
    "MPOpt.C115_solve",
    "MPOpt.C115_strict",
    "MPOpt.C115_solves_adaptive",
    "MPOpt.C115_reached_adaptive",
    "MPOpt.C115_best_adaptive",
    "MPOpt.C115_adaptive",
    "MPOpt.C115_h",
    "MPOpt.exampleFork",
    "MPOpt.exampleTwins",
    "MPOpt.exampleForkAdaptive"
   ],
   "note": "exampleFork: both ends are shown by runs with optimal solvers. exampleTwins: two equal parts get equal controls although guesses and scales differ."
  },
  {
   "property": "C116",
   "status": "proved",
   "theorems": [
    "MPOpt.C116_tail",
    "MPOpt.C116_put",
    "MPOpt.C116_cost",
    "MPOpt.C116_best",
    "MPOpt.C116_solve",
    "MPOpt.C116_best_widths",
    "MPOpt.C116_solve_widths",
    "MPOpt.exampleHold",
    "MPOpt.C116_tail_adaptive",
    "MPOpt.C116_put_adaptive",
    "MPOpt.C116_adaptive",
    "MPOpt.C116_h",
    "MPOpt.exampleHoldAdaptive"
   ],
   "note": "exampleHold, exampleHoldAdaptive: two runs with optimal solvers, of a problem with two linked phases and of what is left of it; the second goes twice as far, because its first control is free."
  }
 ]
}