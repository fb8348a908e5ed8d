{
 "claims": [
  {
   "property": "C01",
   "status": "proved",
   "theorems": [
    "Verif.Shooting.C01_history",
    "Verif.Shooting.C01_from_ctor",
    "Verif.Shooting.C01_threads",
    "Verif.Shooting.C01_threads_request"
   ],
   "note": ""
  },
  {
   "property": "C02",
   "status": "proved",
   "theorems": [
    "Verif.Shooting.C02_rejected_unchanged"
   ],
   "note": ""
  },
  {
   "property": "C03",
   "status": "proved",
   "theorems": [
    "Verif.Shooting.C03_sliding_window",
    "Verif.Shooting.C03_sliding_window_models"
   ],
   "note": ""
  },
  {
   "property": "C04",
   "status": "proved",
   "theorems": [
    "Verif.Shooting.C04_calc_value",
    "Verif.Shooting.C04_schedule_independent",
    "Verif.Shooting.C04_sizes",
    "Verif.Shooting.C04_reachable_distinct",
    "Verif.Shooting.C04_shared_data_counterexample"
   ],
   "note": "The property is conditional on each node owning its data; the counterexample shows that the condition is needed."
  },
  {
   "property": "C05",
   "status": "proved",
   "theorems": [
    "Verif.Shooting.C05_rollout",
    "Verif.Shooting.C05_rollout_no_gaps"
   ],
   "note": ""
  },
  {
   "property": "C06",
   "status": "partial",
   "theorems": [
    "Verif.Shooting.C06_single_consumer_partial",
    "Verif.Shooting.C06_two_consumers_counterexample"
   ],
   "note": "Holds for one consumer (any history). Missing, and false: several consumers share one flag (C06_two_consumers_counterexample)."
  },
  {
   "property": "C07",
   "status": "partial",
   "theorems": [
    "Verif.Shooting.C07_rejected_partial",
    "Verif.Shooting.C07_never_succeeds"
   ],
   "note": "Proved: a throwing call changes nothing. Missing, and false: the succeeding half; C07_never_succeeds shows every non-empty list reads out of bounds."
  },
  {
   "property": "C08",
   "status": "partial",
   "theorems": [
    "Verif.Shooting.C08_ctor",
    "Verif.Shooting.C08_ctorDatas_partial",
    "Verif.Shooting.C08_ctorDatas_counterexample"
   ],
   "note": "First constructor: exact. Second constructor: everything but the terminal dimensions, which the code does not check (counterexample)."
  },
  {
   "property": "C09",
   "status": "partial",
   "theorems": [
    "Verif.CostSum.C09_sets_total_partial",
    "Verif.CostSum.C09_active_dim_partial",
    "Verif.CostSum.C09_remove_inactive_counterexample",
    "Verif.CostSum.C09_duplicate_item_counterexample",
    "Verif.CostSum.C09_throws_iff",
    "Verif.CostSum.C09_effect"
   ],
   "note": "Missing, and false: removing an inactive item, adding an item object under an existing name (two counterexamples). Exact effect of every call: C09_effect, C09_throws_iff."
  },
  {
   "property": "C10",
   "status": "proved",
   "theorems": [
    "Verif.CostSum.C10_calc",
    "Verif.CostSum.C10_calc_terminal",
    "Verif.CostSum.C10_calcDiff",
    "Verif.CostSum.C10_calcDiff_terminal",
    "Verif.CostSum.C10_deactivate_eq_remove"
   ],
   "note": ""
  },
  {
   "property": "C11",
   "status": "partial",
   "theorems": [
    "Verif.CostSum.C11_paired_partial",
    "Verif.CostSum.C11_status_changes_keep_pairing",
    "Verif.CostSum.C11_swap_counterexample"
   ],
   "note": "Holds as long as no item is added or removed after the data was created; otherwise false (C11_swap_counterexample)."
  },
  {
   "property": "C12",
   "status": "proved",
   "theorems": [
    "Verif.Constraints.C12_history",
    "Verif.Constraints.C12_effect",
    "Verif.Constraints.C12_throws_iff"
   ],
   "note": ""
  },
  {
   "property": "C13",
   "status": "proved",
   "theorems": [
    "Verif.Constraints.C13_calc",
    "Verif.Constraints.C13_calcDiff",
    "Verif.Constraints.C13_calc_terminal",
    "Verif.Constraints.C13_calcDiff_terminal",
    "Verif.Constraints.C13_createData_fits",
    "Verif.Constraints.C13_resize",
    "Verif.Constraints.C13_rejects",
    "Verif.Constraints.C13_block"
   ],
   "note": ""
  },
  {
   "property": "C14",
   "status": "partial",
   "theorems": [
    "Verif.Constraints.C14_inactive_partial",
    "Verif.Constraints.C14_counterexample"
   ],
   "note": "Holds when the constraint is inactive at the moment its bounds change; false for active ones (C14_counterexample)."
  },
  {
   "property": "C15",
   "status": "partial",
   "theorems": [
    "Verif.Constraints.C15_throw_unchanged",
    "Verif.Constraints.C15_accepts_iff_partial",
    "Verif.Constraints.C15_history_partial",
    "Verif.Constraints.C15_counterexample",
    "Verif.Constraints.C15_nan_counterexample"
   ],
   "note": "Exact for arguments without illegal infinities or NaN; false with them (two counterexamples). Throwing calls never change anything (C15_throw_unchanged)."
  },
  {
   "property": "C16",
   "status": "partial",
   "theorems": [
    "Verif.Contacts.C16_names_total",
    "Verif.Contacts.C16_active_dim_partial",
    "Verif.Contacts.C16_effect",
    "Verif.Contacts.C16_computeAll",
    "Verif.Contacts.C16_throws_iff",
    "Verif.Contacts.C16_remove_inactive_counterexample"
   ],
   "note": "Missing, and false: active dimension after removing an inactive item."
  },
  {
   "property": "C17",
   "status": "proved",
   "theorems": [
    "Verif.Contacts.C17_calc",
    "Verif.Contacts.C17_calcDiff",
    "Verif.Contacts.C17_updateForce",
    "Verif.Contacts.C17_updateForceDiff",
    "Verif.Contacts.C17_createData_fits"
   ],
   "note": ""
  },
  {
   "property": "C18",
   "status": "partial",
   "theorems": [
    "Verif.Contacts.C18_last_wins",
    "Verif.Contacts.C18_sum_partial",
    "Verif.Contacts.C18_shared_joint_counterexample"
   ],
   "note": "Exact law is C18_last_wins; the sum law holds with at most one active contact per joint and is false otherwise."
  },
  {
   "property": "C19",
   "status": "partial",
   "theorems": [
    "Verif.Contacts.C19_contacts_partial",
    "Verif.Contacts.C19_impulses",
    "Verif.Contacts.C19_contacts_counterexample",
    "Verif.CostSum.C19_cost_sum",
    "Verif.Constraints.C19_constraint_manager",
    "Verif.Constraints.C19_residual_dims",
    "Verif.Constraints.C19_residual_counterexample"
   ],
   "note": "Cost sum, constraint manager, impulses: proved. Contacts lose compute_all_contacts, residual constraints lose removed bounds (counterexamples)."
  },
  {
   "property": "C20",
   "status": "partial",
   "theorems": [
    "Verif.Solver.C20_dynamic",
    "Verif.Solver.C20_equality",
    "Verif.Solver.C20_inequality_linf_partial",
    "Verif.Solver.C20_inequality_l1_partial",
    "Verif.Solver.C20_inequality_zero_iff",
    "Verif.Solver.C20_inequality_linf_counterexample",
    "Verif.Solver.C20_inequality_l1_counterexample",
    "Verif.Solver.C20_empty_horizon_counterexample"
   ],
   "note": "Dynamics and equalities: proved. Inequalities: false for the l1 norm with several constrained nodes and for the l-infinity norm with terminal constraints; zero exactly when feasible in every case (C20_inequality_zero_iff)."
  },
  {
   "property": "C21",
   "status": "partial",
   "theorems": [
    "Verif.Solver.C21_success",
    "Verif.Solver.C21_throw_partial",
    "Verif.Solver.C21_set_xs_us",
    "Verif.Solver.C21_atomic_counterexample"
   ],
   "note": "Missing, and false: a throw caused by the controls leaves the new states installed."
  },
  {
   "property": "C22",
   "status": "partial",
   "theorems": [
    "Verif.Solver.C22_setter_partial",
    "Verif.Solver.C22_rejected_unchanged",
    "Verif.Solver.C22_alphas_partial",
    "Verif.Solver.C22_history_partial",
    "Verif.Solver.C22_init",
    "Verif.Solver.C22_nan_counterexample",
    "Verif.Solver.C22_boxqp_counterexample",
    "Verif.Solver.C22_alphas_counterexample"
   ],
   "note": "Missing, and false: NaN arguments, BoxQP::set_th_acceptstep, a single step length."
  },
  {
   "property": "C23",
   "status": "partial",
   "theorems": [
    "Verif.Solve.C23_retry_ends",
    "Verif.Solve.C23_retry_counterexample",
    "Verif.Solver.C23_bounds",
    "Verif.Solver.C23_reaches_max",
    "Verif.Solver.C23_bounds_counterexample",
    "Verif.Solver.C23_zero_counterexample"
   ],
   "note": "Holds for reg_min <= reg_max and a positive start; false otherwise (three counterexamples)."
  },
  {
   "property": "C24",
   "status": "partial",
   "theorems": [
    "Verif.Solve.C24_success_partial",
    "Verif.Solve.C24_iterations",
    "Verif.Solve.C24_failure",
    "Verif.Solve.C24_terminates"
   ],
   "note": "Missing, and false: the rollout part for nodes without controls whose calc(x) differs from calc(x,u) (C27_autonomous_counterexample)."
  },
  {
   "property": "C25",
   "status": "partial",
   "theorems": [
    "Verif.Solve.C25_step_partial",
    "Verif.Solve.C25_monotone_partial"
   ],
   "note": "Same exclusion as C24; the gradient condition of the statement is a hypothesis."
  },
  {
   "property": "C26",
   "status": "partial",
   "theorems": [
    "Verif.Solve.C26_cost_partial"
   ],
   "note": "Same exclusion as C24."
  },
  {
   "property": "C27",
   "status": "partial",
   "theorems": [
    "Verif.Solve.C27_rollout_partial",
    "Verif.Solve.C27_policy",
    "Verif.Solve.C27_step_range",
    "Verif.Solve.C27_candidate_kept",
    "Verif.Solve.Autonomous.C27_autonomous_counterexample"
   ],
   "note": "Same exclusion as C24, shown necessary by C27_autonomous_counterexample."
  },
  {
   "property": "C28",
   "status": "partial",
   "theorems": [
    "Verif.Solve.C28_contraction_partial",
    "Verif.Solve.C28_feasible_partial",
    "Verif.Solve.C28_gaps_stored"
   ],
   "note": "Same exclusion as C24."
  },
  {
   "property": "C29",
   "status": "proved",
   "theorems": [
    "Verif.Lq.C29_optimal",
    "Verif.Lq.C29_unique",
    "Verif.Lq.C29_value_function"
   ],
   "note": ""
  },
  {
   "property": "C30",
   "status": "proved",
   "theorems": [
    "Verif.Lq.C30_exact",
    "Verif.Lq.C30_fddp_feasible",
    "Verif.Lq.C30_fddp_full_step"
   ],
   "note": ""
  },
  {
   "property": "C31",
   "status": "partial",
   "theorems": [
    "Verif.Solve.C31_limits_partial",
    "Verif.Solve.C31_iteration_partial",
    "Verif.Solve.OneSided.C31_one_sided_counterexample"
   ],
   "note": "Missing, and false: nodes with limits on one side only (C31_one_sided_counterexample)."
  },
  {
   "property": "C32",
   "status": "partial",
   "theorems": [
    "Verif.BoxQp.C32_in_box",
    "Verif.BoxQp.C32_partition_partial",
    "Verif.BoxQp.C32_clamped_at_bound",
    "Verif.BoxQp.Demo.C32_partition_counterexample"
   ],
   "note": "In-box part: proved for all inputs. Partition: needs maxiter > 0 (counterexample)."
  },
  {
   "property": "C33",
   "status": "partial",
   "theorems": [
    "Verif.BoxQp.C33_no_threshold_partial",
    "Verif.BoxQp.C33_interior_partial",
    "Verif.BoxQp.C33_diagonal_partial",
    "Verif.BoxQp.Demo.C33_counterexample"
   ],
   "note": "False in general (C33_counterexample: wrong sign in the acceptance test). Proved: no threshold, interior results, diagonal Hessians."
  },
  {
   "property": "C34",
   "status": "partial",
   "theorems": [
    "Verif.BoxQp.C34_kkt_partial",
    "Verif.BoxQp.C34_near_optimal_partial",
    "Verif.BoxQp.C34_minimises_partial",
    "Verif.BoxQp.Demo.C34_reg_counterexample"
   ],
   "note": "Proved without regularisation; false with it (C34_reg_counterexample)."
  },
  {
   "property": "C35",
   "status": "partial",
   "theorems": [
    "Verif.Solve.C35_boxddp_partial",
    "Verif.Solve.C35_boxddp_interior",
    "Verif.Solve.BoxGap.C35_boxddp_counterexample"
   ],
   "note": "Proved for feasible candidates, for full steps, and when no control is clamped; false otherwise (C35_boxddp_counterexample)."
  },
  {
   "property": "C36",
   "status": "partial",
   "theorems": [
    "Verif.Kkt.C36_terminates_partial",
    "Verif.Kkt.C36_counterexample",
    "Verif.Kkt.C36_iterations"
   ],
   "note": "Ends whenever the linear solve does not throw forever; otherwise it never ends (C36_counterexample)."
  },
  {
   "property": "C37",
   "status": "proved",
   "theorems": [
    "Verif.Integrators.C37_step",
    "Verif.Integrators.C37_init",
    "Verif.Integrators.C37_euler",
    "Verif.Integrators.C37_zero_step",
    "Verif.Integrators.C37_terminal"
   ],
   "note": ""
  },
  {
   "property": "C38",
   "status": "partial",
   "theorems": [
    "Verif.Integrators.C38_jacobians",
    "Verif.Integrators.C38_hessians",
    "Verif.Integrators.C38_terminal_partial",
    "Verif.Integrators.C38_terminal_counterexample"
   ],
   "note": "Running call: proved. Terminal call: only on a data never used for a running node (counterexample)."
  },
  {
   "property": "C39",
   "status": "proved",
   "theorems": [
    "Verif.Integrators.C39_order",
    "Verif.Integrators.C39_constant"
   ],
   "note": ""
  },
  {
   "property": "C40",
   "status": "partial",
   "theorems": [
    "Verif.Integrators.C40_jacobians_partial",
    "Verif.Integrators.C40_rk3_partial",
    "Verif.Integrators.C40_counterexample"
   ],
   "note": "RK2 and RK4: exact. RK3: control derivatives exact, state derivatives under a condition; false in general."
  },
  {
   "property": "C41",
   "status": "partial",
   "theorems": [
    "Verif.Controls.C41_round_trip_partial",
    "Verif.Controls.C41_nodes_partial",
    "Verif.Controls.C41_counterexample",
    "Verif.Controls.C41_rejects"
   ],
   "note": "All parametrisations but PolyTwoRK(two), which evaluates to zero (counterexample)."
  },
  {
   "property": "C42",
   "status": "partial",
   "theorems": [
    "Verif.Controls.C42_bounds_iff_partial",
    "Verif.Controls.C42_counterexample",
    "Verif.Controls.C42_matched",
    "Verif.Controls.C42_convert"
   ],
   "note": "False for the linear and quadratic parametrisations; C42_bounds_iff_partial gives exactly the times at which it holds."
  },
  {
   "property": "C43",
   "status": "proved",
   "theorems": [
    "Verif.Controls.C43_product",
    "Verif.Controls.C43_transposed_product",
    "Verif.Controls.C43_jacobian",
    "Verif.Controls.C43_rejects",
    "Verif.Controls.C43_jacobian_exists"
   ],
   "note": ""
  },
  {
   "property": "C44",
   "status": "partial",
   "theorems": [
    "Verif.StateVector.C44_integrate_diff",
    "Verif.StateVector.C44_diff_integrate",
    "Verif.StateVector.C44_neutral",
    "Verif.StateVector.C44_rejects",
    "Verif.StateVector.C44_Jdiff",
    "Verif.StateVector.C44_Jintegrate_partial",
    "Verif.StateVector.C44_setto_counterexample",
    "Verif.StateVector.C44_J_rejects",
    "Verif.StateVector.C44_transport",
    "Verif.StateVector.C44_alias",
    "Verif.StateVector.C44_limits"
   ],
   "note": "All but Jintegrate with setto on a buffer with nonzero off-diagonal entries (counterexample)."
  },
  {
   "property": "C45",
   "status": "partial",
   "theorems": [
    "Verif.Activations.C45_value",
    "Verif.Activations.C45_gradient_partial",
    "Verif.Activations.C45_differentiable",
    "Verif.Activations.C45_flat_finite",
    "Verif.Activations.C45_flat_zero_counterexample"
   ],
   "note": "False for alpha = 0 of the two flat activations, which the constructors accept: every entry of the gradient is NaN (C45_flat_zero_counterexample, with IEEE special values). Proved for all other parameters; the real-valued model agrees with the floating-point one there up to rounding (C45_flat_finite)."
  },
  {
   "property": "C46",
   "status": "partial",
   "theorems": [
    "Verif.Activations.C46_relation",
    "Verif.Activations.C46_diagonal_partial",
    "Verif.Activations.C46_separable",
    "Verif.Activations.C46_gauss_newton",
    "Verif.Activations.C46_weightedBarrier_counterexample",
    "Verif.Activations.C46_smooth1_counterexample",
    "Verif.Activations.C46_smooth2_counterexample",
    "Verif.Activations.C46_quadratic_history"
   ],
   "note": "False for the weighted barrier and the smooth norms (three counterexamples with the exact stored factor in C46_relation)."
  },
  {
   "property": "C47",
   "status": "partial",
   "theorems": [
    "Verif.Activations.C47_hessian_partial",
    "Verif.Activations.C47_value_gradient",
    "Verif.Activations.C47_stale_counterexample",
    "Verif.Activations.C47_weightedBarrier"
   ],
   "note": "One data object; false with two (C47_stale_counterexample)."
  },
  {
   "property": "C48",
   "status": "partial",
   "theorems": [
    "Verif.Activations.C48_barrier_zero",
    "Verif.Activations.C48_weightedBarrier_zero",
    "Verif.Activations.C48_gradient_sign",
    "Verif.Bounds.C48_accepts_iff",
    "Verif.Bounds.C48_bounds",
    "Verif.Bounds.C48_beta_one",
    "Verif.Bounds.C48_copy",
    "Verif.Bounds.C48_cast_partial",
    "Verif.Bounds.C48_cast_nested",
    "Verif.Bounds.C48_cast_counterexample",
    "Verif.Bounds.C48_infinite_counterexample"
   ],
   "note": "Missing, and false: cast with beta < 1, lower bound +inf."
  },
  {
   "property": "C49",
   "status": "partial",
   "theorems": [
    "Verif.Lqr.C49_value",
    "Verif.Lqr.C49_value_terminal",
    "Verif.Lqr.C49_terminal_state",
    "Verif.Lqr.C49_solver_stage",
    "Verif.Lqr.C49_gradient_partial",
    "Verif.Lqr.C49_gradient_terminal_partial",
    "Verif.Lqr.C49_derivatives_partial",
    "Verif.Lqr.C49_hessian",
    "Verif.Lqr.C49_terminal_partial",
    "Verif.Lqr.C49_fixed_parameters_partial",
    "Verif.Lqr.C49_two_datas_counterexample",
    "Verif.Lqr.C49_terminal_first_counterexample",
    "Verif.Lqr.C49_odd_counterexample",
    "Verif.Lqr.C49_asymmetric_counterexample"
   ],
   "note": "Values: proved for every history. Derivatives: one data object, or fixed parameters; false otherwise (four counterexamples)."
  },
  {
   "property": "C50",
   "status": "proved",
   "theorems": [
    "Verif.Unicycle.C50_value",
    "Verif.Unicycle.C50_derivatives",
    "Verif.Unicycle.C50_terminal",
    "Verif.Unicycle.C50_dt_pos"
   ],
   "note": ""
  },
  {
   "property": "C51",
   "status": "proved",
   "theorems": [
    "Verif.NumDiff.C51_quotients",
    "Verif.NumDiff.C51_quotients_terminal",
    "Verif.NumDiff.C51_exact",
    "Verif.NumDiff.C51_exact_terminal",
    "Verif.NumDiff.C51_symmetric",
    "Verif.NumDiff.C51_consistent",
    "Verif.NumDiff.C51_hessians_consistent",
    "Verif.NumDiff.C51_debug_counterexample",
    "Verif.NumDiff.C51_zero_disturbance_counterexample"
   ],
   "note": "For release builds and a nonzero disturbance; the counterexamples show that both conditions are needed."
  },
  {
   "property": "C52",
   "status": "proved",
   "theorems": [
    "Verif.ResidualCost.C52_gauss_newton",
    "Verif.ResidualCost.C52_gauss_newton_terminal",
    "Verif.ResidualCost.C52_value",
    "Verif.ResidualCost.C52_value_terminal",
    "Verif.ResidualCost.C52_gradient",
    "Verif.ResidualCost.C52_psd",
    "Verif.ResidualCost.C52_control",
    "Verif.ResidualCost.C52_state_vector",
    "Verif.ResidualCost.C52_control_history",
    "Verif.ResidualCost.C52_state_vector_history",
    "Verif.ResidualCost.C52_state_multibody"
   ],
   "note": ""
  },
  {
   "property": "C53",
   "status": "partial",
   "theorems": [
    "Verif.Cones.C53_even_facets",
    "Verif.Cones.C53_inner_partial",
    "Verif.Cones.C53_outer",
    "Verif.Cones.C53_tight",
    "Verif.Cones.C53_two_facets_counterexample",
    "Verif.Cones.C53_normal_counterexample"
   ],
   "note": "At least four facets; false with two, and for the calls that take a normal (two counterexamples)."
  },
  {
   "property": "C54",
   "status": "partial",
   "theorems": [
    "Verif.Cones.C54_friction_create",
    "Verif.Cones.C54_friction_setters_counterexample",
    "Verif.Cones.C54_friction_partial",
    "Verif.Cones.C54_wrench",
    "Verif.Cones.C54_wrench_box_counterexample"
   ],
   "note": "Wrench cone setters: proved. False for the friction cone setters and the wrench cone box."
  },
  {
   "property": "C55",
   "status": "proved",
   "theorems": [
    "Verif.Cones.C55_wrench",
    "Verif.Cones.C55_coulomb",
    "Verif.Cones.C55_necessary",
    "Verif.Cones.C55_cop",
    "Verif.Cones.C55_cop_point"
   ],
   "note": ""
  },
  {
   "property": "C56",
   "status": "proved",
   "theorems": [
    "Verif.Act.C56_range",
    "Verif.Act.C56_derivative",
    "Verif.Act.C56_jacobian",
    "Verif.Act.C56_monotone",
    "Verif.Act.C56_close",
    "Verif.Act.C56_unchecked_counterexample",
    "Verif.Act.C56_zero_counterexample"
   ],
   "note": "For u_lb <= u_ub and, for the derivative, a positive smoothing; the counterexamples show that the code does not enforce them."
  },
  {
   "property": "C57",
   "status": "partial",
   "theorems": [
    "Verif.Act.C57_floating",
    "Verif.Act.C57_full",
    "Verif.Act.C57_floating_derivatives",
    "Verif.Act.C57_squashing_partial",
    "Verif.Act.C57_squashing_commands_counterexample",
    "Verif.Act.C57_squashing_inverse_counterexample",
    "Verif.Act.C57_squashing_dx_counterexample"
   ],
   "note": "Full and floating-base actuation: proved. Squashed actuation: values and control derivatives proved; commands and dtau_dx are wrong (three counterexamples)."
  },
  {
   "property": "C58",
   "status": "partial",
   "theorems": [
    "Verif.Act.C58_construct",
    "Verif.Act.C58_accumulates",
    "Verif.Act.C58_stored",
    "Verif.Act.C58_commands",
    "Verif.Act.C58_constant_partial",
    "Verif.Act.C58_single",
    "Verif.Act.C58_first",
    "Verif.Act.C58_reject",
    "Verif.Act.C58_replace_counterexample",
    "Verif.Act.C58_stale_counterexample"
   ],
   "note": "False: thrust maps accumulate and only one data object is refreshed; C58_accumulates gives the exact result of every history."
  },
  {
   "property": "C59",
   "status": "partial",
   "theorems": [
    "Verif.Ipopt.C59_variables",
    "Verif.Ipopt.C59_constraints_partial",
    "Verif.Ipopt.C59_resize_counterexample",
    "Verif.Ipopt.C59_jacobian_count",
    "Verif.Ipopt.C59_hessian_count"
   ],
   "note": "Missing, and false: the number of constraints after a resize."
  },
  {
   "property": "C60",
   "status": "partial",
   "theorems": [
    "Verif.Ipopt.C60_jacobian",
    "Verif.Ipopt.C60_hessian_partial",
    "Verif.Ipopt.C60_objective_partial",
    "Verif.Ipopt.C60_gradient",
    "Verif.Ipopt.C60_constraints",
    "Verif.Ipopt.C60_constraint_jacobian_partial",
    "Verif.Ipopt.C60_hessian_blocks_partial",
    "Verif.Ipopt.C60_factor_counterexample",
    "Verif.Ipopt.C60_stale_counterexample"
   ],
   "note": "Gradient, constraints, Jacobian places: proved. Missing, and false: eval_f with a nonzero initial value, the terminal Hessian factor, evaluations after a change of point."
  },
  {
   "property": "C61",
   "status": "partial",
   "theorems": [
    "Verif.Gaits.C61_count_order",
    "Verif.Gaits.C61_swing",
    "Verif.Gaits.C61_touchdown_partial",
    "Verif.Gaits.C61_touchdown_counterexample",
    "Verif.Gaits.C61_com"
   ],
   "note": "Missing, and false: touch-down with an even number of knots or one knot."
  },
  {
   "property": "C62",
   "status": "proved",
   "theorems": [
    "Verif.Shooting.C62_update_effect"
   ],
   "note": ""
  },
  {
   "property": "C63",
   "status": "partial",
   "theorems": [
    "Verif.Kkt.C63_affine_partial",
    "Verif.Kkt.Demo.C63_feasibility_counterexample"
   ],
   "note": "Affine dynamics and full steps only; false for nonlinear dynamics."
  },
  {
   "property": "C64",
   "status": "partial",
   "theorems": [
    "Verif.Kkt.C64_fresh_partial",
    "Verif.Kkt.Demo.C64_stale_counterexample"
   ],
   "note": "Proved without exceptions; false after one."
  },
  {
   "property": "C65",
   "status": "proved",
   "theorems": [
    "Verif.Lq.C65_descent",
    "Verif.Lq.C65_stationary"
   ],
   "note": ""
  },
  {
   "property": "C66",
   "status": "proved",
   "theorems": [
    "Verif.Lq.C66_never_throws"
   ],
   "note": ""
  },
  {
   "property": "C67",
   "status": "proved",
   "theorems": [
    "Verif.Lq.C67_one_iteration",
    "Verif.Lq.C67_converges"
   ],
   "note": ""
  },
  {
   "property": "C68",
   "status": "proved",
   "theorems": [
    "Verif.BoxQp.C68_full_step_in_limits",
    "Verif.BoxQp.C68_clamped_rows",
    "Verif.BoxQp.C68_free_rows",
    "Verif.BoxQp.C68_near_optimal"
   ],
   "note": ""
  },
  {
   "property": "C69",
   "status": "partial",
   "theorems": [
    "Verif.Lqr.C69_constructor",
    "Verif.Lqr.C69_set_partial",
    "Verif.Lqr.C69_set_counterexample"
   ],
   "note": "Constructor: exact. set_LQR: does not check the columns of A and B (counterexample)."
  },
  {
   "property": "C70",
   "status": "partial",
   "theorems": [
    "Verif.Act.C70_smooth_sat_cast_counterexample",
    "Verif.NumDiff.C70_numdiff_counterexample",
    "Verif.NumDiffC.C70_contact_numdiff_counterexample",
    "Verif.NumDiffD.C70_diffnumdiff_counterexample",
    "Verif.Unicycle.C70_unicycle_counterexample"
   ],
   "note": "False for the unicycle, the finite-difference wrapper and the smooth saturation (counterexamples)."
  },
  {
   "property": "C71",
   "status": "proved",
   "theorems": [
    "Verif.Ipopt.C71_warm_start",
    "Verif.Ipopt.C71_bounds"
   ],
   "note": ""
  },
  {
   "property": "C72",
   "status": "proved",
   "theorems": [
    "Verif.Intro.C72_constraint",
    "Verif.Intro.C72_optimal",
    "Verif.Intro.C72_never_throws",
    "Verif.Intro.C72_rank_counterexample"
   ],
   "note": "C72_rank_counterexample shows that independence is needed by the null-space solvers."
  },
  {
   "property": "C73",
   "status": "proved",
   "theorems": [
    "Verif.Intro.C73_value"
   ],
   "note": ""
  },
  {
   "property": "C74",
   "status": "partial",
   "theorems": [
    "Verif.Intro.C74_residual",
    "Verif.Intro.C74_optimal_partial",
    "Verif.Intro.C74_unique_partial",
    "Verif.Intro.C74_predicted",
    "Verif.Intro.C74_terminal_counterexample"
   ],
   "note": "Missing, and false: terminal constraints and nodes without controls (C74_terminal_counterexample)."
  },
  {
   "property": "C75",
   "status": "proved",
   "theorems": [
    "Verif.IntroSolve.C75_success",
    "Verif.IntroSolve.C75_reports",
    "Verif.IntroSolve.C75_merit",
    "Verif.IntroSolve.C75_terminates",
    "Verif.IntroSolve.C75_flag_counterexample"
   ],
   "note": "With an honest feasibility flag of the initial guess; C75_flag_counterexample shows that it is needed."
  },
  {
   "property": "C76",
   "status": "partial",
   "theorems": [
    "Verif.IntroSolve.C76_merit_partial",
    "Verif.IntroSolve.C76_negative_counterexample"
   ],
   "note": "False for steps with a negative prediction (C76_negative_counterexample)."
  },
  {
   "property": "C77",
   "status": "partial",
   "theorems": [
    "Verif.IntroSolve.C77_penalty_partial",
    "Verif.IntroSolve.C77_counterexample"
   ],
   "note": "Only if the cost is predicted not to increase; false otherwise (C77_counterexample)."
  },
  {
   "property": "C78",
   "status": "partial",
   "theorems": [
    "Verif.NdMore.C78_quotients",
    "Verif.NdMore.C78_quotients_terminal_partial",
    "Verif.NdMore.C78_quotients_stale_partial",
    "Verif.NdMore.C78_consistent",
    "Verif.NdMore.C78_consistent_terminal_partial",
    "Verif.NdMore.C78_exact",
    "Verif.NdMore.C78_disturbance",
    "Verif.NdMore.C78_residual_counterexample"
   ],
   "note": "False at terminal nodes of the residual wrapper, whose step is the one left by an earlier call or uninitialised (C78_residual_counterexample, C78_quotients_stale_partial); everything else is proved."
  },
  {
   "property": "C79",
   "status": "partial",
   "theorems": [
    "Verif.NdMore.C79_gauss",
    "Verif.NdMore.C79_gauss_terminal",
    "Verif.NdMore.C79_exact",
    "Verif.NdMore.C79_activation_partial",
    "Verif.NdMore.C79_activation_counterexample"
   ],
   "note": "False for the Hessian of an activation, which is the squared gradient (C79_activation_counterexample); costs and gradients are proved."
  },
  {
   "property": "C80",
   "status": "partial",
   "theorems": [
    "Verif.NdMore.C80_control_partial",
    "Verif.NdMore.C80_control_counterexample",
    "Verif.NdMore.C80_state",
    "Verif.NdMore.C80_state_exact",
    "Verif.NdMore.C80_assign_counterexample",
    "Verif.NdMore.C80_transport_counterexample"
   ],
   "note": "False: the control value after calc alone, the assignment operator of Jintegrate and JintegrateTransport (C80_*_counterexample); everything else is proved."
  },
  {
   "property": "C81",
   "status": "proved",
   "theorems": [
    "Verif.Fwd.C81_free",
    "Verif.Fwd.C81_contact",
    "Verif.Fwd.C81_gauss",
    "Verif.Fwd.C81_damping",
    "Verif.Fwd.C81_armature"
   ],
   "note": ""
  },
  {
   "property": "C82",
   "status": "partial",
   "theorems": [
    "Verif.Fwd.C82_free",
    "Verif.Fwd.C82_contact_partial",
    "Verif.Fwd.C82_same_joint_counterexample"
   ],
   "note": "With contacts, proved if no two active contacts share a joint; false otherwise (C82_same_joint_counterexample). Without contacts, proved."
  },
  {
   "property": "C83",
   "status": "partial",
   "theorems": [
    "Verif.Fwd.C83_impact",
    "Verif.Fwd.C83_energy",
    "Verif.Fwd.C83_derivatives_partial",
    "Verif.Fwd.C83_restitution_counterexample",
    "Verif.Fwd.C83_armature_counterexample",
    "Verif.Fwd.C83_same_joint_counterexample"
   ],
   "note": "The derivatives are false with restitution, with armature and for impulses that share a joint (C83_restitution_counterexample, C83_armature_counterexample, C83_same_joint_counterexample); proved otherwise. The impact equations and the energy are proved."
  },
  {
   "property": "C84",
   "status": "proved",
   "theorems": [
    "Verif.Fwd.C84_free",
    "Verif.Fwd.C84_contact"
   ],
   "note": ""
  },
  {
   "property": "C85",
   "status": "partial",
   "theorems": [
    "Verif.Inv.C85_defined",
    "Verif.Inv.C85_motion_partial",
    "Verif.Inv.C85_forward_partial",
    "Verif.Inv.C85_jacobians_partial",
    "Verif.Inv.C85_static_partial",
    "Verif.Inv.C85_inactive_counterexample",
    "Verif.Inv.C85_same_joint_counterexample",
    "Verif.Inv.C85_static_counterexample",
    "Verif.Inv.C85_thruster_counterexample",
    "Verif.Inv.C85_twin_thrusters_counterexample"
   ],
   "note": "Proved if no two active contacts share a joint and the actuation drives as many joints as it has controls; quasiStatic with all contacts active; derivatives of active contacts. False otherwise (C85_*_counterexample)."
  },
  {
   "property": "C86",
   "status": "partial",
   "theorems": [
    "Verif.Con.C86_point",
    "Verif.Con.C86_hold",
    "Verif.Con.C86_line_partial",
    "Verif.Con.C86_frame",
    "Verif.Con.C86_frame_hold",
    "Verif.Con.C86_plane_partial",
    "Verif.Con.C86_axis_counterexample",
    "Verif.Con.C86_plane_counterexample",
    "Verif.Con.C86_affine"
   ],
   "note": "Proved for points, frames and affinity. One dimension: proved for the constrained direction, which is not the announced one (C86_axis_counterexample). Two dimensions: proved as the code has it, a mixture of directions that need not stabilise (C86_plane_counterexample)."
  },
  {
   "property": "C87",
   "status": "partial",
   "theorems": [
    "Verif.Con.C87_point",
    "Verif.Con.C87_line",
    "Verif.Con.C87_frame",
    "Verif.Con.C87_plane_partial",
    "Verif.Con.C87_plane_counterexample"
   ],
   "note": "Proved for one, three and six dimensions. Two dimensions: proved for the terms the code has; the full claim is false (C87_plane_counterexample)."
  },
  {
   "property": "C88",
   "status": "partial",
   "theorems": [
    "Verif.Con.C88_forces",
    "Verif.Con.C88_torques",
    "Verif.Con.C88_torques_plane",
    "Verif.Con.C88_report_counterexample"
   ],
   "note": "Proved, except that the force of two dimensions is reported in the directions of the joint (C88_report_counterexample)."
  },
  {
   "property": "C89",
   "status": "partial",
   "theorems": [
    "Verif.Con.C89_point",
    "Verif.Con.C89_frame_partial",
    "Verif.Con.C89_world_counterexample"
   ],
   "note": "Proved for points, and for frames of type LOCAL and LOCAL_WORLD_ALIGNED; false for WORLD (C89_world_counterexample)."
  },
  {
   "property": "C90",
   "status": "proved",
   "theorems": [
    "Verif.Fr.C90_translation",
    "Verif.Fr.C90_rotation",
    "Verif.Fr.C90_placement",
    "Verif.Fr.C90_velocity",
    "Verif.Fr.C90_velocity_meaning"
   ],
   "note": ""
  },
  {
   "property": "C91",
   "status": "partial",
   "theorems": [
    "Verif.Frc.C91_exact_force",
    "Verif.Frc.C91_exact_friction_partial",
    "Verif.Frc.C91_exact_wrench",
    "Verif.Frc.C91_forward",
    "Verif.Frc.C91_values",
    "Verif.Frc.C91_stored",
    "Verif.Frc.C91_terminal",
    "Verif.Frc.C91_refused",
    "Verif.Frc.C91_inverse_partial",
    "Verif.Frc.C91_shared_counterexample",
    "Verif.Frc.C91_plane_counterexample",
    "Verif.Frc.C91_inactive_counterexample"
   ],
   "note": "Proved in forward dynamics, except the friction cone of a contact of two dimensions whose frame is turned in its joint (C91_plane_counterexample). Inverse dynamics: proved for a node refreshed first after a change of reference; false for the nodes after it (C91_shared_counterexample) and for inactive contacts (C91_inactive_counterexample)."
  },
  {
   "property": "C92",
   "status": "partial",
   "theorems": [
    "Verif.Jr.C92_effort",
    "Verif.Jr.C92_effort_makers",
    "Verif.Jr.C92_effort_uninitialised_counterexample",
    "Verif.Jr.C92_effort_size_counterexample",
    "Verif.Jr.C92_acceleration_partial",
    "Verif.Jr.C92_acceleration_counterexample",
    "Verif.Jr.C92_gravity_partial",
    "Verif.Jr.C92_gravity_counterexample",
    "Verif.Jr.C92_contact_gravity_partial",
    "Verif.Jr.C92_contact_gravity_counterexample",
    "Verif.Jr.C92_com",
    "Verif.Jr.C92_momentum",
    "Verif.Jr.C92_impulse"
   ],
   "note": "Proved for efforts (three of four constructors), centre of mass, momentum and impulses. False: efforts with the fourth constructor or a reference of the wrong size, the derivative of the acceleration at terminal nodes, gravity with torques that depend on the state, gravity in contact with contact forces (C92_*_counterexample)."
  },
  {
   "property": "C93",
   "status": "partial",
   "theorems": [
    "Verif.Fsh.C93_fresh_partial",
    "Verif.Fsh.C93_stale_counterexample",
    "Verif.Fsh.C93_contacts"
   ],
   "note": "Proved for the residuals each action model supports (tables) and for contacts and impulses; false for the others (C93_stale_counterexample) except the value of the momentum in free dynamics that call computeAllTerms and some derivatives in free dynamics, left undecided. Both rest on bounds on what Pinocchio writes, stated as hypotheses; Pinocchio was not available, so those bounds are unchecked."
  },
  {
   "property": "C94",
   "status": "partial",
   "theorems": [
    "Verif.Cg.C94_made_iff",
    "Verif.Cg.C94_generated_partial",
    "Verif.Cg.C94_defined",
    "Verif.Cg.C94_autodiff_partial",
    "Verif.Cg.C94_branch_counterexample",
    "Verif.Cg.C94_residual_counterexample",
    "Verif.Cg.C94_limits_counterexample",
    "Verif.Cg.C94_check_counterexample",
    "Verif.Cg.C94_quasi_counterexample",
    "Verif.Cg.C94_manifold_counterexample",
    "Verif.Cg.C94_activated_counterexample"
   ],
   "note": "Proved for models without constraints, for inputs whose comparisons turn out as at the recording point; with automatic differentiation for states whose coordinates are their directions. False: constraints (generation or a later activation is undefined), other branches, residual, control limits, checkData, parameters of the quasi-static control, automatic derivatives on manifolds (C94_*_counterexample). Rests on stated, unchecked assumptions about CppAD (replay; exactness of Jacobian and Hessian is a hypothesis)."
  },
  {
   "property": "C95",
   "status": "partial",
   "theorems": [
    "Verif.Cg.C95_reload",
    "Verif.Cg.C95_load_partial",
    "Verif.Cg.C95_copy_partial",
    "Verif.Cg.C95_copy_counterexample",
    "Verif.Cg.C95_load_counterexample",
    "Verif.Cg.C95_tangent_counterexample"
   ],
   "note": "Loading with the same dimensions: proved. Rejection: proved for numbers of coordinates, controls and parameters of models without constraints; the tangent dimension is not compared, and with constraints not even the number of coordinates (C95_tangent_counterexample, C95_load_counterexample). Copies: proved with analytical derivatives, false with automatic ones and for loaded models (C95_copy_counterexample)."
  },
  {
   "property": "C96",
   "status": "partial",
   "theorems": [
    "Verif.Qs.C96_penrose_partial",
    "Verif.Qs.C96_cutoff",
    "Verif.Qs.C96_small_counterexample",
    "Verif.Qs.C96_empty_counterexample"
   ],
   "note": "Proved when no singular value lies strictly between zero and the cut-off; for every matrix, three of the four equations and a bound on the error of the fourth (C96_cutoff). False otherwise (C96_small_counterexample); empty matrices are an out-of-range read (C96_empty_counterexample). The decomposition of Eigen is assumed (Svd.Of)."
  },
  {
   "property": "C97",
   "status": "partial",
   "theorems": [
    "Verif.Qs.C97_rejects",
    "Verif.Qs.C97_affine_action_partial",
    "Verif.Qs.C97_affine_diff_partial",
    "Verif.Qs.C97_static_x_partial",
    "Verif.Qs.C97_cutoff_partial",
    "Verif.Qs.C97_newton_partial",
    "Verif.Qs.C97_integrators",
    "Verif.Qs.C97_integrated_affine_partial",
    "Verif.Qs.C97_flat_counterexample",
    "Verif.Qs.C97_cycle_counterexample"
   ],
   "note": "Proved for models affine in the control at the state (C97_affine_*), with an error bound when the cut-off acts (C97_cutoff_partial), and for nonlinear ones a bound on the motion when the last step was short (C97_newton_partial). False in general: the iteration can stop at a stationary point of the model or cycle, and returns normally (C97_flat_counterexample, C97_cycle_counterexample)."
  },
  {
   "property": "C98",
   "status": "partial",
   "theorems": [
    "Verif.Limits.C98_setters",
    "Verif.Limits.C98_constraint_setters",
    "Verif.Limits.C98_flag_partial",
    "Verif.Limits.C98_flag_counterexample",
    "Verif.Limits.C98_clamp_partial",
    "Verif.Limits.C98_clamp_counterexample",
    "Verif.Limits.C98_ipopt_partial",
    "Verif.Limits.C98_integrated_partial",
    "Verif.Limits.C98_integrated_counterexample",
    "Verif.Limits.C98_integrated_bounds_counterexample"
   ],
   "note": "Setters proved for every history. The flag, the box solvers and Ipopt: proved when some lower and some upper limit is finite; false for limits on one side only, which are ignored (C98_flag_counterexample, C98_clamp_counterexample). Integrated models: proved at construction and after set_differential; false for limits set on the differential model later, and constraint bounds set on the integrated model have no effect (C98_integrated_counterexample, C98_integrated_bounds_counterexample)."
  },
  {
   "property": "C99",
   "status": "partial",
   "theorems": [
    "Verif.Limits.C99_copy_partial",
    "Verif.Limits.C99_copy_counterexample"
   ],
   "note": "Limits are kept, and models without controls behave the same. False for models with controls that rely on the call without control of the base class: on a copy it throws (C99_copy_counterexample)."
  },
  {
   "property": "C100",
   "status": "partial",
   "theorems": [
    "Verif.Mb.C100_rejects",
    "Verif.Mb.C100_integrate_diff",
    "Verif.Mb.C100_diff_integrate",
    "Verif.Mb.C100_zero",
    "Verif.Mb.C100_Jdiff_partial",
    "Verif.Mb.C100_Jintegrate_partial",
    "Verif.Mb.C100_Js",
    "Verif.Mb.C100_transport",
    "Verif.Mb.C100_Jdiff_rejects",
    "Verif.Mb.C100_unchecked_counterexample",
    "Verif.Mb.C100_stale_counterexample",
    "Verif.Mb.C100_limits_partial",
    "Verif.Mb.C100_root_counterexample",
    "Verif.Mb.C100_limit_setters",
    "Verif.Mb.C100_has_limits",
    "Verif.Mb.C100_cast_counterexample"
   ],
   "note": "Proved, given the group laws assumed of Pinocchio (Pin.Group, met by planar rotations: so2_group). Writing Jacobians is proved for clean buffers and false for buffers in use (C100_stale_counterexample); Jintegrate and JintegrateTransport read short states out of range (C100_unchecked_counterexample); the limits are wrong if the root joint is not first (C100_root_counterexample), and lost by cast (C100_cast_counterexample)."
  },
  {
   "property": "C101",
   "status": "partial",
   "theorems": [
    "Verif.Im.C101_state",
    "Verif.Im.C101_euler",
    "Verif.Im.C101_jacobians",
    "Verif.Im.C101_terminal_partial",
    "Verif.Im.C101_stale_counterexample",
    "Verif.Im.C101_terminal_counterexample"
   ],
   "note": "Value and derivatives are proved, given the group laws assumed of Pinocchio. Terminal nodes: exactly when the unwritten entries of Fx are zero before; false for data in use (C101_terminal_counterexample). calcDiff after calc without control is false (C101_stale_counterexample)."
  },
  {
   "property": "C102",
   "status": "partial",
   "theorems": [
    "Verif.Im.C102_scheme",
    "Verif.Im.C102_control",
    "Verif.Im.C102_jacobians_partial",
    "Verif.Im.C102_rk2_iff",
    "Verif.Im.C102_rk2_cost",
    "Verif.Im.C102_counterexample"
   ],
   "note": "The values, Fu and Lu, and Lx of RK2, are proved. Fx and Lx: proved when the accelerations do not depend on the configuration at the second stage, or for RK2 and RK4 when integration is a sum; Fx of RK2: exact condition (C102_rk2_iff). False otherwise: the second stage does not transport the velocity term to the stage (C102_counterexample), besides the wrong factor of RK3 (C40)."
  },
  {
   "property": "C103",
   "status": "partial",
   "theorems": [
    "Verif.Lq.C103_one_iteration_partial",
    "Verif.Lq.C103_converges_partial",
    "Verif.Lq.Toy.C103_one_iteration_counterexample"
   ],
   "note": "All feasible guesses, and all infeasible ones whose cost is not exactly the optimal cost; for such a guess the full step is rejected (C103_one_iteration_counterexample)."
  },
  {
   "property": "C104",
   "status": "partial",
   "theorems": [
    "Verif.Lq.C104_error",
    "Verif.Lq.C104_forward",
    "Verif.Lq.Toy.C104_exact_counterexample"
   ],
   "note": "Exact for the full step and for feasible candidates (C30). False for shorter steps (C104_exact_counterexample); C104_error gives the difference between prediction and decrease, for every problem, candidate and step; C104_forward ties it to the forward pass."
  },
  {
   "property": "C105",
   "status": "partial",
   "theorems": [
    "Verif.NumDiffD.C105_quotients",
    "Verif.NumDiffD.C105_quotients_terminal",
    "Verif.NumDiffD.C105_exact",
    "Verif.NumDiffD.C105_exact_terminal",
    "Verif.NumDiffD.C105_symmetric",
    "Verif.NumDiffD.C105_consistent",
    "Verif.NumDiffD.C105_hessians_consistent",
    "Verif.NumDiffD.C105_gauss_psd",
    "Verif.NumDiffD.C105_refusals",
    "Verif.NumDiffD.C105_quasiStatic",
    "Verif.NumDiffD.C105_debug_counterexample",
    "Verif.NumDiffD.C105_zero_disturbance_counterexample"
   ],
   "note": "Everything for libraries compiled with NDEBUG and positive disturbances; without NDEBUG the Hessians are not computed (C105_debug_counterexample), and set_disturbance accepts 0 (C105_zero_disturbance_counterexample). The gradients of quadratic costs are off by half a step times the curvature, as C105_exact states."
  },
  {
   "property": "C106",
   "status": "partial",
   "theorems": [
    "Verif.NumDiffC.C106_quotients_partial",
    "Verif.NumDiffC.C106_exact_partial",
    "Verif.NumDiffC.C106_consistent_partial",
    "Verif.NumDiffC.C106_refusals",
    "Verif.NumDiffC.C106_jacobian_counterexample",
    "Verif.NumDiffC.C106_force_kept",
    "Verif.NumDiffC.C106_force_counterexample",
    "Verif.NumDiffC.C106_leaves_disturbed",
    "Verif.NumDiffC.C106_repeat_counterexample",
    "Verif.NumDiffC.C106_no_reevals_counterexample"
   ],
   "note": "Drift and drift derivative. False for the contact Jacobian (C106_jacobian_counterexample), the force (C106_force_counterexample) and repeated calls (C106_repeat_counterexample); without re-evaluations the derivative is zero (C106_no_reevals_counterexample)."
  },
  {
   "property": "C107",
   "status": "partial",
   "theorems": [
    "Verif.Nl.C107_slope",
    "Verif.Nl.C107_ratio",
    "Verif.Nl.C107_slope_gaps_partial",
    "Verif.Nl.C107_gaps_counterexample"
   ],
   "note": "All feasible candidates. For infeasible candidates of the feasibility-driven solvers C107_slope_gaps_partial gives both first-order terms; they differ (C107_gaps_counterexample). Vector state, equal control dimensions, no control limits, real arithmetic."
  },
  {
   "property": "C108",
   "status": "proved",
   "theorems": [
    "Verif.Nl.C108_accepted",
    "Verif.Nl.C108_decreases"
   ],
   "note": "Vector state, equal positive control dimension, no control limits, real arithmetic; the box solvers are covered for problems without active limits, BoxDDP for feasible guesses (C35)."
  },
  {
   "property": "C109",
   "status": "proved",
   "theorems": [
    "Verif.Nl.C109_stationary",
    "Verif.Nl.C109_stop"
   ],
   "note": "As C108; the Cholesky test is assumed sound (LltSound) and Luu and the terminal Lxx symmetric."
  },
  {
   "property": "C110",
   "status": "proved",
   "theorems": [
    "Verif.Nl.C110_accepted_bound"
   ],
   "note": "As C109, without differentiability."
  },
  {
   "property": "C111",
   "status": "partial",
   "theorems": [
    "Verif.Stopwatch.C111_statistics",
    "Verif.Stopwatch.C111_max",
    "Verif.Stopwatch.C111_min_partial",
    "Verif.Stopwatch.C111_other",
    "Verif.Stopwatch.C111_disabled",
    "Verif.Stopwatch.C111_off",
    "Verif.Stopwatch.C111_no_throw",
    "Verif.Stopwatch.C111_so_far",
    "Verif.Stopwatch.C111_no_clock",
    "Verif.Stopwatch.C111_pause",
    "Verif.Stopwatch.C111_unknown",
    "Verif.Stopwatch.C111_min_counterexample",
    "Verif.Stopwatch.C111_min_reset_counterexample",
    "Verif.Stopwatch.C111_zero_counterexample",
    "Verif.Stopwatch.C111_pause_counterexample",
    "Verif.Stopwatch.C111_turn_off_counterexample",
    "Verif.Stopwatch.C111_enable_counterexample"
   ],
   "note": "Total, average, last and maximum for ordinary histories, the minimum only without reset and if a later lapse is shorter than the first; the full claim is false: minimum after one measurement or after a reset, a start at clock value zero, pause in CPU mode, watchers and turn_off, enabling the profiler between START and STOP (counterexamples)."
  },
  {
   "property": "C112",
   "status": "partial",
   "theorems": [
    "Verif.Pc.C112_material",
    "Verif.Pc.C112_jacobian_partial",
    "Verif.Pc.C112_gradient",
    "Verif.Pc.C112_jacobian_counterexample",
    "Verif.Pc.C112_moving_counterexample"
   ],
   "note": "Material velocity and gradient of half the squared distance in full (second object fixed); that Rx is the Jacobian of r holds only when the same material points stay nearest (C112_jacobian_counterexample). The header is disabled by default at this commit; nearest points are an input; the joint Jacobian follows an assumed contract."
  },
  {
   "property": "C113",
   "status": "proved",
   "theorems": [
    "Verif.Kkt.C113_direction",
    "Verif.Kkt.C113_multipliers",
    "Verif.Kkt.C113_history"
   ],
   "note": "Exact arithmetic; the linear solve is any function that solves nonsingular systems (Eigen assumed). Vector states; at least one running node (the code reads out of range without)."
  },
  {
   "property": "C114",
   "status": "proved",
   "theorems": [
    "Verif.Kkt.C114_model",
    "Verif.Kkt.C114_exact_lq",
    "Verif.Kkt.C114_descent",
    "Verif.Kkt.C114_stop",
    "Verif.Kkt.C114_slope_nl",
    "Verif.Kkt.C114_stationary_nl"
   ],
   "note": "Exact arithmetic; vector states. The criterion is that of the candidate the system was assembled at, i.e. the one before the accepted step."
  },
  {
   "property": "C115",
   "status": "proved",
   "theorems": [
    "Verif.Kkt.C115_solve_lq",
    "Verif.Kkt.C115_one_iteration"
   ],
   "note": "Exact arithmetic; no evaluation throws; same number of controls at every node; first step length 1, th_acceptstep < 1, th_grad > 0, th_stop > 0; a guess marked feasible is a rollout."
  },
  {
   "property": "C116",
   "status": "partial",
   "theorems": [
    "Verif.Solve.C116_step_partial",
    "Verif.Solve.C116_product_partial",
    "Verif.Solve.C116_marked_partial",
    "Verif.Solve.C116_shrink_partial",
    "Verif.Solve.C116_rate"
   ],
   "note": "Exact arithmetic; as C27: nodes evaluate as functions of their arguments (AutonomousOk) and share one state manifold. Missing: models whose calc depends on history."
  },
  {
   "property": "C117",
   "status": "partial",
   "theorems": [
    "Verif.Ipopt.C117_result",
    "Verif.Ipopt.C117_cost_partial",
    "Verif.Ipopt.C117_rollout",
    "Verif.Ipopt.C117_no_solution",
    "Verif.Ipopt.C117_tolerance_partial",
    "Verif.Ipopt.C117_flag_counterexample",
    "Verif.Ipopt.C117_stale_counterexample",
    "Verif.Ipopt.C117_tolerance_counterexample"
   ],
   "note": "Ipopt itself is any outcome. False in the code: the feasibility flag stays the argument of solve after a success; cost is left as it was if Ipopt stops before finalize_solution; a threshold set through a base-class pointer does not reach Ipopt (set_th_stop is not virtual). The rest is proved."
  },
  {
   "property": "C118",
   "status": "partial",
   "theorems": [
    "Verif.Csv.C118_escape",
    "Verif.Csv.C118_round_trip",
    "Verif.Csv.C118_raw_counterexample"
   ],
   "note": "Proved for strings; values written through the template (numbers, and char arrays) are not escaped, so they must contain no quote, separator or newline (counterexample)."
  },
  {
   "property": "C119",
   "status": "proved",
   "theorems": [
    "Verif.Version.C119_lexicographic",
    "Verif.Version.C119_order"
   ],
   "note": "Numbers are unbounded integers (the code uses int, and only compares)."
  },
  {
   "property": "C120",
   "status": "partial",
   "theorems": [
    "Verif.Verbose.C120_header_partial",
    "Verif.Verbose.C120_line_partial",
    "Verif.Verbose.C120_output",
    "Verif.Verbose.C120_negative_cost_counterexample",
    "Verif.Verbose.C120_precision_counterexample"
   ],
   "note": "Proved for precision >= 3 (any precision at level 0), values of the usual printed width and non-negative costs; false for a negative cost and for smaller precisions at levels >= 1 (counterexamples). How the standard library prints numbers is a parameter."
  },
  {
   "property": "C121",
   "status": "partial",
   "theorems": [
    "Verif.Threads.C121_flag",
    "Verif.Threads.C121_nthreads",
    "Verif.Threads.C121_one_thread_partial",
    "Verif.Threads.C121_built_partial",
    "Verif.Threads.C121_all_threads",
    "Verif.Threads.C121_codegen_counterexample",
    "Verif.Threads.C121_update_counterexample",
    "Verif.Threads.C121_constraint_counterexample",
    "Verif.Threads.C121_state_counterexample",
    "Verif.Threads.C121_copy_counterexample"
   ],
   "note": "False in the code: the data of a code-generated node raises the process-wide flag again; replacing nodes of an existing problem leaves its number of threads; Python constraints do not lower the flag and Python states only when constructed; copies of problems leave the number of threads uninitialised (counterexamples). Proved for the remaining histories."
  },
  {
   "property": "C122",
   "status": "partial",
   "theorems": [
    "Verif.PyWrap.C122_sizes",
    "Verif.PyWrap.C122_running",
    "Verif.PyWrap.C122_terminal_partial",
    "Verif.PyWrap.C122_problem_partial",
    "Verif.PyWrap.C122_quasi_static_partial",
    "Verif.PyWrap.C122_cast_action",
    "Verif.PyWrap.C122_cast_diff_partial",
    "Verif.PyWrap.C122_autonomous_counterexample",
    "Verif.PyWrap.C122_integrated_counterexample",
    "Verif.PyWrap.C122_nan_counterexample",
    "Verif.PyWrap.C122_quasi_static_counterexample",
    "Verif.PyWrap.C122_cast_counterexample"
   ],
   "note": "Boost.Python and Eigen are parameters with stated assumptions. False in the code for models without controls, integrated models and actuations at terminal nodes, for NaN controls, for quasi-static controls of wrong size, and for the dimensions of copies of differential models (counterexamples)."
  },
  {
   "property": "C123",
   "status": "partial",
   "theorems": [
    "Verif.CheckData.C123_differential",
    "Verif.CheckData.C123_accepts_partial",
    "Verif.CheckData.C123_own_partial",
    "Verif.CheckData.C123_problem_partial",
    "Verif.CheckData.C123_undefined",
    "Verif.CheckData.C123_size_counterexample",
    "Verif.CheckData.C123_integrator_counterexample",
    "Verif.CheckData.C123_stages_counterexample",
    "Verif.CheckData.C123_base_counterexample",
    "Verif.CheckData.C123_codegen_counterexample"
   ],
   "note": "False in the code: sizes are not compared; Euler and Runge-Kutta dereference null for data of another class; numerical differentiation, Python and code-generated models reject their own data (counterexamples). The exact conditions for yes, no and undefined are proved for all models that are not code-generated. Data classes derived by users are not modelled."
  },
  {
   "property": "C124",
   "status": "partial",
   "theorems": [
    "Verif.PyAttrs.C124_bound_partial",
    "Verif.PyAttrs.C124_history_partial",
    "Verif.PyAttrs.C124_bounds_counterexample",
    "Verif.PyAttrs.C124_thrust_counterexample",
    "Verif.PyAttrs.C124_contact_counterexample",
    "Verif.PyAttrs.C124_codegen_counterexample"
   ],
   "note": "Holds for 63 of 67 classes; false for ActivationBounds.ub, Thruster.max_thrust, ContactData6D.rMf and four sizes of ActionModelCodeGen (counterexamples). Attributes bound to other functions are not modelled."
  },
  {
   "property": "C125",
   "status": "partial",
   "theorems": [
    "Verif.PyContainers.C125_set_history",
    "Verif.PyContainers.C125_set_reads",
    "Verif.PyContainers.C125_set_pickle",
    "Verif.PyContainers.C125_set_construct",
    "Verif.PyContainers.C125_todict",
    "Verif.PyContainers.C125_map_pickle",
    "Verif.PyContainers.C125_from_dict",
    "Verif.PyContainers.C125_from_dict_ok",
    "Verif.PyContainers.C125_map_round_trip",
    "Verif.PyContainers.C125_convertible_counterexample"
   ],
   "note": "Proved for histories, reads, pickling and dictionaries; false for the acceptance of Python sets, which must be empty (counterexample). The index checks of boost are assumed."
  },
  {
   "property": "C126",
   "status": "partial",
   "theorems": [
    "Verif.Solve.C126_solve_partial",
    "Verif.Solve.C126_no_iteration",
    "Verif.Nl.C126_nonlinear",
    "Verif.Solve.ForgetDemo.C126_stop_counterexample",
    "Verif.BoxQp.Demo.C126_box_counterexample",
    "Verif.IntroSolve.C126_intro_partial",
    "Verif.IntroSolve.ForgetDemo.C126_intro_counterexample",
    "Verif.Kkt.C126_kkt_partial",
    "Verif.Kkt.ForgetDemo.C126_kkt_counterexample",
    "Verif.Ipopt.C126_ipopt_partial",
    "Verif.Ipopt.C126_ipopt_cost_counterexample",
    "Verif.Ipopt.C126_ipopt_stale_counterexample"
   ],
   "note": "Proved for DDP and FDDP with at least one iteration (and BoxDDP, BoxFDDP without limits), on every nonlinear problem; for SolverIntro if it resets the penalty and no trial fails; for SolverKKT if nothing throws and the guess is not marked feasible or was_feasible_ agrees. False in the code for the stopping criterion when all trials fail, for BoxDDP with control limits (warm start), for SolverIntro by default and for SolverKKT from feasible guesses (counterexamples). For SolverIpopt proved, with any deterministic optimiser that asks for objective, gradient or constraints before it asks for derivatives, and action models without memory; false for the cost when no solution is handed over, and for optimisers that begin with the Jacobian (counterexamples). Ipopt itself was not available: whether it is such an optimiser is unchecked."
  },
  {
   "property": "C127",
   "status": "partial",
   "theorems": [
    "Verif.Ipopt.C127_ipopt_partial",
    "Verif.Ipopt.C127_ipopt_counterexample",
    "Verif.Ipopt.C127_ipopt_overflow_counterexample",
    "Verif.Ipopt.C127_ipopt_no_remedy_counterexample",
    "Verif.SolverMem.C127_history_partial",
    "Verif.SolverMem.C127_two_consumers_counterexample",
    "Verif.SolverMem.C127_kkt_counterexample",
    "Verif.SolverMem.C127_constraints_counterexample",
    "Verif.SolverMem.C127_uninit_counterexample",
    "Verif.SolverMem.C127_box_stuck"
   ],
   "note": "Proved for DDP, FDDP, BoxDDP, BoxFDDP and Intro over all histories in which nobody else asks the problem whether it was updated and no model changes its dimensions. False in the code otherwise (two solvers on one problem, constraints changed in a model), for the KKT solver, which never resizes, and for the quadratic-program solver of the box solvers, which keeps the number of controls of the first node (counterexamples). For SolverIpopt the variables are proved to be laid out right over all histories in which the client calls resizeData after each change of the dimensions; solve itself never does, so otherwise the new controls share variables with the next state and the starting point is written beyond the array of Ipopt, and with resizeData the number of constraints is wrong (counterexamples)."
  },
  {
   "property": "C128",
   "status": "partial",
   "theorems": [
    "Verif.DataCopy.C128_history_partial",
    "Verif.DataCopy.C128_integrated_partial",
    "Verif.DataCopy.C128_stale",
    "Verif.DataCopy.C128_overwrite",
    "Verif.DataCopy.C128_dangling",
    "Verif.DataCopy.C128_shared",
    "Verif.DataCopy.C128_stale_counterexample",
    "Verif.DataCopy.C128_overwrite_counterexample",
    "Verif.DataCopy.C128_shared_counterexample"
   ],
   "note": "Proved for all programs that evaluate only objects made by createData (copies are read), and for integrated action data for all programs that ask derivatives only from the object evaluated last among those related by copying. False in the code otherwise (counterexamples): the costs of a copy read the kinematics of the original, its cost derivatives are written into the original, and after the original is gone the copy uses freed memory."
  },
  {
   "property": "C129",
   "status": "partial",
   "theorems": [
    "Verif.Solve.C129_of_last_direction",
    "Verif.Solve.PolicyDemo.C129_stale_counterexample",
    "Verif.Lq.C129_one_iteration_partial",
    "Verif.Lq.C129_optimal_policy_partial",
    "Verif.Lq.PolicyDemo.C129_regularised_counterexample",
    "Verif.Lq.PolicyDemo.C129_value_counterexample"
   ],
   "note": "Proved on convex linear-quadratic problems with init_reg = 0: for one iteration, and for any number when reg_min = 0 (FDDP: guesses as in C103). Proved for all problems that the gains of an iteration are those of the candidate it started from. Otherwise false (counterexamples): with reg_min > 0, as by default, the policy is that of the regularised problem; after an accepted step the gains and the value function belong to the previous candidate."
  },
  {
   "property": "C130",
   "status": "partial",
   "theorems": [
    "Verif.Solve.C130_guess_or_valid_partial",
    "Verif.Solve.C130_valid_partial",
    "Verif.Solve.FiniteDemo.C130_control_counterexample",
    "Verif.Solve.FiniteDemo.C130_gap_counterexample",
    "Verif.Solve.FiniteDemo.C130_box_counterexample",
    "Verif.Solve.FiniteDemo.C130_guess_counterexample"
   ],
   "note": "Proved for next states, running cost sums and total cost of every candidate that is not the initial guess, and for the states of those marked feasible (not BoxDDP). False otherwise (counterexamples): controls and the guess are not tested, states with open gaps are tested before the gap is added, BoxDDP adds a gap at the last node. Comparisons with NaN are not modelled: the test is an arbitrary predicate."
  },
  {
   "property": "C131",
   "status": "partial",
   "theorems": [
    "Verif.Lq.C131_backward",
    "Verif.Lq.C131_initial_state",
    "Verif.Lq.C131_plan_partial",
    "Verif.Lq.C131_feedback_partial",
    "Verif.Lq.TailDemo.C131_sliding_counterexample"
   ],
   "note": "Gains: proved in full for the DDP backward pass. Plans: proved for init_reg = 0, the guesses covered by C67 and C103 and models without control limits; the statement about the policy for one iteration or reg_min = 0. A sliding window (circularAppend) does not have the property (counterexample)."
  },
  {
   "property": "C132",
   "status": "partial",
   "theorems": [
    "Verif.Nl.C132_constants_box",
    "Verif.Nl.C132_state_axes_box",
    "Verif.Nl.Overshoot.C132_box_scale_counterexample",
    "Verif.IntroSolve.C132_intro",
    "Verif.IntroSolve.C132_constants_intro",
    "Verif.Ipopt.C132_ipopt_partial",
    "Verif.Kkt.C132_kkt",
    "Verif.Kkt.C132_constants_kkt",
    "Verif.Solve.C132_solve",
    "Verif.Nl.C132_nonlinear",
    "Verif.Nl.C132_constants",
    "Verif.Nl.ReformulateDemo.C132_cost_scale_counterexample",
    "Verif.Nl.ReformulateDemo.C132_state_unit_counterexample",
    "Verif.Nl.ReformulateDemo.C132_control_unit_counterexample"
   ],
   "note": "Proved for orthogonal changes of axes, cost factors with scaled thresholds and regularisation, and added constants, for DDP and FDDP, and for BoxDDP and BoxFDDP without control limits, with a sound and complete Cholesky test. With control limits proved for orthogonal changes of the axes of the state and added constants (the two solver objects having corresponding histories), and violated by cost factors even with scaled thresholds and regularisation, because the gradient threshold of the box QP is fixed (counterexample). Violated by changes of the unit of state or controls and by cost factors without scaled regularisation (counterexamples). For SolverKKT proved for added constants, and for cost factors provided that the linear solver commutes with them. For SolverIntro proved for added constants with either null-space solver (corresponding histories), and for other changes that keep the cost scale only under the hypothesis that the derivatives and the backward pass commute with them (C132_intro). For SolverIpopt proved for added constants, for every deterministic optimiser that only compares objectives (assumed of Ipopt). Reorderings of the controls with control limits are not covered."
  },
  {
   "property": "C133",
   "status": "proved",
   "theorems": [
    "Verif.Lq.C133_proximal",
    "Verif.Lq.C133_improvement",
    "Verif.Lq.C133_rate",
    "Verif.Lq.C133_converges"
   ],
   "note": "Every claim is proved over an ordered field (steps) or the reals (convergence), in exact arithmetic, with a sound and complete Cholesky test and at least one control per node. For FDDP and BoxFDDP with zero regularisation, infeasible guesses whose cost is exactly optimal are left out of the convergence theorem (see C103 for what happens there)."
  },
  {
   "property": "C134",
   "status": "partial",
   "theorems": [
    "Verif.Lq.C134_stationary",
    "Verif.Lq.C134_prediction_partial",
    "Verif.Lq.C134_blocked_prediction",
    "Verif.Lq.C134_blocked_iteration",
    "Verif.Lq.C134_blocked_convergence",
    "Verif.Lq.BoxDemo.C134_rejected_counterexample",
    "Verif.Lq.BoxDemo.C134_false_convergence_counterexample"
   ],
   "note": "Proved: with box QPs that converge exactly, the direction vanishes if and only if the candidate is optimal within the limits; the prediction is that of a Newton step when no control is moved onto a limit. False in the code, with counterexamples at the default parameters: the solvers replace Qu by zero at clamped controls, so a step that moves controls onto their limits has predicted improvement 0 - k Quu k / 2 < 0 and is rejected for every step length from a feasible candidate, even when the full step is the constrained optimum; and the stopping test takes the absolute value of that prediction, so solve returns true at a control whose cost exceeds that of the limit by almost 1."
  },
  {
   "property": "C135",
   "status": "partial",
   "theorems": [
    "Verif.Intro.C135_proximal",
    "Verif.Intro.C135_improvement",
    "Verif.Intro.C135_one_iteration_partial",
    "Verif.Intro.C135_converges_partial",
    "Verif.Intro.C135_fixed_point",
    "Verif.Intro.C135_regularised",
    "Verif.Intro.C135_converged_counterexample",
    "Verif.Intro.C135_one_iteration_counterexample"
   ],
   "note": "Proved: the regularised full step is a constrained proximal point step and its predicted improvement is short of the actual one by half rho times the squared distance moved; without regularisation one iteration ends at the constrained optimum and a second one reports it; the optimum is a fixed point; with regularisation, allowed enough iterations, solve returns true with exact dynamics and constraints and cost within an explicit bound of the optimum. False in the code, with counterexamples: a guess that violates the constraints and has exactly the optimal merit is left out of the one-iteration theorems, since the full step from it is rejected; and the bound cannot be reduced to the part with th_stop, since solve may return true in the first iteration at a non-optimal point."
  },
  {
   "property": "C136",
   "status": "partial",
   "theorems": [
    "Verif.Solve.C136_feasible",
    "Verif.Solve.C136_box_fddp",
    "Verif.Nl.C136_nonlinear",
    "Verif.Solve.AgreeDemo.C136_box_ddp_counterexample",
    "Verif.Lq.C136_lq_partial"
   ],
   "note": "Proved in full for guesses marked feasible and, for BoxFDDP and FDDP, for every guess, in exact arithmetic without overflow. False in the code for DDP and BoxDDP from an infeasible guess (counterexample): BoxDDP closes only part of the last gap and still marks the candidate feasible. The linear-quadratic theorem leaves out, for FDDP and SolverIntro, the infeasible guesses whose cost or merit is exactly the optimal cost (counterexamples of C103 and C135). The default parameters differ: the box solvers stop at 5e-5 instead of 1e-9."
  },
  {
   "property": "C137",
   "status": "partial",
   "theorems": [
    "Verif.Con.C137_derivatives_partial",
    "Verif.Con.C137_motion_partial",
    "Verif.Con.C137_hold_partial",
    "Verif.Con.C137_shared_joint_counterexample"
   ],
   "note": "Proved for contacts on different joints in exact arithmetic. False in the code for contacts that share a joint (counterexample: one reported force overwrites the other, so that the derivatives miss it) and for leaning 2D contacts with a gain on the position (counterexample of C87). That contacts hold is proved without damping, for 3D contacts and for 6D contacts without a gain on the placement."
  },
  {
   "property": "C138",
   "status": "partial",
   "theorems": [
    "Verif.Con.C138_restitution",
    "Verif.Con.C138_momentum_partial",
    "Verif.Con.C138_derivatives_partial"
   ],
   "note": "The velocities after the impact are proved in full without damping, in exact arithmetic. Momentum and derivatives are proved for impulses on different joints. The derivatives are false in the code with restitution, with armature and for impulses that share a joint (counterexamples of C83), and not proved for 6D impulses of type WORLD with damping, of which the derivative of the velocity is wrong (counterexample of C89)."
  },
  {
   "property": "C139",
   "status": "proved",
   "theorems": [
    "Verif.Integrators.C139_euler",
    "Verif.Integrators.C139_rk",
    "Verif.Integrators.C139_rk_order",
    "Verif.Integrators.C139_samples"
   ],
   "note": "Vector states, exact arithmetic. The motion is assumed to exist on the horizon. The higher order is proved for linear models with controls constant over each node; on nonlinear models the order one is proved."
  },
  {
   "property": "C140",
   "status": "partial",
   "theorems": [
    "Verif.Nl.C140_interior",
    "Verif.Nl.C140_stops",
    "Verif.Nl.C140_stationary",
    "Verif.Nl.C140_descent_partial",
    "Verif.Nl.Clamped.C140_clamped_counterexample",
    "Verif.Nl.Overshoot.C140_overshoot_counterexample"
   ],
   "note": "Exact arithmetic and exact convergence of the box QPs. The equivalence and the descent hold for the policy before the trial controls are clamped. The last part is false: C140_clamped_counterexample gives a convex problem where the clamped trial costs more than the candidate for every step length. C140_interior: when the controls are strictly inside their limits, short clamped steps lower the cost, and are accepted if the full step leaves no control at a limit; without that condition acceptance is false: in C140_overshoot_counterexample every step length lowers the cost and every one is rejected."
  },
  {
   "property": "C141",
   "status": "proved",
   "theorems": [
    "Verif.Nl.C141_bound",
    "Verif.Nl.C141_ends"
   ],
   "note": "Exact arithmetic, problems without control limits, at least one control. FDDP and the box solvers are covered from feasible guesses; only DDP from infeasible ones as well."
  },
  {
   "property": "C142",
   "status": "partial",
   "theorems": [
    "Verif.Node.C142_terminal",
    "Verif.Node.C142_cost",
    "Verif.Node.C142_contact_partial",
    "Verif.Node.C142_free",
    "Verif.Node.C142_step_partial",
    "Verif.Node.C142_euler_partial",
    "Verif.Node.C142_euler_free",
    "Verif.Node.C142_rk_partial"
   ],
   "note": "Composes C45, C52, C81, C82, C101, C102, C137 through Hadamard's criterion. Partial because the code is wrong for contacts that share a joint (C137), planar contacts that lean (C87) and Fx of Runge-Kutta nodes on curved manifolds or of order three (C40, C102); complete for robots without contacts under Euler and for terminal costs. Pinocchio's quantities, the residuals and the actuation are assumed differentiable with the derivatives they return; the cost container is its sum (C10); constraints and second derivatives are not covered here."
  },
  {
   "property": "C143",
   "status": "partial",
   "theorems": [
    "Verif.Nl.C143_slope",
    "Verif.Nl.C143_started",
    "Verif.Nl.C143_converged",
    "Verif.Nl.C143_success_partial",
    "Verif.Nl.C143_gradient_partial",
    "Verif.Nl.C143_worse_counterexample"
   ],
   "note": "Exact arithmetic, problems without control limits, at least one control. The bound is proved for the trajectory from which the last iteration started. For the returned one it is false: C143_worse_counterexample gives a smooth problem on which solve, with default parameters, returns true and raises the cost from 0 to more than 999."
  },
  {
   "property": "C144",
   "status": "proved",
   "theorems": [
    "Verif.Nl.C144_full_step",
    "Verif.Nl.C144_never_gives_up",
    "Verif.Nl.C144_progress"
   ],
   "note": "Exact arithmetic, at least one control, no control limits; llt accepts exactly the symmetric positive definite matrices (assumed of Eigen). The regularisation that suffices depends on the candidate; no bound uniform in the candidate is claimed. C144_progress needs th_grad <= 0: with the default th_grad a step may be accepted untested (C143_worse_counterexample)."
  },
  {
   "property": "C145",
   "status": "partial",
   "theorems": [
    "Verif.Nl.C145_returns_true_partial",
    "Verif.Nl.C145_premature_counterexample"
   ],
   "note": "Exact arithmetic, at least one control, no control limits; llt accepts exactly the symmetric positive definite matrices (assumed of Eigen). That solve returns true is proved in full. That it then converged is false: C145_premature_counterexample shows, for every problem and every feasible guess that is not stationary, that a large initial regularisation makes every solver return true after one iteration that improves the cost by less than any given amount."
  }
 ]
}