{
 "claims": [
  {
   "property": "C01",
   "status": "proved",
   "theorems": [
    "Gusto.Props.C01_default_residual_is_forward_euler",
    "Gusto.Props.C01_solve_is_forward_euler"
   ],
   "note": ""
  },
  {
   "property": "C02",
   "status": "proved",
   "theorems": [
    "Gusto.Props.C02_increment_limited",
    "Gusto.Props.C02_predictor_limited",
    "Gusto.Props.C02_increment",
    "Gusto.Props.C02_predictor",
    "Gusto.Props.C02_linear",
    "Gusto.Props.C02_formulations_agree"
   ],
   "note": ""
  },
  {
   "property": "C03",
   "status": "proved",
   "theorems": [
    "Gusto.Props.C03_forward_euler",
    "Gusto.Props.C03_rk4",
    "Gusto.Props.C03_heun",
    "Gusto.Props.C03_ssprk2",
    "Gusto.Props.C03_ssprk3",
    "Gusto.Props.C03_ssprk3_5_not_exact",
    "Gusto.Props.C03_ssprk4",
    "Gusto.Props.C03_taylor_forward_euler",
    "Gusto.Props.C03_taylor_rk4",
    "Gusto.Props.C03_taylor_heun",
    "Gusto.Props.C03_taylor_ssprk3",
    "Gusto.Props.C03_taylor_ssprk3_4"
   ],
   "note": ""
  },
  {
   "property": "C04",
   "status": "partial",
   "theorems": [
    "Gusto.Props.C04_loop_is_iteration",
    "Gusto.Props.C04_fixed_subcycles",
    "Gusto.Props.C04_no_subcycling",
    "Gusto.Props.C04_implicit_fixed_subcycles_fails",
    "Gusto.Props.C04_implicit_other_ok"
   ],
   "note": "proved for explicit schemes; for BackwardEuler/ThetaMethod fixed_subcycles ends in AttributeError (proved)"
  },
  {
   "property": "C05",
   "status": "proved",
   "theorems": [
    "Gusto.Props.C05_adaptive_subcycling",
    "Gusto.Props.C05_least",
    "Gusto.Props.C05_uncapped",
    "Gusto.Props.C05_apply"
   ],
   "note": ""
  },
  {
   "property": "C06",
   "status": "partial",
   "theorems": [
    "Gusto.Props.C06_linear_subcycled",
    "Gusto.Props.C06_agree_iff_partial",
    "Gusto.Props.C06_refuted"
   ],
   "note": "the claim is false for 2 or more cycles: refuted by witness; the exact result of the code and the exact condition for agreement are proved"
  },
  {
   "property": "C07",
   "status": "proved",
   "theorems": [
    "Gusto.Props.C07_backward_euler",
    "Gusto.Props.C07_theta",
    "Gusto.Props.C07_trapezium",
    "Gusto.Props.C07_theta_one",
    "Gusto.Props.C07_theta_zero",
    "Gusto.Props.C07_parameter_guard",
    "Gusto.Props.C07_tr_bdf2",
    "Gusto.Props.C07_tr_bdf2_second_order"
   ],
   "note": ""
  },
  {
   "property": "C08",
   "status": "partial",
   "theorems": [
    "Gusto.Props.C08_bdf2",
    "Gusto.Props.C08_bdf2_startup",
    "Gusto.Props.C08_adams_bashforth",
    "Gusto.Props.C08_adams_bashforth_startup",
    "Gusto.Props.C08_adams_moulton",
    "Gusto.Props.C08_adams_moulton_startup",
    "Gusto.Props.C08_leapfrog_rhs_partial",
    "Gusto.Props.C08_leapfrog_solves_forward_euler",
    "Gusto.Props.C08_leapfrog_refuted"
   ],
   "note": "proved for BDF2, AdamsBashforth, AdamsMoulton and all start-up steps; refuted for Leapfrog, whose solved residual is forward Euler"
  },
  {
   "property": "C09",
   "status": "partial",
   "theorems": [
    "Gusto.Props.C09_adams_bashforth_partial",
    "Gusto.Props.C09_adams_moulton_partial",
    "Gusto.Props.C09_ab5_refuted",
    "Gusto.Props.C09_am4_refuted",
    "Gusto.Props.C09_corrected_tables",
    "Gusto.Props.C09_accepted_orders",
    "Gusto.Props.C09_constant_tendency"
   ],
   "note": "proved for AB1-4 and AM1-3; refuted for AB5 and AM4 (one wrong table entry each)"
  },
  {
   "property": "C10",
   "status": "proved",
   "theorems": [
    "Gusto.Props.C10_history",
    "Gusto.Props.C10_counter",
    "Gusto.Props.C10_which_residual",
    "Gusto.Props.C10_adams_bashforth_run",
    "Gusto.Props.C10_run_solves",
    "Gusto.Props.C10_bdf2_run",
    "Gusto.Props.C10_adams_moulton_run"
   ],
   "note": ""
  },
  {
   "property": "C11",
   "status": "partial",
   "theorems": [
    "Gusto.Props.IRKProps.C11_increment_solves",
    "Gusto.Props.IRKProps.C11_increment_partial",
    "Gusto.Props.IRKProps.C11_predictor",
    "Gusto.Props.IRKProps.C11_increment_refuted",
    "Gusto.Props.IRKProps.C11_builtin_tables",
    "Gusto.Props.IRKProps.C11_implicit_midpoint",
    "Gusto.Props.IRKProps.C11_qin_zhang"
   ],
   "note": "predictor formulation proved for all tables; increment formulation proved when the diagonal is constant (all built-in tables) and refuted otherwise (cached solvers capture the first stage diagonal)"
  },
  {
   "property": "C12",
   "status": "partial",
   "theorems": [
    "Gusto.Props.IMEXProps.C12_stage_residual",
    "Gusto.Props.IMEXProps.C12_final_residual",
    "Gusto.Props.IMEXProps.C12_apply",
    "Gusto.Props.IMEXProps.C12_apply_source",
    "Gusto.Props.IMEXProps.C12_apply_last_source",
    "Gusto.Props.IMEXProps.C12_split_complete",
    "Gusto.Props.IMEXProps.C12_setup_check",
    "Gusto.Props.IMEXProps.C12_setup_refuted",
    "Gusto.Props.IMEXProps.C12_limiter_ignored",
    "Gusto.Props.IMEXProps.C12_limiter_refuted",
    "Gusto.Props.IMEXProps.C12_euler_order",
    "Gusto.Props.IMEXProps.C12_ars3_order",
    "Gusto.Props.IMEXProps.C12_ark2_order",
    "Gusto.Props.IMEXProps.C12_ssp3_order",
    "Gusto.Props.IMEXProps.C12_ssp3_rows_refuted",
    "Gusto.Props.IMEXProps.C12_trap2_order",
    "Gusto.Props.IMEXProps.C12_trap2_rows_refuted"
   ],
   "note": "equations, set-up check and orders of all built-in tables proved; refuted: the constructor drops the limiter; a term labelled both source and explicit is accepted and counted twice; with several source schemes the last source is used"
  },
  {
   "property": "C13",
   "status": "proved",
   "theorems": [
    "Gusto.Props.StoreProps.C13_input_unchanged",
    "Gusto.Props.StoreProps.C13_in_place",
    "Gusto.Props.StoreProps.C13_value",
    "Gusto.Props.StoreProps.C13_cycle_needs_copy",
    "Gusto.Props.StoreProps.C13_no_memory",
    "Gusto.Props.StoreProps.C13_no_memory_predictor"
   ],
   "note": ""
  },
  {
   "property": "C14",
   "status": "proved",
   "theorems": [
    "Gusto.Props.LoopProps.C14_terminates",
    "Gusto.Props.LoopProps.C14_deterministic",
    "Gusto.Props.LoopProps.C14_steps",
    "Gusto.Props.LoopProps.C14_count",
    "Gusto.Props.LoopProps.C14_within_half_step",
    "Gusto.Props.LoopProps.C14_no_step",
    "Gusto.Props.LoopProps.C14_nonpositive_dt_diverges",
    "Gusto.Props.LoopProps.C14_rounding"
   ],
   "note": ""
  },
  {
   "property": "C15",
   "status": "proved",
   "theorems": [
    "Gusto.Props.LoopProps.C15_resume_reproduces",
    "Gusto.Props.LoopProps.C15_every_later_step",
    "Gusto.Props.LoopProps.C15_last_checkpoint"
   ],
   "note": ""
  },
  {
   "property": "C16",
   "status": "partial",
   "theorems": [
    "Gusto.Props.LoopProps.C16_uninterrupted",
    "Gusto.Props.LoopProps.C16_disabled",
    "Gusto.Props.LoopProps.C16_resumed",
    "Gusto.Props.LoopProps.C16_continues",
    "Gusto.Props.LoopProps.C16_cadence_refuted",
    "Gusto.Props.LoopProps.C16_point_rows_lost_refuted"
   ],
   "note": "uninterrupted runs and resumptions at common multiples proved; refuted: after pick-up the cadence is counted from the pick-up step, and point-data rows are overwritten from row 0"
  },
  {
   "property": "C17",
   "status": "proved",
   "theorems": [
    "Gusto.Props.TopoProps.C17_terminates",
    "Gusto.Props.TopoProps.C17_deterministic",
    "Gusto.Props.TopoProps.C17_schedule",
    "Gusto.Props.TopoProps.C17_missing_iff",
    "Gusto.Props.TopoProps.C17_cycle_iff",
    "Gusto.Props.TopoProps.C17_ok_iff",
    "Gusto.Props.TopoProps.C17_setup_diagnostics",
    "Gusto.Props.TopoProps.C17_duplicate_names_refuted"
   ],
   "note": "Proved for distinct names, as the containers require; C17_duplicate_names_refuted shows what happens to two diagnostics of one name."
  },
  {
   "property": "C18",
   "status": "proved",
   "theorems": [
    "Gusto.Props.RegistryProps.C18_same_object_for_ever",
    "Gusto.Props.RegistryProps.C18_same_object",
    "Gusto.Props.RegistryProps.C18_field_type",
    "Gusto.Props.RegistryProps.C18_unknown_raises",
    "Gusto.Props.RegistryProps.C18_lookup_pure",
    "Gusto.Props.RegistryProps.C18_pick_up_registered",
    "Gusto.Props.RegistryProps.C18_bad_type_refuted"
   ],
   "note": "All parts; C18_bad_type_refuted shows that a call with a type that is not permitted raises after the field has been entered."
  },
  {
   "property": "C19",
   "status": "proved",
   "theorems": [
    "Gusto.Props.ParallelProps.C19_contiguous",
    "Gusto.Props.ParallelProps.C19_disjoint",
    "Gusto.Props.ParallelProps.C19_written",
    "Gusto.Props.ParallelProps.C19_serial_same"
   ],
   "note": ""
  },
  {
   "property": "C20",
   "status": "proved",
   "theorems": [
    "Gusto.Props.ParallelProps.C20_uniform",
    "Gusto.Props.ParallelProps.C20_outcomes",
    "Gusto.Props.ParallelProps.C20_wants",
    "Gusto.Props.ParallelProps.C20_protected"
   ],
   "note": ""
  },
  {
   "property": "C21",
   "status": "partial",
   "theorems": [
    "Gusto.Props.SplitProps.C21_accept_iff",
    "Gusto.Props.SplitProps.C21_each_term_gets_dt",
    "Gusto.Props.SplitProps.C21_physics_gets_dt_partial",
    "Gusto.Props.SplitProps.C21_physics_without_weights_refuted",
    "Gusto.Props.SplitProps.C21_physics_dropped_refuted",
    "Gusto.Props.SplitProps.C21_timesteps_compose",
    "Gusto.Props.SplitProps.C21_unequal_weights_refuted",
    "Gusto.Props.SplitProps.C21_fixed_subcycles_refuted",
    "Gusto.Props.SplitProps.C21_split_physics",
    "Gusto.Props.SplitProps.C21_consistent",
    "Gusto.Props.SplitProps.C21_strang_second_order"
   ],
   "note": "acceptance, coverage, composition, consistency and Strang order proved; refuted: physics repeated without weights, physics schemes dropped, unequal weights with a cached solver, fixed subcycling"
  },
  {
   "property": "C22",
   "status": "partial",
   "theorems": [
    "Gusto.Props.QNProps.C22_forcing",
    "Gusto.Props.QNProps.C22_linear_solve",
    "Gusto.Props.QNProps.C22_xstar",
    "Gusto.Props.QNProps.C22_nonsolver_untouched",
    "Gusto.Props.QNProps.C22_inner_fixed_iff",
    "Gusto.Props.QNProps.C22_accelerated_fixed_iff",
    "Gusto.Props.QNProps.C22_solution_is_fixed",
    "Gusto.Props.QNProps.C22_stationary_solves",
    "Gusto.Props.QNProps.C22_nonsolver_copied",
    "Gusto.Props.QNProps.C22_accelerator_inner_physics_refuted"
   ],
   "note": "fixed points proved for all configurations without inner physics or without the accelerator; refuted with both"
  },
  {
   "property": "C23",
   "status": "partial",
   "theorems": [
    "Gusto.Props.QNProps.C23_every_step_refuted",
    "Gusto.Props.QNProps.C23_first_step_updates",
    "Gusto.Props.QNProps.C23_no_frequency",
    "Gusto.Props.QNProps.C23_pickup_refuted"
   ],
   "note": "first-step update and frequency None proved; refuted: with any frequency the profiles are updated at every step; TypeError on pick-up without a stored time"
  },
  {
   "property": "C24",
   "status": "partial",
   "theorems": [
    "Gusto.Props.SDCProps.C24_sweep_equation",
    "Gusto.Props.SDCProps.C24_fixed_iff_collocation",
    "Gusto.Props.SDCProps.C24_formulations_agree",
    "Gusto.Props.SDCProps.C24_apply_sweeps",
    "Gusto.Props.SDCProps.C24_apply_stationary",
    "Gusto.Props.SDCProps.C24_apply_result",
    "Gusto.Props.SDCProps.C24_flex_has_no_effect_refuted",
    "Gusto.Props.SDCProps.C24_full_explicit_matrix_refuted",
    "Gusto.Props.SDCProps.C24_formulations",
    "Gusto.Props.SDCProps.C24_setup_check"
   ],
   "note": "proved for strictly lower triangular explicit matrices; refuted: explicit matrices with a diagonal or upper part use node values of the previous time step, and MIN-SR-FLEX has no effect"
  },
  {
   "property": "C25",
   "status": "partial",
   "theorems": [
    "Gusto.Props.ParallelSDCProps.C25_parallel_equals_serial",
    "Gusto.Props.ParallelSDCProps.C25_always_terminates",
    "Gusto.Props.ParallelSDCProps.C25_lower_explicit_matrix_refuted"
   ],
   "note": "proved for diagonal matrices, all schedules; refuted for strictly lower triangular explicit matrices such as FE"
  },
  {
   "property": "C26",
   "status": "partial",
   "theorems": [
    "Gusto.Props.ParallelRIDCProps.C26_never_deadlocks",
    "Gusto.Props.ParallelRIDCProps.C26_deterministic",
    "Gusto.Props.ParallelRIDCProps.C26_pipeline_values_partial",
    "Gusto.Props.ParallelRIDCProps.C26_equals_serial_partial",
    "Gusto.Props.ParallelRIDCProps.C26_tags_distinct",
    "Gusto.Props.ParallelRIDCProps.C26_source_refuted",
    "Gusto.Props.ParallelRIDCProps.C26_no_correction_refuted"
   ],
   "note": "liveness and determinism proved for all accepted configurations with K>=1; equality with the serial scheme proved without source terms; refuted with source terms (stale source at node 0) and for K=0 (send to a rank that does not exist)"
  },
  {
   "property": "C27",
   "status": "partial",
   "theorems": [
    "Gusto.Props.LimiterProps.C27_zero_limiter",
    "Gusto.Props.LimiterProps.C27_zero_limiter_order",
    "Gusto.Props.LimiterProps.C27_zero_limiter_mapped",
    "Gusto.Props.LimiterProps.C27_theta_limiter",
    "Gusto.Props.LimiterProps.C27_theta_limiter_bounds",
    "Gusto.Props.LimiterProps.C27_mean_limiter",
    "Gusto.Props.LimiterProps.C27_mean_limiter_negative_mean_refuted",
    "Gusto.Props.LimiterProps.C27_degree_check_tuple",
    "Gusto.Props.LimiterProps.C27_degree_check_int_refuted",
    "Gusto.Props.LimiterProps.C27_mixed_limiter",
    "Gusto.Props.LimiterProps.C27_dg1_subspace"
   ],
   "note": "limiting kernels proved for every value; refuted: the degree check never rejects integer degrees, and the mean limiter gives negative values for a negative cell mean"
  },
  {
   "property": "C28",
   "status": "partial",
   "theorems": [
    "Gusto.Props.ProjectionProps.C28_setup_check",
    "Gusto.Props.ProjectionProps.C28_mass",
    "Gusto.Props.ProjectionProps.C28_mass_subtract_mean",
    "Gusto.Props.ProjectionProps.C28_constant",
    "Gusto.Props.ProjectionProps.C28_constant_without_mean",
    "Gusto.Props.ProjectionProps.C28_identity",
    "Gusto.Props.ProjectionProps.C28_mass_subtract_mean_refuted"
   ],
   "note": "mass conservation proved without subtract_mean for every history, and with it for densities of equal mass; constants proved with subtract_mean for all densities; refuted: mass is not conserved with subtract_mean and densities of different mass"
  },
  {
   "property": "C29",
   "status": "proved",
   "theorems": [
    "Gusto.Props.ProjectionProps.C29_setup",
    "Gusto.Props.ProjectionProps.C29_reversible",
    "Gusto.Props.ProjectionProps.C29_no_correction",
    "Gusto.Props.ProjectionProps.C29_conservative_mass",
    "Gusto.Props.ProjectionProps.C29_conservative_reversible",
    "Gusto.Props.ProjectionProps.C29_conservative_constant"
   ],
   "note": ""
  },
  {
   "property": "C30",
   "status": "proved",
   "theorems": [
    "Gusto.Props.RecoveryProps.C30_mean",
    "Gusto.Props.RecoveryProps.C30_bounds",
    "Gusto.Props.RecoveryProps.C30_continuous",
    "Gusto.Props.RecoveryProps.C30_order",
    "Gusto.Props.RecoveryProps.C30_linear",
    "Gusto.Props.RecoveryProps.C30_setup"
   ],
   "note": ""
  },
  {
   "property": "C31",
   "status": "proved",
   "theorems": [
    "Gusto.Props.RecoveryProps.C31_interior",
    "Gusto.Props.RecoveryProps.C31_polynomial",
    "Gusto.Props.RecoveryProps.C31_reproduces",
    "Gusto.Props.RecoveryProps.C31_taylor_recovery"
   ],
   "note": ""
  },
  {
   "property": "C32",
   "status": "partial",
   "theorems": [
    "Gusto.Props.RecoveryProps.C32_effect",
    "Gusto.Props.RecoveryProps.C32_single_layer",
    "Gusto.Props.RecoveryProps.C32_linear",
    "Gusto.Props.RecoveryProps.C32_boundary_exact",
    "Gusto.Props.RecoveryProps.C32_single_layer_refuted"
   ],
   "note": "proved for two or more layers; refuted for one layer, where the bottom loop overwrites the top correction"
  },
  {
   "property": "C33",
   "status": "partial",
   "theorems": [
    "Gusto.Props.ColumnProps.C33_round_trip",
    "Gusto.Props.ColumnProps.C33_set_then_get",
    "Gusto.Props.ColumnProps.C33_columns",
    "Gusto.Props.ColumnProps.C33_error",
    "Gusto.Props.ColumnProps.C33_isclose_refuted"
   ],
   "note": "round trips proved for all coordinates and fields, the grouping into ordered columns whenever the closeness test separates different columns; refuted: numpy.isclose has a tolerance relative to the first coordinate and merges nearby columns at large coordinates"
  },
  {
   "property": "C34",
   "status": "proved",
   "theorems": [
    "Gusto.Props.CoordProps.C34_units",
    "Gusto.Props.CoordProps.C34_xyz_round_trip",
    "Gusto.Props.CoordProps.C34_lonlatr_round_trip",
    "Gusto.Props.CoordProps.C34_ranges"
   ],
   "note": ""
  },
  {
   "property": "C35",
   "status": "proved",
   "theorems": [
    "Gusto.Props.CoordProps.C35_units",
    "Gusto.Props.CoordProps.C35_inverse",
    "Gusto.Props.CoordProps.C35_inverse'",
    "Gusto.Props.CoordProps.C35_isometry",
    "Gusto.Props.CoordProps.C35_options_agree"
   ],
   "note": ""
  },
  {
   "property": "C36",
   "status": "proved",
   "theorems": [
    "Gusto.Props.CoordProps.C36_isometry",
    "Gusto.Props.CoordProps.C36_orientation",
    "Gusto.Props.CoordProps.C36_axis",
    "Gusto.Props.CoordProps.C36_compose",
    "Gusto.Props.CoordProps.C36_inverse",
    "Gusto.Props.CoordProps.C36_pole"
   ],
   "note": ""
  },
  {
   "property": "C37",
   "status": "partial",
   "theorems": [
    "Gusto.Props.CoordProps.C37_actual_pole",
    "Gusto.Props.CoordProps.C37_refuted",
    "Gusto.Props.CoordProps.C37_rotation"
   ],
   "note": "the claim is false: proved that the map is a rotation of the sphere whose new pole is at (lon + 180 degrees, lat), and that the requested point gets latitude +90 degrees only if it is a geographic pole"
  },
  {
   "property": "C38",
   "status": "proved",
   "theorems": [
    "Gusto.Props.CoordProps.C38_shortest",
    "Gusto.Props.CoordProps.C38_antisymmetric",
    "Gusto.Props.CoordProps.C38_zero"
   ],
   "note": ""
  },
  {
   "property": "C39",
   "status": "partial",
   "theorems": [
    "Gusto.Props.CoordProps.C39_rad",
    "Gusto.Props.CoordProps.C39_deg",
    "Gusto.Props.CoordProps.C39_metric",
    "Gusto.Props.CoordProps.C39_mutation_refuted",
    "Gusto.Props.CoordProps.C39_alias_refuted"
   ],
   "note": "value, symmetry, range and coincidence proved for all points and both units; refuted: in degrees the caller's arrays are changed in place, and an array passed twice is converted twice"
  },
  {
   "property": "C40",
   "status": "proved",
   "theorems": [
    "Gusto.Props.ThermoProps.C40_density_of_exner",
    "Gusto.Props.ThermoProps.C40_exner_of_density",
    "Gusto.Props.ThermoProps.C40_theta_of_T",
    "Gusto.Props.ThermoProps.C40_T_of_theta",
    "Gusto.Props.ThermoProps.C40_equation_of_state",
    "Gusto.Props.ThermoProps.C40_moist_equation_of_state",
    "Gusto.Props.ThermoProps.C40_constants"
   ],
   "note": ""
  },
  {
   "property": "C41",
   "status": "proved",
   "theorems": [
    "Gusto.Props.ThermoProps.C41_drho",
    "Gusto.Props.ThermoProps.C41_dtheta"
   ],
   "note": ""
  },
  {
   "property": "C42",
   "status": "proved",
   "theorems": [
    "Gusto.Props.ThermoProps.C42_RH_of_rv",
    "Gusto.Props.ThermoProps.C42_rv_of_RH",
    "Gusto.Props.ThermoProps.C42_saturation",
    "Gusto.Props.ThermoProps.C42_RH_ratio",
    "Gusto.Props.ThermoProps.C42_monotone"
   ],
   "note": ""
  },
  {
   "property": "C43",
   "status": "proved",
   "theorems": [
    "Gusto.Props.MicroProps.C43_forward_euler",
    "Gusto.Props.MicroProps.C43_conserves",
    "Gusto.Props.MicroProps.C43_only",
    "Gusto.Props.MicroProps.C43_nonneg",
    "Gusto.Props.MicroProps.C43_supersaturated",
    "Gusto.Props.MicroProps.C43_subsaturated",
    "Gusto.Props.MicroProps.C43_no_latent_heat",
    "Gusto.Props.MicroProps.C43_theta",
    "Gusto.Props.MicroProps.C43_neutral"
   ],
   "note": ""
  },
  {
   "property": "C44",
   "status": "partial",
   "theorems": [
    "Gusto.Props.MicroProps.C44_conserves",
    "Gusto.Props.MicroProps.C44_bounds",
    "Gusto.Props.MicroProps.C44_amount",
    "Gusto.Props.MicroProps.C44_below_threshold",
    "Gusto.Props.MicroProps.C44_negative_cloud_refuted"
   ],
   "note": "proved for non-negative cloud and rain; refuted without the hypothesis on cloud: negative cloud makes rain negative when accretion is off"
  },
  {
   "property": "C45",
   "status": "partial",
   "theorems": [
    "Gusto.Props.MicroProps.C45_conserves_partial",
    "Gusto.Props.MicroProps.C45_rate",
    "Gusto.Props.MicroProps.C45_direction_refuted",
    "Gusto.Props.MicroProps.C45_vapour_negative_refuted"
   ],
   "note": "conservation and the exact rate proved; refuted: the three factors have reversed signs, rain grows in sub-saturated air and vapour becomes negative"
  },
  {
   "property": "C46",
   "status": "partial",
   "theorems": [
    "Gusto.Props.SWPhysProps.C46_instant_rain_setup",
    "Gusto.Props.SWPhysProps.C46_instant_rain_conserves",
    "Gusto.Props.SWPhysProps.C46_instant_rain_exact",
    "Gusto.Props.SWPhysProps.C46_instant_rain_bounds",
    "Gusto.Props.SWPhysProps.C46_instant_rain_short_tau_refuted",
    "Gusto.Props.SWPhysProps.C46_sw_conserves",
    "Gusto.Props.SWPhysProps.C46_sw_feedback",
    "Gusto.Props.SWPhysProps.C46_sw_nonneg",
    "Gusto.Props.SWPhysProps.C46_sw_exact",
    "Gusto.Props.SWPhysProps.C46_sw_towards",
    "Gusto.Props.SWPhysProps.C46_sw_short_tau_refuted"
   ],
   "note": "conservation, exactness for tau = dt and bounds proved; refuted: a relaxation time shorter than dt gives negative vapour; convective feedback of InstantRain is rejected at set-up (rank mismatch)"
  },
  {
   "property": "C47",
   "status": "partial",
   "theorems": [
    "Gusto.Props.SWPhysProps.C47_analytical_conserves",
    "Gusto.Props.SWPhysProps.C47_analytical_nonneg",
    "Gusto.Props.SWPhysProps.C47_analytical_exact",
    "Gusto.Props.SWPhysProps.C47_analytical_steady",
    "Gusto.Props.SWPhysProps.C47_other_total_refuted",
    "Gusto.Props.SWPhysProps.C47_general_explicit",
    "Gusto.Props.SWPhysProps.C47_general_theta"
   ],
   "note": "conservation for all schemes proved, non-negativity and the steady state for the hard-wired total 4e-6; refuted for other totals"
  },
  {
   "property": "C48",
   "status": "partial",
   "theorems": [
    "Gusto.Props.BoundaryProps.C48_surface_dry",
    "Gusto.Props.BoundaryProps.C48_surface_moist",
    "Gusto.Props.BoundaryProps.C48_surface_above",
    "Gusto.Props.BoundaryProps.C48_general_partial",
    "Gusto.Props.BoundaryProps.C48_general_rates",
    "Gusto.Props.BoundaryProps.C48_general_dry_partial",
    "Gusto.Props.BoundaryProps.C48_general_refuted",
    "Gusto.Props.BoundaryProps.C48_drag",
    "Gusto.Props.BoundaryProps.C48_drag_above",
    "Gusto.Props.BoundaryProps.C48_drag_general",
    "Gusto.Props.BoundaryProps.C48_default_drag"
   ],
   "note": "implicit formulations proved; general formulation: wind drag proved, surface fluxes refuted whenever the density is not 1 (extra factor 1/rho)"
  },
  {
   "property": "C49",
   "status": "proved",
   "theorems": [
    "Gusto.Props.AdjustProps.C49_sorts",
    "Gusto.Props.AdjustProps.C49_sum",
    "Gusto.Props.AdjustProps.C49_stable",
    "Gusto.Props.AdjustProps.C49_idempotent",
    "Gusto.Props.AdjustProps.C49_errors",
    "Gusto.Props.AdjustProps.C49_variable"
   ],
   "note": ""
  },
  {
   "property": "C50",
   "status": "partial",
   "theorems": [
    "Gusto.Props.BoundaryProps.C50_spin_up",
    "Gusto.Props.BoundaryProps.C50_vertical_zero",
    "Gusto.Props.BoundaryProps.C50_after_partial",
    "Gusto.Props.BoundaryProps.C50_no_spin_up_refuted"
   ],
   "note": "proved for every history with at least one spin-up step; refuted: if the first step is after the spin-up, dt stays zero and the source is 0/0"
  },
  {
   "property": "C51",
   "status": "proved",
   "theorems": [
    "Gusto.Props.RexiProps.C51_cover",
    "Gusto.Props.RexiProps.C51_balance",
    "Gusto.Props.RexiProps.C51_serial",
    "Gusto.Props.RexiProps.C51_parallel",
    "Gusto.Props.RexiProps.C51_proxy"
   ],
   "note": ""
  },
  {
   "property": "C52",
   "status": "proved",
   "theorems": [
    "Gusto.Props.RexiProps.C52_length",
    "Gusto.Props.RexiProps.C52_poles",
    "Gusto.Props.RexiProps.C52_full",
    "Gusto.Props.RexiProps.C52_half",
    "Gusto.Props.RexiProps.C52_caliari",
    "Gusto.Props.RexiProps.C52_constants",
    "Gusto.Props.RexiProps.C52_shift",
    "Gusto.Props.RexiProps.C52_gaussian"
   ],
   "note": ""
  },
  {
   "property": "C53",
   "status": "partial",
   "theorems": [
    "Gusto.Props.CpxProps.C53_get",
    "Gusto.Props.CpxProps.C53_set",
    "Gusto.Props.CpxProps.C53_lens",
    "Gusto.Props.CpxProps.C53_element",
    "Gusto.Props.CpxProps.C53_bc",
    "Gusto.Props.CpxProps.C53_vector_get",
    "Gusto.Props.CpxProps.C53_vector_refuted",
    "Gusto.Props.CpxProps.C53_split",
    "Gusto.Props.CpxProps.C53_system",
    "Gusto.Props.CpxProps.C53_coefficients",
    "Gusto.Props.CpxProps.C53_derivative"
   ],
   "note": "lenses, split, element, block system and derivative proved for every component layout; refuted for the vector proxy with vector- or tensor-valued components, where reading a part raises TypeError"
  },
  {
   "property": "C54",
   "status": "partial",
   "theorems": [
    "Gusto.Props.ConfigProps.C54_set_partial",
    "Gusto.Props.ConfigProps.C54_history_partial",
    "Gusto.Props.ConfigProps.C54_construct_partial",
    "Gusto.Props.ConfigProps.C54_numbers_refuted",
    "Gusto.Props.ConfigProps.C54_check_options",
    "Gusto.Props.ConfigProps.C54_check_options_history",
    "Gusto.Props.ConfigProps.C54_parameters",
    "Gusto.Props.ConfigProps.C54_no_mesh"
   ],
   "note": "unknown names rejected, histories, construction and option checks proved; refuted: diagfreq and tolerance of OutputParameters and h, M of RexiParameters are declared but can never be assigned a number"
  },
  {
   "property": "C55",
   "status": "partial",
   "theorems": [
    "Gusto.Props.EqSetProps.C55_order_partial",
    "Gusto.Props.EqSetProps.C55_chain_refuted",
    "Gusto.Props.EqSetProps.C55_add_partial",
    "Gusto.Props.EqSetProps.C55_duplicate"
   ],
   "note": "proved for lists without chains (a reference density that itself needs a reference density later in the list); refuted for a chain of three, where one swap pass is not enough"
  },
  {
   "property": "C56",
   "status": "partial",
   "theorems": [
    "Gusto.Props.FormProps.C56_continuity_terms",
    "Gusto.Props.FormProps.C56_continuity_ok",
    "Gusto.Props.FormProps.C56_continuity_value_partial",
    "Gusto.Props.FormProps.C56_linear_refuted",
    "Gusto.Props.FormProps.C56_linearisation_partial",
    "Gusto.Props.FormProps.C56_linearisation_refuted",
    "Gusto.Props.FormProps.C56_hv_terms",
    "Gusto.Props.FormProps.C56_hv_value_partial",
    "Gusto.Props.FormProps.C56_hv_none",
    "Gusto.Props.FormProps.C56_hv_two_refuted",
    "Gusto.Props.FormProps.C56_hv_again"
   ],
   "note": "values proved for nonlinear equations with one advective term per field; refuted: linear equation sets get nonlinear terms, the linearisation of the split form is not the derivative, and with several advective terms of one field all but one pair are lost"
  },
  {
   "property": "C57",
   "status": "partial",
   "theorems": [
    "Gusto.Props.PrescribedProps.C57_state_machine",
    "Gusto.Props.PrescribedProps.C57_velocity",
    "Gusto.Props.PrescribedProps.C57_fixed",
    "Gusto.Props.PrescribedProps.C57_output_partial",
    "Gusto.Props.PrescribedProps.C57_output_refuted",
    "Gusto.Props.PrescribedProps.C57_branch_refuted",
    "Gusto.Props.PrescribedProps.C57_split_construct",
    "Gusto.Props.PrescribedProps.C57_construct_partial",
    "Gusto.Props.PrescribedProps.C57_construct_refuted"
   ],
   "note": "set-up state machine, velocity at every step, fixed velocity and split construction proved; refuted: output rows carry the velocity of the start of the step before them, the function is called once so Python branches on time are frozen, and exactly one physics scheme with an implicit discretisation is accepted"
  },
  {
   "property": "C58",
   "status": "partial",
   "theorems": [
    "Gusto.Props.WrapProps.C58_pre",
    "Gusto.Props.WrapProps.C58_post",
    "Gusto.Props.WrapProps.C58_apply",
    "Gusto.Props.WrapProps.C58_identity",
    "Gusto.Props.WrapProps.C58_density_unwrapped",
    "Gusto.Props.WrapProps.C58_order_refuted",
    "Gusto.Props.WrapProps.C58_construct",
    "Gusto.Props.WrapProps.C58_setup_partial",
    "Gusto.Props.WrapProps.C58_setup_refuted",
    "Gusto.Props.WrapProps.C58_single"
   ],
   "note": "slots and per-field wrappers proved for every list of fields; refuted: a conservative tracer placed before its density uses the density of the previous call, and set-up overwrites the equation's own spaces through an alias"
  },
  {
   "property": "C59",
   "status": "proved",
   "theorems": [
    "Gusto.Props.C59_partition",
    "Gusto.Props.C59_keep_is_filter",
    "Gusto.Props.C59_relabel",
    "Gusto.Props.C59_replace_subject"
   ],
   "note": ""
  },
  {
   "property": "C60",
   "status": "proved",
   "theorems": [
    "Gusto.Props.EqSetProps.C60_generate",
    "Gusto.Props.EqSetProps.C60_linearise",
    "Gusto.Props.EqSetProps.C60_complete",
    "Gusto.Props.EqSetProps.C60_terms",
    "Gusto.Props.EqSetProps.C60_again",
    "Gusto.Props.EqSetProps.C60_default"
   ],
   "note": ""
  },
  {
   "property": "C61",
   "status": "partial",
   "theorems": [
    "Gusto.Props.C61_increment_sources",
    "Gusto.Props.C61_predictor_sources_partial",
    "Gusto.Props.C61_predictor_two_schemes_refuted",
    "Gusto.Props.C61_backward_euler_refuted_ignores_source"
   ],
   "note": "proved for increment RK and for predictor RK with one source; refuted for two sources in predictor RK and for BackwardEuler"
  },
  {
   "property": "C62",
   "status": "proved",
   "theorems": [
    "Gusto.Props.IRKProps.C62_quadratic_invariants",
    "Gusto.Props.IRKProps.C62_builtin_symplectic",
    "Gusto.Props.IRKProps.C62_builtin_conserve"
   ],
   "note": ""
  },
  {
   "property": "C63",
   "status": "partial",
   "theorems": [
    "Gusto.Props.RestartProps.C63_repeated_crashes",
    "Gusto.Props.LoopProps.C63_crash_points",
    "Gusto.Props.LoopProps.C63_refuted_during_write"
   ],
   "note": "proved for every crash point, and for every chain of crashes and resumptions, at which the checkpoint file is complete; refuted during a checkpoint write, which truncates the only copy"
  },
  {
   "property": "C64",
   "status": "proved",
   "theorems": [
    "Gusto.Props.QNProps.C64_spinup",
    "Gusto.Props.QNProps.C64_velocity_not_spun_up"
   ],
   "note": ""
  },
  {
   "property": "C65",
   "status": "partial",
   "theorems": [
    "Gusto.Props.QNProps.C65_coefficients",
    "Gusto.Props.QNProps.C65_second_order",
    "Gusto.Props.QNProps.C65_inner_fixed_iff",
    "Gusto.Props.QNProps.C65_bdf_transported",
    "Gusto.Props.QNProps.C65_bdf_untransported_refuted",
    "Gusto.Props.QNProps.C65_forgotten_field_refuted"
   ],
   "note": "coefficients, order and stage equations proved; refuted: untransported fields with 2 or more outer BDF iterations, prognostics that are neither solver prognostics nor active tracers"
  },
  {
   "property": "C66",
   "status": "partial",
   "theorems": [
    "Gusto.Props.QNProps.C66_slow_physics_refuted",
    "Gusto.Props.QNProps.C66_siqn_slow_physics",
    "Gusto.Props.QNProps.C66_siqn_once"
   ],
   "note": "proved for SemiImplicitQuasiNewton; refuted for TRBDF2QuasiNewton (factor gamma3)"
  },
  {
   "property": "C67",
   "status": "partial",
   "theorems": [
    "Gusto.Props.RIDCProps.C67_fixed_iff_partial",
    "Gusto.Props.RIDCProps.C67_source_refuted",
    "Gusto.Props.RIDCProps.C67_sweep_equation_partial",
    "Gusto.Props.RIDCProps.C67_apply"
   ],
   "note": "proved without source terms; refuted with source terms (spurious term from the never evaluated source at node 0)"
  },
  {
   "property": "C68",
   "status": "proved",
   "theorems": [
    "Gusto.Props.SDCProps.C68_sweep_gains_order",
    "Gusto.Props.SDCProps.C68_apply_order"
   ],
   "note": ""
  },
  {
   "property": "C69",
   "status": "proved",
   "theorems": [
    "Gusto.Props.LimiterProps.C69_min_kernel",
    "Gusto.Props.LimiterProps.C69_max_kernel"
   ],
   "note": ""
  },
  {
   "property": "C70",
   "status": "partial",
   "theorems": [
    "Gusto.Props.CoordProps.C70_orthonormal",
    "Gusto.Props.CoordProps.C70_components",
    "Gusto.Props.CoordProps.C70_pole_direction",
    "Gusto.Props.CoordProps.C70_pole_refuted"
   ],
   "note": "orthonormality, orientation, components and direction of the actual pole proved; refuted: the meridional vector points to (lon + 180 degrees, lat) instead of the requested pole"
  },
  {
   "property": "C71",
   "status": "proved",
   "theorems": [
    "Gusto.Props.ThermoProps.C71_esat",
    "Gusto.Props.ThermoProps.C71_rsat",
    "Gusto.Props.ThermoProps.C71_latent_heat",
    "Gusto.Props.ThermoProps.C71_theta_e_dry",
    "Gusto.Props.ThermoProps.C71_theta_e_saturated",
    "Gusto.Props.ThermoProps.C71_internal_energy"
   ],
   "note": ""
  },
  {
   "property": "C73",
   "status": "proved",
   "theorems": [
    "Gusto.Props.MicroProps.C73_energy"
   ],
   "note": ""
  },
  {
   "property": "C74",
   "status": "partial",
   "theorems": [
    "Gusto.Props.MicroProps.C74_source_sink_partial",
    "Gusto.Props.MicroProps.C74_rate_refuted"
   ],
   "note": "only the named variable changes and it changes at minus the expression (proved); the documented sign is refuted"
  },
  {
   "property": "C75",
   "status": "proved",
   "theorems": [
    "Gusto.Props.BoundaryProps.C75_sigma",
    "Gusto.Props.BoundaryProps.C75_rate",
    "Gusto.Props.BoundaryProps.C75_equilibrium",
    "Gusto.Props.BoundaryProps.C75_relaxation",
    "Gusto.Props.BoundaryProps.C75_friction"
   ],
   "note": ""
  },
  {
   "property": "C76",
   "status": "proved",
   "theorems": [
    "Gusto.Props.BoundaryProps.C76_fall_speed"
   ],
   "note": ""
  },
  {
   "property": "C77",
   "status": "partial",
   "theorems": [
    "Gusto.Props.RexiProps.C77_mode",
    "Gusto.Props.RexiProps.C77_steady",
    "Gusto.Props.RexiProps.C77_half_partial",
    "Gusto.Props.RexiProps.C77_half_refuted"
   ],
   "note": "modes and steady states proved for every coefficient set; refuted: reduce_to_half returns exactly half the result because beta2 is not used"
  },
  {
   "property": "C78",
   "status": "partial",
   "theorems": [
    "Gusto.Props.EqSetProps.C78_mass_terms",
    "Gusto.Props.EqSetProps.C78_tracer_transport",
    "Gusto.Props.EqSetProps.C78_tracer_transport_ok",
    "Gusto.Props.EqSetProps.C78_boundary_conditions",
    "Gusto.Props.EqSetProps.C78_single_refuted"
   ],
   "note": "all parts proved for sets of at least two fields; refuted: a set whose only field is u loses its boundary conditions (C78_single_refuted)."
  },
  {
   "property": "C79",
   "status": "partial",
   "theorems": [
    "Gusto.Props.FormProps.C79_product_rules",
    "Gusto.Props.FormProps.C79_linear_forms",
    "Gusto.Props.FormProps.C79_linear_vector_forms",
    "Gusto.Props.FormProps.C79_vector_invariant_partial",
    "Gusto.Props.FormProps.C79_plane_partial",
    "Gusto.Props.FormProps.C79_plane_refuted",
    "Gusto.Props.FormProps.C79_diffusion"
   ],
   "note": "product rules, linear forms, vector-invariant identity in 3D and diffusion proved; refuted: in the plane the circulation form has the opposite sign of the documented operator"
  },
  {
   "property": "C80",
   "status": "partial",
   "theorems": [
    "Gusto.Props.AugProps.C80_limit",
    "Gusto.Props.AugProps.C80_correlation",
    "Gusto.Props.AugProps.C80_negative_mass_refuted",
    "Gusto.Props.AugProps.C80_construct_partial",
    "Gusto.Props.AugProps.C80_construct_refuted",
    "Gusto.Props.AugProps.C80_predictor",
    "Gusto.Props.AugProps.C80_formulation_refuted"
   ],
   "note": "limiting proved non-negative, conservative for cells of non-negative mass, local and correlation-preserving; every step of the predictor formulation ends with it; refuted: in the increment (default) and linear formulations it is never called, a cell with negative mass gains mass, and a prognostic that is not an active tracer is accepted with a missing density"
  },
  {
   "property": "C81",
   "status": "partial",
   "theorems": [
    "Gusto.Props.AugProps.C81_limiter_refuted",
    "Gusto.Props.AugProps.C81_theta",
    "Gusto.Props.AugProps.C81_theta_run",
    "Gusto.Props.AugProps.C81_explicit_refuted",
    "Gusto.Props.AugProps.C81_implicit_refuted"
   ],
   "note": "proved for the theta methods, every step of every run; refuted: explicit schemes use the vorticity left from the previous step (zero in the first), the other implicit schemes always start with zero vorticity, and a limiter is ignored in the predictor formulation"
  },
  {
   "property": "C72",
   "status": "partial",
   "theorems": [
    "Gusto.Props.HydroProps.C72_unsaturated_partial",
    "Gusto.Props.HydroProps.C72_nonconvergence_refuted",
    "Gusto.Props.HydroProps.C72_exner_refuted",
    "Gusto.Props.HydroProps.C72_saturated_exner_refuted",
    "Gusto.Props.HydroProps.C72_saturated_partial",
    "Gusto.Props.HydroProps.C72_saturated_fixed",
    "Gusto.Props.HydroProps.C72_saturated_stale_refuted",
    "Gusto.Props.HydroProps.C72_balance"
   ],
   "note": "balance of the returned density for every outcome, the test for converged unsaturated profiles; refuted: RuntimeError is never raised, saturated profiles are tested with the average density of the iteration before, exner0 raises AttributeError in the saturated routine and does not belong to the returned density without convergence"
  },
  {
   "property": "C82",
   "status": "partial",
   "theorems": [
    "Gusto.Props.SetUpProps.C82_mass_weighted_single_equation",
    "Gusto.Props.SetUpProps.C82_single_field",
    "Gusto.Props.SetUpProps.C82_single_field_all",
    "Gusto.Props.SetUpProps.C82_unknown_field",
    "Gusto.Props.SetUpProps.C82_whole_equation",
    "Gusto.Props.SetUpProps.C82_many_fields",
    "Gusto.Props.SetUpProps.C82_many_labels_keep_everything",
    "Gusto.Props.SetUpProps.C82_many_labels_refuted",
    "Gusto.Props.SetUpProps.C82_sources",
    "Gusto.Props.SetUpProps.C82_mass_weighted",
    "Gusto.Props.SetUpProps.C82_mass_weighted_consistent"
   ],
   "note": "proved for single fields, whole equations, lists of fields with one label, sources and mass-weighting; refuted: a list of fields with two or more active labels keeps every term of those fields and counts the mass terms twice"
  },
  {
   "property": "C83",
   "status": "partial",
   "theorems": [
    "Gusto.Props.SetUpProps.C83_frame",
    "Gusto.Props.SetUpProps.C83_replaced",
    "Gusto.Props.SetUpProps.C83_diffusion",
    "Gusto.Props.SetUpProps.C83_ambiguous",
    "Gusto.Props.SetUpProps.C83_velocity",
    "Gusto.Props.SetUpProps.C83_velocity_all_but_last",
    "Gusto.Props.SetUpProps.C83_velocity_mass_weighted",
    "Gusto.Props.SetUpProps.C83_velocity_mass_weighted_refuted",
    "Gusto.Props.SetUpProps.C83_upwind",
    "Gusto.Props.SetUpProps.C83_manifold_advection_refuted",
    "Gusto.Props.SetUpProps.C83_manifold_continuity_refuted",
    "Gusto.Props.SetUpProps.C83_commute",
    "Gusto.Props.SetUpProps.C83_mass_weighted_pipeline"
   ],
   "note": "frame, replacement, order independence, velocity (also in the mass-weighted pipeline) proved; refuted: the vector manifold correction is written with a velocity Function that is never set, so in advective form it never acts and in continuity form the transport itself is dropped"
  },
  {
   "property": "C84",
   "status": "proved",
   "theorems": [
    "Gusto.Props.DGProps.C84_conservative",
    "Gusto.Props.DGProps.C84_tracer_conservative",
    "Gusto.Props.DGProps.C84_run_conserves",
    "Gusto.Props.DGProps.C84_conservative_twice",
    "Gusto.Props.DGProps.C84_ibp_advection",
    "Gusto.Props.DGProps.C84_ibp_continuity",
    "Gusto.Props.DGProps.C84_constants",
    "Gusto.Props.DGProps.C84_consistent",
    "Gusto.Props.DGProps.C84_upwind_value",
    "Gusto.Props.DGProps.C84_tracer_consistency",
    "Gusto.Props.DGProps.C84_tracer_is_continuity",
    "Gusto.Props.DGProps.C84_linear",
    "Gusto.Props.DGProps.C84_one_dimension",
    "Gusto.Props.DGProps.C84_split_directions",
    "Gusto.Props.DGProps.C84_split",
    "Gusto.Props.DGProps.C84_split_slope_differs"
   ],
   "note": ""
  },
  {
   "property": "C86",
   "status": "proved",
   "theorems": [
    "Gusto.Props.DGProps.C86_symmetric",
    "Gusto.Props.DGProps.C86_conservative",
    "Gusto.Props.DGProps.C86_constants",
    "Gusto.Props.DGProps.C86_consistent",
    "Gusto.Props.DGProps.C86_coercive",
    "Gusto.Props.DGProps.C86_one_dimension"
   ],
   "note": ""
  },
  {
   "property": "C87",
   "status": "partial",
   "theorems": [
    "Gusto.Props.DGProps.C87_refused",
    "Gusto.Props.DGProps.C87_built",
    "Gusto.Props.DGProps.C87_built_1d",
    "Gusto.Props.DGProps.C87_ignored",
    "Gusto.Props.DGProps.C87_outflow_refuted",
    "Gusto.Props.DGProps.C87_one_dimension_unbound"
   ],
   "note": "refusals and general meshes proved; refuted: outflow and advective_then_flux are silently ignored on one-dimensional meshes, outflow also for mass-weighted tracers; other types in one dimension end in an UnboundLocalError"
  },
  {
   "property": "C88",
   "status": "proved",
   "theorems": [
    "Gusto.Props.DGProps.C88_no_work",
    "Gusto.Props.DGProps.C88_vector_invariant_work",
    "Gusto.Props.DGProps.C88_no_work3",
    "Gusto.Props.DGProps.C88_ibp",
    "Gusto.Props.DGProps.C88_weights_upwind",
    "Gusto.Props.DGProps.C88_curl",
    "Gusto.Props.DGProps.C88_weights",
    "Gusto.Props.DGProps.C88_consistent",
    "Gusto.Props.DGProps.C88_three_dimensions"
   ],
   "note": ""
  },
  {
   "property": "C89",
   "status": "proved",
   "theorems": [
    "Gusto.Props.DGProps.C89_energy",
    "Gusto.Props.DGProps.C89_dissipative",
    "Gusto.Props.DGProps.C89_outflow"
   ],
   "note": ""
  },
  {
   "property": "C85",
   "status": "partial",
   "theorems": [
    "Gusto.Props.SpacesProps.C85_built",
    "Gusto.Props.SpacesProps.C85_duplicate",
    "Gusto.Props.SpacesProps.C85_names_distinct",
    "Gusto.Props.SpacesProps.C85_names_clash",
    "Gusto.Props.SpacesProps.C85_unknown_family",
    "Gusto.Props.SpacesProps.C85_dg_family_refuted",
    "Gusto.Props.SpacesProps.C85_complex_exact",
    "Gusto.Props.SpacesProps.C85_bdfm_exact",
    "Gusto.Props.SpacesProps.C85_serendipity_refuted",
    "Gusto.Props.SpacesProps.C85_interval_exact",
    "Gusto.Props.SpacesProps.C85_extruded_exact",
    "Gusto.Props.SpacesProps.C85_slice_exact",
    "Gusto.Props.SpacesProps.C85_slice_hcurl_refuted",
    "Gusto.Props.SpacesProps.C85_continuity",
    "Gusto.Props.SpacesProps.C85_continuity_refuted",
    "Gusto.Props.SpacesProps.C85_add",
    "Gusto.Props.SpacesProps.C85_check_degrees",
    "Gusto.Props.SpacesProps.C85_domain",
    "Gusto.Props.SpacesProps.C85_horizontal_only_refuted"
   ],
   "note": "container, names, degrees, exactness for RT, BDM, RTC families, BDFM (its one degree), intervals, extruded meshes, slices (HDiv) proved; refuted: continuity of H1, HCurl and DG is not stored, families DG and None pass the check and raise KeyError, horizontal_degree alone raises TypeError on meshes that are not extruded, the serendipity family is paired with a too large L2 space, the HCurl space of slices has the wrong degree; meshes of tetrahedra not covered"
  },
  {
   "property": "C90",
   "status": "partial",
   "theorems": [
    "Gusto.Props.DiagProps.C90_min",
    "Gusto.Props.DiagProps.C90_max",
    "Gusto.Props.DiagProps.C90_distribution",
    "Gusto.Props.DiagProps.C90_nan_refuted",
    "Gusto.Props.DiagProps.C90_register",
    "Gusto.Props.DiagProps.C90_register_refuted",
    "Gusto.Props.DiagProps.C90_rms_l2",
    "Gusto.Props.DiagProps.C90_rms_bounds",
    "Gusto.Props.DiagProps.C90_total",
    "Gusto.Props.DiagProps.C90_iterative",
    "Gusto.Props.DiagProps.C90_iterative_picard",
    "Gusto.Props.DiagProps.C90_iterative_converges",
    "Gusto.Props.DiagProps.C90_gamma_refuted",
    "Gusto.Props.DiagProps.C90_components",
    "Gusto.Props.DiagProps.C90_components_refused",
    "Gusto.Props.DiagProps.C90_components_sphere_refuted",
    "Gusto.Props.DiagProps.C90_gradient",
    "Gusto.Props.DiagProps.C90_gradient_refuted",
    "Gusto.Props.DiagProps.C90_tracer_density",
    "Gusto.Props.DiagProps.C90_tracer_element",
    "Gusto.Props.DiagProps.C90_tracer_element_refuted"
   ],
   "note": "all parts proved except the refuted ones: NaN values are ignored by min/max, register with a repeated argument duplicates, gamma weighs the new value instead of the previous guess, X/Y/Z components fail on the spherical shell, the gradient lacks lateral boundary terms, the tracer density element of 3D extruded meshes is wrong; the spherical components are C70"
  },
  {
   "property": "C91",
   "status": "partial",
   "theorems": [
    "Gusto.Props.DiagProps.C91_definition",
    "Gusto.Props.DiagProps.C91_basic",
    "Gusto.Props.DiagProps.C91_components",
    "Gusto.Props.DiagProps.C91_component_meaning",
    "Gusto.Props.DiagProps.C91_maximum_principle",
    "Gusto.Props.DiagProps.C91_sharp",
    "Gusto.Props.DiagProps.C91_positive",
    "Gusto.Props.DiagProps.C91_divergent_refuted",
    "Gusto.Props.DiagProps.C91_subcycling",
    "Gusto.Props.DiagProps.C91_names",
    "Gusto.Props.DiagProps.C91_logging",
    "Gusto.Props.DiagProps.C91_expression_component_refuted",
    "Gusto.Props.DiagProps.C91_field_refuted",
    "Gusto.Props.DiagProps.C91_repeated_refuted"
   ],
   "note": "proved for DG0 and forward Euler; refuted: only inflow is counted (divergent cells), components of expressions and other fields cannot be logged, repeated runs duplicate the diagnostics; other schemes are covered by C115 and C145; other elements are not covered"
  },
  {
   "property": "C92",
   "status": "partial",
   "theorems": [
    "Gusto.Props.DiagProps.C92_history",
    "Gusto.Props.DiagProps.C92_interruptions",
    "Gusto.Props.DiagProps.C92_second_run_refuted",
    "Gusto.Props.DiagProps.C92_user_field_refuted",
    "Gusto.Props.DiagProps.C92_perturbation"
   ],
   "note": "Proved for every history of runs that pick up; refuted: a second run() in the same process without pick-up starts the error and the sum anew (C92_second_run_refuted), and an initial field supplied by the user is overwritten (C92_user_field_refuted)."
  },
  {
   "property": "C93",
   "status": "partial",
   "theorems": [
    "Gusto.Props.EqnDiagProps.C93_energies",
    "Gusto.Props.EqnDiagProps.C93_enstrophy",
    "Gusto.Props.EqnDiagProps.C93_vorticity_totals",
    "Gusto.Props.EqnDiagProps.C93_vorticity_is_curl",
    "Gusto.Props.EqnDiagProps.C93_vorticity_unique",
    "Gusto.Props.EqnDiagProps.C93_boundary_circulation",
    "Gusto.Props.EqnDiagProps.C93_vorticity_accepts",
    "Gusto.Props.EqnDiagProps.C93_sphere_refuted",
    "Gusto.Props.EqnDiagProps.C93_hcurl_unique",
    "Gusto.Props.EqnDiagProps.C93_dg_exact",
    "Gusto.Props.EqnDiagProps.C93_dg_totals",
    "Gusto.Props.EqnDiagProps.C93_boundary_refuted",
    "Gusto.Props.EqnDiagProps.C93_partition",
    "Gusto.Props.EqnDiagProps.C93_saturation"
   ],
   "note": "refuted on domains with boundary: the vorticity forms of the continuous variant leave out the circulation along the boundary (C93_boundary_refuted); on the sphere the methods interpolate and project raise in the default space (C93_sphere_refuted). The DG variant is modelled on the plane."
  },
  {
   "property": "C94",
   "status": "partial",
   "theorems": [
    "Gusto.Props.EqnDiagProps.C94_setup_succeeds",
    "Gusto.Props.EqnDiagProps.C94_richardson_refuted",
    "Gusto.Props.EqnDiagProps.C94_gradient_shape",
    "Gusto.Props.EqnDiagProps.C94_gradient_shape_refuted",
    "Gusto.Props.EqnDiagProps.C94_richardson",
    "Gusto.Props.EqnDiagProps.C94_moist_sums",
    "Gusto.Props.EqnDiagProps.C94_moist_refuses",
    "Gusto.Props.EqnDiagProps.C94_required",
    "Gusto.Props.EqnDiagProps.C94_relations",
    "Gusto.Props.EqnDiagProps.C94_relative_humidity",
    "Gusto.Props.EqnDiagProps.C94_dewpoint",
    "Gusto.Props.EqnDiagProps.C94_wet_bulb",
    "Gusto.Props.EqnDiagProps.C94_wet_bulb_saturated",
    "Gusto.Props.EqnDiagProps.C94_energies",
    "Gusto.Props.EqnDiagProps.C94_brunt_vaisala",
    "Gusto.Props.EqnDiagProps.C94_brunt_vaisala_refuses",
    "Gusto.Props.EqnDiagProps.C94_brunt_vaisala_refuted",
    "Gusto.Props.EqnDiagProps.C94_imbalance",
    "Gusto.Props.EqnDiagProps.C94_precipitation_flux",
    "Gusto.Props.EqnDiagProps.C94_precipitation_total",
    "Gusto.Props.EqnDiagProps.C94_precipitation_sign",
    "Gusto.Props.EqnDiagProps.C94_precipitation_run",
    "Gusto.Props.EqnDiagProps.C94_precipitation_refuted"
   ],
   "note": "refuted: RichardsonNumber does not require the density gradient it reads; Gradient has the wrong shape for 3D vectors; the Brunt-Vaisala frequency accepts equations with one moist tracer; Precipitation counts one step too many (the initial dump). The imbalance is the residual only up to the product of the perturbations"
  },
  {
   "property": "C95",
   "status": "partial",
   "theorems": [
    "Gusto.Props.SWProps.C95_plane_good",
    "Gusto.Props.SWProps.C95_sphere_good",
    "Gusto.Props.SWProps.C95_linear_is_derivative",
    "Gusto.Props.SWProps.C95_accepts",
    "Gusto.Props.SWProps.C95_option_error_refuted",
    "Gusto.Props.SWProps.C95_coriolis_no_work",
    "Gusto.Props.SWProps.C95_coriolis_values",
    "Gusto.Props.SWProps.C95_momentum",
    "Gusto.Props.SWProps.C95_lake_at_rest",
    "Gusto.Props.SWProps.C95_linear_form",
    "Gusto.Props.SWProps.C95_linear_topography_refuted",
    "Gusto.Props.SWProps.C95_energy",
    "Gusto.Props.SWProps.C95_theta_energy",
    "Gusto.Props.SWProps.C95_trapezium_energy",
    "Gusto.Props.SWProps.C95_vector_advection_refuted",
    "Gusto.Props.SWProps.C95_map_respected"
   ],
   "note": "the depth-averaged tracers and the 1D sets are left out; refuted: an unknown u_transport_option raises AttributeError, the linear equations drop the topography of their documentation, and the advective velocity form is the gradient of kinetic energy instead of (u.grad)u"
  },
  {
   "property": "C96",
   "status": "partial",
   "theorems": [
    "Gusto.Props.SWProps.C96_uniform_buoyancy",
    "Gusto.Props.SWProps.C96_topography_twice_refuted",
    "Gusto.Props.SWProps.C96_lake_at_rest_refuted",
    "Gusto.Props.SWProps.C96_linear_missing",
    "Gusto.Props.SWProps.C96_linear_flat",
    "Gusto.Props.SWProps.C96_linear_refuted",
    "Gusto.Props.SWProps.C96_map_ignored_refuted",
    "Gusto.Props.SWProps.C96_equivalent_source",
    "Gusto.Props.SWProps.C96_equivalent_linear_refuted",
    "Gusto.Props.SWProps.C96_equivalent_water_refuted"
   ],
   "note": "uniform buoyancy without topography, derivative about flat reference depth and the source of equivalent buoyancy proved; refuted: the topography is counted twice, b' grad(Dbar) is missing from the linear source, the linearisation map is ignored for it, and the equivalent-buoyancy linearisation is not the derivative"
  },
  {
   "property": "C97",
   "status": "partial",
   "theorems": [
    "Gusto.Props.BouProps.C97_space_good",
    "Gusto.Props.BouProps.C97_slice_good",
    "Gusto.Props.BouProps.C97_accepts",
    "Gusto.Props.BouProps.C97_coriolis_no_work",
    "Gusto.Props.BouProps.C97_coriolis_values",
    "Gusto.Props.BouProps.C97_compressible_form",
    "Gusto.Props.BouProps.C97_linear_is_derivative",
    "Gusto.Props.BouProps.C97_map_ignored_refuted",
    "Gusto.Props.BouProps.C97_hydrostatic_rest",
    "Gusto.Props.BouProps.C97_incompressible_refuted",
    "Gusto.Props.BouProps.C97_incompressible_rest_refuted",
    "Gusto.Props.BouProps.C97_energy",
    "Gusto.Props.BouProps.C97_theta_energy",
    "Gusto.Props.BouProps.C97_trapezium_energy"
   ],
   "note": "compressible part, Coriolis, derivative, energy and acceptance proved; refuted: the incompressible equations keep the time derivative of p, so time stepping them gives div u = p + dp/dt and rest in hydrostatic balance is not steady; the divergence is linearised whatever the linearisation map says"
  },
  {
   "property": "C98",
   "status": "partial",
   "theorems": [
    "Gusto.Props.SolversProps.C98_tracers",
    "Gusto.Props.SolversProps.C98_default_prognostics",
    "Gusto.Props.SolversProps.C98_presets_cover",
    "Gusto.Props.SolversProps.C98_equivalent_buoyancy_refuted",
    "Gusto.Props.SolversProps.C98_user_prognostics_refuted",
    "Gusto.Props.SolversProps.C98_one_dimension_refuted",
    "Gusto.Props.SolversProps.C98_tau_ignored_refuted",
    "Gusto.Props.SolversProps.C98_tau",
    "Gusto.Props.SolversProps.C98_shared_tau_refuted",
    "Gusto.Props.SolversProps.C98_schur_defect",
    "Gusto.Props.SolversProps.C98_schur_exact",
    "Gusto.Props.SolversProps.C98_schur_unique",
    "Gusto.Props.SolversProps.C98_additive_exact",
    "Gusto.Props.SolversProps.C98_boussinesq_defect",
    "Gusto.Props.SolversProps.C98_boussinesq_exact",
    "Gusto.Props.SolversProps.C98_rotating_refuted",
    "Gusto.Props.SolversProps.C98_incompressible_refuted",
    "Gusto.Props.SolversProps.C98_thermal_defect",
    "Gusto.Props.SolversProps.C98_thermal_exact",
    "Gusto.Props.SolversProps.C98_thermal_refuted"
   ],
   "note": "coverage, tracers, relaxation parameters, block elimination, exact elimination for compressible Boussinesq and thermal shallow water of uniform depth proved; refuted: equivalent buoyancy with default prognostics leaves q_t in no block, other user prognostics, one-dimensional shallow water, relaxation parameters ignored by all but the compressible preset, shared dictionary changed, rotating and incompressible Boussinesq, thermal shallow water with varying depth"
  },
  {
   "property": "C99",
   "status": "partial",
   "theorems": [
    "Gusto.Props.HybridProps.C99_reconstruct",
    "Gusto.Props.HybridProps.C99_solves",
    "Gusto.Props.HybridProps.C99_inverse",
    "Gusto.Props.HybridProps.C99_break",
    "Gusto.Props.HybridProps.C99_unbreak",
    "Gusto.Props.HybridProps.C99_transpose",
    "Gusto.Props.HybridProps.C99_hybridization",
    "Gusto.Props.HybridProps.C99_trace_parts",
    "Gusto.Props.HybridProps.C99_lateral_only_refuted"
   ],
   "note": "All parts proved except that a velocity condition on lateral boundaries only leaves the traces of top and bottom in neither part (C99_lateral_only_refuted)."
  },
  {
   "property": "C100",
   "status": "partial",
   "theorems": [
    "Gusto.Props.EulerProps.C100_accepts",
    "Gusto.Props.EulerProps.C100_tracers_refuted",
    "Gusto.Props.EulerProps.C100_coriolis_no_work",
    "Gusto.Props.EulerProps.C100_documented_form",
    "Gusto.Props.EulerProps.C100_hydrostatic_rest",
    "Gusto.Props.EulerProps.C100_mass",
    "Gusto.Props.EulerProps.C100_dry_limit",
    "Gusto.Props.EulerProps.C100_linear_is_derivative",
    "Gusto.Props.EulerProps.C100_sponge_profile",
    "Gusto.Props.EulerProps.C100_sponge_dissipates",
    "Gusto.Props.EulerProps.C100_sponge_negative_refuted",
    "Gusto.Props.EulerProps.C100_sponge_sphere_refuted"
   ],
   "note": "options, documented form, Coriolis work, hydrostatic rest, mass, dry limit, linearisation, sponge profile and dissipation proved; refuted: tracers that are not mixing ratios only warn, interpolated DG2 sponge negative below its level, no sponge in the southern hemisphere of a sphere; the equations of the tracers, diffusion and extra terms are in C136"
  },
  {
   "property": "C101",
   "status": "partial",
   "theorems": [
    "Gusto.Props.HydroProps.C101_accepts",
    "Gusto.Props.HydroProps.C101_time_derivative",
    "Gusto.Props.HydroProps.C101_no_vertical_derivative",
    "Gusto.Props.HydroProps.C101_form",
    "Gusto.Props.HydroProps.C101_balance_refuted",
    "Gusto.Props.HydroProps.C101_linear_mass_refuted",
    "Gusto.Props.HydroProps.C101_linear_forces_refuted",
    "Gusto.Props.HydroProps.C101_label_refuted",
    "Gusto.Props.HydroProps.C101_forcing_kernel_refuted",
    "Gusto.Props.HydroProps.C101_forcing_solvable_refuted",
    "Gusto.Props.HydroProps.C101_forcing_terms",
    "Gusto.Props.HydroProps.C101_forcing_unsolvable_refuted"
   ],
   "note": "time derivative, form, forcing terms proved; refuted: vertical balance (the forces equal the vertical velocity in monolithic schemes), linearisation of mass and forces, label, uniqueness and solvability of the forcing problem"
  },
  {
   "property": "C102",
   "status": "partial",
   "theorems": [
    "Gusto.Props.SCPCProps.C102_continuity",
    "Gusto.Props.SCPCProps.C102_theta_row",
    "Gusto.Props.SCPCProps.C102_rho_row",
    "Gusto.Props.SCPCProps.C102_u_row",
    "Gusto.Props.SCPCProps.C102_theta_pointwise",
    "Gusto.Props.SCPCProps.C102_trace_average",
    "Gusto.Props.SCPCProps.C102_exact",
    "Gusto.Props.SCPCProps.C102_hydrostatic_refuted",
    "Gusto.Props.SCPCProps.C102_tracers_refuted",
    "Gusto.Props.SCPCProps.C102_moisture_refuted",
    "Gusto.Props.SCPCProps.C102_moisture",
    "Gusto.Props.SCPCProps.C102_topography_refuted"
   ],
   "note": "exactness for continuous, layer-uniform reference states with vanishing moist factor, residuals of all three rows in general, continuity, trace averages, moisture of water tracers proved; refuted: hydrostatic equations, tracers among the solver prognostics, tracers that are not water or not mixing ratios, error only near topography"
  },
  {
   "property": "C103",
   "status": "partial",
   "theorems": [
    "Gusto.Props.ModelClassesProps.C103_once",
    "Gusto.Props.ModelClassesProps.C103_setup",
    "Gusto.Props.ModelClassesProps.C103_equations_refuted",
    "Gusto.Props.ModelClassesProps.C103_metric",
    "Gusto.Props.ModelClassesProps.C103_metric_refuted",
    "Gusto.Props.ModelClassesProps.C103_flag_refuted",
    "Gusto.Props.ModelClassesProps.C103_metric_needs",
    "Gusto.Props.ModelClassesProps.C103_space_refuted",
    "Gusto.Props.ModelClassesProps.C103_mesh_refuted",
    "Gusto.Props.ModelClassesProps.C103_tau",
    "Gusto.Props.ModelClassesProps.C103_diffusion",
    "Gusto.Props.ModelClassesProps.C103_none_refuted",
    "Gusto.Props.ModelClassesProps.C103_list_refuted",
    "Gusto.Props.ModelClassesProps.C103_family"
   ],
   "note": "exactly one scheme and method per transported field, success criterion, diffusion, relaxation parameters, element family proved; refuted: thermal, one-dimensional and Boussinesq equation sets under SIQNModel, consistent metric transports z twice, constructor flag ignored, other spaces silently untransported and flat meshes rejected by the lowest-order class, diffusion options None, caller's tracer list extended"
  },
  {
   "property": "C104",
   "status": "partial",
   "theorems": [
    "Gusto.Props.SW1Props.C104_accepts",
    "Gusto.Props.SW1Props.C104_spaces_refuted",
    "Gusto.Props.SW1Props.C104_depth_refuted",
    "Gusto.Props.SW1Props.C104_documented",
    "Gusto.Props.SW1Props.C104_exact",
    "Gusto.Props.SW1Props.C104_geostrophic",
    "Gusto.Props.SW1Props.C104_rest_refuted",
    "Gusto.Props.SW1Props.C104_diffusion_consistent",
    "Gusto.Props.SW1Props.C104_methods_consistent",
    "Gusto.Props.SW1Props.C104_mass",
    "Gusto.Props.SW1Props.C104_mass_refuted",
    "Gusto.Props.SW1Props.C104_upwind",
    "Gusto.Props.SW1Props.C104_diffusion_dissipates",
    "Gusto.Props.SW1Props.C104_diffusion_refuted",
    "Gusto.Props.SW1Props.C104_linear_is_derivative",
    "Gusto.Props.SW1Props.C104_energy",
    "Gusto.Props.SW1Props.C104_coriolis"
   ],
   "note": "documented equations, exact solutions, balance, consistency of the methods, mass, linearisation, energy, Coriolis proved; refuted: space_names, parameter H in the linear set, rest state on an interval with default boundary conditions, mass and diffusion without spatial methods"
  },
  {
   "property": "C105",
   "status": "partial",
   "theorems": [
    "Gusto.Props.NumIntProps.C105_nodes",
    "Gusto.Props.NumIntProps.C105_between",
    "Gusto.Props.NumIntProps.C105_untabulated",
    "Gusto.Props.NumIntProps.C105_again",
    "Gusto.Props.NumIntProps.C105_outside_refuted",
    "Gusto.Props.NumIntProps.C105_reversed_refuted",
    "Gusto.Props.NumIntProps.C105_single_refuted",
    "Gusto.Props.NumIntProps.C105_monotone",
    "Gusto.Props.NumIntProps.C105_linear",
    "Gusto.Props.NumIntProps.C105_cubic",
    "Gusto.Props.NumIntProps.C105_accuracy"
   ],
   "note": "values at the nodes, exactness for cubics, error bound, linearity, monotonicity, error before tabulation proved; refuted: points outside the bounds, reversed bounds, one point"
  },
  {
   "property": "C106",
   "status": "proved",
   "theorems": [
    "Gusto.Props.BouBalanceProps.C106_balance",
    "Gusto.Props.BouBalanceProps.C106_unique",
    "Gusto.Props.BouBalanceProps.C106_column_unique",
    "Gusto.Props.BouBalanceProps.C106_column_balance",
    "Gusto.Props.BouBalanceProps.C106_projection",
    "Gusto.Props.BouBalanceProps.C106_best",
    "Gusto.Props.BouBalanceProps.C106_exact",
    "Gusto.Props.BouBalanceProps.C106_forms"
   ],
   "note": ""
  },
  {
   "property": "C107",
   "status": "proved",
   "theorems": [
    "Gusto.Props.IcosphereProps.C107_valence",
    "Gusto.Props.IcosphereProps.C107_closed",
    "Gusto.Props.IcosphereProps.C107_counts",
    "Gusto.Props.IcosphereGeomProps.C107_sphere",
    "Gusto.Props.IcosphereGeomProps.C107_errors",
    "Gusto.Props.IcosphereGeomProps.C107_equilateral",
    "Gusto.Props.IcosphereGeomProps.C107_degree"
   ],
   "note": ""
  },
  {
   "property": "C108",
   "status": "proved",
   "theorems": [
    "Gusto.Props.CubedSphereProps.C108_closed",
    "Gusto.Props.CubedSphereProps.C108_counts",
    "Gusto.Props.CubedSphereGeomProps.C108_sphere",
    "Gusto.Props.CubedSphereGeomProps.C108_errors",
    "Gusto.Props.CubedSphereGeomProps.C108_equiangular",
    "Gusto.Props.CubedSphereGeomProps.C108_degree"
   ],
   "note": ""
  },
  {
   "property": "C109",
   "status": "partial",
   "theorems": [
    "Gusto.Props.FlatLatLonProps.C109_together_partial",
    "Gusto.Props.FlatLatLonProps.C109_nodes",
    "Gusto.Props.FlatLatLonProps.C109_heights",
    "Gusto.Props.FlatLatLonProps.C109_error",
    "Gusto.Props.FlatLatLonProps.C109_ranks_partial",
    "Gusto.Props.FlatLatLonProps.C109_ranks_refuted",
    "Gusto.Props.FlatLatLonProps.C109_pole_refuted"
   ],
   "note": "Proved for cells with no node on the axis and for ranks with a common minimum radius. Refuted otherwise: a node on the axis has longitude zero, so a cell at the pole can be spread over more than half a turn (C109_pole_refuted); the radius is the minimum over the nodes of the rank, so with orography two ranks give a common point different heights (C109_ranks_refuted); a rank without cells raises ValueError (C109_error)."
  },
  {
   "property": "C110",
   "status": "partial",
   "theorems": [
    "Gusto.Props.DomainGeometryProps.C110_shapes_partial",
    "Gusto.Props.DomainGeometryProps.C110_rejected",
    "Gusto.Props.DomainGeometryProps.C110_shapes_refuted",
    "Gusto.Props.DomainGeometryProps.C110_accepted",
    "Gusto.Props.DomainGeometryProps.C110_sphere_height",
    "Gusto.Props.DomainGeometryProps.C110_flat_height",
    "Gusto.Props.DomainGeometryProps.C110_height_above_surface",
    "Gusto.Props.DomainGeometryProps.C110_extent",
    "Gusto.Props.DomainGeometryProps.C110_extents",
    "Gusto.Props.DomainGeometryProps.C110_radius_partial",
    "Gusto.Props.DomainGeometryProps.C110_radius_refuted"
   ],
   "note": "Proved for the six shapes and for a base mesh with all vertices on one sphere. Refuted otherwise: an annulus passes for a vertical slice and a torus for a sphere (C110_shapes_refuted); the radius is the minimum over the vertices of the rank, so with vertices at different distances the vertical extent depends on the partition (C110_radius_refuted); a rank without nodes raises ValueError (C110_extent)."
  },
  {
   "property": "C111",
   "status": "proved",
   "theorems": [
    "Gusto.Props.ConservationProps.C111_one_step",
    "Gusto.Props.ConservationProps.C111_tr_bdf2",
    "Gusto.Props.ConservationProps.C111_explicit_rk",
    "Gusto.Props.ConservationProps.C111_explicit_rk_linear",
    "Gusto.Props.ConservationProps.C111_explicit_rk_sources",
    "Gusto.Props.ConservationProps.C111_implicit_rk_increment",
    "Gusto.Props.ConservationProps.C111_implicit_rk_predictor",
    "Gusto.Props.ConservationProps.C111_imex",
    "Gusto.Props.ConservationProps.C111_multilevel",
    "Gusto.Props.ConservationProps.C111_leapfrog",
    "Gusto.Props.ConservationProps.C111_sdc",
    "Gusto.Props.ConservationProps.C111_ridc",
    "Gusto.Props.ConservationProps.C111_split"
   ],
   "note": ""
  },
  {
   "property": "C112",
   "status": "partial",
   "theorems": [
    "Gusto.Props.SteadyProps.C112_one_step",
    "Gusto.Props.SteadyProps.C112_one_step_solved",
    "Gusto.Props.SteadyProps.C112_tr_bdf2",
    "Gusto.Props.SteadyProps.C112_explicit_rk",
    "Gusto.Props.SteadyProps.C112_explicit_rk_linear",
    "Gusto.Props.SteadyProps.C112_implicit_rk_increment",
    "Gusto.Props.SteadyProps.C112_implicit_rk_predictor",
    "Gusto.Props.SteadyProps.C112_imex_partial",
    "Gusto.Props.SteadyProps.C112_imex_trap2_refuted",
    "Gusto.Props.SteadyProps.C112_multilevel",
    "Gusto.Props.SteadyProps.C112_leapfrog",
    "Gusto.Props.SteadyProps.C112_sdc",
    "Gusto.Props.SteadyProps.C112_ridc",
    "Gusto.Props.SteadyProps.C112_split_refuted"
   ],
   "note": "Proved for all schemes except: IMEX Runge-Kutta needs tables with equal row sums (C112_imex_partial); IMEX_Trap2 does not have them and moves a steady state in which implicit and explicit terms balance (C112_imex_trap2_refuted); split timesteppers move states in which the split parts balance (C112_split_refuted); RIDC with physics sources is not covered (it is wrong there, C67_source_refuted)."
  },
  {
   "property": "C113",
   "status": "partial",
   "theorems": [
    "Gusto.Props.TransportEquationsProps.C113_equations_partial",
    "Gusto.Props.TransportEquationsProps.C113_labels",
    "Gusto.Props.TransportEquationsProps.C113_default_refuted",
    "Gusto.Props.TransportEquationsProps.C113_vector_advection_partial",
    "Gusto.Props.TransportEquationsProps.C113_vector_advection_iff",
    "Gusto.Props.TransportEquationsProps.C113_vector_advection_refuted",
    "Gusto.Props.TransportEquationsProps.C113_vector_upwind",
    "Gusto.Props.TransportEquationsProps.C113_tensor_diffusion_refuted",
    "Gusto.Props.TransportEquationsProps.C113_vector_diffusion_method",
    "Gusto.Props.TransportEquationsProps.C113_velocity_partial",
    "Gusto.Props.TransportEquationsProps.C113_velocity_refuted",
    "Gusto.Props.TransportEquationsProps.C113_coupled_partial",
    "Gusto.Props.TransportEquationsProps.C113_coupled_refuted"
   ],
   "note": "Proved for scalar fields, for the continuity equation, for scalar diffusivities and for coupled transport; refuted for advection of vectors (C113_vector_advection_refuted; the equation solved is characterised, and DGUpwind's replacement is right), for tensor diffusivities of vectors (C113_tensor_diffusion_refuted), for the documented default of the diffusion parameters (C113_default_refuted), for coupled transport without tracers (C113_coupled_refuted) and for the space of the velocity after an equation with Vu on the same domain (C113_velocity_refuted)."
  },
  {
   "property": "C114",
   "status": "partial",
   "theorems": [
    "Gusto.Props.LoggingProps.C114_records_partial",
    "Gusto.Props.LoggingProps.C114_level_names",
    "Gusto.Props.LoggingProps.C114_import_iff",
    "Gusto.Props.LoggingProps.C114_logfile_variable_refuted",
    "Gusto.Props.LoggingProps.C114_unhandled_partial",
    "Gusto.Props.LoggingProps.C114_unhandled_refuted",
    "Gusto.Props.LoggingProps.C114_second_simulation_refuted",
    "Gusto.Props.LoggingProps.C114_notset_refuted",
    "Gusto.Props.LoggingProps.C114_second_handler_refuted",
    "Gusto.Props.LoggingProps.C114_barriers",
    "Gusto.Props.LoggingProps.C114_files_distinct"
   ],
   "note": "Proved for the console level, for the level of GUSTO_FILE_LOG_LEVEL, the move of the file, the barriers and the separation of the ranks; refuted for the documented variable GUSTO_LOGFILE_LOG_LEVEL, which is never read (C114_logfile_variable_refuted), for unhandled exceptions of ranks other than 0 (C114_unhandled_refuted), for the directory of a second simulation in a process (C114_second_simulation_refuted), for the level NOTSET (C114_notset_refuted) and for a second call of set_log_handler (C114_second_handler_refuted)."
  },
  {
   "property": "C115",
   "status": "proved",
   "theorems": [
    "Gusto.Props.SSPProps.C115_strong_stability",
    "Gusto.Props.SSPProps.C115_monotone",
    "Gusto.Props.SSPProps.C115_transport_bounds",
    "Gusto.Props.SSPProps.C115_adaptive_bounds",
    "Gusto.Props.SSPProps.C115_sharp",
    "Gusto.Props.SSPProps.C115_rk4_refuted",
    "Gusto.Props.SSPProps.C115_cap_refuted"
   ],
   "note": "Proved for all seven tables; C115_sharp shows that five of the coefficients cannot be increased, C115_rk4_refuted that RK4 has none, C115_cap_refuted that the default cap of ten subcycles loses the bounds."
  },
  {
   "property": "C116",
   "status": "partial",
   "theorems": [
    "Gusto.Props.EnergyProps.C116_backward_euler",
    "Gusto.Props.EnergyProps.C116_theta",
    "Gusto.Props.EnergyProps.C116_trapezium",
    "Gusto.Props.EnergyProps.C116_tr_bdf2",
    "Gusto.Props.EnergyProps.C116_bdf2",
    "Gusto.Props.EnergyProps.C116_leapfrog_refuted",
    "Gusto.Props.EnergyProps.C116_explicit",
    "Gusto.Props.EnergyProps.C116_one_step_runs",
    "Gusto.Props.EnergyProps.C116_explicit_stable",
    "Gusto.Props.EnergyProps.C116_equations"
   ],
   "note": "Proved for the schemes named; refuted for Leapfrog, which solves forward Euler and increases the energy in every step (C116_leapfrog_refuted)."
  },
  {
   "property": "C117",
   "status": "partial",
   "theorems": [
    "Gusto.Props.RefProps.C117_set",
    "Gusto.Props.RefProps.C117_expression_refuted",
    "Gusto.Props.RefProps.C117_atomic_refuted",
    "Gusto.Props.RefProps.C117_round_trip",
    "Gusto.Props.RefProps.C117_diagnostic_lost_refuted",
    "Gusto.Props.RefProps.C117_updated_refuted"
   ],
   "note": "Proved for Functions, including the round trip. Refuted: an expression always raises because the membership test compares Functions with a string (C117_expression_refuted); a call that raises keeps the profiles set so far (C117_atomic_refuted); profiles of names that are not fields are written and not picked up (C117_diagnostic_lost_refuted); updates during the run are not in the checkpoint (C117_updated_refuted)."
  },
  {
   "property": "C118",
   "status": "proved",
   "theorems": [
    "Gusto.Props.QNMassProps.C118_linear_solver",
    "Gusto.Props.QNMassProps.C118_siqn",
    "Gusto.Props.QNMassProps.C118_siqn_any_guess",
    "Gusto.Props.QNMassProps.C118_siqn_run",
    "Gusto.Props.QNMassProps.C118_siqn_budget",
    "Gusto.Props.QNMassProps.C118_tr_bdf2",
    "Gusto.Props.QNMassProps.C118_tr_bdf2_run"
   ],
   "note": "Proved."
  },
  {
   "property": "C119",
   "status": "partial",
   "theorems": [
    "Gusto.Props.QNEnergyProps.C119_energy_change",
    "Gusto.Props.QNEnergyProps.C119_centred",
    "Gusto.Props.QNEnergyProps.C119_off_centred",
    "Gusto.Props.QNEnergyProps.C119_all_damped",
    "Gusto.Props.QNEnergyProps.C119_only_divergence_damped",
    "Gusto.Props.QNEnergyProps.C119_below_half_grows",
    "Gusto.Props.QNEnergyProps.C119_wave_solver",
    "Gusto.Props.QNEnergyProps.C119_one_iteration_exact",
    "Gusto.Props.QNEnergyProps.C119_run",
    "Gusto.Props.QNEnergyProps.C119_unaccelerated_refuted",
    "Gusto.Props.QNEnergyProps.C119_rotation_refuted"
   ],
   "note": "Proved for the accelerated iteration and a single inner iteration. Without the accelerator a second inner iteration moves away from the solution and the energy can grow (C119_unaccelerated_refuted); this is the behaviour the accelerator exists for, not a bug. Refuted: with rotation, alpha > 1/2 and without off_centred_u the energy of a converged timestep can grow (C119_rotation_refuted), because the Coriolis term is centred at alpha and the divergence at 1/2."
  },
  {
   "property": "C120",
   "status": "partial",
   "theorems": [
    "Gusto.Props.QNSetupProps.C120_siqn_accepts",
    "Gusto.Props.QNSetupProps.C120_tr_bdf2_accepts",
    "Gusto.Props.QNSetupProps.C120_partition",
    "Gusto.Props.QNSetupProps.C120_siqn_keeps",
    "Gusto.Props.QNSetupProps.C120_tr_bdf2_keeps",
    "Gusto.Props.QNSetupProps.C120_tendency",
    "Gusto.Props.QNSetupProps.C120_complete",
    "Gusto.Props.QNSetupProps.C120_transport_never_twice",
    "Gusto.Props.QNSetupProps.C120_split_complete",
    "Gusto.Props.QNSetupProps.C120_forgotten_transport_refuted",
    "Gusto.Props.QNSetupProps.C120_forgotten_physics_refuted",
    "Gusto.Props.QNSetupProps.C120_same_label_refuted",
    "Gusto.Props.QNSetupProps.C120_same_label_count"
   ],
   "note": "Acceptance and partition proved; every term acts once in complete models. Refuted: incomplete models are accepted: a field without a transport scheme is silently not transported (C120_forgotten_transport_refuted), a parametrisation without a scheme never acts and a repeated diffusion scheme acts twice (C120_forgotten_physics_refuted), two parametrisations with the same label string both act twice (C120_same_label_refuted)."
  },
  {
   "property": "C121",
   "status": "partial",
   "theorems": [
    "Gusto.Props.BLMixingProps.C121_diffusivity",
    "Gusto.Props.BLMixingProps.C121_drag_continuous_iff",
    "Gusto.Props.BLMixingProps.C121_drag_default",
    "Gusto.Props.BLMixingProps.C121_layer_depth_refuted",
    "Gusto.Props.BLMixingProps.C121_scalar_form",
    "Gusto.Props.BLMixingProps.C121_vertical_diffusion_partial",
    "Gusto.Props.BLMixingProps.C121_conserves_partial",
    "Gusto.Props.BLMixingProps.C121_dissipates_partial",
    "Gusto.Props.BLMixingProps.C121_uniform_refuted",
    "Gusto.Props.BLMixingProps.C121_columns_refuted",
    "Gusto.Props.BLMixingProps.C121_conserves_refuted",
    "Gusto.Props.BLMixingProps.C121_wind_form",
    "Gusto.Props.BLMixingProps.C121_vertical_wind_unmixed",
    "Gusto.Props.BLMixingProps.C121_shear_refuted",
    "Gusto.Props.BLMixingProps.C121_vertical_wind_refuted",
    "Gusto.Props.BLMixingProps.C121_use"
   ],
   "note": "Diffusivity proved; the form is reduced to volume term and penalty (C121_scalar_form, C121_wind_form); vertical diffusion, conservation, constants and dissipation proved where density and diffusivity agree in neighbouring columns. Refuted: the surface terms are on the facets between columns (dS_v), not between layers: shear between layers is not mixed (C121_shear_refuted), columns are mixed (C121_columns_refuted), uniform fields change (C121_uniform_refuted), totals change (C121_conserves_refuted), the vertical wind is accelerated (C121_vertical_wind_refuted), and the layer depth is always 1 (C121_layer_depth_refuted)."
  },
  {
   "property": "C122",
   "status": "partial",
   "theorems": [
    "Gusto.Props.ConvergenceProps.C122_explicit",
    "Gusto.Props.ConvergenceProps.C122_limit",
    "Gusto.Props.ConvergenceProps.C122_refuted",
    "Gusto.Props.ConvergenceProps.C122_theta",
    "Gusto.Props.ConvergenceProps.C122_backward_euler",
    "Gusto.Props.ConvergenceProps.C122_trapezium",
    "Gusto.Props.ConvergenceProps.C122_tr_bdf2",
    "Gusto.Props.LocalConvergenceProps.C122_explicit_local",
    "Gusto.Props.LocalConvergenceProps.C122_theta_local",
    "Gusto.Props.LocalConvergenceProps.C122_backward_euler_local",
    "Gusto.Props.LocalConvergenceProps.C122_trapezium_local",
    "Gusto.Props.LocalConvergenceProps.C122_tr_bdf2_local"
   ],
   "note": "Proved for ForwardEuler, Heun, SSPRK2 (2, 3, 4), SSPRK3 (3, 4), RK4 (C122_explicit), ThetaMethod, BackwardEuler, TrapeziumRule, TR_BDF2; any table converges to the equation scaled by its weight sum (C122_limit). For a globally Lipschitz right-hand side the bound holds for every timestep for which the implicit equations are solvable; the _local theorems need Lipschitz continuity on bounded sets only (as for products of fields), for small enough timesteps and a solver that finds the root near its initial guess. Refuted for SSPRK3 with five stages and SSPRK4: their weights do not add up to one, so the error does not go to zero (C122_refuted)."
  },
  {
   "property": "C123",
   "status": "partial",
   "theorems": [
    "Gusto.Props.LocalMultilevelProps.C123_adams_bashforth_local_partial",
    "Gusto.Props.LocalMultilevelProps.C123_leapfrog_local_partial",
    "Gusto.Props.LocalMultilevelProps.C123_adams_moulton_local_partial",
    "Gusto.Props.LocalMultilevelProps.C123_bdf2_local",
    "Gusto.Props.MultilevelConvergenceProps.C123_adams_bashforth_partial",
    "Gusto.Props.MultilevelConvergenceProps.C123_adams_moulton_partial",
    "Gusto.Props.MultilevelConvergenceProps.C123_bdf2",
    "Gusto.Props.MultilevelConvergenceProps.C123_leapfrog_partial",
    "Gusto.Props.MultilevelConvergenceProps.C123_adams_bashforth_order_refuted",
    "Gusto.Props.MultilevelConvergenceProps.C123_leapfrog_refuted",
    "Gusto.Props.MultilevelConvergenceProps.C123_adams_bashforth_five_refuted",
    "Gusto.Props.MultilevelConvergenceProps.C123_adams_moulton_four_refuted"
   ],
   "note": "Proved (also without a global Lipschitz condition, the _local theorems): BDF2 second order; AdamsBashforth order 1 (first) and 2 (second); AdamsMoulton 1 (second), 2 and 3 (third). AdamsBashforth 3 and 4 are proved second order and refuted at third (forward Euler start-up, C123_adams_bashforth_order_refuted); AdamsBashforth 5 and AdamsMoulton 4 do not converge at all (coefficients do not sum to one); Leapfrog is proved first order and refuted at second (it solves forward Euler)."
  },
  {
   "property": "C124",
   "status": "proved",
   "theorems": [
    "Gusto.Props.StageConvergenceProps.C124_imex",
    "Gusto.Props.StageConvergenceProps.C124_imex_physics",
    "Gusto.Props.StageConvergenceProps.C124_dirk_increment",
    "Gusto.Props.StageConvergenceProps.C124_dirk_predictor"
   ],
   "note": "Proved for all built-in implicit and IMEX schemes, assuming exact stage solves; with one physics scheme evaluated as a source the limit equation contains that source (several physics schemes: C12 shows only the last is used)."
  },
  {
   "property": "C125",
   "status": "partial",
   "theorems": [
    "Gusto.Props.SplitConvergenceProps.C125_limit",
    "Gusto.Props.SplitConvergenceProps.C125_first_order",
    "Gusto.Props.SplitConvergenceProps.C125_second_order",
    "Gusto.Props.SplitConvergenceProps.C125_split_physics",
    "Gusto.Props.SplitConvergenceProps.C125_explicit_qualifies",
    "Gusto.Props.SplitConvergenceProps.C125_theta_qualifies",
    "Gusto.Props.SplitConvergenceProps.C125_lie_is_first_order",
    "Gusto.Props.SplitConvergenceProps.C125_unequal_weights_refuted"
   ],
   "note": "Proved for accepted configurations with non-negative weights in which no capturing scheme is given two different timesteps and physics without weights is listed once; the limit equation is given for all weights (C125_limit). Refuted otherwise: unequal weights for a label whose solver captures its timestep converge to another equation. The Lie splitting of two second-order schemes is shown to be of first order only."
  },
  {
   "property": "C126",
   "status": "partial",
   "theorems": [
    "Gusto.Props.DCConvergenceProps.C126_last_node",
    "Gusto.Props.DCConvergenceProps.C126_final_update",
    "Gusto.Props.DCConvergenceProps.C126_lagrange_tables",
    "Gusto.Props.DCConvergenceProps.C126_interior_last_node_refuted",
    "Gusto.Props.DeferredBaseProps.C126_held_step_refuted"
   ],
   "note": "Proved up to the orders min(r+k-1, p) and min(r+k, p+1, s); the higher orders that Gauss, Radau and Lobatto nodes reach at the end of the step (superconvergence, up to 2M) are not proved. Refuted without the final update, or without sweeps, for nodes that do not include the end of the step, and for a base scheme whose cached solver holds the first spacing (C126_held_step_refuted: an order less; the proved order for it is GuessOrder.captured)."
  },
  {
   "property": "C127",
   "status": "partial",
   "theorems": [
    "Gusto.Props.RIDCConvergenceProps.C127_order",
    "Gusto.Props.RIDCConvergenceProps.C127_lagrange_tables",
    "Gusto.Props.RIDCConvergenceProps.C127_sources_refuted"
   ],
   "note": "Proved without physics terms. Refuted with physics terms: the first subinterval loses its source at every correction, and the run converges to (1 - 1/M) of the source."
  },
  {
   "property": "C128",
   "status": "partial",
   "theorems": [
    "Gusto.Props.RecovererProps.C128_accepts",
    "Gusto.Props.RecovererProps.C128_result",
    "Gusto.Props.RecovererProps.C128_history",
    "Gusto.Props.RecovererProps.C128_scalar",
    "Gusto.Props.RecovererProps.C128_components",
    "Gusto.Props.RecovererProps.C128_affine",
    "Gusto.Props.RecovererProps.C128_expression_refuted",
    "Gusto.Props.RecovererProps.C128_vector_target_refuted",
    "Gusto.Props.RecovererProps.C128_extruded_vector_refuted",
    "Gusto.Props.RecovererProps.C128_hcurl_vector_refuted",
    "Gusto.Props.RecovererProps.C128_dimension_refuted"
   ],
   "note": "Proved for the interpolation and projection operators left abstract. Refuted: UFL expressions (documented as sources) raise AttributeError with the Taylor method; vector targets other than CG1 are accepted with the Taylor method and degraded to CG1; the extruded method accepts vector-valued HCurl targets; the hcurl method on a VectorElement fails at the first project; vector targets whose dimension is not the default are rejected."
  },
  {
   "property": "C129",
   "status": "partial",
   "theorems": [
    "Gusto.Props.SiqnConvergenceProps.C129_first_order",
    "Gusto.Props.SiqnConvergenceProps.C129_second_order",
    "Gusto.Props.SiqnConvergenceProps.C129_forcing",
    "Gusto.Props.SiqnConvergenceProps.C129_transport_schemes",
    "Gusto.Props.SiqnConvergenceProps.C129_one_outer_refuted",
    "Gusto.Props.SiqnConvergenceProps.C129_outside_solver_refuted"
   ],
   "note": "Proved: first order in general, second order in the centred case without physics. Refuted: one outer iteration is only first order (C129_one_outer_refuted); a prognostic outside the solver gets only (1-alpha) of its forcing, so the model converges to another equation (C129_outside_solver_refuted). Zero boundary conditions change nothing (C143_siqn). Hydrostatic switch and time-dependent reference profiles are not modelled here."
  },
  {
   "property": "C130",
   "status": "partial",
   "theorems": [
    "Gusto.Props.TrBdf2ConvergenceProps.C130_first_order",
    "Gusto.Props.TrBdf2ConvergenceProps.C130_second_order",
    "Gusto.Props.TrBdf2ConvergenceProps.C130_slow_weight_refuted",
    "Gusto.Props.TrBdf2ConvergenceProps.C130_untransported_refuted",
    "Gusto.Props.TrBdf2ConvergenceProps.C130_one_outer_refuted"
   ],
   "note": "Proved: first order in general (with slow physics weighted by gamma3, and every field transported or one outer BDF iteration), second order without physics. Refuted: slow physics has the weight gamma3, which is one only for gamma = 1/2 (C130_slow_weight_refuted); a forced field without a transport scheme converges to another equation with two or more outer BDF iterations (C130_untransported_refuted); with one outer iteration of either stage the order is one (C130_one_outer_refuted). Zero boundary conditions change nothing (C143_trbdf2). Hydrostatic switch and time-dependent reference profiles are not modelled here."
  },
  {
   "property": "C131",
   "status": "partial",
   "theorems": [
    "Gusto.Props.DiagLifeProps.C131_dump_consistent",
    "Gusto.Props.DiagLifeProps.C131_order_independent",
    "Gusto.Props.DiagLifeProps.C131_every_dump",
    "Gusto.Props.DiagLifeProps.C131_setup_succeeds",
    "Gusto.Props.DiagLifeProps.C131_second_run_refuted"
   ],
   "note": "Proved for diagnostics that are to be dumped. Refuted: a diagnostic with to_dump=False is a derived field, so a second run of the same process ignores requirements on it and evaluates in the wrong order (C131_second_run_refuted). Diagnostics with memory are C92; duplicates of Courant diagnostics C91."
  },
  {
   "property": "C132",
   "status": "partial",
   "theorems": [
    "Gusto.Props.DiagLifeProps.C132_construct",
    "Gusto.Props.DiagLifeProps.C132_message_refuted",
    "Gusto.Props.DiagLifeProps.C132_setup_once",
    "Gusto.Props.DiagLifeProps.C132_setup",
    "Gusto.Props.DiagLifeProps.C132_default_space",
    "Gusto.Props.DiagLifeProps.C132_same_name_refuted",
    "Gusto.Props.DiagLifeProps.C132_space_name_refuted"
   ],
   "note": "Proved, except refuted parts: the assertion message fails with AttributeError for every unknown method (C132_message_refuted); a name that is already a field in another space is accepted and fails at evaluation (C132_same_name_refuted); a space whose name is taken is not added (C132_space_name_refuted)."
  },
  {
   "property": "C133",
   "status": "partial",
   "theorems": [
    "Gusto.Props.NetCDFProps.C133_record",
    "Gusto.Props.NetCDFProps.C133_vector_refuted",
    "Gusto.Props.NetCDFProps.C133_pick_up",
    "Gusto.Props.NetCDFProps.C133_renumbered_refuted",
    "Gusto.Props.NetCDFProps.C133_new_field",
    "Gusto.Props.NetCDFProps.C133_missing_file_refuted",
    "Gusto.Props.NetCDFProps.C133_own_names",
    "Gusto.Props.NetCDFProps.C133_metadata"
   ],
   "note": "Proved for all scalar-valued output fields, for new runs and for runs that pick up with the same numbering of the nodes (C133_record, C133_pick_up, C133_metadata). Refuted: fields with several components (the velocity) are left out (C133_vector_refuted); a run that picks up with another numbering of the nodes, e.g. on another number of ranks, writes under the coordinates of other nodes (C133_renumbered_refuted); with a missing file rank 0 raises and the other ranks wait for ever (C133_missing_file_refuted); a further output field makes the first dump after picking up fail (C133_new_field)."
  },
  {
   "property": "C134",
   "status": "partial",
   "theorems": [
    "Gusto.Props.ConsistentMetricProps.C134_transport",
    "Gusto.Props.ConsistentMetricProps.C134_fields",
    "Gusto.Props.ConsistentMetricProps.C134_timestep",
    "Gusto.Props.ConsistentMetricProps.C134_no_drift",
    "Gusto.Props.ConsistentMetricProps.C134_exact",
    "Gusto.Props.ConsistentMetricProps.C134_height_moves_with_w",
    "Gusto.Props.ConsistentMetricProps.C134_simultaneous_refuted",
    "Gusto.Props.ConsistentMetricProps.C134_predictor_refuted",
    "Gusto.Props.ConsistentMetricProps.C134_tr_bdf2_refuted",
    "Gusto.Props.ConsistentMetricProps.C134_tr_bdf2_factor_refuted",
    "Gusto.Props.ConsistentMetricProps.C134_bound"
   ],
   "note": "Proved for the semi-implicit stepper with single-field schemes (C134_transport, C134_fields, C134_timestep, C134_no_drift, C134_exact, C134_height_moves_with_w, C134_bound). Refuted: TR-BDF2 raises an AttributeError in every transport step (C134_tr_bdf2_refuted) and divides the rate by a factor its wind already contains (C134_tr_bdf2_factor_refuted); theta in a simultaneous scheme is transported by the standard wind (C134_simultaneous_refuted); with predictor 'z' the wind for theta stays zero (C134_predictor_refuted)."
  },
  {
   "property": "C135",
   "status": "partial",
   "theorems": [
    "Gusto.Props.SUPGProps.C135_suboptions",
    "Gusto.Props.SUPGProps.C135_all",
    "Gusto.Props.SUPGProps.C135_at_most_once",
    "Gusto.Props.SUPGProps.C135_consistent",
    "Gusto.Props.SUPGProps.C135_budget",
    "Gusto.Props.SUPGProps.C135_all_but_last_refuted",
    "Gusto.Props.SUPGProps.C135_tau",
    "Gusto.Props.SUPGProps.C135_hdiv_refuted",
    "Gusto.Props.SUPGProps.C135_constant",
    "Gusto.Props.SUPGProps.C135_dissipation",
    "Gusto.Props.SUPGProps.C135_directional_refuted"
   ],
   "note": "Proved: C135_all, C135_suboptions, C135_at_most_once, C135_consistent, C135_budget, C135_constant, C135_tau, C135_dissipation (spaces continuous in all directions). Refuted: the form for all but the last Runge-Kutta stage keeps the standard test function (C135_all_but_last_refuted); velocities in HDiv get tau = 0 silently (C135_hdiv_refuted); in spaces continuous in some directions the SUPG part can be anti-dissipative for oblique flow (C135_directional_refuted); a term with two listed labels is adjusted twice (example)."
  },
  {
   "property": "C136",
   "status": "proved",
   "theorems": [
    "Gusto.Props.EulerFullProps.C136_accepts",
    "Gusto.Props.EulerFullProps.C136_residual",
    "Gusto.Props.EulerFullProps.C136_plain",
    "Gusto.Props.EulerFullProps.C136_tracer",
    "Gusto.Props.EulerFullProps.C136_tracer_mass",
    "Gusto.Props.EulerFullProps.C136_tracer_constant",
    "Gusto.Props.EulerFullProps.C136_linear_is_derivative"
   ],
   "note": "Diffusivities are numbers; the mass-weighted forms are those of C78."
  },
  {
   "property": "C137",
   "status": "partial",
   "theorems": [
    "Gusto.Props.EqNamesProps.C137_spaces_partial",
    "Gusto.Props.EqNamesProps.C137_defaults",
    "Gusto.Props.EqNamesProps.C137_ignored_refuted",
    "Gusto.Props.EqNamesProps.C137_ignored_classes_refuted",
    "Gusto.Props.EqNamesProps.C137_effects",
    "Gusto.Props.EqNamesProps.C137_history",
    "Gusto.Props.EqNamesProps.C137_reuse_refuted",
    "Gusto.Props.EqNamesProps.C137_shared",
    "Gusto.Props.EqNamesProps.C137_repeat",
    "Gusto.Props.EqNamesProps.C137_depth_refuted",
    "Gusto.Props.EqNamesProps.C137_second_set_refuted",
    "Gusto.Props.EqNamesProps.C137_retry_refuted",
    "Gusto.Props.EqNamesProps.C137_chain_refuted",
    "Gusto.Props.EqNamesProps.C137_empty_refuted"
   ],
   "note": "Proved for classes that use the dictionary, for shared objects with one space per tracer name and without chains of densities. Refuted otherwise: the six shallow-water classes ignore space_names (C137_ignored_refuted), a shared dictionary remembers the tracers of earlier sets (C137_reuse_refuted), also of failed ones (C137_retry_refuted), a chain of densities gives another order at each call (C137_chain_refuted), an empty list of tracers is refused (C137_empty_refuted)."
  },
  {
   "property": "C138",
   "status": "partial",
   "theorems": [
    "Gusto.Props.LimitedSchemesProps.C138_explicit",
    "Gusto.Props.LimitedSchemesProps.C138_zero_limiter",
    "Gusto.Props.LimitedSchemesProps.C138_predictor_sources",
    "Gusto.Props.LimitedSchemesProps.C138_inactive",
    "Gusto.Props.LimitedSchemesProps.C138_sdc",
    "Gusto.Props.LimitedSchemesProps.C138_sdc_no_sweep_refuted",
    "Gusto.Props.LimitedSchemesProps.C138_ridc",
    "Gusto.Props.LimitedSchemesProps.C138_parallel_sdc",
    "Gusto.Props.LimitedSchemesProps.C138_parallel_ridc_partial",
    "Gusto.Props.LimitedSchemesProps.C138_backward_euler_refuted",
    "Gusto.Props.LimitedSchemesProps.C138_multilevel_refuted",
    "Gusto.Props.LimitedSchemesProps.C138_wrapped_partial",
    "Gusto.Props.LimitedSchemesProps.C138_wrapped_refuted",
    "Gusto.Props.LimitedSchemesProps.C138_sources_refuted"
   ],
   "note": "Proved for the explicit Runge-Kutta schemes (three formulations), SDC, RIDC, parallel SDC and (without sources) parallel RIDC. Refuted: BackwardEuler and the multi-level schemes accept a limiter and ignore it (C138_backward_euler_refuted, C138_multilevel_refuted; IMEX: C12_limiter_refuted); SDC without sweeps (C138_sdc_no_sweep_refuted); the transfer back of a wrapper can undo the limiting (C138_wrapped_refuted); physics sees unlimited fields in the increment formulation (C138_sources_refuted). An augmentation with its own limiter: C81."
  },
  {
   "property": "C139",
   "status": "partial",
   "theorems": [
    "Gusto.Props.DeferredBaseProps.C139_plain_base",
    "Gusto.Props.DeferredBaseProps.C139_plain_ridc",
    "Gusto.Props.DeferredBaseProps.C139_step_of_node",
    "Gusto.Props.DeferredBaseProps.C139_lobatto_refuted",
    "Gusto.Props.DeferredBaseProps.C139_fixed_subcycles_clock_refuted",
    "Gusto.Props.DeferredBaseProps.C139_model_time_refuted",
    "Gusto.Props.DeferredBaseProps.C139_fixed_subcycles_guess_refuted",
    "Gusto.Props.DeferredBaseProps.C139_adaptive_refuted"
   ],
   "note": "Proved for a base scheme without subcycling: the timestep of the model is left alone and the base scheme of the first guess is determined. Refuted: a base scheme with a cached solver keeps the spacing of the first node at all nodes (C139_plain_base; the lost order is C126_held_step_refuted, with Lobatto nodes the guess is a copy: C139_lobatto_refuted); fixed subcycles of the base scheme divide the timestep of the model (C139_fixed_subcycles_clock_refuted, C139_model_time_refuted) and make the guess overshoot (C139_fixed_subcycles_guess_refuted); adaptive subcycling fails (C139_adaptive_refuted)."
  },
  {
   "property": "C140",
   "status": "partial",
   "theorems": [
    "Gusto.Props.SolverParamsProps.C140_implicit",
    "Gusto.Props.SolverParamsProps.C140_explicit",
    "Gusto.Props.SolverParamsProps.C140_construct",
    "Gusto.Props.SolverParamsProps.C140_explicit_refuted",
    "Gusto.Props.SolverParamsProps.C140_shared_refuted",
    "Gusto.Props.SolverParamsProps.C140_two_explicit_refuted"
   ],
   "note": "Proved for implicit schemes and, up to the forced keys, for explicit schemes. Refuted: explicit schemes replace ksp_type, pc_type, sub_pc_type and snes_type and write into the dictionary of the user (C140_explicit_refuted); a shared dictionary switches Newton's method off in an implicit scheme (C140_shared_refuted) or in an explicit scheme with a nonlinear time derivative (C140_two_explicit_refuted)."
  },
  {
   "property": "C141",
   "status": "partial",
   "theorems": [
    "Gusto.Props.SolverParamsProps.C141_constant_mass",
    "Gusto.Props.SolverParamsProps.C141_exact_iff",
    "Gusto.Props.SolverParamsProps.C141_first_is_kept",
    "Gusto.Props.SolverParamsProps.C141_never_recovers_refuted",
    "Gusto.Props.SolverParamsProps.C141_changing_mass_refuted",
    "Gusto.Props.SolverParamsProps.C141_supg_mass"
   ],
   "note": "Proved when the mass operator is constant (C141_constant_mass), with an exact criterion in general (C141_exact_iff). Refuted when it changes, as with SUPG and a changing wind (C141_changing_mass_refuted, C141_supg_mass)."
  },
  {
   "property": "C142",
   "status": "partial",
   "theorems": [
    "Gusto.Props.BCProps.C142_solver",
    "Gusto.Props.BCProps.C142_solves",
    "Gusto.Props.BCProps.C142_implicit_solves",
    "Gusto.Props.BCProps.C142_implicit",
    "Gusto.Props.BCProps.C142_runge_kutta",
    "Gusto.Props.BCProps.C142_sdc",
    "Gusto.Props.BCProps.C142_ridc",
    "Gusto.Props.BCProps.C142_increment_rk",
    "Gusto.Props.BCProps.C142_increment_irk",
    "Gusto.Props.BCProps.C142_increment_zero",
    "Gusto.Props.BCProps.C142_increment_refuted",
    "Gusto.Props.BCProps.C142_conditions",
    "Gusto.Props.BCProps.C142_vorticity",
    "Gusto.Props.BCProps.C142_roles",
    "Gusto.Props.BCProps.C142_conditions_refuted",
    "Gusto.Props.BCProps.C142_split_physics_refuted",
    "Gusto.Props.BCProps.C142_siqn",
    "Gusto.Props.BCProps.C142_trbdf2",
    "Gusto.Props.BCProps.C142_back",
    "Gusto.Props.BCProps.C142_conservative_back_refuted"
   ],
   "note": "Proved for all schemes that solve for fields, for deferred correction, for the choice of conditions and for the quasi-Newton timesteppers. Refuted: increment formulations (the default of explicit Runge-Kutta) impose the values on the increments, so nonzero values drift by dt g per step and a wrong value is never corrected (C142_increment_refuted, exact values in C142_increment_rk and C142_increment_irk); physics schemes of split timesteppers and schemes with MeanMixingRatio get no conditions (C142_conditions_refuted, C142_split_physics_refuted); the way back conservative_project ignores them (C142_conservative_back_refuted)."
  },
  {
   "property": "C143",
   "status": "proved",
   "theorems": [
    "Gusto.Props.ConstrainedProps.C143_solver",
    "Gusto.Props.ConstrainedProps.C143_implicit",
    "Gusto.Props.ConstrainedProps.C143_multilevel",
    "Gusto.Props.ConstrainedProps.C143_irk_predictor",
    "Gusto.Props.ConstrainedProps.C143_irk_increment",
    "Gusto.Props.ConstrainedProps.C143_explicit_rk",
    "Gusto.Props.ConstrainedProps.C143_imex",
    "Gusto.Props.ConstrainedProps.C143_sdc",
    "Gusto.Props.ConstrainedProps.C143_ridc",
    "Gusto.Props.ConstrainedProps.C143_siqn",
    "Gusto.Props.ConstrainedProps.C143_trbdf2"
   ],
   "note": "All schemes. The meaning of a solve with prescribed values is that of Firedrake's bcs (Model/BoundaryConditions.lean solveWith)."
  },
  {
   "property": "C144",
   "status": "proved",
   "theorems": [
    "Gusto.Props.SymmetryProps.C144_newton",
    "Gusto.Props.SymmetryProps.C144_exact",
    "Gusto.Props.SymmetryProps.C144_relabel",
    "Gusto.Props.SymmetryProps.C144_implicit",
    "Gusto.Props.SymmetryProps.C144_multilevel",
    "Gusto.Props.SymmetryProps.C144_irk",
    "Gusto.Props.SymmetryProps.C144_runge_kutta",
    "Gusto.Props.SymmetryProps.C144_deferred",
    "Gusto.Props.SymmetryProps.C144_symmetric_implicit",
    "Gusto.Props.SymmetryProps.C144_symmetric_rk",
    "Gusto.Props.SymmetryProps.C144_symmetric_deferred",
    "Gusto.Props.SymmetryProps.C144_siqn",
    "Gusto.Props.SymmetryProps.C144_trbdf2",
    "Gusto.Props.SymmetryProps.C144_symmetric_quasi_newton"
   ],
   "note": "All schemes and both quasi-Newton timesteppers. That the assembled forms and the solvers commute with the map is a hypothesis (shown for Newton iterations, exact solves, relabelled equations and for upwind transport on a ring)."
  },
  {
   "property": "C145",
   "status": "proved",
   "theorems": [
    "Gusto.Props.ImplicitBoundsProps.C145_backward_euler",
    "Gusto.Props.ImplicitBoundsProps.C145_theta",
    "Gusto.Props.ImplicitBoundsProps.C145_trapezium",
    "Gusto.Props.ImplicitBoundsProps.C145_tr_bdf2",
    "Gusto.Props.ImplicitBoundsProps.C145_backward_euler_run",
    "Gusto.Props.ImplicitBoundsProps.C145_runs",
    "Gusto.Props.ImplicitBoundsProps.C145_implicit_midpoint",
    "Gusto.Props.ImplicitBoundsProps.C145_qin_zhang",
    "Gusto.Props.ImplicitBoundsProps.C145_density",
    "Gusto.Props.ImplicitBoundsProps.C145_theta_sharp",
    "Gusto.Props.ImplicitBoundsProps.C145_tr_bdf2_sharp"
   ],
   "note": "BackwardEuler, ThetaMethod, TrapeziumRule, TR_BDF2, ImplicitMidpoint and QinZhang for DG0, exact solves."
  },
  {
   "property": "C146",
   "status": "proved",
   "theorems": [
    "Gusto.Props.ContractiveProps.C146_linear",
    "Gusto.Props.ContractiveProps.C146_backward_euler",
    "Gusto.Props.ContractiveProps.C146_unique",
    "Gusto.Props.ContractiveProps.C146_backward_euler_runs",
    "Gusto.Props.ContractiveProps.C146_bdf2",
    "Gusto.Props.ContractiveProps.C146_dirk",
    "Gusto.Props.ContractiveProps.C146_irk",
    "Gusto.Props.ContractiveProps.C146_tolerance",
    "Gusto.Props.ContractiveProps.C146_trapezium_refuted"
   ],
   "note": "All parts, for exact solves; the tolerance for BackwardEuler."
  },
  {
   "property": "C147",
   "status": "proved",
   "theorems": [
    "Gusto.Props.SuperpositionProps.C147_implicit",
    "Gusto.Props.SuperpositionProps.C147_multilevel",
    "Gusto.Props.SuperpositionProps.C147_irk",
    "Gusto.Props.SuperpositionProps.C147_runge_kutta",
    "Gusto.Props.SuperpositionProps.C147_imex",
    "Gusto.Props.SuperpositionProps.C147_sdc",
    "Gusto.Props.SuperpositionProps.C147_ridc",
    "Gusto.Props.SuperpositionProps.C147_implicit_exact",
    "Gusto.Props.SuperpositionProps.C147_multilevel_exact",
    "Gusto.Props.SuperpositionProps.C147_runge_kutta_exact",
    "Gusto.Props.SuperpositionProps.C147_related",
    "Gusto.Props.SuperpositionProps.C147_tracers_implicit",
    "Gusto.Props.SuperpositionProps.C147_tracers_runge_kutta",
    "Gusto.Props.SuperpositionProps.C147_limiter_refuted"
   ],
   "note": "All parts. Iterative solvers are a fixed number of iterations with a fixed linear preconditioner for all schemes; exact solvers for BackwardEuler, ThetaMethod, TR_BDF2, multi-level and explicit Runge-Kutta schemes, as the statement says."
  },
  {
   "property": "C148",
   "status": "partial",
   "theorems": [
    "Gusto.Props.PredictorProps.C148_no_divergence",
    "Gusto.Props.PredictorProps.C148_fully_implicit",
    "Gusto.Props.PredictorProps.C148_spinup",
    "Gusto.Props.PredictorProps.C148_not_alone_ignored",
    "Gusto.Props.PredictorProps.C148_increment_of_premultiplied",
    "Gusto.Props.PredictorProps.C148_linear_scheme",
    "Gusto.Props.PredictorProps.C148_mass",
    "Gusto.Props.PredictorProps.C148_mass_run",
    "Gusto.Props.PredictorProps.C148_change_is_second_order_small",
    "Gusto.Props.PredictorProps.C148_plain_is_exact",
    "Gusto.Props.PredictorProps.C148_error_of_predictor",
    "Gusto.Props.PredictorProps.C148_second_order_refuted",
    "Gusto.Props.PredictorProps.C148_stability_refuted",
    "Gusto.Props.PredictorProps.C148_predictor_acts",
    "Gusto.Props.PredictorProps.C148_request_is_honoured_refuted"
   ],
   "note": "Partial because three parts are refuted (request honoured, second order, large timesteps). The interpolation into DG is a given map and the predicted field is taken to live in that space."
  },
  {
   "property": "C149",
   "status": "partial",
   "theorems": [
    "Gusto.Props.TimeLevelsProps.C149_accepts",
    "Gusto.Props.TimeLevelsProps.C149_update",
    "Gusto.Props.TimeLevelsProps.C149_refines",
    "Gusto.Props.TimeLevelsProps.C149_initialise",
    "Gusto.Props.TimeLevelsProps.C149_views",
    "Gusto.Props.TimeLevelsProps.C149_separate",
    "Gusto.Props.TimeLevelsProps.C149_mixed_auxiliary_refuted",
    "Gusto.Props.TimeLevelsProps.C149_name_clash_refuted"
   ],
   "note": "Partial because two parts are refuted (mixed auxiliary equations, clashing names). Names that are attributes of the class itself are not modelled."
  }
 ]
}