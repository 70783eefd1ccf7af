STATUS = {
"C04": ("partial", "proved for explicit schemes; for BackwardEuler/ThetaMethod fixed_subcycles ends in AttributeError (proved)"),
"C06": ("partial", "the claim is false for 2 or more cycles: refuted by witness; the exact result of the code and the exact condition for agreement are proved"),
"C08": ("partial", "proved for BDF2, AdamsBashforth, AdamsMoulton and all start-up steps; refuted for Leapfrog, whose solved residual is forward Euler"),
"C09": ("partial", "proved for AB1-4 and AM1-3; refuted for AB5 and AM4 (one wrong table entry each)"),
"C61": ("partial", "proved for increment RK and for predictor RK with one source; refuted for two sources in predictor RK and for BackwardEuler"),
"C16": ("partial", "uninterrupted runs and resumptions at common multiples proved; refuted: after pick-up the cadence is counted from the pick-up step, and point-data rows are overwritten from row 0"),
"C63": ("partial", "proved for every crash point, and for every chain of crashes and resumptions, at which the checkpoint file is complete; refuted during a checkpoint write, which truncates the only copy"),
"C11": ("partial", "predictor formulation proved for all tables; increment formulation proved when the diagonal is constant (all built-in tables) and refuted otherwise (cached solvers capture the first stage diagonal)"),
"C12": ("partial", "equations, set-up check and orders of all built-in tables proved; refuted: the constructor drops the limiter; a term labelled both source and explicit is accepted and counted twice; with several source schemes the last source is used"),
"C21": ("partial", "acceptance, coverage, composition, consistency and Strang order proved; refuted: physics repeated without weights, physics schemes dropped, unequal weights with a cached solver, fixed subcycling"),
"C22": ("partial", "fixed points proved for all configurations without inner physics or without the accelerator; refuted with both"),
"C23": ("partial", "first-step update and frequency None proved; refuted: with any frequency the profiles are updated at every step; TypeError on pick-up without a stored time"),
"C65": ("partial", "coefficients, order and stage equations proved; refuted: untransported fields with 2 or more outer BDF iterations, prognostics that are neither solver prognostics nor active tracers"),
"C66": ("partial", "proved for SemiImplicitQuasiNewton; refuted for TRBDF2QuasiNewton (factor gamma3)"),
"C24": ("partial", "proved for strictly lower triangular explicit matrices; refuted: explicit matrices with a diagonal or upper part use node values of the previous time step, and MIN-SR-FLEX has no effect"),
"C67": ("partial", "proved without source terms; refuted with source terms (spurious term from the never evaluated source at node 0)"),
"C25": ("partial", "proved for diagonal matrices, all schedules; refuted for strictly lower triangular explicit matrices such as FE"),
"C26": ("partial", "liveness and determinism proved for all accepted configurations with K>=1; equality with the serial scheme proved without source terms; refuted with source terms (stale source at node 0) and for K=0 (send to a rank that does not exist)"),
"C27": ("partial", "limiting kernels proved for every value; refuted: the degree check never rejects integer degrees, and the mean limiter gives negative values for a negative cell mean"),
"C28": ("partial", "mass conservation proved without subtract_mean for every history, and with it for densities of equal mass; constants proved with subtract_mean for all densities; refuted: mass is not conserved with subtract_mean and densities of different mass"),
"C32": ("partial", "proved for two or more layers; refuted for one layer, where the bottom loop overwrites the top correction"),
"C33": ("partial", "round trips proved for all coordinates and fields, the grouping into ordered columns whenever the closeness test separates different columns; refuted: numpy.isclose has a tolerance relative to the first coordinate and merges nearby columns at large coordinates"),
"C37": ("partial", "the claim is false: proved that the map is a rotation of the sphere whose new pole is at (lon + 180 degrees, lat), and that the requested point gets latitude +90 degrees only if it is a geographic pole"),
"C39": ("partial", "value, symmetry, range and coincidence proved for all points and both units; refuted: in degrees the caller's arrays are changed in place, and an array passed twice is converted twice"),
"C70": ("partial", "orthonormality, orientation, components and direction of the actual pole proved; refuted: the meridional vector points to (lon + 180 degrees, lat) instead of the requested pole"),
"C44": ("partial", "proved for non-negative cloud and rain; refuted without the hypothesis on cloud: negative cloud makes rain negative when accretion is off"),
"C45": ("partial", "conservation and the exact rate proved; refuted: the three factors have reversed signs, rain grows in sub-saturated air and vapour becomes negative"),
"C46": ("partial", "conservation, exactness for tau = dt and bounds proved; refuted: a relaxation time shorter than dt gives negative vapour; convective feedback of InstantRain is rejected at set-up (rank mismatch)"),
"C47": ("partial", "conservation for all schemes proved, non-negativity and the steady state for the hard-wired total 4e-6; refuted for other totals"),
"C48": ("partial", "implicit formulations proved; general formulation: wind drag proved, surface fluxes refuted whenever the density is not 1 (extra factor 1/rho)"),
"C50": ("partial", "proved for every history with at least one spin-up step; refuted: if the first step is after the spin-up, dt stays zero and the source is 0/0"),
"C74": ("partial", "only the named variable changes and it changes at minus the expression (proved); the documented sign is refuted"),
"C53": ("partial", "lenses, split, element, block system and derivative proved for every component layout; refuted for the vector proxy with vector- or tensor-valued components, where reading a part raises TypeError"),
"C77": ("partial", "modes and steady states proved for every coefficient set; refuted: reduce_to_half returns exactly half the result because beta2 is not used"),
"C54": ("partial", "unknown names rejected, histories, construction and option checks proved; refuted: diagfreq and tolerance of OutputParameters and h, M of RexiParameters are declared but can never be assigned a number"),
"C55": ("partial", "proved for lists without chains (a reference density that itself needs a reference density later in the list); refuted for a chain of three, where one swap pass is not enough"),
"C56": ("partial", "values proved for nonlinear equations with one advective term per field; refuted: linear equation sets get nonlinear terms, the linearisation of the split form is not the derivative, and with several advective terms of one field all but one pair are lost"),
"C79": ("partial", "product rules, linear forms, vector-invariant identity in 3D and diffusion proved; refuted: in the plane the circulation form has the opposite sign of the documented operator"),
"C57": ("partial", "set-up state machine, velocity at every step, fixed velocity and split construction proved; refuted: output rows carry the velocity of the start of the step before them, the function is called once so Python branches on time are frozen, and exactly one physics scheme with an implicit discretisation is accepted"),
"C58": ("partial", "slots and per-field wrappers proved for every list of fields; refuted: a conservative tracer placed before its density uses the density of the previous call, and set-up overwrites the equation's own spaces through an alias"),
"C80": ("partial", "limiting proved non-negative, conservative for cells of non-negative mass, local and correlation-preserving; every step of the predictor formulation ends with it; refuted: in the increment (default) and linear formulations it is never called, a cell with negative mass gains mass, and a prognostic that is not an active tracer is accepted with a missing density"),
"C81": ("partial", "proved for the theta methods, every step of every run; refuted: explicit schemes use the vorticity left from the previous step (zero in the first), the other implicit schemes always start with zero vorticity, and a limiter is ignored in the predictor formulation"),
"C72": ("partial", "balance of the returned density for every outcome, the test for converged unsaturated profiles; refuted: RuntimeError is never raised, saturated profiles are tested with the average density of the iteration before, exner0 raises AttributeError in the saturated routine and does not belong to the returned density without convergence"),
"C82": ("partial", 'proved for single fields, whole equations, lists of fields with one label, sources and mass-weighting; refuted: a list of fields with two or more active labels keeps every term of those fields and counts the mass terms twice'),
"C83": ("partial", 'frame, replacement, order independence, velocity (also in the mass-weighted pipeline) proved; refuted: the vector manifold correction is written with a velocity Function that is never set, so in advective form it never acts and in continuity form the transport itself is dropped'),
"C87": ("partial", 'refusals and general meshes proved; refuted: outflow and advective_then_flux are silently ignored on one-dimensional meshes, outflow also for mass-weighted tracers; other types in one dimension end in an UnboundLocalError'),
"C85": ("partial", 'container, names, degrees, exactness for RT, BDM, RTC families, BDFM (its one degree), intervals, extruded meshes, slices (HDiv) proved; refuted: continuity of H1, HCurl and DG is not stored, families DG and None pass the check and raise KeyError, horizontal_degree alone raises TypeError on meshes that are not extruded, the serendipity family is paired with a too large L2 space, the HCurl space of slices has the wrong degree; meshes of tetrahedra not covered'),
"C90": ("partial", 'all parts proved except the refuted ones: NaN values are ignored by min/max, register with a repeated argument duplicates, gamma weighs the new value instead of the previous guess, X/Y/Z components fail on the spherical shell, the gradient lacks lateral boundary terms, the tracer density element of 3D extruded meshes is wrong; the spherical components are C70'),
"C91": ("partial", 'proved for DG0 and forward Euler; refuted: only inflow is counted (divergent cells), components of expressions and other fields cannot be logged, repeated runs duplicate the diagnostics; other schemes are covered by C115 and C145; other elements are not covered'),
"C93": ("partial", 'refuted on domains with boundary: the vorticity forms of the continuous variant leave out the circulation along the boundary (C93_boundary_refuted); on the sphere the methods interpolate and project raise in the default space (C93_sphere_refuted). The DG variant is modelled on the plane.'),
"C94": ("partial", 'refuted: RichardsonNumber does not require the density gradient it reads; Gradient has the wrong shape for 3D vectors; the Brunt-Vaisala frequency accepts equations with one moist tracer; Precipitation counts one step too many (the initial dump). The imbalance is the residual only up to the product of the perturbations'),
"C95": ("partial", 'the depth-averaged tracers and the 1D sets are left out; refuted: an unknown u_transport_option raises AttributeError, the linear equations drop the topography of their documentation, and the advective velocity form is the gradient of kinetic energy instead of (u.grad)u'),
"C96": ("partial", "uniform buoyancy without topography, derivative about flat reference depth and the source of equivalent buoyancy proved; refuted: the topography is counted twice, b' grad(Dbar) is missing from the linear source, the linearisation map is ignored for it, and the equivalent-buoyancy linearisation is not the derivative"),
"C97": ("partial", 'compressible part, Coriolis, derivative, energy and acceptance proved; refuted: the incompressible equations keep the time derivative of p, so time stepping them gives div u = p + dp/dt and rest in hydrostatic balance is not steady; the divergence is linearised whatever the linearisation map says'),
"C98": ("partial", 'coverage, tracers, relaxation parameters, block elimination, exact elimination for compressible Boussinesq and thermal shallow water of uniform depth proved; refuted: equivalent buoyancy with default prognostics leaves q_t in no block, other user prognostics, one-dimensional shallow water, relaxation parameters ignored by all but the compressible preset, shared dictionary changed, rotating and incompressible Boussinesq, thermal shallow water with varying depth'),
"C100": ("partial", 'options, documented form, Coriolis work, hydrostatic rest, mass, dry limit, linearisation, sponge profile and dissipation proved; refuted: tracers that are not mixing ratios only warn, interpolated DG2 sponge negative below its level, no sponge in the southern hemisphere of a sphere; the equations of the tracers, diffusion and extra terms are in C136'),
"C101": ("partial", 'time derivative, form, forcing terms proved; refuted: vertical balance (the forces equal the vertical velocity in monolithic schemes), linearisation of mass and forces, label, uniqueness and solvability of the forcing problem'),
"C102": ("partial", 'exactness for continuous, layer-uniform reference states with vanishing moist factor, residuals of all three rows in general, continuity, trace averages, moisture of water tracers proved; refuted: hydrostatic equations, tracers among the solver prognostics, tracers that are not water or not mixing ratios, error only near topography'),
"C103": ("partial", "exactly one scheme and method per transported field, success criterion, diffusion, relaxation parameters, element family proved; refuted: thermal, one-dimensional and Boussinesq equation sets under SIQNModel, consistent metric transports z twice, constructor flag ignored, other spaces silently untransported and flat meshes rejected by the lowest-order class, diffusion options None, caller's tracer list extended"),
"C104": ("partial", 'documented equations, exact solutions, balance, consistency of the methods, mass, linearisation, energy, Coriolis proved; refuted: space_names, parameter H in the linear set, rest state on an interval with default boundary conditions, mass and diffusion without spatial methods'),
"C105": ("partial", 'values at the nodes, exactness for cubics, error bound, linearity, monotonicity, error before tabulation proved; refuted: points outside the bounds, reversed bounds, one point'),
"C109": ("partial", 'Proved for cells with no node on the axis and for ranks with a common minimum radius. Refuted otherwise: a node on the axis has longitude zero, so a cell at the pole can be spread over more than half a turn (C109_pole_refuted); the radius is the minimum over the nodes of the rank, so with orography two ranks give a common point different heights (C109_ranks_refuted); a rank without cells raises ValueError (C109_error).'),
"C110": ("partial", 'Proved for the six shapes and for a base mesh with all vertices on one sphere. Refuted otherwise: an annulus passes for a vertical slice and a torus for a sphere (C110_shapes_refuted); the radius is the minimum over the vertices of the rank, so with vertices at different distances the vertical extent depends on the partition (C110_radius_refuted); a rank without nodes raises ValueError (C110_extent).'),
"C112": ("partial", 'Proved for all schemes except: IMEX Runge-Kutta needs tables with equal row sums (C112_imex_partial); IMEX_Trap2 does not have them and moves a steady state in which implicit and explicit terms balance (C112_imex_trap2_refuted); split timesteppers move states in which the split parts balance (C112_split_refuted); RIDC with physics sources is not covered (it is wrong there, C67_source_refuted).'),
"C113": ("partial", "Proved for scalar fields, for the continuity equation, for scalar diffusivities and for coupled transport; refuted for advection of vectors (C113_vector_advection_refuted; the equation solved is characterised, and DGUpwind's replacement is right), for tensor diffusivities of vectors (C113_tensor_diffusion_refuted), for the documented default of the diffusion parameters (C113_default_refuted), for coupled transport without tracers (C113_coupled_refuted) and for the space of the velocity after an equation with Vu on the same domain (C113_velocity_refuted)."),
"C114": ("partial", 'Proved for the console level, for the level of GUSTO_FILE_LOG_LEVEL, the move of the file, the barriers and the separation of the ranks; refuted for the documented variable GUSTO_LOGFILE_LOG_LEVEL, which is never read (C114_logfile_variable_refuted), for unhandled exceptions of ranks other than 0 (C114_unhandled_refuted), for the directory of a second simulation in a process (C114_second_simulation_refuted), for the level NOTSET (C114_notset_refuted) and for a second call of set_log_handler (C114_second_handler_refuted).'),
"C115": ("proved", 'Proved for all seven tables; C115_sharp shows that five of the coefficients cannot be increased, C115_rk4_refuted that RK4 has none, C115_cap_refuted that the default cap of ten subcycles loses the bounds.'),
"C116": ("partial", 'Proved for the schemes named; refuted for Leapfrog, which solves forward Euler and increases the energy in every step (C116_leapfrog_refuted).'),
"C117": ("partial", 'Proved for Functions, including the round trip. Refuted: an expression always raises because the membership test compares Functions with a string (C117_expression_refuted); a call that raises keeps the profiles set so far (C117_atomic_refuted); profiles of names that are not fields are written and not picked up (C117_diagnostic_lost_refuted); updates during the run are not in the checkpoint (C117_updated_refuted).'),
"C118": ("proved", 'Proved.'),
"C119": ("partial", 'Proved for the accelerated iteration and a single inner iteration. Without the accelerator a second inner iteration moves away from the solution and the energy can grow (C119_unaccelerated_refuted); this is the behaviour the accelerator exists for, not a bug. Refuted: with rotation, alpha > 1/2 and without off_centred_u the energy of a converged timestep can grow (C119_rotation_refuted), because the Coriolis term is centred at alpha and the divergence at 1/2.'),
"C120": ("partial", 'Acceptance and partition proved; every term acts once in complete models. Refuted: incomplete models are accepted: a field without a transport scheme is silently not transported (C120_forgotten_transport_refuted), a parametrisation without a scheme never acts and a repeated diffusion scheme acts twice (C120_forgotten_physics_refuted), two parametrisations with the same label string both act twice (C120_same_label_refuted).'),
"C121": ("partial", 'Diffusivity proved; the form is reduced to volume term and penalty (C121_scalar_form, C121_wind_form); vertical diffusion, conservation, constants and dissipation proved where density and diffusivity agree in neighbouring columns. Refuted: the surface terms are on the facets between columns (dS_v), not between layers: shear between layers is not mixed (C121_shear_refuted), columns are mixed (C121_columns_refuted), uniform fields change (C121_uniform_refuted), totals change (C121_conserves_refuted), the vertical wind is accelerated (C121_vertical_wind_refuted), and the layer depth is always 1 (C121_layer_depth_refuted).'),
"C122": ("partial", 'Proved for ForwardEuler, Heun, SSPRK2 (2, 3, 4), SSPRK3 (3, 4), RK4 (C122_explicit), ThetaMethod, BackwardEuler, TrapeziumRule, TR_BDF2; any table converges to the equation scaled by its weight sum (C122_limit). For a globally Lipschitz right-hand side the bound holds for every timestep for which the implicit equations are solvable; the _local theorems need Lipschitz continuity on bounded sets only (as for products of fields), for small enough timesteps and a solver that finds the root near its initial guess. Refuted for SSPRK3 with five stages and SSPRK4: their weights do not add up to one, so the error does not go to zero (C122_refuted).'),
"C123": ("partial", 'Proved (also without a global Lipschitz condition, the _local theorems): BDF2 second order; AdamsBashforth order 1 (first) and 2 (second); AdamsMoulton 1 (second), 2 and 3 (third). AdamsBashforth 3 and 4 are proved second order and refuted at third (forward Euler start-up, C123_adams_bashforth_order_refuted); AdamsBashforth 5 and AdamsMoulton 4 do not converge at all (coefficients do not sum to one); Leapfrog is proved first order and refuted at second (it solves forward Euler).'),
"C124": ("proved", 'Proved for all built-in implicit and IMEX schemes, assuming exact stage solves; with one physics scheme evaluated as a source the limit equation contains that source (several physics schemes: C12 shows only the last is used).'),
"C125": ("partial", 'Proved for accepted configurations with non-negative weights in which no capturing scheme is given two different timesteps and physics without weights is listed once; the limit equation is given for all weights (C125_limit). Refuted otherwise: unequal weights for a label whose solver captures its timestep converge to another equation. The Lie splitting of two second-order schemes is shown to be of first order only.'),
"C126": ("partial", 'Proved up to the orders min(r+k-1, p) and min(r+k, p+1, s); the higher orders that Gauss, Radau and Lobatto nodes reach at the end of the step (superconvergence, up to 2M) are not proved. Refuted without the final update, or without sweeps, for nodes that do not include the end of the step, and for a base scheme whose cached solver holds the first spacing (C126_held_step_refuted: an order less; the proved order for it is GuessOrder.captured).'),
"C127": ("partial", 'Proved without physics terms. Refuted with physics terms: the first subinterval loses its source at every correction, and the run converges to (1 - 1/M) of the source.'),
"C128": ("partial", 'Proved for the interpolation and projection operators left abstract. Refuted: UFL expressions (documented as sources) raise AttributeError with the Taylor method; vector targets other than CG1 are accepted with the Taylor method and degraded to CG1; the extruded method accepts vector-valued HCurl targets; the hcurl method on a VectorElement fails at the first project; vector targets whose dimension is not the default are rejected.'),
"C129": ("partial", 'Proved: first order in general, second order in the centred case without physics. Refuted: one outer iteration is only first order (C129_one_outer_refuted); a prognostic outside the solver gets only (1-alpha) of its forcing, so the model converges to another equation (C129_outside_solver_refuted). Zero boundary conditions change nothing (C143_siqn). Hydrostatic switch and time-dependent reference profiles are not modelled here.'),
"C130": ("partial", 'Proved: first order in general (with slow physics weighted by gamma3, and every field transported or one outer BDF iteration), second order without physics. Refuted: slow physics has the weight gamma3, which is one only for gamma = 1/2 (C130_slow_weight_refuted); a forced field without a transport scheme converges to another equation with two or more outer BDF iterations (C130_untransported_refuted); with one outer iteration of either stage the order is one (C130_one_outer_refuted). Zero boundary conditions change nothing (C143_trbdf2). Hydrostatic switch and time-dependent reference profiles are not modelled here.'),
"C131": ("partial", 'Proved for diagnostics that are to be dumped. Refuted: a diagnostic with to_dump=False is a derived field, so a second run of the same process ignores requirements on it and evaluates in the wrong order (C131_second_run_refuted). Diagnostics with memory are C92; duplicates of Courant diagnostics C91.'),
"C132": ("partial", 'Proved, except refuted parts: the assertion message fails with AttributeError for every unknown method (C132_message_refuted); a name that is already a field in another space is accepted and fails at evaluation (C132_same_name_refuted); a space whose name is taken is not added (C132_space_name_refuted).'),
"C133": ("partial", 'Proved for all scalar-valued output fields, for new runs and for runs that pick up with the same numbering of the nodes (C133_record, C133_pick_up, C133_metadata). Refuted: fields with several components (the velocity) are left out (C133_vector_refuted); a run that picks up with another numbering of the nodes, e.g. on another number of ranks, writes under the coordinates of other nodes (C133_renumbered_refuted); with a missing file rank 0 raises and the other ranks wait for ever (C133_missing_file_refuted); a further output field makes the first dump after picking up fail (C133_new_field).'),
"C134": ("partial", "Proved for the semi-implicit stepper with single-field schemes (C134_transport, C134_fields, C134_timestep, C134_no_drift, C134_exact, C134_height_moves_with_w, C134_bound). Refuted: TR-BDF2 raises an AttributeError in every transport step (C134_tr_bdf2_refuted) and divides the rate by a factor its wind already contains (C134_tr_bdf2_factor_refuted); theta in a simultaneous scheme is transported by the standard wind (C134_simultaneous_refuted); with predictor 'z' the wind for theta stays zero (C134_predictor_refuted)."),
"C135": ("partial", 'Proved: C135_all, C135_suboptions, C135_at_most_once, C135_consistent, C135_budget, C135_constant, C135_tau, C135_dissipation (spaces continuous in all directions). Refuted: the form for all but the last Runge-Kutta stage keeps the standard test function (C135_all_but_last_refuted); velocities in HDiv get tau = 0 silently (C135_hdiv_refuted); in spaces continuous in some directions the SUPG part can be anti-dissipative for oblique flow (C135_directional_refuted); a term with two listed labels is adjusted twice (example).'),
"C136": ("proved", 'Diffusivities are numbers; the mass-weighted forms are those of C78.'),
"C78": ("partial", "all parts proved for sets of at least two fields; refuted: a set whose only field is u loses its boundary conditions (C78_single_refuted)."),
"C137": ("partial", 'Proved for classes that use the dictionary, for shared objects with one space per tracer name and without chains of densities. Refuted otherwise: the six shallow-water classes ignore space_names (C137_ignored_refuted), a shared dictionary remembers the tracers of earlier sets (C137_reuse_refuted), also of failed ones (C137_retry_refuted), a chain of densities gives another order at each call (C137_chain_refuted), an empty list of tracers is refused (C137_empty_refuted).'),
"C138": ("partial", 'Proved for the explicit Runge-Kutta schemes (three formulations), SDC, RIDC, parallel SDC and (without sources) parallel RIDC. Refuted: BackwardEuler and the multi-level schemes accept a limiter and ignore it (C138_backward_euler_refuted, C138_multilevel_refuted; IMEX: C12_limiter_refuted); SDC without sweeps (C138_sdc_no_sweep_refuted); the transfer back of a wrapper can undo the limiting (C138_wrapped_refuted); physics sees unlimited fields in the increment formulation (C138_sources_refuted). An augmentation with its own limiter: C81.'),
"C139": ("partial", 'Proved for a base scheme without subcycling: the timestep of the model is left alone and the base scheme of the first guess is determined. Refuted: a base scheme with a cached solver keeps the spacing of the first node at all nodes (C139_plain_base; the lost order is C126_held_step_refuted, with Lobatto nodes the guess is a copy: C139_lobatto_refuted); fixed subcycles of the base scheme divide the timestep of the model (C139_fixed_subcycles_clock_refuted, C139_model_time_refuted) and make the guess overshoot (C139_fixed_subcycles_guess_refuted); adaptive subcycling fails (C139_adaptive_refuted).'),
"C140": ("partial", "Proved for implicit schemes and, up to the forced keys, for explicit schemes. Refuted: explicit schemes replace ksp_type, pc_type, sub_pc_type and snes_type and write into the dictionary of the user (C140_explicit_refuted); a shared dictionary switches Newton's method off in an implicit scheme (C140_shared_refuted) or in an explicit scheme with a nonlinear time derivative (C140_two_explicit_refuted)."),
"C141": ("partial", 'Proved when the mass operator is constant (C141_constant_mass), with an exact criterion in general (C141_exact_iff). Refuted when it changes, as with SUPG and a changing wind (C141_changing_mass_refuted, C141_supg_mass).'),
"C142": ("partial", 'Proved for all schemes that solve for fields, for deferred correction, for the choice of conditions and for the quasi-Newton timesteppers. Refuted: increment formulations (the default of explicit Runge-Kutta) impose the values on the increments, so nonzero values drift by dt g per step and a wrong value is never corrected (C142_increment_refuted, exact values in C142_increment_rk and C142_increment_irk); physics schemes of split timesteppers and schemes with MeanMixingRatio get no conditions (C142_conditions_refuted, C142_split_physics_refuted); the way back conservative_project ignores them (C142_conservative_back_refuted).'),
"C143": ("proved", "All schemes. The meaning of a solve with prescribed values is that of Firedrake's bcs (Model/BoundaryConditions.lean solveWith)."),
"C144": ("proved", 'All schemes and both quasi-Newton timesteppers. That the assembled forms and the solvers commute with the map is a hypothesis (shown for Newton iterations, exact solves, relabelled equations and for upwind transport on a ring).'),
"C145": ("proved", 'BackwardEuler, ThetaMethod, TrapeziumRule, TR_BDF2, ImplicitMidpoint and QinZhang for DG0, exact solves.'),
"C146": ("proved", 'All parts, for exact solves; the tolerance for BackwardEuler.'),
"C147": ("proved", 'All parts. Iterative solvers are a fixed number of iterations with a fixed linear preconditioner for all schemes; exact solvers for BackwardEuler, ThetaMethod, TR_BDF2, multi-level and explicit Runge-Kutta schemes, as the statement says.'),
"C148": ("partial", 'Partial because three parts are refuted (request honoured, second order, large timesteps). The interpolation into DG is a given map and the predicted field is taken to live in that space.'),
"C149": ("partial", 'Partial because two parts are refuted (mixed auxiliary equations, clashing names). Names that are attributes of the class itself are not modelled.'),
"C17": ("proved", 'Proved for distinct names, as the containers require; C17_duplicate_names_refuted shows what happens to two diagnostics of one name.'),
"C18": ("proved", 'All parts; C18_bad_type_refuted shows that a call with a type that is not permitted raises after the field has been entered.'),
"C92": ("partial", 'Proved for every history of runs that pick up; refuted: a second run() in the same process without pick-up starts the error and the sum anew (C92_second_run_refuted), and an initial field supplied by the user is overwritten (C92_user_field_refuted).'),
"C99": ("partial", 'All parts proved except that a velocity condition on lateral boundaries only leaves the traces of top and bottom in neither part (C99_lateral_only_refuted).'),
}
