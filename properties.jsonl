{"id": "C01", "title": "One step of the basic explicit residual", "statement": "For an equation whose residual is a sum of mass (time-derivative) terms and other terms, the state that zeroes the residual assembled by a time discretisation's default `res` is exactly the forward-Euler update: mass(x_out) = mass(x_in) - dt * other(x_in).", "quantifier": "every list of labelled terms, every state, every dt", "why_tests_cant": "a test runs one PDE and one mesh; the residual assembly must be right for any collection of labelled terms", "anchors": ["gusto/time_discretisation/time_discretisation.py: TimeDiscretisation.lhs/rhs/res", "gusto/core/labels.py: time_derivative"]}
{"id": "C02", "title": "The three Runge-Kutta formulations are the same method", "statement": "`rk_formulation` = increment and predictor produce, for every Butcher matrix, every right-hand side and every state, the same result as the textbook explicit Runge-Kutta step (stages k_i = f(x + dt*sum_{j<i} a_ij k_j), result x + dt*sum b_j k_j); the linear formulation does too whenever the right-hand side is linear and no subcycling is used.", "quantifier": "every explicit tableau (any number of stages), every right-hand side map, every state and dt", "why_tests_cant": "tests compare a few schemes on one advection problem to a tolerance; equality must hold for all tableaux and operators", "anchors": ["gusto/time_discretisation/explicit_runge_kutta.py: ExplicitRungeKutta.apply_cycle/solve_stage/solver/res"]}
{"id": "C03", "title": "Built-in Runge-Kutta tableaux are consistent and have their advertised order", "statement": "Each built-in explicit scheme's Butcher matrix has the number of stages implied by its class arguments and satisfies the classical order conditions up to its advertised order (ForwardEuler 1, Heun 2, SSPRK2 2, SSPRK3(3/4 stages) 3, RK4 4), so that one step agrees with the Taylor expansion of a linear problem to that order.", "quantifier": "every built-in tableau with rational entries; for the linear problem every operator and state", "why_tests_cant": "order is a limit statement; convergence tests only sample a few dt values", "anchors": ["gusto/time_discretisation/explicit_runge_kutta.py: ForwardEuler, SSPRK2, SSPRK3, RK4, Heun"]}
{"id": "C04", "title": "Fixed subcycling is iteration of the single-cycle step", "statement": "With `SubcyclingOptions(fixed_subcycles=n)` an explicit scheme's `apply` returns the result of n successive single-cycle applications, each with timestep dt/n, starting from the input; the n sub-timesteps add up to dt.", "quantifier": "every n >= 1, every single-cycle map, every state and dt", "why_tests_cant": "tests fix n; the claim is for all n", "anchors": ["gusto/time_discretisation/time_discretisation.py: ExplicitTimeDiscretisation.apply/setup", "gusto/core/configuration.py: SubcyclingOptions"]}
{"id": "C05", "title": "Adaptive subcycling picks a legal number of cycles that covers the timestep", "statement": "With `subcycle_by_courant` the number of cycles chosen is at least 1 and at most `max_subcycles`, dt_sub * ncycles = dt, and unless the cap is hit the Courant number of every sub-step is at most the requested limit; it is the least such number of cycles up to rounding.", "quantifier": "every Courant number >= 0, every positive limit, every cap >= 1", "why_tests_cant": "the boundary cases (Courant exactly at a multiple of the limit, cap reached) are a measure-zero set for sampling", "anchors": ["gusto/time_discretisation/time_discretisation.py: ExplicitTimeDiscretisation.apply", "gusto/core/configuration.py: SubcyclingOptions.check_options"]}
{"id": "C06", "title": "Subcycled linear Runge-Kutta formulation", "statement": "Using the linear RK formulation with several subcycles should give the same result as the increment formulation with the same subcycles.", "quantifier": "every number of cycles, every tableau, every linear operator", "why_tests_cant": "only one-cycle linear formulations are tested", "anchors": ["gusto/time_discretisation/explicit_runge_kutta.py: ExplicitRungeKutta.apply_cycle, solve_stage (RungeKuttaFormulation.linear)"]}
{"id": "C07", "title": "Implicit one-step schemes solve their documented equation", "statement": "A state zeroing BackwardEuler's residual satisfies mass(x+) + dt*F(x+) = mass(x); ThetaMethod's satisfies mass(x+) + dt*theta*F(x+) = mass(x) - dt*(1-theta)*F(x); TrapeziumRule is ThetaMethod(1/2); TR_BDF2's two residuals give the trapezium step to t+gamma*dt followed by the BDF2 step, and a theta of 1 is BackwardEuler.", "quantifier": "every list of labelled terms, every state, dt, theta and gamma", "why_tests_cant": "tests sample one equation; the residual assembly must be right for all", "anchors": ["gusto/time_discretisation/time_discretisation.py: BackwardEuler.res, ThetaMethod.res, TrapeziumRule, TR_BDF2.res/res_bdf"]}
{"id": "C08", "title": "Multi-level schemes solve their documented recurrence", "statement": "A state zeroing the residual of BDF2, Leapfrog, AdamsBashforth(order) or AdamsMoulton(order), after start-up, satisfies the scheme's documented multi-step recurrence over the previous time levels.", "quantifier": "every history of previous levels, every order 1-5 (AB) / 1-4 (AM), every list of labelled terms, every dt", "why_tests_cant": "the recurrence must hold for any history; tests see one trajectory", "anchors": ["gusto/time_discretisation/multi_level_schemes.py: BDF2.res/res0, Leapfrog.rhs, AdamsBashforth.res, AdamsMoulton.res"]}
{"id": "C09", "title": "Adams coefficients are consistent and of their stated order", "statement": "The coefficient vector used by AdamsBashforth(order) / AdamsMoulton(order) sums to 1 and integrates every polynomial of degree < order (resp. <= order) exactly, so a constant tendency F gives exactly x+ = x - dt*F.", "quantifier": "every order the class accepts and every polynomial tendency of the stated degree", "why_tests_cant": "a wrong digit in one coefficient passes loose convergence tests of the other orders", "anchors": ["gusto/time_discretisation/multi_level_schemes.py: AdamsBashforth.setup, AdamsMoulton.setup"]}
{"id": "C10", "title": "Multi-level history holds exactly the last n results", "statement": "After k timesteps of a scheme with n levels, the previous levels passed to the next `apply` are the results of steps k-n+1,...,k in order (steps before the start are never needed: the start-up scheme, which reads the newest level only, is used for exactly the first n-1 steps), so the run follows the scheme's recurrence over its own results whatever the older levels held initially.", "quantifier": "every number of levels n, every number of steps k, every step function", "why_tests_cant": "it is an invariant over all histories of the time loop", "anchors": ["gusto/core/fields.py: TimeLevelFields.__init__/update", "gusto/timestepping/timestepper.py: BaseTimestepper.run, Timestepper.timestep", "gusto/time_discretisation/multi_level_schemes.py: *.apply"]}
{"id": "C11", "title": "Implicit Runge-Kutta formulations solve the tableau's equations", "statement": "ImplicitRungeKutta (predictor and increment formulations), for a lower-triangular tableau, returns a state satisfying the documented DIRK equations for that tableau.", "quantifier": "every lower-triangular tableau, operator, state and dt", "why_tests_cant": "tests use two tableaux only", "anchors": ["gusto/time_discretisation/implicit_runge_kutta.py: ImplicitRungeKutta.res/final_res/solve_stage/apply, ImplicitMidpoint, QinZhang"]}
{"id": "C12", "title": "IMEX Runge-Kutta stages and final update follow the two tableaux", "statement": "For IMEXRungeKutta each stage residual and the final residual vanish exactly when the documented IMEX equations for the implicit and explicit Butcher matrices hold; implicit-labelled terms use the implicit matrix only and explicit-labelled terms the explicit matrix only; every built-in IMEX pair has its order including the coupling conditions (Euler 1, ARS3 3, ARK2, SSP3 and Trap2 2) and is lower triangular; an equation each of whose terms has exactly one of the labels is integrated completely, and a limiter given by the user is applied.", "quantifier": "every pair of tableaux of any size, every labelled residual, every state and dt", "why_tests_cant": "tests run built-in tableaux on one equation", "anchors": ["gusto/time_discretisation/imex_runge_kutta.py: IMEXRungeKutta.res/final_res/solve/apply, IMEX_*"]}
{"id": "C13", "title": "Applying a scheme in place is safe and never changes its input", "statement": "For explicit schemes `apply(x_out, x_in)` leaves x_in unchanged when the two fields are distinct, and when the same field is passed for both the field ends with the value that a call with distinct fields would have produced.", "quantifier": "every aliasing of the two arguments, every scheme step, every number of subcycles", "why_tests_cant": "aliasing bugs only show when a caller reuses a field", "anchors": ["gusto/time_discretisation/time_discretisation.py: ExplicitTimeDiscretisation.apply", "gusto/time_discretisation/explicit_runge_kutta.py: ExplicitRungeKutta.apply_cycle"]}
{"id": "C14", "title": "The time loop takes the right number of steps and stops", "statement": "`run(t, tmax)` with dt > 0 terminates; it takes the least number n of steps with t + n*dt >= tmax - dt/2, the final time is t + n*dt, it lies within half a timestep of tmax whenever tmax >= t, and the step counter is n+1; no step is taken if tmax - dt/2 <= t.", "quantifier": "every start time, end time and positive timestep (exact arithmetic)", "why_tests_cant": "boundary cases of the half-step test are not sampled", "anchors": ["gusto/timestepping/timestepper.py: BaseTimestepper.run"]}
{"id": "C15", "title": "A picked-up run reproduces the uninterrupted run", "statement": "Stopping at any step with a checkpoint, then running again with pick_up=True, gives the same prognostic fields, time, and step number at every later step as the uninterrupted run, including for multi-level schemes (whose previous levels are stored).", "quantifier": "every interruption point, every step map, every number of time levels", "why_tests_cant": "tests interrupt at one step of one scheme", "anchors": ["gusto/core/io.py: IO.pick_up_from_checkpoint, IO.dump", "gusto/core/fields.py: StateFields.__init__, TimeLevelFields", "gusto/timestepping/timestepper.py: BaseTimestepper.run"]}
{"id": "C16", "title": "Output cadence", "statement": "In an uninterrupted run, after N steps the fields have been dumped at steps 0, freq, 2freq, ... and nowhere else (for the field, diagnostics, point-data and checkpoint frequencies separately); in a picked-up run the cadence continues as if uninterrupted.", "quantifier": "every frequency >= 1, every run length, every pick-up step", "why_tests_cant": "cadence after pick-up at steps that are not a multiple of the frequency is not tested", "anchors": ["gusto/core/io.py: IO.setup_dump, IO.dump"]}
{"id": "C17", "title": "Diagnostics are evaluated after everything they require", "statement": "`IO.setup_diagnostics` orders the requested diagnostics (plus any required field that is itself a diagnostic) so that each appears exactly once and after all the diagnostics it requires; it raises RuntimeError exactly when the requirements are cyclic, and it always terminates.", "quantifier": "every finite dependency graph", "why_tests_cant": "graphs are sampled by tests; cyclic and shared-dependency shapes are infinite in number", "anchors": ["gusto/core/io.py: topo_sort, IO.setup_diagnostics"]}
{"id": "C18", "title": "The state-field registry is consistent", "statement": "`StateFields.__call__` returns the same field object for the same name for ever after its creation, `field_type(name)` reports the type given at creation, every picked-up name is registered, and asking for an unknown name without a space or field raises and changes nothing.", "quantifier": "every sequence of registry calls", "why_tests_cant": "it is an invariant over call histories", "anchors": ["gusto/core/fields.py: StateFields.__call__/field_type, Fields.__call__"]}
{"id": "C19", "title": "Parallel netCDF output writes each degree of freedom exactly once", "statement": "The [start, stop) slices that the ranks write their local data to are disjoint, in rank order, cover [0, total) exactly, and the written array is the concatenation of the ranks' local arrays.", "quantifier": "every number of ranks and every distribution of local sizes", "why_tests_cant": "tests use at most two ranks", "anchors": ["gusto/core/io.py: IO.write_nc_dump", "gusto/core/coordinates.py: Coordinates.register_space"]}
{"id": "C20", "title": "Existing results are protected and all ranks agree on errors", "statement": "When any output is requested, `setup_dump` raises on every rank iff rank 0 finds the directory already there (and neither running tests, nor picking up, nor overwrite_files), or rank 0 fails to create it; no rank proceeds while another raises.", "quantifier": "every number of ranks, every combination of flags and directory state", "why_tests_cant": "the failing combinations need a multi-rank crash", "anchors": ["gusto/core/io.py: IO.setup_dump"]}
{"id": "C21", "title": "Operator-split timestepping covers the whole timestep", "statement": "`SplitTimestepper` accepts a term splitting only if, with weights, every term's weights add up to 1 (so every term is advanced by dt in total) and every dynamics label is covered; the sub-steps are applied in the given order, each starting from the previous one's result.", "quantifier": "every splitting list and weights, every family of sub-step maps", "why_tests_cant": "tests try a handful of splittings", "anchors": ["gusto/timestepping/split_timestepper.py: SplitTimestepper.__init__/timestep/setup_scheme"]}
{"id": "C22", "title": "The semi-implicit quasi-Newton loop's fixed points solve the time-discrete system", "statement": "If an inner iteration of SemiImplicitQuasiNewton leaves the state unchanged then the state satisfies the off-centred implicit equations (explicit forcing with weight 1-alpha, transport, implicit forcing with weight alpha), and fields that are not solver prognostics are copied, not altered by the linear solve.", "quantifier": "every numbers of outer/inner iterations, transport maps, forcing maps, off-centering alpha and invertible linear solve", "why_tests_cant": "a test cannot separate convergence error from a wrong fixed point", "anchors": ["gusto/timestepping/semi_implicit_quasi_newton.py: SemiImplicitQuasiNewton.timestep, Forcing"]}
{"id": "C23", "title": "Reference profiles are updated at the requested frequency", "statement": "With reference_update_freq = f, SemiImplicitQuasiNewton (and TR-BDF2 QN) updates the reference profiles at the first step and then only when at least f seconds have passed since the last update.", "quantifier": "every frequency and every sequence of step times", "why_tests_cant": "tests set the frequency to zero or None", "anchors": ["gusto/timestepping/semi_implicit_quasi_newton.py: update_reference_profiles", "gusto/timestepping/tr_bdf2_quasi_newton.py: update_reference_profiles"]}
{"id": "C24", "title": "Spectral deferred correction converges to the collocation solution only", "statement": "A state is left unchanged by an SDC sweep if and only if it satisfies the collocation equations for the node matrix Q; this is independent of the preconditioning matrix QDelta and of which terms are implicit or explicit.", "quantifier": "every node set, Q matrix, lower-triangular QDelta, labelled right-hand side and dt", "why_tests_cant": "tests observe convergence rates, not the fixed-point set", "anchors": ["gusto/time_discretisation/deferred_correction.py: SDC.res/res_SDC/apply"]}
{"id": "C25", "title": "Parallel SDC equals serial SDC with diagonal preconditioner", "statement": "With a diagonal QDelta, the state on every rank of Parallel_SDC after each sweep equals the corresponding node value of the serial SDC sweep, for any order of execution of the ranks.", "quantifier": "every number of nodes, sweeps, and any schedule of ranks", "why_tests_cant": "needs all interleavings", "anchors": ["gusto/time_discretisation/parallel_dc.py: Parallel_SDC.apply"]}
{"id": "C26", "title": "Pipelined parallel RIDC equals serial RIDC and cannot deadlock", "statement": "In Parallel_RIDC the value received by rank k for node m is the value computed by rank k-1 for node m; every receive is matched by exactly one send with the same tag; every schedule of the ranks runs to completion with the serial result.", "quantifier": "every number of correction ranks, every number of nodes satisfying the constructor's check, every interleaving", "why_tests_cant": "needs all interleavings; deadlock is a liveness property", "anchors": ["gusto/time_discretisation/parallel_dc.py: Parallel_RIDC.apply/setup", "gusto/time_discretisation/deferred_correction.py: RIDC"]}
{"id": "C27", "title": "Limiters produce the bounds they promise and touch nothing else", "statement": "The zero-clipping limiter returns max(0,value) at each degree of freedom; the theta limiter's midpoint correction lies within its vertices' bounds; the mean limiter makes a DG1 cell non-negative while keeping its mean when the mean is non-negative; the mixed limiter alters only the fields named in its dictionary.", "quantifier": "every field, every cell, every number of degrees of freedom", "why_tests_cant": "bounds must hold for every value", "anchors": ["gusto/spatial_methods/limiters.py: ZeroLimiter, ThetaLimiter, MeanLimiter, MixedFSLimiter", "gusto/core/kernels.py"]}
{"id": "C28", "title": "Conservative projection conserves mass and can preserve constants", "statement": "The ConservativeProjector's target satisfies integral(rho_target*m_target) = integral(rho_source*m_source); with subtract_mean a constant mixing ratio is reproduced exactly whenever the two densities have equal mass.", "quantifier": "every pair of densities and source fields, any finite-dimensional spaces containing constants", "why_tests_cant": "conservation must hold for every input", "anchors": ["gusto/core/conservative_projection.py: ConservativeProjector"]}
{"id": "C29", "title": "Reversible recovery is reversible", "statement": "Recovering a field with ReversibleRecoverer and projecting the result back to the low-order space returns the original field, whenever the down-projection is linear and undoes the injection.", "quantifier": "every recovery operator, every field", "why_tests_cant": "tests use one field and tolerance", "anchors": ["gusto/recovery/reversible_recovery.py: ReversibleRecoverer.project, ConservativeRecoverer.project"]}
{"id": "C30", "title": "Averaging recovery is a true average", "statement": "The Averager's output at each continuous degree of freedom is the arithmetic mean of the coinciding discontinuous values: it lies between their minimum and maximum, and reproduces fields that are already continuous (in particular constants); repeated calls give the same result.", "quantifier": "every mesh connectivity (cell-to-node map) and every field", "why_tests_cant": "connectivities and values are unbounded", "anchors": ["gusto/recovery/averaging.py: Averager", "gusto/recovery/recovery_kernels.py: AverageKernel, AverageWeightings"]}
{"id": "C31", "title": "Boundary Taylor recovery reproduces the local polynomial", "statement": "For an exterior cell whose effective-coordinate matrix is nonsingular, the Gaussian-elimination kernel's output is the unique polynomial (in the kernel's basis) through the old values at the effective coordinates, evaluated at the actual coordinates; interior cells are copied.", "quantifier": "every number of degrees of freedom, every coordinates with nonsingular matrix, every field", "why_tests_cant": "pivot patterns are exponentially many", "anchors": ["gusto/recovery/recovery_kernels.py: BoundaryGaussianElimination"]}
{"id": "C32", "title": "Extruded boundary recovery is linear extrapolation", "statement": "The extruded/hcurl boundary kernels alter only the boundary value of the top/bottom layer, and reproduce exactly any field that is linear in height (values recovered at mid-layer are extrapolated to the boundary).", "quantifier": "every column, every linear profile", "why_tests_cant": "values unbounded", "anchors": ["gusto/recovery/recovery_kernels.py: BoundaryRecoveryExtruded, BoundaryRecoveryHCurl"]}
{"id": "C33", "title": "Column data round trip", "statement": "`get_column_data` groups the degrees of freedom of a field into vertical columns ordered by height, and `set_field_from_column_data` of unmodified column data restores every degree of freedom.", "quantifier": "every set of distinct column coordinates and heights, every field", "why_tests_cant": "permutations are unbounded", "anchors": ["gusto/core/coordinates.py: Coordinates.get_column_data/set_field_from_column_data"]}
{"id": "C34", "title": "Spherical/Cartesian coordinate round trip", "statement": "xyz_from_lonlatr(lonlatr_from_xyz(x,y,z)) = (x,y,z) for every point, and lonlatr_from_xyz(xyz_from_lonlatr(lon,lat,r)) = (lon,lat,r) for r>0, lon in (-pi,pi], lat in (-pi/2,pi/2), in radians and in degrees.", "quantifier": "every point of R^3 / every admissible coordinate triple", "why_tests_cant": "branch cuts and poles are measure-zero", "anchors": ["gusto/core/coord_transforms.py: xyz_from_lonlatr, lonlatr_from_xyz"]}
{"id": "C35", "title": "Vector component transforms are mutually inverse isometries", "statement": "lonlatr_components_from_xyz and xyz_vector_from_lonlatr at the same position are inverse to each other and preserve dot products, for each position_units option; the three options agree for the same position.", "quantifier": "every vector and position", "why_tests_cant": "all positions", "anchors": ["gusto/core/coord_transforms.py: xyz_vector_from_lonlatr, lonlatr_components_from_xyz"]}
{"id": "C36", "title": "Rodrigues rotation is a rotation and pole_rotation moves the pole", "statement": "For a unit axis, rodrigues_rotation preserves dot products, fixes the axis, composes additively in the angle, and rotation by -angle undoes it; pole_rotation((lon,lat)) yields a unit axis and the angle for which the north pole is carried to the point (lon,lat).", "quantifier": "every unit axis, angle, vector and new pole", "why_tests_cant": "all angles", "anchors": ["gusto/core/coord_transforms.py: rodrigues_rotation, pole_rotation"]}
{"id": "C37", "title": "Rotated coordinates have the requested pole", "statement": "rotated_lonlatr_coords(xyz, new_pole) gives latitude +90 degrees at the point whose original (lon,lat) is new_pole.", "quantifier": "every new pole", "why_tests_cant": "the shipped test fixes one pole (and asserts the opposite sign)", "anchors": ["gusto/core/coord_transforms.py: rotated_lonlatr_coords"]}
{"id": "C38", "title": "Periodic distance is the shortest signed distance", "statement": "periodic_distance(x1,x2,max,min) for points of the interval is congruent to x1-x2 modulo the period, has absolute value at most half a period, and is at most any other congruent displacement in absolute value; its magnitude is symmetric and bounded.", "quantifier": "every pair of points in every interval", "why_tests_cant": "ties at exactly half a period", "anchors": ["gusto/core/coord_transforms.py: periodic_distance"]}
{"id": "C39", "title": "Great-circle angle", "statement": "great_arc_angle is symmetric, lies in [0,pi], its cosine is the dot product of the unit vectors of the two points, and vanishes iff the points coincide; calling it does not change the caller's arrays.", "quantifier": "every pair of points, both units, array or scalar arguments", "why_tests_cant": "in-place mutation is invisible to a value-only test", "anchors": ["gusto/core/coord_transforms.py: great_arc_angle"]}
{"id": "C40", "title": "Thermodynamic conversions are mutually inverse and satisfy the equation of state", "statement": "With positive arguments: rho(theta, exner(rho,theta)) = rho; exner(rho(theta,Pi),theta) = Pi; theta(T(theta,Pi), p(Pi)) = theta; and p = rho * R_d * T for dry air.", "quantifier": "every positive density, temperature, pressure and parameter set with 0<kappa<1", "why_tests_cant": "continuous domain", "anchors": ["gusto/equations/thermodynamics.py: theta, exner_pressure, p, T, rho"]}
{"id": "C41", "title": "Exner derivatives", "statement": "dexner_drho and dexner_dtheta are the partial derivatives of exner_pressure.", "quantifier": "every positive rho, theta", "why_tests_cant": "derivatives are limits", "anchors": ["gusto/equations/thermodynamics.py: dexner_drho, dexner_dtheta"]}
{"id": "C42", "title": "Humidity conversions", "statement": "RH(r_v(H)) = H and r_v(RH(r)) = r; RH(r_sat) = 1; the vapour pressure e at r_sat is e_sat; RH is increasing in r_v.", "quantifier": "every temperature/pressure with 0 < e_sat < p and every admissible humidity", "why_tests_cant": "continuous domain", "anchors": ["gusto/equations/thermodynamics.py: r_sat, RH, r_v, e, e_sat"]}
{"id": "C43", "title": "Saturation adjustment conserves water and keeps it non-negative", "statement": "A forward-Euler step of SaturationAdjustment conserves vapour+cloud at each point and leaves both non-negative if they were; super-saturated air never gains vapour and sub-saturated air never loses it.", "quantifier": "every state at a point, every saturation value, dt>0, with or without latent heat", "why_tests_cant": "limit branches", "anchors": ["gusto/physics/microphysics.py: SaturationAdjustment"]}
{"id": "C44", "title": "Coalescence conserves water and keeps cloud non-negative", "statement": "A forward-Euler step of Coalescence conserves cloud+rain, leaves cloud non-negative, and never decreases rain when cloud is non-negative.", "quantifier": "every state at a point, both option flags, dt>0", "why_tests_cant": "nested conditionals", "anchors": ["gusto/physics/microphysics.py: Coalescence"]}
{"id": "C45", "title": "Evaporation of rain removes rain", "statement": "A forward-Euler step of EvaporationOfRain never increases rain, never decreases vapour, conserves their sum and leaves rain non-negative.", "quantifier": "every state at a point, dt>0", "why_tests_cant": "there is no test of this class", "anchors": ["gusto/physics/microphysics.py: EvaporationOfRain"]}
{"id": "C46", "title": "Moist shallow-water physics conserves water and respects saturation", "statement": "InstantRain with rain tracked conserves vapour+rain and, with gamma_r=1 and tau=dt, leaves vapour = min(vapour, saturation); SWSaturationAdjustment conserves vapour+cloud, leaves both non-negative if they were, and with gamma_v=1 brings vapour to saturation when enough water is available.", "quantifier": "every state, saturation curve, gamma in [0,1], dt>0", "why_tests_cant": "all limit branches", "anchors": ["gusto/physics/shallow_water_microphysics.py: InstantRain, SWSaturationAdjustment"]}
{"id": "C47", "title": "Terminator chemistry conserves the total and stays non-negative", "statement": "TerminatorToy conserves X + 2*X2 exactly under any explicit or implicit one-step scheme; with the analytical formulation a forward-Euler step keeps both species non-negative; the documented steady state is a fixed point.", "quantifier": "every state, rates k1,k2>=0, dt>0", "why_tests_cant": "limit branches", "anchors": ["gusto/physics/chemistry.py: TerminatorToy"]}
{"id": "C48", "title": "Implicit surface schemes are backward-Euler steps and bounded", "statement": "The implicit formulations of SurfaceFluxes and WindDrag are exactly the backward-Euler solutions of the documented rates: the new temperature/vapour lies between the old and the surface/saturation value, and the new horizontal wind is parallel to and not stronger than the old; above the surface layer nothing changes. In the general formulation the potential-temperature rate is the chain rule of the temperature (and vapour) rates at fixed density.", "quantifier": "every state, wind speed >= 0, positive dt and layer height", "why_tests_cant": "continuous domain", "anchors": ["gusto/physics/boundary_and_turbulence.py: SurfaceFluxes, WindDrag"]}
{"id": "C49", "title": "Static adjustment sorts columns", "statement": "After a forward-Euler step of StaticAdjustment every column's theta is non-decreasing with height and is a permutation of the column's previous values (so its sum is unchanged); a stable column is unchanged; doing it twice equals doing it once.", "quantifier": "every column length and values", "why_tests_cant": "permutations unbounded", "anchors": ["gusto/physics/boundary_and_turbulence.py: StaticAdjustment.evaluate"]}
{"id": "C50", "title": "Vertical wind suppression acts exactly during spin-up", "statement": "During the spin-up period a forward-Euler step removes exactly the vertical component of the wind; from the first step at or after the period on, the wind is unaffected for ever.", "quantifier": "every sequence of step times, every wind", "why_tests_cant": "history property", "anchors": ["gusto/physics/boundary_and_turbulence.py: SuppressVerticalWind"]}
{"id": "C51", "title": "REXI work is shared without gaps or overlap", "statement": "For any number of ensemble ranks, the index ranges of rational-approximation terms assigned to the ranks are consecutive, disjoint and cover all terms; sizes differ by at most one; so the all-reduced sum equals the serial sum.", "quantifier": "every number of terms and ranks", "why_tests_cant": "tests use two ranks", "anchors": ["gusto/rexi/rexi.py: Rexi.__init__/solve"]}
{"id": "C52", "title": "REXI coefficients reproduce the double sum", "statement": "The coefficients returned by RexiCoefficients satisfy: the single sum over n of beta_n/(z + alpha_n) equals the documented double-sum approximation built from the a_l and b_m constants; with reduce_to_half the conjugate-pair sum over the returned half gives the same value for purely imaginary z.", "quantifier": "every h, M, L, coefficient vector and z off the poles", "why_tests_cant": "index bookkeeping for all sizes", "anchors": ["gusto/rexi/rexi_coefficients.py: b_coefficients, RexiCoefficients"]}
{"id": "C53", "title": "The complex proxy represents complex arithmetic", "statement": "Solving the proxied block system for BilinearForm(W,z,A) gives the real and imaginary parts of the complex solution; get_real/get_imag/set_real/set_imag are lenses: what is set is read back and the other part is untouched; split of the interleaved components recovers the parts.", "quantifier": "every number of components, complex z, real bilinear form and vectors", "why_tests_cant": "all sizes", "anchors": ["gusto/complex_proxy/common.py: _build_twoform, _build_oneform", "gusto/complex_proxy/mixed_impl.py: _component_elements, _get_part, _set_part"]}
{"id": "C54", "title": "Configuration objects reject unknown settings", "statement": "Setting an attribute on a Configuration succeeds iff the class declares that attribute, otherwise AttributeError is raised and nothing changes; SubcyclingOptions.check_options raises iff both fixed_subcycles and subcycle_by_courant are given.", "quantifier": "every attribute name and value, every sequence of assignments", "why_tests_cant": "names unbounded", "anchors": ["gusto/core/configuration.py: Configuration.__init__/__setattr__, SubcyclingOptions.check_options"]}
{"id": "C55", "title": "Active tracers are ordered after their reference densities", "statement": "Adding active tracers yields a field list in which every conservatively transported tracer appears after its reference density; no name is lost or duplicated; adding a name that exists raises ValueError.", "quantifier": "every list of active tracers", "why_tests_cant": "orderings are factorially many", "anchors": ["gusto/equations/prognostic_equations.py: PrognosticEquationSet.add_tracers_to_prognostics"]}
{"id": "C56", "title": "Splitting transport terms does not change the equation", "statement": "split_continuity_form and split_hv_advective_form replace exactly the matching transport terms by terms whose sum is the same operator (div(uq) = u.grad q + q div u; u = u_h + u_v), leave all other terms untouched, and no term of the split kind remains.", "quantifier": "every list of labelled terms", "why_tests_cant": "lists of terms unbounded", "anchors": ["gusto/equations/common_forms.py: split_continuity_form, split_hv_advective_form"]}
{"id": "C57", "title": "Prescribed transport: set-up, velocity and output", "statement": "With a time-varying prescribed velocity, running before set-up raises, setting up after a run or twice raises; at every step of a run the transport scheme uses the prescribed expression evaluated at the time at the start of that step, with the function passed by the user deciding at that time; for a fixed velocity the velocity field is untouched; every output row carries the prescribed velocity of its own time; construction accepts physics parametrisations only with explicit time discretisations.", "quantifier": "every sequence of set-up and run calls, every velocity expression, any number of steps and of physics schemes", "why_tests_cant": "call sequences and run lengths are unbounded", "anchors": ["gusto/timestepping/timestepper.py: PrescribedTransport, Timestepper", "gusto/timestepping/split_timestepper.py: SplitPrescribedTransport"]}
{"id": "C58", "title": "Mixed-space wrappers apply each field's own options", "statement": "With MixedFSOptions, each prognostic is pre-processed and post-processed by its own wrapper (or copied if it has none), no wrapper affects another field, every prognostic field of the result comes from its own slot, a conservative recovery uses the density of the same call, and set-up leaves the equation's own function spaces unchanged.", "quantifier": "every assignment of wrappers to fields, any number and order of fields, every set of spaces", "why_tests_cant": "combinatorial", "anchors": ["gusto/time_discretisation/wrappers.py: MixedFSWrapper.pre_apply/post_apply", "gusto/time_discretisation/time_discretisation.py: wrapper_apply, setup"]}
{"id": "C59", "title": "Extracting labelled terms loses nothing", "statement": "For any predicate, keeping the terms with a label and dropping them partition the residual: the sum of the two parts is the original; relabelling never changes the value of the residual; replacing the subject evaluates every term at the new state.", "quantifier": "every list of terms, predicate, and state", "why_tests_cant": "unbounded", "anchors": ["gusto/core/labels.py", "firedrake.fml as used by gusto: LabelledForm.label_map, replace_subject, drop"]}
{"id": "C60", "title": "Equation linearisation", "statement": "linearise_equation_set replaces each term by its linearisation and drops the rest: the new residual is affine-free (linear in the prognostic) and equals the derivative at the reference state of the sum of the linearised terms.", "quantifier": "every list of terms with linearisations", "why_tests_cant": "unbounded", "anchors": ["gusto/equations/prognostic_equations.py: generate_linear_terms, linearise_equation_set"]}
{"id": "C61", "title": "Physics source terms are evaluated at their own scheme's source", "statement": "When physics parametrisations that work through an evaluated source field are advanced by a time discretisation, each source term contributes the source its own scheme computed from the current (stage) state; this holds for any number of physics schemes in one discretisation.", "quantifier": "every list of terms, any number of physics schemes, every source function, every explicit tableau", "why_tests_cant": "tests use one physics scheme with one formulation", "anchors": ["gusto/time_discretisation/explicit_runge_kutta.py: ExplicitRungeKutta.solve_stage/res", "gusto/time_discretisation/time_discretisation.py: BackwardEuler, ThetaMethod", "gusto/physics/physics_parametrisation.py: evaluate"]}
{"id": "C62", "title": "Implicit midpoint and Qin-Zhang preserve quadratic invariants", "statement": "One step of ImplicitMidpoint or QinZhang (whose stage equations are solved exactly) leaves unchanged every quadratic quantity <x,x> whose rate of change <x, f(x)> vanishes for the spatial operator, whatever the time step.", "quantifier": "every symmetric bilinear form, every nonlinear tendency orthogonal to the state, every state and dt", "why_tests_cant": "a test can only sample operators and states, and observes rounding", "anchors": ["gusto/time_discretisation/implicit_runge_kutta.py: ImplicitMidpoint, QinZhang, ImplicitRungeKutta.apply"]}
{"id": "C63", "title": "A killed run can be resumed", "statement": "If the process is killed at any moment after the first checkpoint has been written, running again with pick_up=True resumes from the last complete checkpoint and reproduces the uninterrupted run; so it does after any number of kills and resumptions.", "quantifier": "every sequence of crash points (each between any two changes of the files on disk) and resumptions, every output configuration, every scheme and number of levels", "why_tests_cant": "tests do not kill the process; the crash points are all interleavings of output and checkpoint writes", "anchors": ["gusto/core/io.py: IO.dump, IO.setup_dump, IO.pick_up_from_checkpoint", "gusto/timestepping/timestepper.py: BaseTimestepper.run"]}
{"id": "C64", "title": "Spin-up uses fully implicit steps exactly as long as requested", "statement": "With spinup_steps = n, SemiImplicitQuasiNewton uses off-centring 1 in the steps numbered 1..n and the requested alpha in every later step, also in a run picked up from a checkpoint with any step number.", "quantifier": "every spin-up length, starting step number and number of steps", "why_tests_cant": "two latching flags and a counter; tests run one configuration", "anchors": ["gusto/timestepping/semi_implicit_quasi_newton.py: start_spinup, finish_spinup, timestep"]}
{"id": "C65", "title": "TR-BDF2 quasi-Newton: stage equations and second order", "statement": "The coefficients of TRBDF2QuasiNewton are those of TR-BDF2 with intermediate time 2*gamma*dt and give second order for every gamma; stationary states solve the stage equations; every prognostic is advanced.", "quantifier": "every gamma, numbers of iterations, sets of transported fields and solver prognostics", "why_tests_cant": "order for all gamma and the fixed-point set cannot be sampled", "anchors": ["gusto/timestepping/tr_bdf2_quasi_newton.py: __init__, timestep, copy_active_tracers"]}
{"id": "C66", "title": "Slow physics is applied once per timestep", "statement": "A slow physics scheme contributes exactly the increment of its own step to the timestep of SemiImplicitQuasiNewton and TRBDF2QuasiNewton.", "quantifier": "every state, increment, gamma and number of iterations", "why_tests_cant": "tests compare with stored results", "anchors": ["gusto/timestepping/semi_implicit_quasi_newton.py: timestep", "gusto/timestepping/tr_bdf2_quasi_newton.py: timestep"]}
{"id": "C67", "title": "RIDC corrections converge to the reduced-stencil integral equations", "statement": "A node vector is left unchanged by a RIDC correction sweep if and only if it satisfies y_{m+1} = y_m + (integral of the interpolated right-hand side over the subinterval) for every m; the computed sweep solves the documented correction equation at every node; apply runs K sweeps and fails only if the stencil exceeds the nodes.", "quantifier": "every number of subintervals, corrections, quadrature tables, labelled right-hand sides, reduced or full stencil", "why_tests_cant": "tests observe convergence rates, not the fixed-point set", "anchors": ["gusto/time_discretisation/deferred_correction.py: RIDC.apply, compute_quad, compute_quad_final, res"]}
{"id": "C68", "title": "Every SDC sweep raises the formal order by one", "statement": "If the provisional node values approximate the collocation solution to order dt^p, the values after one SDC sweep approximate it to order dt^(p+1) (order measured by any filtration by powers of dt), for every Lipschitz right-hand side; maxk sweeps from a first-order guess give order maxk+1.", "quantifier": "every node set, QDelta matrices, Lipschitz right-hand sides, number of sweeps", "why_tests_cant": "order is a statement about all small dt", "anchors": ["gusto/time_discretisation/deferred_correction.py: SDC.apply"]}
{"id": "C69", "title": "Global extrema kernels return attained bounds", "statement": "MinKernel and MaxKernel return a value that is attained by the field and bounds every value of the field.", "quantifier": "every field with at least one degree of freedom", "why_tests_cant": "tests look at one field", "anchors": ["gusto/core/kernels.py: MinKernel, MaxKernel"]}
{"id": "C70", "title": "Rotated basis vectors", "statement": "rotated_lonlatr_vectors(xyz, new_pole) returns, at every point but the centre, a right-handed orthonormal basis whose third vector is radial; the components of a vector along it are the components of the rotated vector at the rotated position; the meridional vector points to the new pole.", "quantifier": "every position, vector and new pole", "why_tests_cant": "all positions and poles; the sign error is invisible when the pole is not moved", "anchors": ["gusto/core/coord_transforms.py: rotated_lonlatr_vectors", "gusto/diagnostics/diagnostics.py: MeridionalComponent, ZonalComponent, RadialComponent"]}
{"id": "C71", "title": "Saturation, latent heat and energy formulas", "statement": "e_sat is positive, equals w_sat4 at T_0 and increases with temperature, and r_sat increases with temperature; Lv has slope c_pv - c_pl; theta_e without water is theta; condensing vapour at constant volume and temperature changes internal_energy by the latent heat less R_v T per unit mass.", "quantifier": "every temperature above w_sat3, pressure above saturation, mixing ratios and admissible constants", "why_tests_cant": "continuous domain", "anchors": ["gusto/equations/thermodynamics.py: e_sat, r_sat, Lv, theta_e, internal_energy"]}
{"id": "C73", "title": "Latent heating conserves internal energy", "statement": "The rates of change of potential temperature, vapour and cloud produced by SaturationAdjustment with latent heat keep the internal energy density of the moist air (with the temperature-dependent latent heat) constant at fixed dry density.", "quantifier": "every state, every phase-change rate", "why_tests_cant": "continuous identity", "anchors": ["gusto/physics/microphysics.py: SaturationAdjustment", "gusto/physics/microphysics.py: EvaporationOfRain"]}
{"id": "C74", "title": "SourceSink adds its rate expression to the tendency", "statement": "With SourceSink(equation, name, rate) the named variable changes at the rate given by the expression and no other variable is affected.", "quantifier": "every state, rate, dt>0", "why_tests_cant": "the project's own test negates the expected sign", "anchors": ["gusto/physics/physics_parametrisation.py: SourceSink"]}
{"id": "C75", "title": "Held-Suarez forcing relaxes towards equilibrium", "statement": "The Held-Suarez relaxation rate is bounded between the atmospheric and the surface rates, the equilibrium potential temperature is the larger of the stratospheric and the tropospheric profile, and a forward-Euler step not longer than the shortest relaxation time moves theta strictly towards it without overshoot; Rayleigh friction acts only in the boundary layer, leaves the vertical wind alone and, for steps of at most a day, scales the horizontal wind by a factor between 0 and 1.", "quantifier": "every latitude, pressure, wind, temperature", "why_tests_cant": "continuous domain", "anchors": ["gusto/physics/held_suarez_forcing.py: Relaxation, RayleighFriction"]}
{"id": "C76", "title": "Rain falls with a positive, monotone speed", "statement": "The terminal fall speed computed by Fallout with a single moment is positive for every rain mixing ratio (zero and negative included), does not decrease with the mixing ratio and is constant below the threshold.", "quantifier": "every rain mixing ratio and density", "why_tests_cant": "continuous domain", "anchors": ["gusto/physics/microphysics.py: Fallout"]}
{"id": "C77", "title": "The REXI solve replaces the exponential by the rational approximation on every mode", "statement": "Rexi.solve applied to an oscillating mode of the linear operator returns the combination of the mode's two phases with the cosine and sine replaced by the even real part and odd imaginary part of the rational function defined by the coefficients; steady states are multiplied by its value at zero; reduce_to_half changes only the number of solves, not the result.", "quantifier": "every linear operator, timestep, mode, coefficient set with poles off the imaginary axis", "why_tests_cant": "continuous domain; the project's test compares one integrated example", "anchors": ["gusto/rexi/rexi.py: Rexi.solve", "gusto/rexi/rexi_coefficients.py: RexiCoefficients"]}
{"id": "C78", "title": "Equation sets contain one mass term per prognostic, one transport term per transported tracer and the no-normal-flow conditions", "statement": "The generated residual has exactly one mass term per prognostic, labelled with that prognostic and made of its own test function and unknown; tracer transport generation adds exactly one term per tracer whose transport type is not 'no transport', in order, of the declared kind, with the right density; velocity boundary conditions are one per boundary id (plus top and bottom on extruded meshes), none if there is no velocity.", "quantifier": "every list of prognostics and tracers, every set of boundary ids", "why_tests_cant": "lists unbounded", "anchors": ["gusto/equations/prognostic_equations.py: PrognosticEquationSet.generate_mass_terms, generate_tracer_transport_terms, generate_tracer_mass_terms, set_no_normal_flow_bcs"]}
{"id": "C79", "title": "Common forms are the documented operators", "statement": "Each transport form in the library of forms is the weak form of its documented operator: advective u.grad q, conservative div(qu), tracer-conservative div(q rho u), vector-invariant (u.grad)u, circulation and kinetic-energy parts summing to it; each linear form is the derivative of the nonlinear one about the reference; the diffusion form is coercive.", "quantifier": "every smooth state and velocity in every dimension", "why_tests_cant": "identities between differential operators", "anchors": ["gusto/equations/common_forms.py"]}
{"id": "C80", "title": "Mean mixing ratio limiting is non-negative and conservative", "statement": "With the MeanMixingRatio augmentation, after every transport step every named mixing ratio is non-negative, the mass of each mixing ratio in each cell is unchanged by the limiting, fields that are not named are untouched, cells without negative values are untouched, and linear relations between mixing ratios with the same density are preserved; a mixing ratio that is not conservatively transported is rejected with an error.", "quantifier": "every number of cells, fields and nodes, every state, every Runge-Kutta tableau, formulation and number of cycles", "why_tests_cant": "values and configurations are unbounded", "anchors": ["gusto/spatial_methods/augmentation.py: MeanMixingRatio", "gusto/spatial_methods/limiters.py: MeanLimiter", "gusto/time_discretisation/explicit_runge_kutta.py: ExplicitRungeKutta.solve_stage"]}
{"id": "C81", "title": "Augmented transport starts from the current state", "statement": "With the VorticityTransport augmentation every time step of every scheme that accepts it solves the augmented problem from the input velocity and the vorticity of that velocity, and returns the velocity part of the result; a limiter given to the scheme is still applied.", "quantifier": "every scheme, number of cycles and steps, velocity", "why_tests_cant": "history dependence across steps", "anchors": ["gusto/spatial_methods/augmentation.py: VorticityTransport, Augmentation", "gusto/time_discretisation/time_discretisation.py: wrapper_apply, ThetaMethod, BackwardEuler", "gusto/time_discretisation/explicit_runge_kutta.py: ExplicitRungeKutta.apply_cycle"]}
{"id": "C72", "title": "Hydrostatic initialisation returns balanced, converged profiles or raises", "statement": "compressible_hydrostatic_balance returns a density whose pressure gradient balances gravity for every vertical test function. unsaturated_ and saturated_hydrostatic_balance return fields that are in balance and reproduce the given profile (relative humidity, or wet-equivalent potential temperature) within the tolerance, and raise RuntimeError if this is not reached within the given number of iterations; if exner0 is passed it contains the Exner pressure of the returned fields.", "quantifier": "every profile, every thermodynamic relation and solver, every iteration limit", "why_tests_cant": "iteration counts and profiles are unbounded; convergence depends on data", "anchors": ["gusto/initialisation/hydrostatic_initialisation.py: compressible_hydrostatic_balance, saturated_hydrostatic_balance, unsaturated_hydrostatic_balance"]}
{"id": "C82", "title": "Setting up a time discretisation selects exactly the requested terms", "statement": "A time discretisation set up for one field (or for the whole equation, or for a list of fields) with a set of active labels solves for exactly the time derivative terms and the terms of its fields that carry one of the labels, each once, in the block of its field; the physics schemes it evaluates are exactly those with a term in that set, each once; an unknown field is refused; a field with a mass-weighted mass term is solved in mass-weighted form throughout or the set-up is refused if mass-weighted and other terms are mixed.", "quantifier": "every equation (any number of fields and terms), every choice of field(s) and active labels", "why_tests_cant": "lists of terms and label combinations are unbounded", "anchors": ["gusto/time_discretisation/time_discretisation.py: TimeDiscretisation.setup"]}
{"id": "C83", "title": "A spatial method changes exactly the terms of its variable and uses the timestepper's velocity", "statement": "Giving a timestepper a transport or diffusion method replaces the form of the transport (diffusion) term of that variable and nothing else, keeps the field and labels of the term, gives the same result whatever the order of methods for different variables, refuses ambiguous terms, and, once the timestepper has set its transporting velocity, the term (including the vector manifold correction, the form for all but the last stages and the mass-weighted form) is evaluated with that velocity.", "quantifier": "every equation, every list of methods, every velocity and operator", "why_tests_cant": "lists of terms unbounded; identities between operators", "anchors": ["gusto/spatial_methods/spatial_methods.py: SpatialMethod", "gusto/spatial_methods/transport_methods.py: TransportMethod.replace_form, vector_manifold_advection_form, vector_manifold_continuity_form", "gusto/timestepping/timestepper.py: setup_equation, setup_transporting_velocity"]}
{"id": "C84", "title": "Upwind transport forms conserve mass, keep constants and are consistent", "statement": "The continuity form (and the mass-weighted tracer form) integrated by parts once conserves the integral of the field for every field and wind, exactly, and any run of a multi-stage or multi-step scheme with it does; with outflow the only change is the upwind flux through the boundary. With exact quadrature and no flow through the boundary one and two integrations by parts agree and constants are not advected; continuous fields are advected by the exact operator; facet fluxes take the value on the side the wind comes from; constant mixing ratios are transported as the density. The one-dimensional forms agree with the general ones, and on facets that are horizontal or vertical the split horizontal and vertical forms add up to the full form.", "quantifier": "every mesh, quadrature, field, test function and wind; every dimension; any number of stages and steps", "why_tests_cant": "identities over all discrete functions and meshes", "anchors": ["gusto/spatial_methods/transport_methods.py: upwind_advection_form, upwind_continuity_form, upwind_tracer_conservative_form, split_upwind_advection_form, *_1d"]}
{"id": "C86", "title": "Interior penalty diffusion is symmetric, conservative, consistent and stable", "statement": "The interior penalty form is symmetric, does not change the integral of the field, leaves constants alone, reduces to the continuous form for continuous functions, is non-negative (so energy never grows) whenever the penalty satisfies the trace inequality of the mesh, and its one-dimensional version is the same form.", "quantifier": "every mesh, quadrature, field, coefficient and penalty", "why_tests_cant": "identities and inequalities over all discrete functions", "anchors": ["gusto/spatial_methods/diffusion_methods.py: interior_penalty_diffusion_form, interior_penalty_diffusion_form_1d, CGDiffusion"]}
{"id": "C87", "title": "The options of the upwind transport method have the requested effect", "statement": "Requesting a transport with the upwind method builds the form of the requested type with the requested integration by parts; outflow adds the outflow flux; advective-then-flux builds both forms; contradictory options are refused with an error.", "quantifier": "every combination of transport type, integration by parts, outflow and advective-then-flux, on one- and higher-dimensional meshes", "why_tests_cant": "the product of options, over all forms", "anchors": ["gusto/spatial_methods/transport_methods.py: DGUpwind.__init__"]}
{"id": "C88", "title": "Circulation transport does no work and is consistent", "statement": "The upwind circulation form vanishes when tested with the transporting wind, in two and three dimensions, so vector-invariant transport changes the kinetic energy only through its gradient term; one and two integrations by parts agree for exact quadrature; for continuous fields the form is the vorticity times the perpendicular wind; the upwind weights of a facet are between zero and one and add up to one; two integrations by parts in three dimensions are refused.", "quantifier": "every mesh, field, test function and wind in two and three dimensions", "why_tests_cant": "identities over all discrete functions", "anchors": ["gusto/spatial_methods/transport_methods.py: upwind_circulation_form, upwind_vector_invariant_form"]}
{"id": "C89", "title": "Upwind advection never increases energy", "statement": "With exact quadrature the rate of change of half the integral of q squared under upwind advection is minus half the jump dissipation, plus half the divergence and boundary terms: for divergence-free winds it is never positive, without flow through the boundary and also with outflow switched on.", "quantifier": "every mesh, field and wind", "why_tests_cant": "inequality over all discrete functions", "anchors": ["gusto/spatial_methods/transport_methods.py: upwind_advection_form"]}
{"id": "C85", "title": "The function spaces of a domain are the requested ones and form a complex", "statement": "After a compatible complex is built its spaces are returned under their names (with the suffix of the complex), no other name changes, building the same degrees again is refused, and default names of different degrees never clash on extruded meshes. The spaces of every supported family and degree form an exact sequence on each cell (by dimension), on triangles, quadrilaterals, intervals and extruded meshes. The continuity of each space is recorded. Degrees: exactly the documented combinations of arguments are accepted and have the requested effect, including the default quadrature degree. Adding a space under an existing name is refused unless overwriting is requested.", "quantifier": "every mesh kind, family, pair of degrees, container state and name", "why_tests_cant": "all degrees and all sequences of additions to the container", "anchors": ["gusto/core/function_spaces.py: Spaces, DeRhamComplex, h1_degree, check_degree_args", "gusto/core/domain.py: Domain.__init__"]}
{"id": "C90", "title": "Global statistics and the basic diagnostics report what they name", "statement": "The reported minimum/maximum of a field is attained and bounds every value, for every distribution over processes; rms, l2 and total satisfy rms^2*area = l2^2, vanish only for the zero field, and bound each other; registering a field keeps the others and makes no duplicate. Iterative diagnostics do not depend on old values, keep solutions, converge for contractions and give gamma the documented weight. X/Y/Z components are the Cartesian components on every domain that has them. The gradient diagnostic is the projection of the gradient. The tracer density is the cell mean of mixing ratio times density and has the tracer mass as its total.", "quantifier": "every field, distribution of values over processes, mesh, weight, number of iterations, domain type", "why_tests_cant": "all distributions and fields; the boundary terms matter only for domains the tests do not use", "anchors": ["gusto/diagnostics/diagnostics.py: Diagnostics, IterativeDiagnosticField, VectorComponent, Gradient, TracerDensity", "gusto/core/kernels.py: MinKernel, MaxKernel"]}
{"id": "C91", "title": "The Courant number bounds the time step of upwind transport and is the one logged", "statement": "The Courant number of a cell is dt/volume times the inflow, is non-negative, proportional to dt and (for the whole) at most the sum of its horizontal and vertical parts. If it is at most one in every cell, a forward Euler step of DG0 upwind advection keeps the bounds of the field, and the bound one is sharp; densities stay positive in non-divergent flow. Subcycling by Courant number keeps every sub-step below the target. Every Courant number that a run logs has been set up, for every list of user diagnostics.", "quantifier": "every mesh, velocity, field, time step, and list of diagnostics", "why_tests_cant": "all meshes and all fields", "anchors": ["gusto/diagnostics/diagnostics.py: CourantNumber", "gusto/core/io.py: setup_log_courant, log_courant", "gusto/spatial_methods/transport_methods.py: upwind_advection_form, upwind_continuity_form"]}
{"id": "C92", "title": "Diagnostics with a memory survive interruption and pick-up", "statement": "For every sequence of runs, time steps, lost processes and pick-ups, with any checkpoint frequency, the steady-state error that is output at a step is the state minus the state at the start of the run, and the cumulative sum is the sum of the states at all steps since the start, as if the simulation had never been interrupted.", "quantifier": "every history of runs, crashes and pick-ups, every checkpoint frequency", "why_tests_cant": "all interleavings of steps, crashes and restarts", "anchors": ["gusto/diagnostics/diagnostics.py: SteadyStateError, CumulativeSum, Perturbation", "gusto/core/io.py: setup_diagnostics, setup_dump, pick_up_from_checkpoint, dump"]}
{"id": "C93", "title": "Shallow-water diagnostics are the quantities they name", "statement": "Kinetic and potential energy are D|u|^2/2 and gD^2/2; the three enstrophies agree for one flow. For every velocity, the diagnosed relative vorticity has zero total, the absolute vorticity the total of f, and D times the potential vorticity the total of f; on domains without boundary the diagnosed vorticities are the projections of curl u, curl u + f, and they are unique. In a discontinuous space, through HCurl, a velocity in HCurl gives exactly curl u, curl u + f and (curl u + f)/D at every point, and the total vorticity is the circulation along the boundary. The vorticity is accepted with every documented method and space. PartitionedVapour and PartitionedCloud always sum to the total moisture, the vapour never exceeds the saturation value of the present state, cloud is never negative and appears only at saturation.", "quantifier": "every mesh, velocity, depth, Coriolis field, moisture and saturation value", "why_tests_cant": "holds for all flows and meshes; a test sees a handful of flows on the sphere", "anchors": ["gusto/diagnostics/shallow_water_diagnostics.py: ShallowWaterKineticEnergy, ShallowWaterPotentialEnergy, ShallowWaterPotentialEnstrophy, Vorticity, PartitionedVapour, PartitionedCloud", "gusto/equations/shallow_water_equations.py: compute_saturation"]}
{"id": "C94", "title": "Compressible diagnostics are the quantities they name and can be evaluated in any requested order", "statement": "Whatever order the user lists the diagnostics in, each is set up only after everything it reads exists. The mixing ratios are the sums over the water tracers of the right phase, and tracers of another kind are refused. The diagnosed potential temperature, temperature, pressure and humidity of moist air satisfy the defining relations. Dewpoint and wet-bulb temperature are solutions of saturation at the vapour content and of evaporation at constant internal energy, and equal the temperature of saturated air. The hydrostatic imbalance vanishes in balance. Precipitation is the mass per area that has left through the bottom during the run, also across checkpoints.", "quantifier": "every list of diagnostics, list of tracers, state, mesh, number of steps and checkpoint position", "why_tests_cant": "all orders, lists of tracers and states", "anchors": ["gusto/diagnostics/compressible_euler_diagnostics.py: RichardsonNumber, ThermodynamicDiagnostic, DewpointTemperature, WetBulbTemperature, HydrostaticImbalance, Precipitation, BruntVaisalaFrequencySquared", "gusto/core/io.py: setup_diagnostics, topo_sort"]}
{"id": "C95", "title": "The shallow-water equations are the documented equations, and their linear form is their derivative", "statement": "The residual built for ShallowWaterEquations, tested with velocities and scalars, is transport plus f u_perp + g grad(D + B) and div(D u), on the plane and on the sphere; f has the documented value for every rotation option. The Coriolis term does no work. The lake at rest over any topography is a steady state. LinearShallowWaterEquations is the derivative of the nonlinear equations at the reference state, and about a resting state of constant depth its energy is conserved exactly in space, by the trapezium rule in time, and is never increased by an off-centred theta method. Unsupported options are refused.", "quantifier": "every mesh and quadrature rule, state, test function, topography, rotation option, velocity form, reference state, timestep and theta", "why_tests_cant": "holds for all states, meshes and options; a test sees a few flows and checks one norm", "anchors": ["gusto/equations/shallow_water_equations.py: ShallowWaterEquations, LinearShallowWaterEquations, _setup_residual", "gusto/equations/common_forms.py: vector_invariant_form, advection_equation_circulation_form, kinetic_energy_form, continuity_form", "gusto/equations/prognostic_equations.py: generate_linear_terms, linearise_equation_set"]}
{"id": "C96", "title": "The thermal shallow-water equations reduce to the shallow-water equations for uniform buoyancy, and their linear form is their derivative", "statement": "With b = g everywhere the thermal equations act on u and D exactly as the shallow-water equations do, with and without topography; the lake at rest is steady. The linear thermal equations are the derivative of the thermal equations at the reference state, with terms linearised exactly if the linearisation map selects them. In the equivalent-buoyancy form the source is that of b = b_e - beta2 q_v with the vapour capped by saturation.", "quantifier": "every mesh, state, test function, topography, reference state and linearisation map", "why_tests_cant": "holds for all states, reference states and topographies", "anchors": ["gusto/equations/shallow_water_equations.py: ThermalShallowWaterEquations, LinearThermalShallowWaterEquations, compute_saturation"]}
{"id": "C97", "title": "The Boussinesq equations are the documented equations, and their linear form is their derivative and conserves energy", "statement": "The residual built for BoussinesqEquations is transport plus 2 Omega x u + grad p - b k, u.grad p + cs^2 div u and u.grad b in the compressible case, and in the incompressible case div u = 0 is enforced. The Coriolis term does no work. Fluid at rest in hydrostatic balance is a steady state. LinearBoussinesqEquations is the derivative of the nonlinear equations at the reference state, with terms linearised exactly if the linearisation map selects them; about a stratified state of rest the compressible linear equations conserve energy exactly in space, with the trapezium rule exactly in time, and an off-centred theta method never increases it. Unsupported options are refused.", "quantifier": "every mesh and quadrature rule, state, test function, rotation rate, velocity form, reference state, timestep and theta", "why_tests_cant": "holds for all states, meshes and options; a test sees a few flows and checks one norm", "anchors": ["gusto/equations/boussinesq_equations.py: BoussinesqEquations, LinearBoussinesqEquations", "gusto/equations/common_forms.py: vector_invariant_form, advection_equation_circulation_form, kinetic_energy_form, advection_form, linear_advection_form", "gusto/equations/prognostic_equations.py: generate_linear_terms, linearise_equation_set"]}
{"id": "C98", "title": "The default linear solvers cover every field once and solve the quasi-Newton system", "statement": "With no linear solver parameters given, the preset for an equation set puts every prognostic into exactly one block of its field splits, leaves exactly the fields that are not solver prognostics alone, and hands the hybridised solver the two fields it can treat. Relaxation parameters given by the user are the ones used, and alpha for the other prognostics; the user's dictionary is not changed. With exact sub-solves, eliminating buoyancy by the documented Schur complement and solving the auxiliary velocity-pressure problem gives the solution of the quasi-Newton system for the Boussinesq and thermal shallow-water equations.", "quantifier": "every list of tracers, prognostics and relaxation parameters; every block system, right-hand side, mesh, quadrature rule, timestep, alpha and reference state", "why_tests_cant": "iterative solvers with wrong preconditioners still converge, slowly, or stop with a small error, in tests; that the elimination is exact is a statement about all right-hand sides", "anchors": ["gusto/solvers/solver_presets.py: hybridised_solver_parameters", "gusto/solvers/preconditioners.py: AuxiliaryPC, SlateSchurPC", "gusto/timestepping/semi_implicit_quasi_newton.py: QuasiNewtonLinearSolver", "gusto/equations/boussinesq_equations.py: schur_complement_form", "gusto/equations/shallow_water_equations.py: schur_complement_form"]}
{"id": "C99", "title": "Vertical hybridisation solves the original system", "statement": "One application of the vertical hybridisation preconditioner, with exact cell-wise solves and an exact solve of the trace system, returns the solution of the original mixed system in the space with continuous normal component: the broken residual agrees with the given one on continuous test functions, the reconstruction solves the broken system with the multipliers on the right, and the average of the broken solution is that solution. Top and bottom boundaries are each in the trace system or have a trace condition.", "quantifier": "every mesh, cell-node map, mixed operator, trace form, right-hand side and set of boundary conditions", "why_tests_cant": "a statement about all operators and right-hand sides; tests see the balanced profile of one column setup after outer iterations that hide errors", "anchors": ["gusto/solvers/preconditioners.py: VerticalHybridizationPC", "gusto/recovery/recovery_kernels.py: AverageKernel, AverageWeightings"]}
{"id": "C100", "title": "Compressible Euler equations: documented form, balance, mass, moist and dry limits, linearisation, sponge", "statement": "The residual of the compressible Euler equations is the weak form of the documented equations: velocity in the chosen transport form, Coriolis, pressure gradient c_pd theta_vd grad(Pi) with the virtual dry potential temperature of all mixing ratios, gravity, conservative density and advective potential temperature, the moist correction of the thermodynamic equation and the sponge. The Coriolis force does no work; an atmosphere at rest in (moist) hydrostatic balance has zero tendency; total dry mass is conserved; with all mixing ratios zero the equations are the dry ones; the linearisation is the derivative of the residual at the reference state; the sponge damps vertical velocity only above its level and removes energy. Invalid options are refused.", "quantifier": "every mesh, quadrature rule, state, test function, reference state, list of tracers, thermodynamic constants and sponge parameters", "why_tests_cant": "derivative, balance and conservation are identities in all states and test functions; tests run a few bubbles and compare with stored results of the same code", "anchors": ["gusto/equations/compressible_euler_equations.py: CompressibleEulerEquations", "gusto/equations/common_forms.py", "gusto/equations/prognostic_equations.py: generate_linear_terms"]}
{"id": "C101", "title": "Hydrostatic compressible equations: no vertical acceleration and vertical balance", "statement": "The hydrostatic compressible equations are the compressible Euler equations without time derivative of the vertical velocity: only the horizontal part of velocity has a time derivative, vertical test functions see none, and the rest of the residual is that of the compressible equations plus the documented hydrostatic term. In the semi-implicit scheme the forcing consists of pressure gradient, gravity, moist term and Coriolis force, and the problem for it has a solution.", "quantifier": "every mesh, unit vertical, state, test function, reference state, list of tracers, alpha and timestep", "why_tests_cant": "the missing solvability and the spurious balance are exact statements for all states; the one test compares a gravity wave with stored results of the same code", "anchors": ["gusto/equations/compressible_euler_equations.py: HydrostaticCompressibleEulerEquations", "gusto/timestepping/semi_implicit_quasi_newton.py: Forcing"]}
{"id": "C102", "title": "The hybridised compressible preconditioner solves the quasi-Newton system", "statement": "The default solver of the compressible Euler equations applies its hybridised preconditioner once. With exact sub-solves the increments it returns satisfy the quasi-Newton system of velocity, density and potential temperature for every test function, and the velocity increment has a continuous normal component and no flow through the boundary, provided the reference state is at rest, continuous, uniform along the layers and dry.", "quantifier": "every mesh, right-hand side, timestep, relaxation parameters, sponge, rotation, test function and reference state of that kind; for other reference states the residual that is left over", "why_tests_cant": "a statement about all right-hand sides and reference states; the outer iterations of the time stepper hide the error of the linear solve in tests", "anchors": ["gusto/solvers/preconditioners.py: CompressibleHybridisedSCPC", "gusto/solvers/solver_presets.py: hybridised_solver_parameters", "gusto/timestepping/semi_implicit_quasi_newton.py: QuasiNewtonLinearSolver"]}
{"id": "C103", "title": "The model classes transport every prognostic variable exactly once", "statement": "Setting up one of the ready-made semi-implicit models for an equation set gives a stepper in which every transported prognostic variable has exactly one transport scheme and exactly one spatial method, every field with diffusion parameters has exactly one diffusion scheme and method, and the setup succeeds for the equation sets whose spaces the class names.", "quantifier": "both model classes, every mesh geometry, prognostic field list with spaces, set of active tracers, diffusion choice and metric flag", "why_tests_cant": "a statement about all field lists: tests set up two or three equation sets; a field left out is silently held fixed", "anchors": ["gusto/model/model.py: SIQNModel, LowestOrderSIQNModel, ModelBase", "gusto/recovery/recovery_options.py: RecoverySpaces", "gusto/timestepping/semi_implicit_quasi_newton.py: SemiImplicitQuasiNewton"]}
{"id": "C104", "title": "The one-dimensional shallow-water equations are the documented equations, conserve mass and, linearised, energy", "statement": "The residual of the one-dimensional shallow-water equations is the weak form of the documented equations: exact solutions make it vanish, geostrophically balanced states and fluid at rest are steady, the spatial methods do not change it for continuous fields, the total mass is conserved with the upwind method, the linear equations are the derivative at the reference state and conserve energy.", "quantifier": "every interval or periodic mesh, polynomial degree, state, rate of change, test function, parameter, diffusion list and reference state", "why_tests_cant": "statements about all fields and test functions; the class has one example run and no unit test", "anchors": ["gusto/equations/shallow_water_equations.py: ShallowWaterEquations_1d, LinearShallowWaterEquations_1d", "gusto/equations/common_forms.py: advection_form_1d, continuity_form_1d, diffusion_form_1d, linear_continuity_form", "gusto/spatial_methods/transport_methods.py: upwind_advection_form_1d, upwind_continuity_form_1d", "gusto/spatial_methods/diffusion_methods.py: interior_penalty_diffusion_form_1d, CGDiffusion"]}
{"id": "C105", "title": "A tabulated integral is accurate between its bounds", "statement": "After tabulating an integrand, evaluating the tabulated integral at a point returns the integral from the lower bound to that point: exactly at the points of tabulation for cubic integrands, to fourth order plus the second-order error of linear interpolation for smooth ones, linearly in the integrand and increasing for non-negative integrands; evaluating before tabulating is an error.", "quantifier": "every pair of bounds, number of points, integrand and point", "why_tests_cant": "an accuracy statement for all integrands and points; the unit test checks two integrands at a few points", "anchors": ["gusto/initialisation/numerical_integrator.py: NumericalIntegral"]}
{"id": "C106", "title": "Boussinesq hydrostatic balance returns the balanced pressure", "statement": "The pressure computed from a buoyancy leaves no vertical momentum residual for any vertical test function that satisfies the boundary condition, is uniquely determined on every column, and is the best approximation in the pressure space of the exact hydrostatic pressure that vanishes at the other end of the column; an exact pressure in the space is reproduced.", "quantifier": "every mesh and pair of spaces with injective divergence; every column, polynomial degree, buoyancy and choice of boundary", "why_tests_cant": "a statement about all buoyancies, columns and degrees; the tests integrate a few steps of one balanced state", "anchors": ["gusto/initialisation/hydrostatic_initialisation.py: boussinesq_hydrostatic_balance"]}
{"id": "C107", "title": "Icosahedral mesh is a triangulated sphere", "statement": "For every positive radius and number of subdivisions the mesh is built without error; it has 20n^2 triangles and 10n^2+2 pairwise different points, all on the sphere of the given radius; every edge belongs to exactly two triangles, twelve points lie in five triangles and the others in six; the cones over the triangles cover every direction and meet only in common faces; before being pushed out the triangles are equilateral; higher-degree nodes lie on the sphere; a degree or number of subdivisions below one is rejected.", "quantifier": "every radius, every number of subdivisions per edge and every coordinate degree", "why_tests_cant": "a statement about all subdivisions; tests build one or two small meshes and never check the connectivity", "anchors": ["gusto/core/meshes.py: GeneralIcosahedralSphereMesh"]}
{"id": "C108", "title": "Cubed-sphere mesh is a sphere made of quadrilaterals", "statement": "For every positive radius and number n of cells per panel edge the mesh is built without error; it has 6n^2 cells and 6n^2+2 pairwise different points, all on the sphere of the given radius; the numbering of panel edges is consistent, so every side belongs to exactly two cells, which run through it in opposite directions; cells are convex and oriented counter-clockwise seen from outside; their cones cover every direction and meet only in the cone over common corners; rows and columns of a panel are equally spaced in angle; higher-degree nodes lie on the sphere; a number of cells that is not a positive integer or a degree below one is rejected.", "quantifier": "every radius, every number of cells per panel edge and every coordinate degree", "why_tests_cant": "a statement about all resolutions; tests build one or two meshes and never check the connectivity", "anchors": ["gusto/core/meshes.py: _cubedsphere_cells_and_coords, GeneralCubedSphereMesh"]}
{"id": "C109", "title": "Flat longitude-latitude mesh used for plotting keeps cells together", "statement": "Every node of the flat mesh stands for the node in the same place of the same cell of the spherical mesh: its longitude, latitude and height give that point back; heights are not negative and zero at the lowest node; the nodes of a cell that lies within a wedge of less than half a turn around the axis, including one across the branch cut of the longitude, have longitudes that differ by no more than the angle of the wedge; all ranks measure heights from the same radius.", "quantifier": "every spherical mesh, every cell, every partition over ranks", "why_tests_cant": "the branch cut and the poles are met by a few cells of a large mesh, and the choice of the radius depends on the partition; tests do not look at the flat mesh", "anchors": ["gusto/core/meshes.py: get_flat_latlon_mesh"]}
{"id": "C110", "title": "Domain: type, coordinates, heights and extents of the mesh", "statement": "A domain recognises the shape of its mesh: interval, plane, sphere, vertical slice, extruded plane and extruded sphere get their type and the names of their coordinates, the last one vertical exactly for extruded meshes; other shapes are rejected. The vertical coordinate is the last Cartesian one, or the distance from the centre on a sphere; the height above the surface is not negative, zero at the bottom of every column and differs from the height by a constant in a column; the extents among the metadata are those of all nodes, however these are distributed over ranks.", "quantifier": "every mesh, every set of nodes and every partition over ranks", "why_tests_cant": "tests use a handful of meshes, mostly on one rank, and the result depends on the partition", "anchors": ["gusto/core/domain.py: Domain.__init__, Domain.set_height_above_surface, construct_domain_metadata", "gusto/core/coordinates.py: Coordinates.__init__"]}
{"id": "C111", "title": "Every time discretisation conserves what the equation conserves", "statement": "If the right-hand side of the equation has total zero at every state, for some linear total (for instance the integral of a density), then a time step of any of the time discretisations leaves that total unchanged: forward and backward Euler, theta, trapezium, TR-BDF2, explicit Runge-Kutta in all formulations with any tableau, subcycling and total-preserving limiter, implicit and IMEX Runge-Kutta, BDF2, Leapfrog, Adams-Bashforth and Adams-Moulton including start-up, SDC and RIDC; and a split timestepper keeps every quantity that all of its schemes keep, over any number of steps.", "quantifier": "every equation, linear total, state, timestep, tableau, number of stages, subcycles, sweeps and steps", "why_tests_cant": "tests check mass to a tolerance for a few schemes and one flow", "anchors": ["gusto/time_discretisation/*.py: apply", "gusto/timestepping/split_timestepper.py: SplitTimestepper.timestep"]}
{"id": "C112", "title": "Steady states stay steady", "statement": "If the right-hand side of the equation vanishes at a state, a time step of any of the time discretisations (one-step schemes, TR-BDF2, explicit, implicit and IMEX Runge-Kutta, multi-level schemes, SDC, RIDC) returns exactly that state, so a run started from it stays there.", "quantifier": "every equation, steady state, timestep, tableau, number of stages, subcycles, sweeps and steps", "why_tests_cant": "tests start from a few balanced states and compare with a tolerance", "anchors": ["gusto/time_discretisation/*.py: apply", "gusto/time_discretisation/imex_runge_kutta.py: IMEX_Trap2", "gusto/timestepping/split_timestepper.py: SplitTimestepper.timestep"]}
{"id": "C113", "title": "The transport and diffusion equations are the documented ones", "statement": "AdvectionEquation, ContinuityEquation, DiffusionEquation and AdvectionDiffusionEquation make a residual that holds in weak form exactly if the field satisfies the documented equation (dq/dt + (u.grad)q = 0, dq/dt + div(u q) = 0, dq/dt = div(kappa grad q), and their combination), for scalar and vector fields, scalar and tensor diffusivities; CoupledTransportEquation does so for every tracer.  Every term carries the labels of its kind and of the field.  The velocity is in the space Vu if it is given, otherwise in the space HDiv set up by the domain.", "quantifier": "every field, time derivative, velocity, diffusivity, list of tracers and history of constructions on one domain", "why_tests_cant": "tests transport a few fields, with equal components in the vector tests, and make one equation per domain", "anchors": ["gusto/equations/transport_equations.py: AdvectionEquation, ContinuityEquation, CoupledTransportEquation", "gusto/equations/diffusion_equations.py: DiffusionEquation", "gusto/equations/advection_diffusion_equations.py: AdvectionDiffusionEquation", "gusto/equations/common_forms.py: advection_form, continuity_form, diffusion_form"]}
{"id": "C114", "title": "The log holds every record of its level exactly once", "statement": "With documented settings of the levels gusto can be imported on every rank, and after any history of log records, unhandled exceptions and simulations that move the log into their results directory: rank 0 (with GUSTO_PARALLEL_LOG=CONSOLE or BOTH every rank) has printed exactly the records that reach the console level, in order; rank 0 (with FILE or BOTH every rank) has one log file, in the results directory, with exactly the records that reach the logfile level, in order; no two ranks write the same file, all ranks enter the same barriers, and every unhandled exception is reported.", "quantifier": "every environment, rank and history of records, exceptions, moves and calls of set_log_handler", "why_tests_cant": "tests run on one rank with the default environment and one simulation per process", "anchors": ["gusto/core/logging.py: set_log_handler, update_logfile_location, capture_exceptions, create_logfile_handler, create_console_handler", "gusto/__init__.py", "gusto/core/io.py: IO.setup_dump, pick_up_mesh"]}
{"id": "C115", "title": "The SSPRK schemes are strong-stability preserving", "statement": "ForwardEuler, Heun and every SSPRK scheme that can be requested (SSPRK2 with 2, 3, 4 stages, SSPRK3 with 3, 4, 5 stages, SSPRK4 with 5 stages), without a limiter: if a convex set of states (bounds on the values, a ball of a norm, a bound on the total variation) is not left by a forward Euler step of length dt/r, with r the coefficient 1, 2, 3, 1, 2, 2.65, 1.508 of the literature, then apply does not leave it, with any number of subcycles of length dt. In particular a DG0 field transported with the upwind form keeps its bounds when the reported Courant number is at most r, or, for every dt, with subcycle_by_courant <= r and no cap.", "quantifier": "every nonlinear equation, convex set, state, dt, number of subcycles; every mesh and wind", "why_tests_cant": "a statement about all right-hand sides and all convex sets; tests compare one transport test with an analytic solution", "anchors": ["gusto/time_discretisation/explicit_runge_kutta.py: SSPRK2, SSPRK3, SSPRK4, Heun, ForwardEuler, ExplicitRungeKutta.apply", "gusto/time_discretisation/time_discretisation.py: ExplicitTimeDiscretisation.apply, update_subcycling"]}
{"id": "C116", "title": "Energy stability of the time discretisations", "statement": "For an equation that does not increase a quadratic energy (upwind transport of a DG field by a divergence-free wind and interior penalty diffusion are such equations, for the L2 norm): BackwardEuler never increases it, for any dt and also for nonlinear equations; ThetaMethod with theta >= 1/2, TrapeziumRule and TR_BDF2 with any accepted gamma > 0 never increase it for linear equations, and TrapeziumRule keeps the energy of a linear equation that keeps it exactly; a BDF2 run of any length stays below twice the initial energy; explicit schemes change the energy of waves by known amounts, so SSPRK3 and RK4 are stable up to dt^2 lambda = 3 and 8 and ForwardEuler and Heun never are. Leapfrog keeps B(x_{n+1}, x_n).", "quantifier": "every equation, quadratic energy, state, dt > 0, number of steps, theta, gamma", "why_tests_cant": "unconditional stability is a statement about all timesteps, all run lengths and all operators; tests run a few steps of one problem", "anchors": ["gusto/time_discretisation/time_discretisation.py: BackwardEuler, ThetaMethod, TrapeziumRule, TR_BDF2", "gusto/time_discretisation/multi_level_schemes.py: BDF2, Leapfrog", "gusto/time_discretisation/explicit_runge_kutta.py: ForwardEuler, Heun, SSPRK3, RK4", "gusto/spatial_methods/transport_methods.py: upwind_advection_form", "gusto/spatial_methods/diffusion_methods.py: interior_penalty_diffusion_form"]}
{"id": "C117", "title": "Reference profiles: set, checkpointed and picked up", "statement": "set_reference_profiles with any list of (name, Function) pairs, called any number of times: afterwards the profile of every name is the last one given, X_ref has the same value for the prognostic variables and is unchanged otherwise, no other field changes, every profile is a field of type reference that is picked up and not added to the output. A profile that exists already may be given as an expression; a call that raises changes nothing. Writing a checkpoint and picking it up in a newly built model brings every profile back, in the fields and in X_ref.", "quantifier": "every list of profiles with repetitions, every earlier history of calls, every set of fields, names that are or are not prognostic", "why_tests_cant": "the order and repetition of calls and the set of fields are unbounded; tests set each profile once, as a Function, before the run", "anchors": ["gusto/timestepping/timestepper.py: BaseTimestepper.set_reference_profiles, run", "gusto/core/io.py: IO.dump, IO.pick_up_from_checkpoint", "gusto/core/fields.py: Fields.__iter__, StateFields.__call__", "gusto/timestepping/semi_implicit_quasi_newton.py: update_reference_profiles"]}
{"id": "C118", "title": "The quasi-Newton timesteppers conserve mass without being converged", "statement": "A timestep, and a run of any length, of SemiImplicitQuasiNewton or TRBDF2QuasiNewton keeps the total of every field other than the wind to which transport, physics, forcing and boundary conditions make no net contribution, whatever the numbers of outer and inner iterations, with or without the accelerator, for every off-centring and every gamma, and (with at least one outer and one inner iteration) whatever the initial guess; the linear solve passes on the total of its right-hand side when the linearised terms of that field are fluxes. Fast and final physics with sources change the total by exactly what their last evaluation adds.", "quantifier": "all iteration counts, all states, all numbers of steps, all transport and physics schemes that conserve, all solver fields and tracers", "why_tests_cant": "conservation of an unconverged iteration must hold for every count, scheme and state; a test runs the default 2x2 iterations from one state and checks a tolerance", "anchors": ["gusto/timestepping/semi_implicit_quasi_newton.py: SemiImplicitQuasiNewton.timestep, QuasiNewtonLinearSolver", "gusto/timestepping/tr_bdf2_quasi_newton.py: TRBDF2QuasiNewton.timestep"]}
{"id": "C119", "title": "Energy of linear waves under the semi-implicit timestepper", "statement": "For linear wave equations with rotation (linear shallow water) a converged timestep of SemiImplicitQuasiNewton changes the energy by exactly -(2 alpha - 1)|D'-D|^2 - (2 alpha_u - 1)|u'-u|^2 - 2 dt (alpha - alpha_u)<u, f perp u'>: it is kept with the default alpha = 1/2, never grows for alpha >= 1/2, and stays only if the state does for alpha = alpha_u > 1/2. Without rotation it grows for alpha < 1/2 when the depth changes, and with alpha > 1/2 and the default centred transporting velocity only motions that change the depth are damped. If alpha_u = alpha the default accelerated iteration reaches the solution in the first outer iteration from any guess, so a whole run keeps the energy with any numbers of iterations.", "quantifier": "every timestep, every pair of adjoint gradient and divergence, every skew Coriolis term, every initial guess, all numbers of iterations and steps", "why_tests_cant": "unconditional stability and exact energy balance are statements about every timestep and every state; tests run one grid and one timestep", "anchors": ["gusto/timestepping/semi_implicit_quasi_newton.py: SemiImplicitQuasiNewton.timestep, Forcing, QuasiNewtonLinearSolver"]}
{"id": "C120", "title": "The constructors of the quasi-Newton timesteppers, and every term acts exactly once", "statement": "SemiImplicitQuasiNewton accepts a model exactly when its solver prognostics are fields of the equation, every transport scheme is single-level and names fields that have a transport method, every diffusion scheme likewise, every physics scheme is single-level and explicit where the parametrisation demands it, and the metric term has theta and z with z transported first; TRBDF2QuasiNewton in addition rejects simultaneous transport and any fast physics. Solver and non-solver prognostics share out the fields. In an accepted model every term of the equation acts exactly once in a timestep: forcing, transport, diffusion and physics add up to the right-hand side. The same for the split physics timesteppers.", "quantifier": "every equation, every residual, every list of schemes, methods and parametrisations", "why_tests_cant": "the combinations of equations, schemes, methods and parametrisations are unbounded; tests build a handful of complete models", "anchors": ["gusto/timestepping/semi_implicit_quasi_newton.py: SemiImplicitQuasiNewton.__init__, setup_scheme, Forcing.__init__", "gusto/timestepping/tr_bdf2_quasi_newton.py: TRBDF2QuasiNewton.__init__, setup_scheme", "gusto/timestepping/split_timestepper.py: SplitPhysicsTimestepper.setup_scheme", "gusto/physics/physics_parametrisation.py: PhysicsParametrisation.__init__, SourceSink"]}
{"id": "C121", "title": "Boundary layer mixing", "statement": "BoundaryLayerMixing has a diffusivity that is never negative, continuous in the pressure and not growing with height; it acts as a vertical diffusion: it mixes a field between the layers of a column, leaves uniform fields and fields without vertical variation unchanged, keeps the density-weighted total, decreases the variance, and for the wind acts on the horizontal wind only. It is accepted exactly for fields of compressible equations.", "quantifier": "every mesh with upright columns, every field, wind, density and test function, all parameters", "why_tests_cant": "a test runs one profile for a few steps; the claims are about every field, wind and mesh", "anchors": ["gusto/physics/boundary_and_turbulence.py: BoundaryLayerMixing", "gusto/core/equation_configuration.py: BoundaryLayerParameters"]}
{"id": "C122", "title": "Convergence of the one-step time discretisations", "statement": "Refining the timestep makes the computed solution converge to the solution of the equation, at the order each scheme's name promises: ForwardEuler, BackwardEuler and ThetaMethod at first order; Heun, SSPRK2 (2, 3, 4 stages), TrapeziumRule and TR_BDF2 at second; SSPRK3 (3, 4, 5 stages) at third; SSPRK4 and RK4 at fourth, in every formulation and with any number of subcycles.", "quantifier": "every equation (linear or nonlinear) with a smooth right-hand side that is Lipschitz on bounded sets, every exact solution and final time, every small enough timestep, every number of timesteps and subcycles, every state of the work arrays, every solver that finds the root near the state", "why_tests_cant": "convergence tests run three resolutions of one linear advection problem and allow a tolerance on the slope; a bound for every equation and timestep needs a proof, and an error floor of 1e-10 is below what a test can see", "anchors": ["gusto/time_discretisation/explicit_runge_kutta.py: ExplicitRungeKutta, ForwardEuler, SSPRK2, SSPRK3, SSPRK4, RK4, Heun", "gusto/time_discretisation/time_discretisation.py: BackwardEuler, ThetaMethod, TrapeziumRule, TR_BDF2"]}
{"id": "C123", "title": "Convergence of the multi-level time discretisations", "statement": "A run of a multi-level scheme from one initial condition (the scheme starts itself) converges to the solution of the equation as the timestep is refined: BDF2 and Leapfrog at second order, AdamsBashforth and AdamsMoulton at least at the order they are created with (1 to 5, 1 to 4).", "quantifier": "every equation with a smooth right-hand side that is Lipschitz on bounded sets, every exact solution and final time, every small enough timestep, every number of timesteps, whatever the older time levels contain at the start, every solver that finds the root near the state", "why_tests_cant": "convergence tests look at three resolutions of one problem; the order of a multi-step scheme in a run depends on its start-up steps and on every coefficient, and must hold for all equations and times", "anchors": ["gusto/time_discretisation/multi_level_schemes.py: BDF2, Leapfrog, AdamsBashforth, AdamsMoulton", "gusto/core/fields.py: TimeLevelFields", "gusto/timestepping/timestepper.py: Timestepper.timestep"]}
{"id": "C124", "title": "Convergence of the implicit and IMEX Runge-Kutta schemes", "statement": "Refining the timestep makes the solution computed with ImplicitMidpoint, QinZhang (in both formulations) and the IMEX schemes converge to the solution of the equation at the order of their names: IMEX_Euler at first order; ImplicitMidpoint, QinZhang, IMEX_ARK2, IMEX_SSP3 and IMEX_Trap2 at second; IMEX_ARS3 at third, however the terms of the equation are split into implicit and explicit ones, also with a physics scheme evaluated as a source.", "quantifier": "every equation (linear or nonlinear) whose parts have smooth Lipschitz right-hand sides, every splitting by labels, every exact solution and final time, every timestep small enough for the implicit stage equations to be solvable, every number of timesteps, every state of the work arrays", "why_tests_cant": "tests run one split and one resolution; the coupling conditions between the two tables only show up for splittings in which both parts act, and a bound for every equation and timestep needs a proof", "anchors": ["gusto/time_discretisation/implicit_runge_kutta.py: ImplicitRungeKutta, ImplicitMidpoint, QinZhang", "gusto/time_discretisation/imex_runge_kutta.py: IMEXRungeKutta, IMEX_Euler, IMEX_ARS3, IMEX_ARK2, IMEX_SSP3, IMEX_Trap2"]}
{"id": "C125", "title": "Convergence of operator-split timestepping", "statement": "Refining the timestep makes the solution computed with SplitTimestepper converge to the solution of the whole equation: at first order for any list of labels and non-negative weights that the constructor accepts, with stable first-order schemes; at second order when the list of labels and weights reads the same in both directions (Strang splitting is the shortest case) and the schemes are of second order. SplitPhysicsTimestepper and SplitPrescribedTransport converge at first order to the dynamics together with all the physics.", "quantifier": "every list of labels and weights, every equation whose parts have Lipschitz (smooth, for second order) tendencies, every exact solution and final time, every small enough timestep, every number of timesteps, every choice of schemes of the required order", "why_tests_cant": "tests run one splitting at one resolution; the order of a splitting is a statement about all timesteps, and a label list that converges to the wrong equation looks plausible in a single run", "anchors": ["gusto/timestepping/split_timestepper.py: SplitTimestepper.__init__, SplitTimestepper.timestep, SplitPhysicsTimestepper.timestep, SplitPrescribedTransport.timestep"]}
{"id": "C126", "title": "Convergence of spectral deferred correction", "statement": "Refining the timestep makes the solution computed with SDC converge to the solution of the equation, implicit, explicit and physics terms together, and every sweep gains an order until the order of the quadrature is reached: with k sweeps from an initial guess of local order r the error is of the order min(r+k-1, p) without, and min(r+k, p+1, s) with the final update, where the matrix is exact to degree p-1 and the weights to degree s-1.", "quantifier": "every equation with an invertible mass operator and Lipschitz implicit and explicit tendencies whose sum is smooth, every exact solution and final time, every choice of nodes, formulation, correction matrices, initial guess and number of sweeps, every small enough timestep, every number of timesteps of one scheme object", "why_tests_cant": "the order of a scheme is a statement about all timesteps; tests compare one error at one resolution with a stored value, and cannot see that a quad_type does not converge without the final update", "anchors": ["gusto/time_discretisation/deferred_correction.py: SDC.__init__, SDC.setup, SDC.res, SDC.compute_quad, SDC.compute_quad_final, SDC.apply"]}
{"id": "C127", "title": "Convergence of revisionist integral deferred correction", "statement": "Refining the timestep makes the solution computed with RIDC converge to the solution of the equation, and every correction gains an order: with K corrections of a first-order base scheme the error is of the order K+1, with reduced and with full stencils; no step raises an error when the number of subintervals is at least K.", "quantifier": "every equation with an invertible mass operator and Lipschitz implicit and explicit tendencies whose sum is smooth, every exact solution and final time, every number of subintervals and corrections, both kinds of stencils, every small enough timestep, every number of timesteps", "why_tests_cant": "the order of a scheme is a statement about all timesteps; tests compare one error at one resolution", "anchors": ["gusto/time_discretisation/deferred_correction.py: RIDC.__init__, RIDC.setup, RIDC.res, RIDC.compute_quad, RIDC.compute_quad_final, RIDC.apply"]}
{"id": "C128", "title": "The recovery operator, from constructor to recovered field", "statement": "Recoverer accepts exactly the documented combinations of source, target, method and boundary method; every call of project puts in the output the field obtained by going to the broken space, averaging and correcting the boundary, whatever the output held and however often it was called, without changing the source; with the Taylor method the components of a vector field are recovered independently, and an affine vector field is reproduced up to the boundary.", "quantifier": "every source, target space, method and boundary method; every state of the recoverer and every sequence of calls; every non-periodic mesh and affine vector field", "why_tests_cant": "the combinations of spaces and options are not enumerated by the tests, and the accuracy at the boundary is a statement about all meshes and fields", "anchors": ["gusto/recovery/recovery.py: BoundaryRecoverer.__init__, BoundaryRecoverer.apply, Recoverer.__init__, Recoverer.project, find_eff_coords, correct_eff_coords", "gusto/recovery/recovery_kernels.py: BoundaryRecoveryExtruded.__init__, BoundaryRecoveryHCurl.__init__"]}
{"id": "C129", "title": "The semi-implicit quasi-Newton timestepper converges to the equation made of all its parts", "statement": "On any time interval on which the continuous equation has a solution, the states of SemiImplicitQuasiNewton approach it as the timestep goes to zero: with the first order for any off-centring, any numbers of outer and inner iterations, any solver prognostics and any physics schemes of the first order; with the second order for centred weights, two or more outer iterations and transport schemes of the second order. The equation is the sum of the forcing, the always implicit terms, the transport by the model's own wind, and all the physics tendencies. The tendencies only have to be Lipschitz continuous on bounded sets, as advection is.", "quantifier": "every set of fields, forcing, transport and physics tendency, every linear solver that solves the assembled system, every solution and interval, every small timestep and every number of steps", "why_tests_cant": "a rate of convergence is a statement about all timesteps going to zero and all solutions; tests compare a few runs", "anchors": ["gusto/timestepping/semi_implicit_quasi_newton.py: SemiImplicitQuasiNewton.timestep, transport_fields, copy_active_tracers, transporting_velocity, run, Forcing.__init__, Forcing.apply, QuasiNewtonLinearSolver.__init__"]}
{"id": "C130", "title": "The TR-BDF2 quasi-Newton timestepper converges to the solution of its equation", "statement": "On any time interval on which the continuous equation has a solution, the states of TRBDF2QuasiNewton approach it as the timestep goes to zero: with the first order for every gamma in (0, 1/2], any numbers of iterations and any transport and physics schemes of the first order; with the second order, for which the method is named, with two or more outer iterations of each stage, no physics, and transport schemes of the second order. The equation is the sum of the forcing, the always implicit terms, the transport by the model's own wind and the physics tendencies.", "quantifier": "every set of fields, forcing, transport operator homogeneous in the velocity, physics tendency, every linear solver that solves the assembled system, every gamma in (0, 1/2], iteration counts, every solution and interval, every small timestep and every number of steps", "why_tests_cant": "a rate of convergence is a statement about all timesteps going to zero and all solutions; tests compare a few runs", "anchors": ["gusto/timestepping/tr_bdf2_quasi_newton.py: TRBDF2QuasiNewton.__init__, timestep, update_transporting_velocity, transport_fields, copy_active_tracers, run", "gusto/timestepping/semi_implicit_quasi_newton.py: Forcing.__init__, Forcing.apply, QuasiNewtonLinearSolver.__init__"]}
{"id": "C131", "title": "Dumped diagnostics agree with the dumped state", "statement": "In every dump the field of each requested diagnostic is that diagnostic evaluated on the fields of the same dump, including other diagnostics; other fields are left alone. The result does not depend on the order in which the user lists the diagnostics or on what their fields held before, and this holds for every dump of every call of run in the life of a process.", "quantifier": "every set of diagnostics with acyclic requirements, every listing order, every state, every sequence of runs, steps and dumps", "why_tests_cant": "tests evaluate single diagnostics or one list in one order in one run", "anchors": ["gusto/core/io.py: IO.setup_diagnostics, IO.dump, topo_sort", "gusto/diagnostics/diagnostics.py: DiagnosticField.setup, DiagnosticField.compute", "gusto/core/fields.py: StateFields.__call__"]}
{"id": "C132", "title": "The life of a diagnostic field", "statement": "A diagnostic can be constructed with exactly the documented methods and other methods are reported by an assertion that names them. Setting it up succeeds exactly if its space has a name and there is something to evaluate; it is done once, however often setup is called; the space is the one of the constructor, else of setup, else the DG0 space of the domain, which all diagnostics share; spaces and fields that exist are not changed, the field is dumped only if asked for, and is never picked up. After setup it can be computed.", "quantifier": "every diagnostic, domain, set of fields, and sequence of setups of diagnostics", "why_tests_cant": "interactions of many diagnostics with shared spaces and fields are histories; tests set up one or two", "anchors": ["gusto/diagnostics/diagnostics.py: DiagnosticField.__init__, DiagnosticField.setup, DiagnosticField.compute", "gusto/core/fields.py: StateFields.__call__"]}
{"id": "C133", "title": "The netCDF field file", "statement": "field_output.nc records every dump of every field listed for output: column k of a field holds its values at the k-th dump, row j belongs to the node whose coordinates are in row j of the coordinate variables of its space, the time variable holds the times of the dumps, the metadata of the domain are in the file, and a run that picks up appends its dumps to the same record.", "quantifier": "every domain and metadata, every list of output fields with distinct names, every distribution of the nodes over the ranks, parallel and serial netCDF, every order in which the ranks write, every sequence of dumps before and after picking up", "why_tests_cant": "tests write a few dumps on one or two ranks and do not read the file back against the coordinates; a wrong row is a plausible field", "anchors": ["gusto/core/io.py: IO.setup_dump, IO.create_nc_dump, IO.write_nc_dump, make_nc_dataset, gather_field_data", "gusto/core/coordinates.py: Coordinates.register_space"]}
{"id": "C134", "title": "Consistent metric term: the wind that transports theta", "statement": "With consistent_metric=True a quasi-Newton timestepper transports, in every transport step, first the height (reset to the vertical coordinate, so that it never drifts), then theta with the projection of ubar + k (w - w_h), w_h being the rate at which the scheme moved the height in that same step, and every other field with ubar; nothing is left over from earlier steps; where the scheme moves the height exactly the wind is ubar, and for a scheme linear in the wind and right for vertical winds the height moves exactly with w under the corrected wind.", "quantifier": "every set of fields, order and number of transport schemes after that of z, every scheme, projection and state, every number of outer iterations, every predictor, both quasi-Newton timesteppers", "why_tests_cant": "one example runs with the option, on one mesh; a stale or wrongly signed wind only changes theta by a small truncation error", "anchors": ["gusto/timestepping/semi_implicit_quasi_newton.py: SemiImplicitQuasiNewton.transport_fields, setup_scheme", "gusto/timestepping/tr_bdf2_quasi_newton.py: TRBDF2QuasiNewton.transport_fields"]}
{"id": "C135", "title": "SUPG: which test function each term gets", "statement": "With SUPGOptions every term of the scheme (or, with suboptions, every term of a listed field with a listed label) is tested against test + (u tau).grad(test), once, with u the transporting velocity of the timestepper at the time of use; all other terms keep their test function; no velocity created during setup remains in any form. Hence a state that satisfies the equation against every test function satisfies it with SUPG, totals are unchanged, the default tau is default*dt in the directions in which the space is continuous and 0 elsewhere, and the SUPG part of transport dissipates.", "quantifier": "every equation (any number of terms, fields and labels), every dictionary of suboptions, every velocity, every element and dimension", "why_tests_cant": "tests run SUPG on a few transport cases and compare errors; a term with the wrong test function or a velocity that stays zero only reduces the upwinding", "anchors": ["gusto/time_discretisation/wrappers.py: SUPGWrapper", "gusto/time_discretisation/time_discretisation.py: TimeDiscretisation.setup", "gusto/timestepping/timestepper.py: BaseTimestepper.setup_transporting_velocity"]}
{"id": "C136", "title": "Compressible Euler equations with tracers, diffusion and extra terms", "statement": "CompressibleEulerEquations accepts tracers, diffusion options and extra terms exactly if all field names are distinct, every tracer has a transport equation for scalars with a density that is a field, and every option names a field of the right shape. The equations are then those of the dry model with the tracers as masses, plus one mass term and one transport term of the declared type for each tracer, -kappa div grad for each listed field, and the given extra terms. The equation of a tracer contains no other tracer; a conservative tracer keeps its total, an advective one its constants; the linearised equations are the derivative of all of them.", "quantifier": "every list of tracers, diffusion options and extra terms, every state, reference state, mesh and test function", "why_tests_cant": "tests build the equation set with a few tracers; the combinations of tracers, options and expressions are unbounded", "anchors": ["gusto/equations/compressible_euler_equations.py: CompressibleEulerEquations.__init__", "gusto/equations/prognostic_equations.py: generate_mass_terms, generate_tracer_transport_terms, generate_linear_terms"]}
{"id": "C137", "title": "Prognostic variables and function spaces of the equation sets", "statement": "Each equation set has the documented variables, in order, followed by all active tracers, a tracer after its reference density; each variable lies in the space that the user names in space_names, by default the documented one, and each tracer in its own. A set is refused exactly for a missing or unknown space, a repeated name, a tracer whose space contradicts the dictionary, or tracers given to a class without tracers. The user's dictionary and list are changed only by entries of the passed tracers and by order, so objects can be shared between sets of a program.", "quantifier": "every class of equation set, dictionary, list of tracers, domain and history of constructors that share objects", "why_tests_cant": "dictionaries, lists and histories are unbounded; tests build single sets with default spaces", "anchors": ["gusto/equations/prognostic_equations.py: PrognosticEquationSet.__init__, add_tracers_to_prognostics", "gusto/equations/shallow_water_equations.py: constructors", "gusto/equations/compressible_euler_equations.py: constructors", "gusto/equations/boussinesq_equations.py: constructors"]}
{"id": "C138", "title": "A requested limiter acts on everything a scheme returns", "statement": "For every time discretisation whose constructor accepts a limiter, the field that apply returns has gone through the limiter, so it has whatever the limiter guarantees (for ZeroLimiter: no negative value), whatever the equation, time step, number of subcycles, solver, physics schemes and history of the object; physics schemes are evaluated on limited fields; and where a strong-stability-preserving scheme keeps the bounds by itself, the limiter changes nothing.", "quantifier": "every scheme that accepts a limiter, every limiter, equation, table, number of cycles, sweeps, nodes, ranks, schedule and previous calls", "why_tests_cant": "tests limit a few transport cases with one scheme and compare norms", "anchors": ["gusto/time_discretisation/explicit_runge_kutta.py: solve_stage, apply_cycle", "gusto/time_discretisation/time_discretisation.py: BackwardEuler, wrapper_apply", "gusto/time_discretisation/multi_level_schemes.py: MultilevelTimeDiscretisation", "gusto/time_discretisation/deferred_correction.py: SDC.apply, RIDC.apply", "gusto/time_discretisation/parallel_dc.py: apply", "gusto/spatial_methods/limiters.py: ZeroLimiter"]}
{"id": "C139", "title": "Deferred correction covers a step with its base scheme and leaves the timestep of the model alone", "statement": "Building an SDC or RIDC scheme around a base scheme, setting it up and stepping it never changes the timestep of the domain and of the time loop, so the model time advances by dt in every step; and in every step the first guess goes from node to node with the base scheme, each time by the spacing of that node, whatever the number of subcycles the base scheme was asked to take.", "quantifier": "every base scheme, subcycling option, set of nodes, number of nodes, timestep and number of steps", "why_tests_cant": "tests use ForwardEuler or implicit base schemes with a few nodes and loose tolerances, and never subcycling inside SDC; the wrong spacing costs an order of accuracy that the sweeps hide", "anchors": ["gusto/time_discretisation/deferred_correction.py: SDC.__init__, SDC.apply, RIDC.apply", "gusto/time_discretisation/parallel_dc.py: Parallel_SDC.apply, Parallel_RIDC.apply", "gusto/time_discretisation/time_discretisation.py: TimeDiscretisation.__init__, solver, update_subcycling, ExplicitTimeDiscretisation.setup, apply", "gusto/timestepping/timestepper.py: run"]}
{"id": "C140", "title": "The solver parameters that a user passes are the ones used", "statement": "A time discretisation solves with the solver parameters it is given, key by key, or with the defaults if it is given none; it does not modify the dictionary of the user; and what one scheme does with its parameters has no effect on another scheme, whatever the order in which the schemes are constructed, set up and first used.", "quantifier": "every dictionary, every list of explicit and implicit schemes holding the same or different dictionaries, every order and repetition of their setups", "why_tests_cant": "a test sets up one scheme with one dictionary; sharing and order cannot be enumerated, and a replaced linear solver does not change results visibly", "anchors": ["gusto/time_discretisation/time_discretisation.py: TimeDiscretisation.__init__, setup, ExplicitTimeDiscretisation.setup, BackwardEuler.__init__, ThetaMethod.__init__, TR_BDF2.__init__", "gusto/solvers/parameters.py: mass_parameters", "gusto/time_discretisation/multi_level_schemes.py: AdamsMoulton.__init__"]}
{"id": "C141", "title": "Every stage of an explicit scheme solves its own mass system", "statement": "In every stage of every timestep an explicit scheme with a linear time derivative term returns the solution of the mass system of that stage, with the mass operator of that stage, whatever was solved before and whatever the guess.", "quantifier": "every sequence of mass operators, right-hand sides and guesses", "why_tests_cant": "the first solve is always right; an operator that changes later needs a history", "anchors": ["gusto/time_discretisation/time_discretisation.py: ExplicitTimeDiscretisation.setup, solver", "gusto/time_discretisation/wrappers.py: SUPGWrapper.setup"]}
{"id": "C142", "title": "Dirichlet conditions hold after every step", "statement": "After every step with any scheme or timestepper, from whatever state, the fields have the boundary values prescribed by the conditions of the equation; every scheme is given the conditions of the field that it advances, on the space in which it works; and the velocities that transport fields satisfy the conditions on the velocity.", "quantifier": "every scheme, formulation and tableau, every equation, timestep, number of subcycles, stages, sweeps and iterations, every state, every set of conditions, wrapper and augmentation", "why_tests_cant": "a test checks one scheme with homogeneous conditions and an initial state that satisfies them; drift and dropped conditions show only for other values, formulations and wrappers", "anchors": ["gusto/time_discretisation/time_discretisation.py: TimeDiscretisation.setup, solver, ExplicitTimeDiscretisation.solver", "gusto/time_discretisation/explicit_runge_kutta.py: ExplicitRungeKutta.solver, solve_stage", "gusto/time_discretisation/implicit_runge_kutta.py: ImplicitRungeKutta.solver, apply", "gusto/time_discretisation/deferred_correction.py: SDC.solvers, RIDC.solver", "gusto/time_discretisation/wrappers.py: EmbeddedDGWrapper.setup, RecoveryWrapper.setup", "gusto/spatial_methods/augmentation.py: VorticityTransport, MeanMixingRatio", "gusto/timestepping/split_timestepper.py: setup_scheme", "gusto/timestepping/semi_implicit_quasi_newton.py: _apply_bcs", "gusto/timestepping/tr_bdf2_quasi_newton.py: _apply_bcs"]}
{"id": "C143", "title": "A scheme with boundary conditions is the same scheme for the constrained equation", "statement": "A step of a time discretisation with Dirichlet conditions, from a field that satisfies them, changes the interior degrees of freedom exactly as the same discretisation does for the equation of the interior degrees of freedom alone (the equation evaluated with the prescribed boundary values and tested with interior test functions), and keeps the boundary values: for zero values with every scheme, for arbitrary values with backward Euler, the theta method, TR-BDF2, the multi-level schemes and implicit Runge-Kutta schemes in the predictor formulation. With zero conditions on the velocity a timestep of the quasi-Newton timesteppers is the timestep without imposing them. So whatever is proved of a scheme without conditions holds of it with conditions.", "quantifier": "every equation, number of degrees of freedom, test functions, boundary values, tableau, formulation, limiter, physics, number of stages, subcycles, nodes and sweeps, every content of the Functions kept between steps", "why_tests_cant": "a relation between two infinite families of programs", "anchors": ["gusto/time_discretisation/time_discretisation.py: BackwardEuler, ThetaMethod, TR_BDF2", "gusto/time_discretisation/multi_level_schemes.py: BDF2, Leapfrog, AdamsBashforth, AdamsMoulton", "gusto/time_discretisation/explicit_runge_kutta.py: ExplicitRungeKutta", "gusto/time_discretisation/implicit_runge_kutta.py: ImplicitRungeKutta", "gusto/time_discretisation/imex_runge_kutta.py: IMEXRungeKutta", "gusto/time_discretisation/deferred_correction.py: SDC, RIDC", "gusto/timestepping/semi_implicit_quasi_newton.py: SemiImplicitQuasiNewton.timestep", "gusto/timestepping/tr_bdf2_quasi_newton.py: TRBDF2QuasiNewton.timestep"]}
{"id": "C144", "title": "Symmetries and relabelling", "statement": "Results do not depend on the numbering or partition of the degrees of freedom, and symmetries are kept: if an invertible or other linear map turns one equation, its solver, limiters, physics and transport into those of another, a step of any time discretisation or quasi-Newton timestepper of the first from a mapped state gives the mapped result of the second, and a state that is unchanged by a symmetry of the equation stays unchanged. Newton iterations, converged or not, keep this if the Jacobians are related, and so do exact solves.", "quantifier": "every linear map, equation, scheme, tableau, formulation, number of steps, stages, subcycles, nodes, sweeps, outer and inner iterations, every state", "why_tests_cant": "a relation between runs of two programs for every relabelling; a test compares one pair of runs", "anchors": ["gusto/time_discretisation/time_discretisation.py: BackwardEuler, ThetaMethod, TR_BDF2", "gusto/time_discretisation/multi_level_schemes.py: BDF2, Leapfrog, AdamsBashforth, AdamsMoulton", "gusto/time_discretisation/explicit_runge_kutta.py: ExplicitRungeKutta", "gusto/time_discretisation/implicit_runge_kutta.py: ImplicitRungeKutta", "gusto/time_discretisation/imex_runge_kutta.py: IMEXRungeKutta", "gusto/time_discretisation/deferred_correction.py: SDC, RIDC", "gusto/timestepping/semi_implicit_quasi_newton.py: SemiImplicitQuasiNewton.timestep", "gusto/timestepping/tr_bdf2_quasi_newton.py: TRBDF2QuasiNewton.timestep"]}
{"id": "C145", "title": "Implicit transport keeps bounds", "statement": "A DG0 field transported with the upwind advection form by BackwardEuler stays between its smallest and largest value whatever the time step; ThetaMethod keeps the bounds while (1-theta) times the Courant number is at most one (TrapeziumRule and ImplicitMidpoint up to Courant number two), TR_BDF2 up to Courant number 2(2-gamma)/(1+(1-gamma)^2), QinZhang up to four; the limits of ThetaMethod and TR_BDF2 cannot be raised. A density transported with the continuity form by BackwardEuler stays non-negative for every time step and every wind, divergent or not.", "quantifier": "every mesh with finitely many cells, every wind, time step, theta, gamma, initial field, number and lengths of steps", "why_tests_cant": "bounds for every mesh, wind and time step; a test runs one field", "anchors": ["gusto/time_discretisation/time_discretisation.py: BackwardEuler, ThetaMethod, TrapeziumRule, TR_BDF2", "gusto/time_discretisation/implicit_runge_kutta.py: ImplicitMidpoint, QinZhang", "gusto/spatial_methods/transport_methods.py: upwind_advection_form, upwind_continuity_form"]}
{"id": "C146", "title": "Two runs of the implicit schemes do not drift apart", "statement": "For an equation whose solutions never move apart in a quadratic norm (every linear equation that does not increase the norm, and nonlinear friction), two runs of BackwardEuler with the same timesteps, of any number and length, are never further apart than their initial states, each call of ImplicitMidpoint and QinZhang brings two inputs no further apart, and two runs of BDF2 stay within the square root of two of their initial distance, whatever the timestep. The equation of a BackwardEuler step has at most one solution, and if every solve is off by at most epsilon the result of n steps is off by at most n epsilon. TrapeziumRule does not have this property for nonlinear equations.", "quantifier": "every equation, norm, pair of initial states, timestep, number of steps, state of the scheme objects, solver tolerance", "why_tests_cant": "a relation between every two runs and every solver error; a test compares two runs", "anchors": ["gusto/time_discretisation/time_discretisation.py: BackwardEuler, TrapeziumRule", "gusto/time_discretisation/multi_level_schemes.py: BDF2", "gusto/time_discretisation/implicit_runge_kutta.py: ImplicitMidpoint, QinZhang"]}
{"id": "C147", "title": "Superposition, and related tracers stay related", "statement": "For a linear equation, without limiter, the result of every time discretisation is linear in the initial field (and, for a linear equation with a fixed source, averages of fields go to averages of results): forward and backward Euler, the theta method, TR_BDF2, BDF2, Leapfrog, Adams schemes, explicit, implicit and IMEX Runge-Kutta in every formulation, SDC and RIDC, with an iterative solver that stops after any fixed number of iterations (and, for the Euler, theta, TR_BDF2, multi-level and explicit Runge-Kutta schemes, also with a solver that has converged), and also in the Functions that the scheme object keeps for its next call. Hence two tracers transported by the same wind with q2 = a q1 + b at the start satisfy q2 = a q1 + b after any number of steps. With a limiter this is false.", "quantifier": "every linear equation, scheme, tableau, timestep, number of iterations, subcycles and steps, initial fields, coefficients a and b, state of the scheme object", "why_tests_cant": "a relation between every three runs; a test compares a few", "anchors": ["gusto/time_discretisation/time_discretisation.py: BackwardEuler, ThetaMethod, TR_BDF2", "gusto/time_discretisation/multi_level_schemes.py: BDF2, Leapfrog, AdamsBashforth, AdamsMoulton", "gusto/time_discretisation/explicit_runge_kutta.py: ExplicitRungeKutta", "gusto/time_discretisation/implicit_runge_kutta.py: ImplicitRungeKutta", "gusto/time_discretisation/imex_runge_kutta.py: IMEXRungeKutta", "gusto/time_discretisation/deferred_correction.py: SDC, RIDC"]}
{"id": "C148", "title": "The divergence predictor of SemiImplicitQuasiNewton", "statement": "The predictor option changes nothing in a step that starts from a wind without divergence, with alpha = 1, and in all the steps of a spin-up; a step and a run of any length with it keep the total of the predicted field whenever the transport scheme does, for every divergence and off-centring; for a linear scheme it changes the transported field by at most |1 - alpha| dt^2 times the product of the bounds of the divergence and of the transport operator. A user also expects the request to be honoured or refused, the order of accuracy to be kept and large timesteps to be stable: a predictor naming a field that is transported simultaneously with others, or not transported, is ignored without a message; the predictor reduces an exact transport to first order; and in a diverging wind the depth grows without bound as soon as (1 - alpha) dt div(u) > 1, where the transport scheme alone decays.", "quantifier": "every timestepper, list of transport schemes, wind, off-centring, timestep, numbers of outer and inner iterations, spin-up and number of steps", "why_tests_cant": "totals and equality of runs for every wind and run length, and an order of accuracy", "anchors": ["gusto/timestepping/semi_implicit_quasi_newton.py: SemiImplicitQuasiNewton.__init__ (predictor), transport_fields, start_spinup"]}
{"id": "C149", "title": "The time levels hold the fields they should", "statement": "For every equation, mixed or not, with any auxiliary equations whose fields have different names: the field containers are built if and only if no field is called X, the names match the components and each auxiliary equation has one component; the mixed field and its components are the same memory at every level; assigning to one component changes no other and no auxiliary field; update() moves every field of every level one level back and keeps level n+1, for any number of previous levels, exactly as if levels were indivisible states; initialise() copies the initial conditions to level n and nothing else. A user also expects mixed auxiliary equations to work and clashing names to be refused: a mixed auxiliary equation ends in a TypeError, and an auxiliary field with the name of a prognostic one silently replaces that prognostic in level n at every update.", "quantifier": "every equation, list of auxiliary equations, number of levels and content of the memory", "why_tests_cant": "aliasing and copies by name in one memory, for every list of fields and every history of assignments", "anchors": ["gusto/core/fields.py: Fields, TimeLevelFields", "gusto/timestepping/semi_implicit_quasi_newton.py: SemiImplicitQuasiNewton.setup_fields", "gusto/timestepping/timestepper.py: Timestepper.setup_fields"]}
