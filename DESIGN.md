# Formal model of gusto in Lean 4: design

Source: `/repo` (firedrakeproject/gusto, pinned).  (This file is composed by `tools/gen_design.py` from
`tools/design_parts.py`, the headers of the model files and `MANIFEST.json`.)

Layout of `lean/Verif/`:

* `Verif/Model/*.lean`  definitions that mirror the Python, each citing file and lines;
* `Verif/Spec/*.lean`   small specifications written from the English property only (textbook
  formulae, order conditions, weak forms ...), never from the model.  Some specifications are so short that
  they stand at the top of the Props file, marked "Specification";
* `Verif/Lemmas/*.lean` helper lemmas;
* `Verif/Props/*.lean`  one section per property: the theorems named in `MANIFEST.json`
  and, beside each, an `example` that meets the hypotheses non-trivially.

Names of theorems: `Cnn_...` belongs to property `Cnn`.  `..._partial` proves a part, its comment says what is
missing.  `..._refuted` proves that (a part of) the English property is false of the code as written, by a
counterexample or by characterising what the code does instead.  A property with a refuted part has status
`partial` in the manifest.

## Trusted base

1. Lean 4.33.0's kernel, and Mathlib's definitions (real numbers, derivatives, `Real.rpow`, `Complex.arg`, integrals...).
2. Axioms: every theorem of the manifest depends on at most `propext`, `Classical.choice`, `Quot.sound` (checked
   with `tools/axioms.py`, which runs `#print axioms` on each of them).  No axioms are added; no `native_decide`,
   `bv_decide`, `implemented_by`, `unsafe`.
3. The reading of the Python: the tie to `/repo` is the citation on each definition.  Nothing was run.
4. Common simplifications, stated again where they are used:
   * floating point is replaced by exact arithmetic (real, rational, or an arbitrary (ordered) field or module);
   * Firedrake/UFL/PETSc/MPI/netCDF4/pandas/qmat are not modelled.  A finite element field is an element of an
     abstract module (or, for pointwise kernels, a function on an index set); an assembled form is
     a function of the state into the module; a linear or non-linear `solve` is either the relation
     "the residual vanishes" or division by an invertible mass map (exact solve);
   * Python objects with identity are modelled by store/heap models only where aliasing matters (C13, C18, C39, C58,
     C80, C81);
   * point-to-point MPI has the semantics written in `Model/MPI.lean`; collectives are functions of the list of
     contributions.

## By property: what is modelled, how it is proved

| id | title | model and method | proved in | status |
|---|---|---|---|---|
| C01 | One step of the basic explicit residual | labelled forms (list of terms with label set, time-derivative and other terms), `replace_subject`, default `lhs/rhs/res` as label maps; induction over term list; residual zero ↔ Euler equation | `OneStep` | proved |
| C02 | The three Runge-Kutta formulations are the same method | the loops of increment/predictor/linear `solve_stage`, for arbitrary Butcher matrix, F, state; loop invariants; equality with textbook RK defined recursively | `ExplicitRK` | proved |
| C03 | Built-in Runge-Kutta tableaux are consistent and have their advertised order | the literal tables over ℚ and their constructors; finite table ⇒ `decide`/`norm_num`; lifted to Taylor agreement for `y' = λy`, arbitrary λ, dt | `Tableaux` | proved |
| C04 | Fixed subcycling is iteration of the single-cycle step | `ExplicitTimeDiscretisation.apply` loop; induction on number of cycles | `OneStep` | partial: proved for explicit schemes; for BackwardEuler/ThetaMethod fixed_subcycles ends in AttributeError (proved) |
| C05 | Adaptive subcycling picks a legal number of cycles that covers the timestep | `ncycles` computation with ceil, cap and reset of dt; order lemmas on `Nat.ceil` | `OneStep` | proved |
| C06 | Subcycled linear Runge-Kutta formulation | the linear formulation inside the subcycle loop, stage history kept as the code keeps it; refuted by witness; exact discrepancy for general n proved; partial for one cycle | `ExplicitRK` | partial: the claim is false for 2 or more cycles: refuted by witness; the exact result of the code and the exact condition for agreement are proved |
| C07 | Implicit one-step schemes solve their documented equation | residuals of BackwardEuler, ThetaMethod, TR_BDF2 as label maps; as C01 | `OneStep` | proved |
| C08 | Multi-level schemes solve their documented recurrence | BDF2, Leapfrog, AB, AM residuals; as C01; Leapfrog refuted, corrected version partial | `Multilevel` | partial: proved for BDF2, AdamsBashforth, AdamsMoulton and all start-up steps; refuted for Leapfrog, whose solved residual is forward Euler |
| C09 | Adams coefficients are consistent and of their stated order | tables over ℚ; AB1–4, AM1–3 moment conditions; AB5, AM4 refuted | `Multilevel` | partial: proved for AB1-4 and AM1-3; refuted for AB5 and AM4 (one wrong table entry each) |
| C10 | Multi-level history holds exactly the last n results | TimeLevelFields.update, counter of initial steps; induction over steps | `Multilevel` | proved |
| C11 | Implicit Runge-Kutta formulations solve the tableau's equations | stage loops of ImplicitRungeKutta; induction over stages; increment refuted for non-constant diagonals | `ImplicitRK` | partial: predictor formulation proved for all tables; increment formulation proved when the diagonal is constant (all built-in tables) and refuted otherwise (cached solvers capture the first stage diagonal) |
| C12 | IMEX Runge-Kutta stages and final update follow the two tableaux | stage and final residuals, tableaux; induction over terms and stages | `IMEX` | partial: equations, set-up check and orders of all built-in tables proved; refuted: the constructor drops the limiter; a term labelled both source and explicit is accepted and counted twice; with several source schemes the last source is used |
| C13 | Applying a scheme in place is safe and never changes its input | store of named mutable fields, the sequence of assigns of `apply`; symbolic execution over an arbitrary store | `Store` | proved |
| C14 | The time loop takes the right number of steps and stops | `while t < tmax - 0.5*dt` loop; well-founded recursion over ℝ/ℚ (Archimedean), induction | `TimeLoop` | proved |
| C15 | A picked-up run reproduces the uninterrupted run | checkpoint write/read of prognostics and levels, loop; bisimulation, induction on remaining steps | `TimeLoop` | proved |
| C16 | Output cadence | counters of IO; induction on steps; picked-up cadence refuted in general, proved when frequency divides | `TimeLoop` | partial: uninterrupted runs and resumptions at common multiples proved; refuted: after pick-up the cadence is counted from the pick-up step, and point-data rows are overwritten from row 0 |
| C17 | Diagnostics are evaluated after everything they require | `topo_sort` (copied generator loop); invariant: emitted list is a topological order, termination measure | `TopoSort` | proved |
| C18 | The state-field registry is consistent | registry as association list with object ids; invariant by induction over calls | `Registry` | proved |
| C19 | Parallel netCDF output writes each degree of freedom exactly once | prefix sums of local sizes and writes; induction over ranks | `ParallelIO` | proved |
| C20 | Existing results are protected and all ranks agree on errors | decision logic and the broadcast of the error flag; case analysis for any number of ranks | `ParallelIO` | proved |
| C21 | Operator-split timestepping covers the whole timestep | checks of SplitTimestepper, sequence of applications; list induction | `Split` | partial: acceptance, coverage, composition, consistency and Strang order proved; refuted: physics repeated without weights, physics schemes dropped, unequal weights with a cached solver, fixed subcycling |
| C22 | The semi-implicit quasi-Newton loop's fixed points solve the time-discrete system | the SIQN step as composition of abstract operators; algebra of fixed points | `QuasiNewton` | partial: fixed points proved for all configurations without inner physics or without the accelerator; refuted with both |
| C23 | Reference profiles are updated at the requested frequency | the update-time condition as state machine; refuted + characterisation of actual behaviour | `QuasiNewton` | partial: first-step update and frequency None proved; refuted: with any frequency the profiles are updated at every step; TypeError on pick-up without a stored time |
| C24 | Spectral deferred correction converges to the collocation solution only | SDC sweep (forward-substituted nodes); induction over nodes | `DeferredCorrection` | partial: proved for strictly lower triangular explicit matrices; refuted: explicit matrices with a diagonal or upper part use node values of the previous time step, and MIN-SR-FLEX has no effect |
| C25 | Parallel SDC equals serial SDC with diagonal preconditioner | per-rank step with allreduce; any rank order; permutation invariance of sums and of updates | `ParallelSDC` | partial: proved for diagonal matrices, all schedules; refuted for strictly lower triangular explicit matrices such as FE |
| C26 | Pipelined parallel RIDC equals serial RIDC and cannot deadlock | ranks as processes with FIFO tagged channels, arbitrary schedule; confluence + progress measure | `ParallelRIDC` | partial: liveness and determinism proved for all accepted configurations with K>=1; equality with the serial scheme proved without source terms; refuted with source terms (stale source at node 0) and for K=0 (send to a rank that does not exist) |
| C27 | Limiters produce the bounds they promise and touch nothing else | kernels pointwise; order algebra | `Limiters` | partial: limiting kernels proved for every value; refuted: the degree check never rejects integer degrees, and the mean limiter gives negative values for a negative cell mean |
| C28 | Conservative projection conserves mass and can preserve constants | projector algebra with integral functional; linear algebra | `Projection` | partial: mass conservation proved without subtract_mean for every history, and with it for densities of equal mass; constants proved with subtract_mean for all densities; refuted: mass is not conserved with subtract_mean and densities of different mass |
| C29 | Reversible recovery is reversible | recoverer composed of abstract linear maps; algebra | `Projection` | proved |
| C30 | Averaging recovery is a true average | loops of averaging kernels over cell–node map; sums over finite maps | `Recovery` | proved |
| C31 | Boundary Taylor recovery reproduces the local polynomial | Gaussian elimination kernel, general n; induction on elimination steps | `Recovery` | proved |
| C32 | Extruded boundary recovery is linear extrapolation | kernel on layers; algebra | `Recovery` | partial: proved for two or more layers; refuted for one layer, where the bottom loop overwrites the top correction |
| C33 | Column data round trip | sorting/grouping of dofs; permutations | `Columns` | partial: round trips proved for all coordinates and fields, the grouping into ordered columns whenever the closeness test separates different columns; refuted: numpy.isclose has a tolerance relative to the first coordinate and merges nearby columns at large coordinates |
| C34 | Spherical/Cartesian coordinate round trip | formulas over ℝ with Mathlib trigonometry; trigonometric identities | `CoordTransforms` | proved |
| C35 | Vector component transforms are mutually inverse isometries | formulas over ℝ with Mathlib trigonometry; trigonometric identities | `CoordTransforms` | proved |
| C36 | Rodrigues rotation is a rotation and pole_rotation moves the pole | formulas over ℝ with Mathlib trigonometry; trigonometric identities | `CoordTransforms` | proved |
| C37 | Rotated coordinates have the requested pole | composition of the above; refuted + characterisation | `CoordTransforms` | partial: the claim is false: proved that the map is a rotation of the sphere whose new pole is at (lon + 180 degrees, lat), and that the requested point gets latitude +90 degrees only if it is a geographic pole |
| C38 | Periodic distance is the shortest signed distance | formula with numpy `%`; floor arithmetic | `CoordTransforms` | proved |
| C39 | Great-circle angle | formula; aliasing by store model; Cauchy–Schwarz; store witness | `CoordTransforms` | partial: value, symmetry, range and coincidence proved for all points and both units; refuted: in degrees the caller's arrays are changed in place, and an array passed twice is converted twice |
| C40 | Thermodynamic conversions are mutually inverse and satisfy the equation of state | formulas over ℝ (`rpow`, `exp`); field algebra, derivatives | `Thermodynamics` | proved |
| C41 | Exner derivatives | formulas over ℝ (`rpow`, `exp`); field algebra, derivatives | `Thermodynamics` | proved |
| C42 | Humidity conversions | formulas over ℝ (`rpow`, `exp`); field algebra, derivatives | `Thermodynamics` | proved |
| C43 | Saturation adjustment conserves water and keeps it non-negative | pointwise source interpolators and forward/backward Euler; order algebra over an ordered field | `Microphysics` | proved |
| C44 | Coalescence conserves water and keeps cloud non-negative | pointwise source interpolators and forward/backward Euler; order algebra over an ordered field | `Microphysics` | partial: proved for non-negative cloud and rain; refuted without the hypothesis on cloud: negative cloud makes rain negative when accretion is off |
| C45 | Evaporation of rain removes rain | pointwise source interpolators and forward/backward Euler; order algebra over an ordered field | `Microphysics` | partial: conservation and the exact rate proved; refuted: the three factors have reversed signs, rain grows in sub-saturated air and vapour becomes negative |
| C46 | Moist shallow-water physics conserves water and respects saturation | pointwise source interpolators and forward/backward Euler; order algebra over an ordered field | `SWPhysics` | partial: conservation, exactness for tau = dt and bounds proved; refuted: a relaxation time shorter than dt gives negative vapour; convective feedback of InstantRain is rejected at set-up (rank mismatch) |
| C47 | Terminator chemistry conserves the total and stays non-negative | pointwise source interpolators and forward/backward Euler; order algebra over an ordered field | `SWPhysics` | partial: conservation for all schemes proved, non-negativity and the steady state for the hard-wired total 4e-6; refuted for other totals |
| C48 | Implicit surface schemes are backward-Euler steps and bounded | pointwise source interpolators and forward/backward Euler; order algebra over an ordered field | `BoundaryPhysics` | partial: implicit formulations proved; general formulation: wind drag proved, surface fluxes refuted whenever the density is not 1 (extra factor 1/rho) |
| C49 | Static adjustment sorts columns | column sort; `mergeSort` permutation + sortedness | `StaticAdjustment` | proved |
| C50 | Vertical wind suppression acts exactly during spin-up | strength flag state machine; induction over times | `BoundaryPhysics` | partial: proved for every history with at least one spin-up step; refuted: if the first step is after the spin-up, dt stays zero and the source is 0/0 |
| C51 | REXI work is shared without gaps or overlap | partition arithmetic; `Nat` division lemmas | `Rexi` | proved |
| C52 | REXI coefficients reproduce the double sum | coefficient loops; finite sum reindexing | `Rexi` | proved |
| C53 | The complex proxy represents complex arithmetic | block algebra; store lenses; algebra over ℂ as pairs | `ComplexProxy` | partial: lenses, split, element, block system and derivative proved for every component layout; refuted for the vector proxy with vector- or tensor-valued components, where reading a part raises TypeError |
| C54 | Configuration objects reject unknown settings | `__setattr__` guard; case analysis over operation sequences | `Configuration` | partial: unknown names rejected, histories, construction and option checks proved; refuted: diagfreq and tolerance of OutputParameters and h, M of RexiParameters are declared but can never be assigned a number |
| C55 | Active tracers are ordered after their reference densities | list manipulation of add_tracers; list lemmas; chain case refuted | `EquationSet` | partial: proved for lists without chains (a reference density that itself needs a reference density later in the list); refuted for a chain of three, where one swap pass is not enough |
| C56 | Splitting transport terms does not change the equation | label maps of split forms over abstract transport operators; list induction | `CommonForms` | partial: values proved for nonlinear equations with one advective term per field; refuted: linear equation sets get nonlinear terms, the linearisation of the split form is not the derivative, and with several advective terms of one field all but one pair are lost |
| C57 | Prescribed transport: set-up, velocity and output | object state (flags, projection, clock, velocity, dumps), loop of `run`; induction over histories of calls and over steps | `PrescribedTransport` | partial: set-up state machine, velocity at every step, fixed velocity and split construction proved; refuted: output rows carry the velocity of the start of the step before them, the function is called once so Python branches on time are frozen, and exactly one physics scheme with an implicit discretisation is accepted |
| C58 | Mixed-space wrappers apply each field's own options | per-field wrapper loops over a heap of wrapper Functions; set-up with aliased lists; induction over the field list | `Wrappers` | partial: slots and per-field wrappers proved for every list of fields; refuted: a conservative tracer placed before its density uses the density of the previous call, and set-up overwrites the equation's own spaces through an alias |
| C59 | Extracting labelled terms loses nothing | term lists; list induction | `OneStep` | proved |
| C60 | Equation linearisation | linearise label map; list induction + derivative | `EquationSet` | proved |
| C61 | Physics source terms are evaluated at their own scheme's source | labelled terms with a scheme index, stage loops of the explicit Runge-Kutta schemes; one scheme proved, several schemes refuted (last writer wins) | `ExplicitRK` | partial: proved for increment RK and for predictor RK with one source; refuted for two sources in predictor RK and for BackwardEuler |
| C62 | Implicit midpoint and Qin-Zhang preserve quadratic invariants | stage equations of the implicit Runge-Kutta model with the literal tableaux; bilinear algebra | `ImplicitRK` | proved |
| C63 | A killed run can be resumed | checkpoint files with write, crash and resume at any point; case analysis over crash points, induction over steps | `Restart`, `TimeLoop` | partial: proved for every crash point, and for every chain of crashes and resumptions, at which the checkpoint file is complete; refuted during a checkpoint write, which truncates the only copy |
| C64 | Spin-up uses fully implicit steps exactly as long as requested | step counter and off-centring of SemiImplicitQuasiNewton; induction over steps | `QuasiNewton` | proved |
| C65 | TR-BDF2 quasi-Newton: stage equations and second order | TR-BDF2 quasi-Newton step with abstract operators; coefficients, stage equations, order conditions, fields that are never advanced | `QuasiNewton` | partial: coefficients, order and stage equations proved; refuted: untransported fields with 2 or more outer BDF iterations, prognostics that are neither solver prognostics nor active tracers |
| C66 | Slow physics is applied once per timestep | sequence of scheme applications of the two quasi-Newton steppers; symbolic execution | `QuasiNewton` | partial: proved for SemiImplicitQuasiNewton; refuted for TRBDF2QuasiNewton (factor gamma3) |
| C67 | RIDC corrections converge to the reduced-stencil integral equations | RIDC loops (predictor, correction sweeps, sources); induction over nodes and sweeps | `RIDC` | partial: proved without source terms; refuted with source terms (spurious term from the never evaluated source at node 0) |
| C68 | Every SDC sweep raises the formal order by one | SDC sweep as in C24; filtrations by powers of dt; induction over nodes | `DeferredCorrection` | proved |
| C69 | Global extrema kernels return attained bounds | extrema kernels as folds; order algebra | `Limiters` | proved |
| C70 | Rotated basis vectors | rotated basis vectors over the reals; trigonometric identities | `CoordTransforms` | partial: orthonormality, orientation, components and direction of the actual pole proved; refuted: the meridional vector points to (lon + 180 degrees, lat) instead of the requested pole |
| C71 | Saturation, latent heat and energy formulas | formulas over the reals; algebra, monotonicity | `Thermodynamics` | proved |
| C72 | Hydrostatic initialisation returns balanced, converged profiles or raises | control flow of the moist routines as recursion on the iteration limits with abstract thermodynamics; variational residual as linear maps; induction on iterations | `Hydrostatic` | partial: balance of the returned density for every outcome, the test for converged unsaturated profiles; refuted: RuntimeError is never raised, saturated profiles are tested with the average density of the iteration before, exner0 raises AttributeError in the saturated routine and does not belong to the returned density without convergence |
| C73 | Latent heating conserves internal energy | source expressions of SaturationAdjustment pointwise; algebra | `Microphysics` | proved |
| C74 | SourceSink adds its rate expression to the tendency | SourceSink term and sign of the residual; algebra | `Microphysics` | partial: only the named variable changes and it changes at minus the expression (proved); the documented sign is refuted |
| C75 | Held-Suarez forcing relaxes towards equilibrium | Held-Suarez expressions pointwise; order algebra | `BoundaryPhysics` | proved |
| C76 | Rain falls with a positive, monotone speed | fall speed expression with real powers; monotonicity | `BoundaryPhysics` | proved |
| C77 | The REXI solve replaces the exponential by the rational approximation on every mode | REXI sum on an abstract linear operator with a two-dimensional invariant space; algebra over the complex numbers | `Rexi` | partial: modes and steady states proved for every coefficient set; refuted: reduce_to_half returns exactly half the result because beta2 is not used |
| C78 | Equation sets contain one mass term per prognostic, one transport term per transported tracer and the no-normal-flow conditions | generation of the residual as list of labelled terms; list induction | `EquationSet` | partial: all parts proved for sets of at least two fields; refuted: a set whose only field is u loses its boundary conditions (C78_single_refuted). |
| C79 | Common forms are the documented operators | forms as integrands over a commutative algebra with derivations; product rules | `CommonForms` | partial: product rules, linear forms, vector-invariant identity in 3D and diffusion proved; refuted: in the plane the circulation form has the opposite sign of the documented operator |
| C80 | Mean mixing ratio limiting is non-negative and conservative | construction of the index lists, limiting per cell and field on a mixed Function, Runge-Kutta loops with the limit method; induction over field lists | `Augmentation` | partial: limiting proved non-negative, conservative for cells of non-negative mass, local and correlation-preserving; every step of the predictor formulation ends with it; refuted: in the increment (default) and linear formulations it is never called, a cell with negative mass gains mass, and a prognostic that is not an active tracer is accepted with a missing density |
| C81 | Augmented transport starts from the current state | data flow of augmentation / scheme / Functions, whole runs; induction over cycles and steps | `Augmentation` | partial: proved for the theta methods, every step of every run; refuted: explicit schemes use the vorticity left from the previous step (zero in the first), the other implicit schemes always start with zero vorticity, and a limiter is ignored in the predictor formulation |
| C82 | Setting up a time discretisation selects exactly the requested terms | lists of labelled terms, set-up as executed; filters, permutations, induction over fields; counterexample for several labels | `SetUp` | partial: proved for single fields, whole equations, lists of fields with one label, sources and mass-weighting; refuted: a list of fields with two or more active labels keeps every term of those fields and counts the mass terms twice |
| C83 | A spatial method changes exactly the terms of its variable and uses the timestepper's velocity | forms as functions of the velocities they mention, ufl.replace as substitution; frame, commutation and end-to-end value theorems; refutation for the manifold correction | `SetUp` | partial: frame, replacement, order independence, velocity (also in the mass-weighted pipeline) proved; refuted: the vector manifold correction is written with a velocity Function that is never set, so in advective form it never acts and in continuity form the transport itself is dropped |
| C84 | Upwind transport forms conserve mass, keep constants and are consistent | forms as quadrature sums over cells and both sides of facets in an ordered field; algebra of finite sums, strong induction over a run; concrete two-cell mesh for non-vacuity | `DGForms` | proved |
| C85 | The function spaces of a domain are the requested ones and form a complex | container as partial functions of names (strings), elements as syntax with the standard dimension formulas as a separate specification; frame theorems, injectivity of the suffixes from decimal digits, polynomial identities in the degrees | `Spaces` | partial: container, names, degrees, exactness for RT, BDM, RTC families, BDFM (its one degree), intervals, extruded meshes, slices (HDiv) proved; refuted: continuity of H1, HCurl and DG is not stored, families DG and None pass the check and raise KeyError, horizontal_degree alone raises TypeError on meshes that are not extruded, the serendipity family is paired with a too large L2 space, the HCurl space of slices has the wrong degree; meshes of tetrahedra not covered |
| C86 | Interior penalty diffusion is symmetric, conservative, consistent and stable | same model; Young's inequality pointwise for coercivity | `DGForms` | proved |
| C87 | The options of the upwind transport method have the requested effect | the constructor as a function of its options; refutations where options are ignored | `DGForms` | partial: refusals and general meshes proved; refuted: outflow and advective_then_flux are silently ignored on one-dimensional meshes, outflow also for mass-weighted tracers; other types in one dimension end in an UnboundLocalError |
| C88 | Circulation transport does no work and is consistent | same model, perp and cross products written out | `DGForms` | proved |
| C89 | Upwind advection never increases energy | exact energy balance from the discrete divergence theorem | `DGForms` | proved |
| C90 | Global statistics and the basic diagnostics report what they name | folds over lists of optional values per process (NaN as none), induction; real square roots and Cauchy-Schwarz; iterates of a damped map in normed spaces; weak forms by quadrature | `Diagnostics` | partial: all parts proved except the refuted ones: NaN values are ignored by min/max, register with a repeated argument duplicates, gamma weighs the new value instead of the previous guess, X/Y/Z components fail on the spherical shell, the gradient lacks lateral boundary terms, the tracer density element of 3D extruded meshes is wrong; the spherical components are C70 |
| C91 | The Courant number bounds the time step of upwind transport and is the one logged | forms as sums over quadrature points with cell maps; explicit convex-combination argument for DG0; strings for the names of the diagnostics | `Diagnostics` | partial: proved for DG0 and forward Euler; refuted: only inflow is counted (divergent cells), components of expressions and other fields cannot be logged, repeated runs duplicate the diagnostics; other schemes are covered by C115 and C145; other elements are not covered |
| C92 | Diagnostics with a memory survive interruption and pick-up | state machine with events fresh run, run again, step, crash and pick-up; invariant by induction over event lists | `Diagnostics` | partial: Proved for every history of runs that pick up; refuted: a second run() in the same process without pick-up starts the error and the sum anew (C92_second_run_refuted), and an initial field supplied by the user is overwritten (C92_user_field_refuted). |
| C93 | Shallow-water diagnostics are the quantities they name | weak forms by quadrature, tested with the constant; sums of squares for uniqueness; pointwise real analysis for the partition | `EquationDiagnostics` | partial: refuted on domains with boundary: the vorticity forms of the continuous variant leave out the circulation along the boundary (C93_boundary_refuted); on the sphere the methods interpolate and project raise in the default space (C93_sphere_refuted). The DG variant is modelled on the plane. |
| C94 | Compressible diagnostics are the quantities they name and can be evaluated in any requested order | C17's schedule theorem and induction over the schedule for the set-up; folds over tracer lists; real powers and their derivatives for the thermodynamics; bilinear forms; induction over steps for precipitation | `EquationDiagnostics` | partial: refuted: RichardsonNumber does not require the density gradient it reads; Gradient has the wrong shape for 3D vectors; the Brunt-Vaisala frequency accepts equations with one moist tracer; Precipitation counts one step too many (the initial dump). The imbalance is the residual only up to the product of the perturbations |
| C95 | The shallow-water equations are the documented equations, and their linear form is their derivative | weak forms as sums over a quadrature rule; derivative by exact first-order expansion with quadratic remainder, term by term; skew-symmetry; energy by testing with the derivative of the energy, composed with the theta residual of C07 | `ShallowWater` | partial: the depth-averaged tracers and the 1D sets are left out; refuted: an unknown u_transport_option raises AttributeError, the linear equations drop the topography of their documentation, and the advective velocity form is the gradient of kinetic energy instead of (u.grad)u |
| C96 | The thermal shallow-water equations reduce to the shallow-water equations for uniform buoyancy, and their linear form is their derivative | same model of forms; the missing term is identified exactly and shown to vanish for flat reference depth; counterexamples on a two-cell mesh | `ShallowWater` | partial: uniform buoyancy without topography, derivative about flat reference depth and the source of equivalent buoyancy proved; refuted: the topography is counted twice, b' grad(Dbar) is missing from the linear source, the linearisation map is ignored for it, and the equivalent-buoyancy linearisation is not the derivative |
| C97 | The Boussinesq equations are the documented equations, and their linear form is their derivative and conserves energy | weak forms as sums over a quadrature rule as in C95; derivative by exact expansion term by term; energy by testing with (u, p/cs^2, b/N^2), composed with the theta residual of C07 | `Boussinesq` | partial: compressible part, Coriolis, derivative, energy and acceptance proved; refuted: the incompressible equations keep the time derivative of p, so time stepping them gives div u = p + dp/dt and rest in hydrostatic balance is not steady; the divergence is linearised whatever the linearisation map says |
| C98 | The default linear solvers cover every field once and solve the quasi-Newton system | presets as functions of the name lists; quasi-Newton operator as a weighted sum of the linearised residual terms of C95-C97; block elimination as linear maps; elimination identities by testing the buoyancy equation with the vertical velocity or the divergence | `Solvers` | partial: coverage, tracers, relaxation parameters, block elimination, exact elimination for compressible Boussinesq and thermal shallow water of uniform depth proved; refuted: equivalent buoyancy with default prognostics leaves q_t in no block, other user prognostics, one-dimensional shallow water, relaxation parameters ignored by all but the compressible preset, shared dictionary changed, rotating and incompressible Boussinesq, thermal shallow water with varying depth |
| C99 | Vertical hybridisation solves the original system | hybridised block system as linear maps with exact local inverses; breaking and averaging composed with the averaging kernels of C30, counted by double sums | `Hybrid` | partial: All parts proved except that a velocity condition on lateral boundaries only leaves the traces of top and bottom in neither part (C99_lateral_only_refuted). |
| C100 | Compressible Euler equations: documented form, balance, mass, moist and dry limits, linearisation, sponge | weak forms as sums over a quadrature rule as in C95; discrete divergence theorem as hypothesis; real powers and quotients with their derivatives for Exner pressure, virtual temperature and the moist factor; Lagrange basis for the interpolated sponge | `Euler` | partial: options, documented form, Coriolis work, hydrostatic rest, mass, dry limit, linearisation, sponge profile and dissipation proved; refuted: tracers that are not mixing ratios only warn, interpolated DG2 sponge negative below its level, no sponge in the southern hemisphere of a sphere; the equations of the tracers, diffusion and extra terms are in C136 |
| C101 | Hydrostatic compressible equations: no vertical acceleration and vertical balance | projection and extra term as maps of the term list of C100; identities in the quadrature sums; forcing problems as filters of that list; unsolvability shown in a moist balanced column that moves | `EulerHydrostatic` | partial: time derivative, form, forcing terms proved; refuted: vertical balance (the forces equal the vertical velocity in monolithic schemes), linearisation of mass and forces, label, uniqueness and solvability of the forcing problem |
| C102 | The hybridised compressible preconditioner solves the quasi-Newton system | hybridised forms as sums over quadrature points, solution as a relation between right-hand side and increments; each row compared with the quasi-Newton operator of C100's term list by a discrete divergence theorem, leaving explicit defects; continuity from the constraint tested with the jump | `CompressibleSolver` | partial: exactness for continuous, layer-uniform reference states with vanishing moist factor, residuals of all three rows in general, continuity, trace averages, moisture of water tracers proved; refuted: hydrostatic equations, tracers among the solver prognostics, tracers that are not water or not mixing ratios, error only near topography |
| C103 | The model classes transport every prognostic variable exactly once | the loops over field names as a collecting fold with errors; counts of schemes and methods per field by induction over the field list; stepper's own assertions modelled and discharged | `ModelClasses` | partial: exactly one scheme and method per transported field, success criterion, diffusion, relaxation parameters, element family proved; refuted: thermal, one-dimensional and Boussinesq equation sets under SIQNModel, consistent metric transports z twice, constructor flag ignored, other spaces silently untransported and flat meshes rejected by the lowest-order class, diffusion options None, caller's tracer list extended |
| C104 | The one-dimensional shallow-water equations are the documented equations, conserve mass and, linearised, energy | functions are real polynomials on each cell and forms are Mathlib's interval integrals, so integration by parts with facet and boundary terms is proved, not assumed; forms compared with the pointwise equations; term lists as in C95 | `ShallowWater1d` | partial: documented equations, exact solutions, balance, consistency of the methods, mass, linearisation, energy, Coriolis proved; refuted: space_names, parameter H in the linear set, rest state on an interval with default boundary conditions, mass and diffusion without spatial methods |
| C105 | A tabulated integral is accurate between its bounds | linspace, Simpson's rule, cumulative sum and np.interp modelled over an ordered field; Simpson's error from three-fold integration of its third derivative in the half width, interpolation error by convexity; Mathlib's interval integral as specification | `NumericalIntegral` | partial: values at the nodes, exactness for cubics, error bound, linearity, monotonicity, error before tabulation proved; refuted: points outside the bounds, reversed bounds, one point |
| C106 | Boussinesq hydrostatic balance returns the balanced pressure | the two solves as bilinear forms on abstract spaces, solvability by dimension count; columns of cells with piecewise polynomials and Mathlib interval integrals, uniqueness from an explicit antiderivative, projection property by integration by parts | `BoussinesqBalance` | proved |
| C107 | Icosahedral mesh is a triangulated sphere | the tables, offsets and index formulas of the constructor as list-valued functions of n; counts, valences and closedness by bijection with lattice points on the twenty faces, geometry by barycentric coordinates on the faces and a decided finite check on the icosahedron table only | `Icosphere`, `IcosphereGeometry` | proved |
| C108 | Cubed-sphere mesh is a sphere made of quadrilaterals | every assignment to the array of panel numbers as a function update, the running maximum as a supremum over the array; proof that the number of a position is an injective code of its lattice point on the cube; closedness by an explicit neighbour table, covering and overlaps by boxes with product weights | `CubedSphere`, `CubedSphereGeometry` | proved |
| C109 | Flat longitude-latitude mesh used for plotting keeps cells together | nodes as lists of points per cell and rank, the kernel as a fold; uniqueness of representatives of an angle in an arc shorter than half a turn | `FlatLatLon` | partial: Proved for cells with no node on the axis and for ranks with a common minimum radius. Refuted otherwise: a node on the axis has longitude zero, so a cell at the pole can be spread over more than half a turn (C109_pole_refuted); the radius is the minimum over the nodes of the rank, so with orography two ranks give a common point different heights (C109_ranks_refuted); a rank without cells raises ValueError (C109_error). |
| C110 | Domain: type, coordinates, heights and extents of the mesh | the classification as nested conditions on dimensions; column arrays of C33; minima and reductions as folds; derivative of the distance along rays | `DomainGeometry` | partial: Proved for the six shapes and for a base mesh with all vertices on one sphere. Refuted otherwise: an annulus passes for a vertical slice and a torus for a sphere (C110_shapes_refuted); the radius is the minimum over the vertices of the rank, so with vertices at different distances the vertical extent depends on the partition (C110_radius_refuted); a rank without nodes raises ValueError (C110_extent). |
| C111 | Every time discretisation conserves what the equation conserves | composition of the step characterisations of C01, C02, C06, C07, C08, C10, C11, C12, C24, C61, C67 with a linear functional; induction over stages, nodes, subcycles and steps | `Conservation` | proved |
| C112 | Steady states stay steady | composition of the step characterisations with unique solvability of the stage equations; induction over stages, nodes and steps; explicit counterexamples | `Steady` | partial: Proved for all schemes except: IMEX Runge-Kutta needs tables with equal row sums (C112_imex_partial); IMEX_Trap2 does not have them and moves a steady state in which implicit and explicit terms balance (C112_imex_trap2_refuted); split timesteppers move states in which the split parts balance (C112_split_refuted); RIDC with physics sources is not covered (it is wrong there, C67_source_refuted). |
| C113 | The transport and diffusion equations are the documented ones | weak forms against strong equations in a ring with derivations; induction over lists of tracers and over histories of constructor calls; explicit counterexamples with polynomials | `TransportEquations` | partial: Proved for scalar fields, for the continuity equation, for scalar diffusivities and for coupled transport; refuted for advection of vectors (C113_vector_advection_refuted; the equation solved is characterised, and DGUpwind's replacement is right), for tensor diffusivities of vectors (C113_tensor_diffusion_refuted), for the documented default of the diffusion parameters (C113_default_refuted), for coupled transport without tracers (C113_coupled_refuted) and for the space of the velocity after an equation with Vu on the same domain (C113_velocity_refuted). |
| C114 | The log holds every record of its level exactly once | a normal form of the logger's state preserved by every event (induction over the history); a counting abstraction for the barriers; an ownership invariant for the files of different ranks; explicit counterexamples | `Logging` | partial: Proved for the console level, for the level of GUSTO_FILE_LOG_LEVEL, the move of the file, the barriers and the separation of the ranks; refuted for the documented variable GUSTO_LOGFILE_LOG_LEVEL, which is never read (C114_logfile_variable_refuted), for unhandled exceptions of ranks other than 0 (C114_unhandled_refuted), for the directory of a second simulation in a process (C114_second_simulation_refuted), for the level NOTSET (C114_notset_refuted) and for a second call of set_log_handler (C114_second_handler_refuted). |
| C115 | The SSPRK schemes are strong-stability preserving | the Shu-Osher form of every table is computed from the Butcher matrix in the code and checked by the kernel over the rationals; stage by stage every stage is a convex combination of Euler steps (induction over stages, iteration over subcycles); composed with C02 (formulations), C05 (subcycles) and C91 (Courant number); sharpness by a pulse on a half-line | `SSP` | proved |
| C116 | Energy stability of the time discretisations | energy identities proved from the residuals the model builds (C07, C08, C10) and the Runge-Kutta formulas (C02); G-stability of BDF2 by induction over the run of the level rotation; TR-BDF2 by factorisation around the midpoint of its first stage; the forms of the package meet the hypothesis by C86 and C89; Leapfrog refuted because the class solves forward Euler | `Energy` | partial: Proved for the schemes named; refuted for Leapfrog, which solves forward Euler and increases the energy in every step (C116_leapfrog_refuted). |
| C117 | Reference profiles: set, checkpointed and picked up | the loop of set_reference_profiles on top of the registry model of C18, the dictionary of a checkpoint and the search for profiles on pick-up; induction over the list of profiles with an invariant on the registry; the membership test of Python is modelled through __iter__ | `RefProfiles` | partial: Proved for Functions, including the round trip. Refuted: an expression always raises because the membership test compares Functions with a string (C117_expression_refuted); a call that raises keeps the profiles set so far (C117_atomic_refuted); profiles of names that are not fields are written and not picked up (C117_diagnostic_lost_refuted); updates during the run are not in the checkpoint (C117_updated_refuted). |
| C118 | The quasi-Newton timesteppers conserve mass without being converged | a linear functional of one field followed through the model of C22 and C65: invariants of the inner and outer loops, induction on both counts; the linear solve through the equation it solves | `QNMass` | proved |
| C119 | Energy of linear waves under the semi-implicit timestepper | the rows of the time-discrete equations (IsSolution of C22) with the pressure gradient as forcing and the divergence as transport; energy identity with two adjoint operators and a skew Coriolis term; exactness of the first iteration from the rows of the linear solver and uniqueness by positivity of the energy | `QNEnergy` | partial: Proved for the accelerated iteration and a single inner iteration. Without the accelerator a second inner iteration moves away from the solution and the energy can grow (C119_unaccelerated_refuted); this is the behaviour the accelerator exists for, not a bug. Refuted: with rotation, alpha > 1/2 and without off_centred_u the energy of a converged timestep can grow (C119_rotation_refuted), because the Coriolis term is centred at alpha and the divergence at 1/2. |
| C120 | The constructors of the quasi-Newton timesteppers, and every term acts exactly once | the constructors as functions to Except with the same order of checks; acceptance characterised by induction over the lists; the tendency as the sum of what each scheme selects (selection of C82, forcing of C22), computed term by term by induction over the residual | `QNSetup` | partial: Acceptance and partition proved; every term acts once in complete models. Refuted: incomplete models are accepted: a field without a transport scheme is silently not transported (C120_forgotten_transport_refuted), a parametrisation without a scheme never acts and a repeated diffusion scheme acts twice (C120_forgotten_physics_refuted), two parametrisations with the same label string both act twice (C120_same_label_refuted). |
| C121 | Boundary layer mixing | the diffusivity as real functions, the form at quadrature level with product and quotient rule; the surface terms reduced by the geometry of upright facets | `BLMixing` | partial: Diffusivity proved; the form is reduced to volume term and penalty (C121_scalar_form, C121_wind_form); vertical diffusion, conservation, constants and dissipation proved where density and diffusivity agree in neighbouring columns. Refuted: the surface terms are on the facets between columns (dS_v), not between layers: shear between layers is not mixed (C121_shear_refuted), columns are mixed (C121_columns_refuted), uniform fields change (C121_uniform_refuted), totals change (C121_conserves_refuted), the vertical wind is accelerated (C121_vertical_wind_refuted), and the layer depth is always 1 (C121_layer_depth_refuted). |
| C122 | Convergence of the one-step time discretisations | the schemes reduced to the textbook step (C02, C07), local errors by Albrecht's order conditions on the tables (kernel-decided over the rationals) with Taylor expansions of the exact solution, global error by a discrete Gronwall inequality; the limit of a table with wrong weight sum is identified | `Convergence`, `LocalConvergence` | partial: Proved for ForwardEuler, Heun, SSPRK2 (2, 3, 4), SSPRK3 (3, 4), RK4 (C122_explicit), ThetaMethod, BackwardEuler, TrapeziumRule, TR_BDF2; any table converges to the equation scaled by its weight sum (C122_limit). For a globally Lipschitz right-hand side the bound holds for every timestep for which the implicit equations are solvable; the _local theorems need Lipschitz continuity on bounded sets only (as for products of fields), for small enough timesteps and a solver that finds the root near its initial guess. Refuted for SSPRK3 with five stages and SSPRK4: their weights do not add up to one, so the error does not go to zero (C122_refuted). |
| C123 | Convergence of the multi-level time discretisations | runs reduced to the recurrences (C10), local errors by quadrature conditions on the coefficient tables (kernel-decided) and Taylor expansions, stability of Adams methods by induction with a monotone bound, of BDF2 by a weighted norm of error and error increment; refutations by solving the recurrences on two equations | `LocalMultilevel`, `MultilevelConvergence` | partial: Proved (also without a global Lipschitz condition, the _local theorems): BDF2 second order; AdamsBashforth order 1 (first) and 2 (second); AdamsMoulton 1 (second), 2 and 3 (third). AdamsBashforth 3 and 4 are proved second order and refuted at third (forward Euler start-up, C123_adams_bashforth_order_refuted); AdamsBashforth 5 and AdamsMoulton 4 do not converge at all (coefficients do not sum to one); Leapfrog is proved first order and refuted at second (it solves forward Euler). |
| C124 | Convergence of the implicit and IMEX Runge-Kutta schemes | the schemes reduced to the textbook additive step (C11, C12); a step compared with reference stages that satisfy the stage equations up to a defect (stability of the stages), the defects bounded by Taylor expansion with the coupling order conditions of the two tables, global error by a discrete Gronwall inequality | `StageConvergence` | proved |
| C125 | Convergence of operator-split timestepping | a small calculus of one-step methods (stable, first order, second order): scaling by a weight, composition of a list by induction, and the identity that the second-order coefficients of a composition and of the reversed one add up to the exact one, so palindromic lists are of second order; the timestepper is reduced to the composition of the label flows by C21, also with captured timesteps (the first weight of a label takes effect); global error by a discrete Gronwall inequality | `SplitConvergence` | partial: Proved for accepted configurations with non-negative weights in which no capturing scheme is given two different timesteps and physics without weights is listed once; the limit equation is given for all weights (C125_limit). Refuted otherwise: unequal weights for a label whose solver captures its timestep converge to another equation. The Lie splitting of two second-order schemes is shown to be of first order only. |
| C126 | Convergence of spectral deferred correction | the sweep equations of C24 without the mass operator; the defect of the exact solution in them by Taylor expansion of the quadrature; a scalar recursion over the nodes and then over the sweeps (each sweep multiplies the error by h); the initial guess and the final update are estimated separately; global error by a discrete Gronwall inequality; the solver matrices frozen in the first step are carried through the run | `DCConvergence`, `DeferredBase` | partial: Proved up to the orders min(r+k-1, p) and min(r+k, p+1, s); the higher orders that Gauss, Radau and Lobatto nodes reach at the end of the step (superconvergence, up to 2M) are not proved. Refuted without the final update, or without sweeps, for nodes that do not include the end of the step, and for a base scheme whose cached solver holds the first spacing (C126_held_step_refuted: an order less; the proved order for it is GuessOrder.captured). |
| C127 | Convergence of revisionist integral deferred correction | the correction equations of C67, the defect of the moving stencil reduced to that of the unit tables, and the recursions of C126 with a table for each correction | `RIDCConvergence` | partial: Proved without physics terms. Refuted with physics terms: the first subinterval loses its source at every correction, and the run converges to (1 - 1/M) of the source. |
| C128 | The recovery operator, from constructor to recovered field | case analysis of the constructors into the exact acceptance condition; the loop over the components of project as a fold; induction over the calls; the affine reproduction from the kernel theorem of C31 applied to each component with its own effective coordinates | `Recoverer` | partial: Proved for the interpolation and projection operators left abstract. Refuted: UFL expressions (documented as sources) raise AttributeError with the Taylor method; vector targets other than CG1 are accepted with the Taylor method and degraded to CG1; the extruded method accepts vector-valued HCurl targets; the hcurl method on a VectorElement fails at the first project; vector targets whose dimension is not the default are rejected. |
| C129 | The semi-implicit quasi-Newton timestepper converges to the equation made of all its parts | a calculus of families of maps depending on the timestep (uniformly Lipschitz on bounded sets, equal up to O(h^p)), closed under sums, composition and Taylor expansion; the timestep written as old state plus h times such a family, by induction over inner and outer iterations (each outer iteration gains an order); the linear solver by a Neumann argument; the global error by a discrete Gronwall inequality with a bootstrap keeping the iterates near the solution | `SiqnConvergence` | partial: Proved: first order in general, second order in the centred case without physics. Refuted: one outer iteration is only first order (C129_one_outer_refuted); a prognostic outside the solver gets only (1-alpha) of its forcing, so the model converges to another equation (C129_outside_solver_refuted). Zero boundary conditions change nothing (C143_siqn). Hydrostatic switch and time-dependent reference profiles are not modelled here. |
| C130 | The TR-BDF2 quasi-Newton timestepper converges to the solution of its equation | the TR stage is shown to be the outer loop of a semi-implicit timestepper and the inner loop of the BDF stage one of its inner loops, so the lemmas of C129 apply; the combined transported states are expanded to the second order on bounded sets and the coefficients of the two stages added up; stability and summation of errors as in C129 | `TrBdf2Convergence` | partial: Proved: first order in general (with slow physics weighted by gamma3, and every field transported or one outer BDF iteration), second order without physics. Refuted: slow physics has the weight gamma3, which is one only for gamma = 1/2 (C130_slow_weight_refuted); a forced field without a transport scheme converges to another equation with two or more outer BDF iterations (C130_untransported_refuted); with one outer iteration of either stage the order is one (C130_one_outer_refuted). Zero boundary conditions change nothing (C143_trbdf2). Hydrostatic switch and time-dependent reference profiles are not modelled here. |
| C131 | Dumped diagnostics agree with the dumped state | evaluation in an order that respects requirements (C17) makes a consistent state, shown by induction over the schedule; consistent states with the same other fields are equal, which gives independence of order; an invariant over the events of a process | `DiagnosticLife` | partial: Proved for diagnostics that are to be dumped. Refuted: a diagnostic with to_dump=False is a derived field, so a second run of the same process ignores requirements on it and evaluates in the wrong order (C131_second_run_refuted). Diagnostics with memory are C92; duplicates of Courant diagnostics C91. |
| C132 | The life of a diagnostic field | case analysis of constructor and setup; invariants of the lookups in the domain and the state; induction over sequences of setups | `DiagnosticLife` | partial: Proved, except refuted parts: the assertion message fails with AttributeError for every unknown method (C132_message_refuted); a name that is already a field in another space is accepted and fails at evaluation (C132_same_name_refuted); a space whose name is taken is not added (C132_space_name_refuted). |
| C133 | The netCDF field file | the file as dimensions, variables and groups with the name checks of the library; an invariant describing the whole file after any list of dumps, built on C19 for the ranks' slices; names shown to be distinct by their first characters | `NetCDF` | partial: Proved for all scalar-valued output fields, for new runs and for runs that pick up with the same numbering of the nodes (C133_record, C133_pick_up, C133_metadata). Refuted: fields with several components (the velocity) are left out (C133_vector_refuted); a run that picks up with another numbering of the nodes, e.g. on another number of ranks, writes under the coordinates of other nodes (C133_renumbered_refuted); with a missing file rank 0 raises and the other ranks wait for ever (C133_missing_file_refuted); a further output field makes the first dump after picking up fail (C133_new_field). |
| C134 | Consistent metric term: the wind that transports theta | transport_fields as a fold over single and simultaneous entries with xstar, xp, adv_z and the wind as state; an invariant after the pass for z; refinement to the loop without the term (QuasiNewton.lean), so that every theorem about the timestep applies; linear algebra for the effect of the correction | `ConsistentMetric` | partial: Proved for the semi-implicit stepper with single-field schemes (C134_transport, C134_fields, C134_timestep, C134_no_drift, C134_exact, C134_height_moves_with_w, C134_bound). Refuted: TR-BDF2 raises an AttributeError in every transport step (C134_tr_bdf2_refuted) and divides the rate by a factor its wind already contains (C134_tr_bdf2_factor_refuted); theta in a simultaneous scheme is transported by the standard wind (C134_simultaneous_refuted); with predictor 'z' the wind for theta stays zero (C134_predictor_refuted). |
| C135 | SUPG: which test function each term gets | forms as functions of velocity symbols and of the test function, ufl.replace as substitution; an invariant over the loop over suboptions saying which symbol each term contains and how often its test function was adjusted; pointwise algebra for tau | `SUPG` | partial: Proved: C135_all, C135_suboptions, C135_at_most_once, C135_consistent, C135_budget, C135_constant, C135_tau, C135_dissipation (spaces continuous in all directions). Refuted: the form for all but the last Runge-Kutta stage keeps the standard test function (C135_all_but_last_refuted); velocities in HDiv get tau = 0 silently (C135_hdiv_refuted); in spaces continuous in some directions the SUPG part can be anti-dissipative for oblique flow (C135_directional_refuted); a term with two listed labels is adjusted twice (example). |
| C136 | Compressible Euler equations with tracers, diffusion and extra terms | the constructor as a sequence of loops that stop at the first exception; the residual is a permutation of the one of C100 and the additional terms; sums by induction over the lists; derivatives term by term | `EulerFull` | proved |
| C137 | Prognostic variables and function spaces of the equation sets | the user's dictionaries and lists as numbered objects that constructors read and write, also when they raise; loop specification by induction over the tracers; histories by induction, sharing by a simulation between dictionaries that agree on conflicts | `EqNames` | partial: Proved for classes that use the dictionary, for shared objects with one space per tracer name and without chains of densities. Refuted otherwise: the six shallow-water classes ignore space_names (C137_ignored_refuted), a shared dictionary remembers the tracers of earlier sets (C137_reuse_refuted), also of failed ones (C137_retry_refuted), a chain of densities gives another order at each call (C137_chain_refuted), an empty list of tracers is refused (C137_empty_refuted). |
| C138 | A requested limiter acts on everything a scheme returns | the last write to the returned field, for every state of the object: induction over stages, cycles and sweeps; inactivity through the Shu-Osher form of C115; the time-parallel schemes through their equivalence with the serial ones (C25, C26) | `LimitedSchemes` | partial: Proved for the explicit Runge-Kutta schemes (three formulations), SDC, RIDC, parallel SDC and (without sources) parallel RIDC. Refuted: BackwardEuler and the multi-level schemes accept a limiter and ignore it (C138_backward_euler_refuted, C138_multilevel_refuted; IMEX: C12_limiter_refuted); SDC without sweeps (C138_sdc_no_sweep_refuted); the transfer back of a wrapper can undo the limiting (C138_wrapped_refuted); physics sees unlimited fields in the increment formulation (C138_sources_refuted). An augmentation with its own limiter: C81. |
| C139 | Deferred correction covers a step with its base scheme and leaves the timestep of the model alone | a store of timestep cells (the scheme's own, the domain's, plain numbers) and what the cached forms refer to; an invariant over the nodes and over the steps | `DeferredBase` | partial: Proved for a base scheme without subcycling: the timestep of the model is left alone and the base scheme of the first guess is determined. Refuted: a base scheme with a cached solver keeps the spacing of the first node at all nodes (C139_plain_base; the lost order is C126_held_step_refuted, with Lobatto nodes the guess is a copy: C139_lobatto_refuted); fixed subcycles of the base scheme divide the timestep of the model (C139_fixed_subcycles_clock_refuted, C139_model_time_refuted) and make the guess overshoot (C139_fixed_subcycles_guess_refuted); adaptive subcycling fails (C139_adaptive_refuted). |
| C140 | The solver parameters that a user passes are the ones used | dictionaries as objects in a heap that schemes refer to; the effect of setup key by key, its idempotence, and an invariant over the list of setups | `SolverParams` | partial: Proved for implicit schemes and, up to the forced keys, for explicit schemes. Refuted: explicit schemes replace ksp_type, pc_type, sub_pc_type and snes_type and write into the dictionary of the user (C140_explicit_refuted); a shared dictionary switches Newton's method off in an implicit scheme (C140_shared_refuted) or in an explicit scheme with a nonlinear time derivative (C140_two_explicit_refuted). |
| C141 | Every stage of an explicit scheme solves its own mass system | one Newton step with the operator kept from the first solve (the meaning of ksponly and snes_lag_jacobian=-2 in PETSc, which is trusted); linear algebra; the mass term of SUPG from C135 | `SolverParams` | partial: Proved when the mass operator is constant (C141_constant_mass), with an exact criterion in general (C141_exact_iff). Refuted when it changes, as with SUPG and a changing wind (C141_changing_mass_refuted, C141_supg_mass). |
| C142 | Dirichlet conditions hold after every step | a solver with prescribed values enforces them (the meaning of bcs in a variational problem, trusted); loop invariants for stages, nodes and outer iterations; the set-up of the conditions as a function of wrapper, augmentation and role | `BoundaryConditions` | partial: Proved for all schemes that solve for fields, for deferred correction, for the choice of conditions and for the quasi-Newton timesteppers. Refuted: increment formulations (the default of explicit Runge-Kutta) impose the values on the increments, so nonzero values drift by dt g per step and a wrong value is never corrected (C142_increment_refuted, exact values in C142_increment_rk and C142_increment_irk); physics schemes of split timesteppers and schemes with MeanMixingRatio get no conditions (C142_conditions_refuted, C142_split_physics_refuted); the way back conservative_project ignores them (C142_conservative_back_refuted). |
| C143 | A scheme with boundary conditions is the same scheme for the constrained equation | a simulation relation between labelled forms, solvers, limiters and scheme objects on (interior, boundary) pairs and on interior values, preserved by every operation on residuals and every loop | `ConstrainedEquation` | proved |
| C144 | Symmetries and relabelling | the simulation relation of C143 for an arbitrary linear map; every operation and loop of the schemes and of the quasi-Newton timesteps keeps it; example: rotations of a ring of N cells with upwind transport | `Symmetry` | proved |
| C145 | Implicit transport keeps bounds | discrete maximum principle: where the implicit result is largest nothing larger flows in, which also makes the implicit system uniquely solvable, so an exact solver returns that result; the schemes are compositions and convex combinations of implicit steps and of explicit steps with Courant number at most one (C91); for densities the total over the cells with negative values; a two-cell duct shows the limits are sharp | `ImplicitBounds` | proved |
| C146 | Two runs of the implicit schemes do not drift apart | the work of the difference of two tendencies over the difference of two states is not positive; B-stability identities for the schemes (symplectic tableaux with non-negative weights for Runge-Kutta, the G-norm for BDF2); triangle inequality for the tolerance; a one-sided friction refutes TrapeziumRule | `Contractive` | proved |
| C147 | Superposition, and related tracers stay related | maps of fields and of assembled forms that carry one equation to another are carried through every residual, loop and state of the schemes; two copies of the equation with the maps (x,y) to x, y and a x + b y; exact solvers by uniqueness of the solution; constants are steady states (C112); a clipping limiter refutes the claim without its hypothesis | `Superposition` | proved |
| C148 | The divergence predictor of SemiImplicitQuasiNewton | the predictor branch of transport_fields as a rewriting of the list of transport schemes (equal lists give equal steps; totals through C118; spin-up through C64); a depth in a uniformly diverging wind with exact transport, solved in closed form for every number of iterations, for the refutations | `Predictor` | partial: Partial because three parts are refuted (request honoured, second order, large timesteps). The interpolation into DG is a given map and the predicted field is taken to live in that space. |
| C149 | The time levels hold the fields they should | a heap of cells indexed by level and position, Functions as lists of cells, names looked up as attributes are; the loops of update and initialise by induction on the list of fields and on the levels; refinement to the levels of the multi-level model; a two-field example refutes clashing names | `TimeLevels` | partial: Partial because two parts are refuted (mixed auxiliary equations, clashing names). Names that are attributes of the class itself are not modelled. |

## Model files: what each covers and how it simplifies

The text of each entry is the header of the model file.

* `Model/Augmentation.lean`: Augmentations Model of `gusto/spatial_methods/augmentation.py` (interface, `MeanMixingRatio`, and the data flow of `VorticityTransport`) and of the places where the time discretisations call them: `wrapper_apply` (time_discretisation.py:33-61), `ThetaMethod.apply` (855-874), the `apply` of the implicit schemes (718-734), `ExplicitTimeDiscretisation.apply` (593-609) and `ExplicitRungeKutta.apply_cycle` / `solve_stage` (explicit_runge_kutta.py:349-368, 434-454). Simplifications: Functions are values; the forms of `VorticityTransport` and its vorticity solve are parameters.
* `Model/BLMixing.lean`: Boundary layer mixing Model of `BoundaryLayerMixing` (gusto/physics/boundary_and_turbulence.py:541-692) at quadrature level, as in the model of the discontinuous Galerkin forms. The facets of the mesh are those of `dS_v`: the interior facets between columns. The facets between the layers of one column (`dS_h`) do not occur in the form. Simplifications: the vertical unit vector `k` is constant (Cartesian domains); the reduced quadrature degree only means that the weights are those of a rule of degree 4; the value of the diffusivity, its derivatives and the recovered density are functions given by their data.
* `Model/BoundaryConditions.lean`: Dirichlet boundary conditions The conditions an equation holds (`equation.bcs`), the ones a time discretisation gives to its solvers (time_discretisation.py:219-223, 277-330, 357-378), and what a variational solver does with them.
* `Model/Boussinesq.lean`: The Boussinesq equation sets Model of `gusto/equations/boussinesq_equations.py`, with the conventions of `Model/ShallowWater.lean`. The prognostics `u`, `p`, `b` are the components `u`, `D`, `b` of a state `St`; `qt` is not used. Simplification: one quadrature rule for all cell integrals.
* `Model/BoussinesqBalance.lean`: Hydrostatic balance of the Boussinesq equations Model of `boussinesq_hydrostatic_balance`, hydrostatic_initialisation.py:20-93. `V` is the space of vertical velocities with the boundary condition imposed (`bcs`, lines 52, 69), `Q` the space `DG`. Solving is a relation between the right-hand side and the solution: exact solvers; the solver parameters (lines 77-89) are left out. `p0.project(pprime)` (line 93) is the identity, `p0` being in `DG`.
* `Model/Columns.lean`: Column data Model of `Coordinates.get_column_data` and `Coordinates.set_field_from_column_data` (gusto/core/coordinates.py:111-238). `H` is the type of horizontal positions: `K` on vertical slices, `K ×ₗ K` (ordered by X, then Y) in three dimensions; `round` is the rounding of lines 140-152 and `close` the test of lines 169-176. `pandas.DataFrame.sort_values` with several keys is a stable lexicographic sort.
* `Model/CommonForms.lean`: The common forms and the splitting of transport terms Model of `gusto/equations/common_forms.py`. Simplifications: smooth fields are elements of a commutative `ℚ`-algebra `R` with commuting or non-commuting derivations `D i` (the partial derivatives); a form is the integrand that `dx` integrates, as a function of the state and the test functions. Transported fields are scalar except in the vector-invariant forms. The subject of every term is the state `X` (the forms are built before any replacement of the subject); the velocity is either the component `u` of the state or a prescribed field.
* `Model/ComplexProxy.lean`: Complex-valued proxy spaces Model of `gusto/complex_proxy/` (`common.py`, `mixed_impl.py`, `vector_impl.py`). A Function on a mixed space is the list of its components; `X` is the type of the value of one component.
* `Model/CompressibleSolver.lean`: The hybridised preconditioner of the compressible Euler equations Model of `CompressibleHybridisedSCPC`, preconditioners.py:421-789, with the conventions of `Model/Euler.lean`. Simplifications: one quadrature rule for all cell integrals and one for all facet integrals; the solvers are exact, so what one application returns is stated by the equations it solves (`Applied`).
* `Model/Configuration.lean`: Configuration objects Model of `gusto/core/configuration.py`, `gusto/core/equation_configuration.py` and `gusto/rexi/rexi.py:15-22`. Simplifications: a Python object is the list of attributes of its class with their defaults and the list of the attributes set on the instance (later entries in front). Names inherited from `object` (`__doc__`, ...) are not represented, so that `hasattr` ranges over the attributes and methods written in the classes. Floating-point numbers are rationals.
* `Model/ConsistentMetric.lean`: The consistent metric term of the quasi-Newton timesteppers The branch of `transport_fields` which transports a height field first and corrects the wind which transports the potential temperature (semi_implicit_quasi_newton.py:242-267, 380-391, 432-437, 464-513; tr_bdf2_quasi_newton.py:219-244, 333-341, 374-379, 404-436). Functions of the transporting schemes and of finite element interpolation and projection are maps.
* `Model/CoordTransforms.lean`: Coordinate transforms Model of `gusto/core/coord_transforms.py`, pointwise and over the real numbers (no rounding). The functions of numpy and firedrake that the module chooses between (17-38) have the same real meaning: `cos`, `sin`, `sqrt`, `acos`, `pi` and `atan2`.
* `Model/CubedSphere.lean`: The cubed-sphere mesh Model of `_cubedsphere_cells_and_coords` and `GeneralCubedSphereMesh`, core/meshes.py:437-632. The array `panel_numbering` is a function of panel, row and column, changed by the assignments of the code one after the other; `coords` is a function of the number of the point, changed by the writes of the six panels one after the other. Reals instead of floats, naturals instead of 32-bit integers. Left out: `plex_from_cell_list` and the mesh object; reordering, distribution and names.
* `Model/DGForms.lean`: The discontinuous Galerkin forms Model of the forms of `gusto/spatial_methods/transport_methods.py` and `gusto/spatial_methods/diffusion_methods.py`. A form is what its assembly by quadrature gives: a sum over quadrature points of the cells (`dx`), of the interior facets (`dS`, on which every function has the two values `'+'` and `'-'`) and of the exterior facets (`ds`). A function is the data that are read at those points: values and derivatives in the cells, values (and, for diffusion, gradients) on the two sides of the facets. Derivatives of products are expanded by the product rule, as UFL does. Simplifications: transported fields are scalar except in the circulation forms, which are those of the plane and of three dimensions; `dx` and `dS` each have one quadrature rule; `ds_v + ds_t + ds_b` is one measure.
* `Model/DeferredBase.lean`: The timestep of the base scheme of deferred correction Model of who holds which timestep: the attribute `dt` of a time discretisation (gusto/time_discretisation/time_discretisation.py 95-98, 413-421, 428-452, 509-526, 571-606), of the domain and of the time loop (gusto/timestepping/timestepper.py 239-251), and what the deferred correction schemes (gusto/time_discretisation/deferred_correction.py 134-137, 442-446, 822-825) do to the one of their base scheme. Simplifications: a `Function` on the space of constants is a cell with one number; the step of a scheme is a function of the number its cached forms evaluate to, of the current number and of the state; the solver is built in the first call of `apply`; wrappers are left out.
* `Model/DeferredCorrection.lean`: Deferred correction schemes Model of `gusto/time_discretisation/deferred_correction.py`: the serial SDC (92-540) and RIDC (543-912) schemes. Simplifications: the quadrature tables `Q`, `Qfin`, `Qdelta_imp`, `Qdelta_exp` and the node spacings `dtau` (already multiplied by `dt`, 165-171) are data of the scheme, whatever the library `qmat` returned; arrays of Functions are functions of the index; the base scheme is a function of its time step and input; `evaluate` is the list `self.evaluate_source`, each a function of the time step and the state. Boundary conditions are a matter of the solver (Model/BoundaryConditions, C142, C143); the options prefixes of the solvers are left out.
* `Model/DeferredInit.lean`: Construction of the deferred correction schemes Model of the constructors of `SDC` and `RIDC` (gusto/time_discretisation/deferred_correction.py 95-195 and 546-618), of the Functions that `setup` allocates, and of a loop of steps. Simplifications: the tables that `qmat` returns for the unit interval are data; `K` need not be the floats.
* `Model/DiagnosticLife.lean`: The life of diagnostic fields Model of `DiagnosticField` (gusto/diagnostics/diagnostics.py 120-221), of the way `IO.setup_diagnostics` and `IO.dump` (gusto/core/io.py 336-368, 745-749) use the diagnostics over the life of a process, and of the part of `StateFields.__call__` (gusto/core/fields.py 164-235) which they rely on.
* `Model/Diagnostics.lean`: Diagnostics Model of `gusto/diagnostics/diagnostics.py`, of the kernels `MinKernel`, `MaxKernel` of `gusto/core/kernels.py`, and of the parts of `gusto/core/io.py` which log Courant numbers and compute diagnostics over the life of a run.
* `Model/DomainGeometry.lean`: The geometry of a domain Model of the parts of `Domain.__init__` on the geometry (core/domain.py:97-164), of `Domain.set_height_above_surface` (core/domain.py:166-197), of `construct_domain_metadata` (core/domain.py:200-253) and of `Coordinates.__init__` (core/coordinates.py:18-57). Degrees and spaces are in `Verif.Model.Spaces`, the perpendicular in `Verif.Model.ShallowWater`, the longitude and latitude in `Verif.Model.CoordTransforms`.
* `Model/EqNames.lean`: The prognostic variables and function spaces of the equation sets Model of the first part of the constructors of the equation sets: `field_names`, `space_names` and `active_tracers` as Python objects, which the constructors can share with the user (equations/prognostic_equations.py 78-129, 304-352, equations/shallow_water_equations.py 71-80, 337-360, 700-709, equations/compressible_euler_equations.py 86-97, equations/boussinesq_equations.py 82-96). Simplifications: function spaces are their names; `domain.spaces` is a test for the name. What the constructors do after the spaces are built (residual, boundary conditions) changes none of these objects and is not repeated here.
* `Model/EquationDiagnostics.lean`: Diagnostics of the shallow-water and of the compressible Euler equations Model of `gusto/diagnostics/shallow_water_diagnostics.py` and `gusto/diagnostics/compressible_euler_diagnostics.py`.
* `Model/EquationSet.lean`: Equation sets: active tracers, mass and transport terms, boundary conditions, linearisation Model of `gusto/equations/prognostic_equations.py` and `gusto/equations/active_tracers.py:48-101`. Simplifications: the entries of `active_tracers` are `ActiveTracer` objects (the `TypeError` of :352 is not modelled); function spaces are their names (`domain.spaces` is injective on names and total).
* `Model/Euler.lean`: The compressible Euler equation set Model of `gusto/equations/compressible_euler_equations.py`, with the conventions of `Model/ShallowWater.lean` and `Model/Boussinesq.lean`, over the real numbers because of the Exner pressure. Simplifications: one quadrature rule for all cell integrals (`dx` and `dx_qp`); the mass and transport terms of the active tracers (those of `Model/EquationSet.lean`), diffusion and the extra terms given by the user are left out.
* `Model/EulerFull.lean`: The compressible Euler equation set with tracers, diffusion and extra terms The parts of `CompressibleEulerEquations.__init__` (compressible_euler_equations.py 41-289) that `Model/Euler.lean` leaves out: the names, mass terms and transport terms of the active tracers, the diffusion terms and the extra terms of the user. Simplifications: the spaces of tracers agree with `space_names`; the order in which `add_tracers_to_prognostics` puts the tracers is that of the list (C55 is about it); the form in the label `mass_weighted` is that of C78 and only marked here; the diffusivity is a number; the label `prognostic` of these terms is not recorded, it is the field whose test function the form contains.
* `Model/ExplicitRK.lean`: `gusto/time_discretisation/explicit_runge_kutta.py` The three formulations of an explicit Runge-Kutta scheme, with limiter, physics sources and subcycling. Not modelled: wrappers, augmentation (so `augmentation.update/limit` are absent), boundary conditions (C142, C143), and the mixed-space `split_form` of the all-but-last form. Python lists of Functions become functions `ℕ → X` updated with `Function.update`.
* `Model/FML.lean`: Labelled forms Model of the parts of `firedrake.fml` that gusto uses, with the labels of `gusto/core/labels.py:89-118`. Simplifications: a UFL form with its subject is a function `op : X → D` from the space of states to the space of assembled residuals together with the state `subj` it is currently evaluated at; test functions are not represented (a form is its assembled value). A label whose value is itself a form (`linearisation`, `all_but_last`, `mass_weighted`) keeps that form in `attached`.
* `Model/FlatLatLon.lean`: The flat longitude-latitude mesh Model of `get_flat_latlon_mesh`, core/meshes.py:609-670, on one rank: the nodes of the discontinuous linear coordinate field, cell by cell. `PI` and `TWO_PI` of the kernel, doubles with 16 digits, are `π` and `2 π`; reals instead of floats. Left out: the interpolation of the coordinates into the discontinuous space, the mesh object.
* `Model/Hydrostatic.lean`: Hydrostatic initialisation Model of `gusto/initialisation/hydrostatic_initialisation.py`: the control flow of the two moist routines and the variational problem of `compressible_hydrostatic_balance`. Simplifications: a field is an element of a vector space over the rational numbers (only the damping uses the linear structure; `delta` is 1 or 0.8); the thermodynamic expressions, the recovery of the density, the error tests and `compressible_hydrostatic_balance` (which starts from the Exner pressure of the linear problem, not from the old density) are parameters.
* `Model/Icosphere.lean`: The icosahedral mesh of the sphere Model of `GeneralIcosahedralSphereMesh`, core/meshes.py:17-434. The arrays filled in loops with a running counter are lists built by the same nested loops. The vertices are built in any real vector space from the twelve base vertices (`V = ℝ³` is the code). An index outside of an array, which raises `IndexError`, is represented by the number of vertices, which is not the number of a vertex. `int(a / 2)` is exact division. Left out: `plex_from_cell_list` and the mesh object; reordering, distribution and names.
* `Model/ImplicitRK.lean`: Implicit and IMEX Runge-Kutta schemes `gusto/time_discretisation/implicit_runge_kutta.py` and `imex_runge_kutta.py`. Not modelled: wrappers, boundary conditions (see C142, C143), solver parameters. Scalars multiplying a term are collected into one `scaleTerm`.
* `Model/LimiterArgs.lean`: The argument `limiter` of the implicit one-step and of the multi-level schemes The constructors store the limiter in the object (time_discretisation.py:100); the methods that compute a step do not read it.
* `Model/Limiters.lean`: Limiters Model of `gusto/spatial_methods/limiters.py` and of the kernels of `gusto/core/kernels.py`. A field is a function from degrees of freedom to values. A `par_loop` runs the kernel cell by cell; a cell is the list of its degrees of freedom. Values are elements of an ordered field: rounding is not modelled. Interpolation between two nodal bases of the same discontinuous space is exact, so fields in DG1 are represented by their values at the vertices (equispaced basis).
* `Model/Logging.lean`: Logging: `gusto/core/logging.py` What importing gusto does with the environment, what reaches the console and the log file of a rank, and the move of the temporary log file into the results directory. Left out: the format of the records, handlers that a user attaches to the root logger, and the time at which buffers are written.
* `Model/MPI.lean`: Message passing Semantics of the blocking point-to-point MPI calls used by gusto through Firedrake's `Ensemble` (`comm.send`, `comm.recv` in parallel_dc.py:125-126, 130-131, 166-167, 171-172, 207-208, 219, 221). A rank runs a list of operations. The messages in transit from one rank to another form a list; `recv` with a tag takes the first message with that tag (MPI: messages do not overtake). A blocking standard-mode `send` may complete by copying the message to a buffer (`eager`) if the MPI library chooses so, or together with the matching `recv` (`rendezvous`). MPI guarantees progress only for local work, for the receipt of a message in transit and for a rendezvous; a program that relies on buffering may deadlock. Simplification: collective operations (reduce, allreduce, bcast) are modelled as point-to-point messages from or to the root.
* `Model/ModelClasses.lean`: The model classes Model of `gusto/model/model.py`, of `RecoverySpaces` (recovery/recovery_options.py) as far as it fails, and of the part of `SemiImplicitQuasiNewton.__init__` that matches schemes with spatial methods (semi_implicit_quasi_newton.py:237-299, 331-345). Simplifications: an equation set is the list of its prognostics, each with the name of its space and the types of its transport terms; limiters, subcycling options and the parameters of the diffusion are left out.
* `Model/Multilevel.lean`: Multi-level schemes: `gusto/time_discretisation/multi_level_schemes.py`, and the time levels of `gusto/core/fields.py` / `gusto/timestepping/timestepper.py`. The previous levels handed to `apply` are `x 0` (oldest) … `x (nlevels-1)` (newest). Not modelled: `setup` beyond the coefficient tables, boundary conditions (see C142, C143), solver parameters.
* `Model/NetCDF.lean`: The netCDF field file (gusto/core/io.py, gusto/core/coordinates.py) `IO.setup_dump` (the netCDF part), `IO.create_nc_dump`, `IO.write_nc_dump` and `Coordinates.register_space`. A degree of freedom of a scalar space is identified by a point of type `P` (its node); a space is given by the lists of the nodes that the ranks own, in their local order. A field of the model is a function on the nodes.
* `Model/NumericalIntegral.lean`: Tabulated integrals Model of `gusto/initialisation/numerical_integrator.py`, with the parts of NumPy it uses (`linspace`, `interp`). Simplifications: exact arithmetic; the integrand acts on each entry of the array it is given; `evaluate_at` is given one point.
* `Model/ParallelDC.lean`: Time-parallel deferred correction Model of `gusto/time_discretisation/parallel_dc.py`: the program each rank of the ensemble runs. Messages are fields. The space communicator of each ensemble member is not modelled.
* `Model/ParallelIO.lean`: Parallel output (gusto/core/io.py, gusto/core/coordinates.py) A collective operation is modelled by a function of the list of the ranks' contributions, in rank order. `locals` are the ranks' arrays of owned degrees of freedom (`dat.data_ro`).
* `Model/Physics.lean`: Physics parametrisations Model of `gusto/physics/`: the source expressions of each parametrisation at one point (degree of freedom) and the terms they add to the residual of the equation. Simplifications: real numbers instead of floating point; interpolating an expression into the space of a field is evaluating it at the degrees of freedom (exact for the point-evaluation spaces used); the fields that a scheme couples have the same degrees of freedom; the density recovered to the points of theta is an input `rhoAvg`; the projection of a vector source into the velocity space is the identity. Wind vectors are represented by their value at a point.
* `Model/Predictor.lean`: The divergence predictor of `SemiImplicitQuasiNewton` The `predictor` option of timestepping/semi_implicit_quasi_newton.py: which entries of the list of active transport schemes it changes, and what it does to them. The interpolation of `q * div(u)` into the DG space is a given map `divMul`; the predicted field is taken to live in that space, so that interpolating `q` alone returns `q`.
* `Model/PrescribedTransport.lean`: Prescribed transporting velocities Model of `PrescribedTransport` (gusto/timestepping/timestepper.py:383-507) and `SplitPrescribedTransport` (gusto/timestepping/split_timestepper.py:244-404) with the loop of `BaseTimestepper.run` (timestepper.py:196-267). Simplifications: the prognostic state is one value of type `X`, the velocity field `u` one of type `V`; the dynamics is a one-level scheme, a function of the velocity, the time and the state; of the output only the pairs (time written to the row, velocity, state) are kept; the pick-up reads a checkpoint with the time, `u` and the state. The function of the user for `setup_prescribed_apply` only changes `u`.
* `Model/Projection.lean`: Conservative projection, reversible and conservative recovery Model of `gusto/core/conservative_projection.py` and `gusto/recovery/reversible_recovery.py`. Scalar fields are elements of a commutative algebra `A` over the field `K` of real numbers (pointwise product of functions on the mesh); `int : A →ₗ[K] K` is integration over the domain (`assemble(. * dx)`) and a function space is a subspace of `A`. A linear variational solver is a parameter: the theorems assume that it returns a solution of the variational problem it was built for. (Vector-valued mixing ratios are excluded: `m_source - self.m_mean` is a UFL shape error for them.)
* `Model/QNSetup.lean`: Building a quasi-Newton timestepper: `SemiImplicitQuasiNewton.__init__` and `TRBDF2QuasiNewton.__init__` The checks of the constructors (semi_implicit_quasi_newton.py:166-343, tr_bdf2_quasi_newton.py:150-276), the lists of schemes they build, and the terms of the equation each scheme gets (`setup_scheme`, semi_implicit_quasi_newton.py:428-448, tr_bdf2_quasi_newton.py:368-388, split_timestepper.py:214-233). Not modelled: auxiliary equations, the objects built for the linear solvers, the fields.
* `Model/QuasiNewton.lean`: `timestepping/semi_implicit_quasi_newton.py` and `timestepping/tr_bdf2_quasi_newton.py` The mixed state is a dependent function from field indices to the space of each field. Schemes (transport, physics, diffusion) are maps; the forcing right-hand sides are built from the labelled residual as in the code; the linear solver is described by the equation it solves. Not modelled: the boundary conditions inside the forcing and linear solves, the consistent metric term, auxiliary equations, logging, solver parameters.
* `Model/Recoverer.lean`: The Recoverer and BoundaryRecoverer objects Model of the constructors and of `project`/`apply` of `gusto/recovery/recovery.py` 41-310, and of `find_eff_coords` for vector-valued spaces. Interpolation and L2 projection into the broken space are abstract operators of the source field. The shape check of Firedrake's `Projector`, and the errors that Firedrake raises when a source of another shape is interpolated, are not modelled.
* `Model/RecoveryKernels.lean`: Recovery: averaging and the boundary kernels Model of `gusto/recovery/averaging.py`, `gusto/recovery/recovery_kernels.py` and of the classes `BoundaryRecoverer` and `Recoverer` of `gusto/recovery/recovery.py`. A mesh is a list of cells; a cell gives the global degree of freedom of each of its local ones. One component of a field is treated (the components `j` of the kernels do not interact). A `par_loop` visits the cells in the order of the list; theorems show where the order does not matter. Numbers are elements of an ordered field (no rounding). Halo exchanges are not modelled.
* `Model/RefProfiles.lean`: Reference profiles: setting, checkpointing and picking up `BaseTimestepper.set_reference_profiles` (gusto/timestepping/timestepper.py:269-308), the part of `IO.dump` that stores fields and the part of `IO.pick_up_from_checkpoint` that finds reference profiles (gusto/core/io.py:560-721, 757-801). Fields are objects of the registry of `Model/Registry` with a function space and a value. Simplifications: values are opaque, a space is never mixed, HDF5 files are association lists from names to a space and a value.
* `Model/Registry.lean`: `StateFields` (gusto/core/fields.py:106-250) Objects are identified by a number; a newly created Function gets a number not used before.
* `Model/Rexi.lean`: REXI: rational approximation of exponential integrators Model of `gusto/rexi/rexi_coefficients.py` and of the distribution and summation in `gusto/rexi/rexi.py`. Complex numbers instead of `complex128`; arrays are lists or functions on the natural numbers.
* `Model/SUPG.lean`: SUPG: the adjusted test function `SUPGWrapper` (time_discretisation/wrappers.py 311-422), the part of `TimeDiscretisation.setup` which uses it (time_discretisation/time_discretisation.py 305-329) and `BaseTimestepper.setup_transporting_velocity` (timestepping/timestepper.py 121-166). A form is a function of the values of the velocity symbols in it and of the test function of its field; `ufl.replace` of a symbol or of the test function is substitution. Every `Function` made for a velocity is a symbol, numbered. Not modelled: the solvers.
* `Model/SetUp.lean`: Setting up the equation and the time discretisation Model of `SpatialMethod.__init__`/`replace_form` (`gusto/spatial_methods/spatial_methods.py`), of `TransportMethod.replace_form` (`gusto/spatial_methods/transport_methods.py:62-158`), of the selection of terms in `TimeDiscretisation.setup` (`gusto/time_discretisation/time_discretisation.py:148-269`) and of `BaseTimestepper.setup_equation` and `setup_transporting_velocity` (`gusto/timestepping/timestepper.py:75-171`). A form is a function of the values of the velocities it mentions: `Function`s created while the form is built (`Vel.func i`) and the velocity of the timestepper (`Vel.model`). `ufl.replace` is substitution. Simplifications: labels without a value that matters here are names; the forms held in labels carry no further forms in labels; boundary conditions and wrappers are not part of this model.
* `Model/ShallowWater.lean`: The shallow-water equation sets Model of `gusto/equations/shallow_water_equations.py`. A form is what its assembly by quadrature gives (see `Model/DGForms.lean`). Simplifications: one quadrature rule for all cell integrals (`dx` and `dx(degree=quad)`), which is why exactness of the rule is a hypothesis where it matters; active tracers, whose terms are those of `Model/EquationSet.lean`, are left out; `perp` and `div(perp(.))` are those of a `Geom`, with the plane and the sphere as instances.
* `Model/ShallowWater1d.lean`: The one-dimensional shallow-water equation sets Model of `gusto/equations/shallow_water_equations.py:664-828`, of the one-dimensional forms of `gusto/equations/common_forms.py`, and of the one-dimensional spatial methods that replace their terms. The mesh is an interval or a circle cut into cells, a function is a polynomial with real coefficients on each cell, and `dx` is the integral (Mathlib's interval integral, not a quadrature). Simplifications: `fexpr` is the constant `f0` (the interpolation into `coriolis` is only for output); a diffusivity is a function of the same kind; the integrals over `dx(degree=quad)` and `dS(degree=quad)` are exact; `div` of a scalar in one dimension (common_forms.py:146-147) is its derivative; the side `'+'` of a facet is the cell on its left (all forms are symmetric in the sides).
* `Model/SiqnFamily.lean`: The semi-implicit quasi-Newton timestepper for every timestep The same model run with different timesteps `h`: the ingredients of `SemiImplicitQuasiNewton` (semi_implicit_quasi_newton.py:38-391) that do not depend on the timestep, and those that do as functions of it. Simplified: boundary conditions are identities (zero conditions change nothing: C143_siqn) and the hydrostatic switch is off.
* `Model/SolverParams.lean`: The solver parameters of the time discretisations `TimeDiscretisation.__init__` and `setup`, `ExplicitTimeDiscretisation.setup` and the constructors of the implicit schemes (gusto/time_discretisation/time_discretisation.py 140-145, 354-355, 512-546, 640-644, 776-782, 941-947, multi_level_schemes.py 444-448), `mass_parameters` (gusto/solvers/parameters.py 10-53). A Python dictionary is an object: the schemes keep a reference to the one of the user and write into it. The solver takes the contents at the time of its construction, in the first call of `apply` (time_discretisation.py 413-424, 571-578). Values are written as strings. The second part is the step that PETSc takes with these parameters: `ksponly` is one Newton step, and with `snes_lag_jacobian` -2 and `snes_lag_jacobian_persists` the Jacobian is built in the first solve and kept in all later ones.
* `Model/Solvers.lean`: Linear solvers: presets, quasi-Newton operator, Schur complements, hybridisation Model of `gusto/solvers/solver_presets.py`, `gusto/solvers/preconditioners.py`, of `QuasiNewtonLinearSolver` (semi_implicit_quasi_newton.py:873-1040) and of `schur_complement_form` of the Boussinesq and thermal shallow-water equations. What PETSc's field splits do with their sub-solvers is modelled with exact sub-solves.
* `Model/Spaces.lean`: The container of function spaces and the degrees of a domain Model of `gusto/core/function_spaces.py` and of the degree arguments of `gusto/core/domain.py`. A function space is described by its element; names are strings, concatenated as in the code. A Python attribute is a partial function from names; an attribute holding `None` is `some none`.
* `Model/SplitTimestepper.lean`: `gusto/timestepping/split_timestepper.py`: SplitTimestepper and SplitPhysicsTimestepper Labels are strings. A dynamics term of the equation is represented by the list of labels it carries. A scheme object is a step map that may read two timesteps: the one captured when its solver was first built (`cached_property solver`, time_discretisation.py:413-426 and the same pattern in the other scheme classes) and the one held by the object now (`scheme.dt`).
* `Model/StaticAdjustment.lean`: Static adjustment Model of `StaticAdjustment` (gusto/physics/boundary_and_turbulence.py:353-457). Fields are the lists of their values at the degrees of freedom of the theta space (water vapour lives in the same space); interpolating an expression is evaluating it at the degrees of freedom.
* `Model/Store.lean`: The same schemes as programs on a store of Functions Python passes `Function` objects by reference, so `apply(x_out, x_in)` may be called with the same object twice, and the scheme's own Functions persist between calls. Here a `Function` is a location, its data the contents of the location, `f.assign(e)` a write. Not modelled: wrappers, augmentation.
* `Model/Tableaux.lean`: Butcher matrices of the built-in explicit schemes `gusto/time_discretisation/explicit_runge_kutta.py`. Decimal literals are read as exact decimal fractions (the code holds their nearest double). `none` is `ValueError`.
* `Model/Thermodynamics.lean`: Thermodynamics Model of `gusto/equations/thermodynamics.py` and of the constants of `CompressibleParameters` (gusto/core/equation_configuration.py:81-101), pointwise and over the real numbers.
* `Model/TimeDisc.lean`: One-step schemes: `gusto/time_discretisation/time_discretisation.py` Residuals are built with the same sequence of label maps as the code. Not modelled: function spaces, boundary conditions (see C142, C143), wrappers/augmentation (see `Model/Wrappers`), solver parameters; floating point is replaced by a field `K`.
* `Model/TimeLevels.lean`: The fields of the time levels (gusto/core/fields.py) `Fields` and `TimeLevelFields` with the memory they share: a mixed Function owns one cell for each component, and the Functions of its components are views of these cells. Not modelled: the values of prescribed and diagnostic fields, names that are attributes of the class (`fields`, `add_field`), and the spaces beyond their number of components.
* `Model/TimeLoop.lean`: The time loop, its output and checkpoints Models `BaseTimestepper.run` (gusto/timestepping/timestepper.py:196-267), `IO.setup_dump`, `IO.pick_up_from_checkpoint`, `IO.dump`, `write_nc_dump` (gusto/core/io.py:370-931), `PointDataOutput`, `DiagnosticsOutput` (69-208) and the levels that `StateFields` marks for pick-up (gusto/core/fields.py:117-160). Simplifications: the prognostic state at one level is one value of type `X`; the contents of a row of an output file are the pair (time, prognostic state) from which the row is computed; VTU output, logging, reference profiles (`last_ref_update_time`) and prescribed fields are left out; of the two checkpoint methods `checkpointfile` without `multichkpt` is modelled.
* `Model/TopoSort.lean`: `topo_sort` and `IO.setup_diagnostics` (gusto/core/io.py:934-977, 336-368) A diagnostic field is identified with its name. The dictionary `graph` is a pair of functions on names; `list.remove` is `List.erase`.
* `Model/TrBdf2Family.lean`: The TR-BDF2 quasi-Newton timestepper for every timestep The ingredients of `TRBDF2QuasiNewton` (tr_bdf2_quasi_newton.py:33-341) that do not depend on the timestep, and those that do as functions of it. Simplified: boundary conditions are identities (zero conditions change nothing: C143_trbdf2) and the hydrostatic switch is off.
* `Model/TransportEquations.lean`: Transport and diffusion equations Model of `gusto/equations/transport_equations.py`, `diffusion_equations.py`, `advection_diffusion_equations.py` and of the constructor they share (`prognostic_equations.py:28-57`). Fields are as in `Verif.Model.CommonForms`: elements of a commutative `ℚ`-algebra with derivations, forms are integrands. Here a field may be a scalar or a vector with as many components as there are directions. UFL conventions: `grad(q)[i, j]` is the derivative of component `i` in direction `j`; `dot` contracts the last index of its first with the first index of its second argument; `div` contracts the last index; `*` of two matrices is the matrix product.
* `Model/Wrappers.lean`: Wrappers around time discretisations Model of `gusto/time_discretisation/wrappers.py`, of `wrapper_apply` (time_discretisation.py:33-61) and of the set-up of `MixedFSWrapper` (time_discretisation.py:110-134, 275-300). Simplifications: the value of a field is of one type `V` whatever its space; the transfer operators (interpolation, projection, recovery) are parameters; a conservative operator also reads the densities in the two spaces.

## Parts of the code that are not modelled

* Firedrake, UFL, PETSc, MPI, netCDF4, pandas, qmat themselves; assembly, quadrature.  What a solve does with boundary conditions is `solveWith` in Model/BoundaryConditions (C142, C143).
* `core/logging.py`, `solvers/parameters.py`; tolerances and iteration of the linear solvers.

## Discrepancies found between the code and its documentation or evident intent

Each is proved in the theorem named (a refutation), unless marked "not modelled".

1. AB5 (multi_level_schemes.py): the last coefficient is 2901/720 instead of 1901/720 (C09)
2. AM4 (multi_level_schemes.py): coefficient -254/720 instead of -264/720 (C09)
3. Leapfrog defines `rhs`, which is never used, instead of `res`: the scheme solves a forward Euler step (C08)
4. Linear Runge-Kutta formulation with two or more cycles counts increments twice (C06)
5. BackwardEuler and ThetaMethod with `fixed_subcycles` raise AttributeError (C05)
6. ImplicitRungeKutta, increment formulation: the cached `solvers` capture the diagonal entry of stage 0 (C11)
7. IMEXRungeKutta drops its `limiter` argument (C12)
8. SplitTimestepper: physics repeated without weights, physics schemes dropped, unequal weights with a cached solver, fixed subcycling n dt (C21); `subcycle_by_courant` assigns to a UFL product (not modelled)
9. PointDataOutput overwrites rows from 0 after a pick-up (C16)
10. IO counters restart at 1 after a pick-up (C16)
11. SemiImplicitQuasiNewton and TRBDF2QuasiNewton: the condition for updating reference profiles is always true; `last_ref_update_time` None raises TypeError (C23)
12. RIDC: the source at node 0 is never evaluated, a spurious term remains (C67)
13. SDC: recomputation of MIN-SR-FLEX matrices has no effect (C24)
14. SDC/RIDC: sources evaluated before the limiter (not stated as a property)
15. function_spaces.py: typo `"H1, HCurl"` in a tuple; families "DG"/None raise KeyError; a non-extruded domain with only horizontal_degree raises TypeError (C85)
16. MultilevelTimeDiscretisation.setup with active labels raises TypeError (not modelled)
17. setup_log_courant adds duplicate diagnostics; duplicate names in topo_sort (C17)
18. TRBDF2QuasiNewton: undefined `true_adv_z_projection` (not modelled); prognostics that are neither solver prognostics nor active tracers never advance (C65)
19. MeanLimiter does not clip negative means (C27)
20. `field_name + '_bar' in self.fields` tests an iterator of Functions (timestepper.py:281; not modelled)
21. rotated_lonlatr_coords / vectors apply R instead of its inverse: the new pole is at (lon + 180 degrees, lat) (C37, C70)
22. great_arc_angle with degrees changes the caller's arrays in place (C39)
23. EvaporationOfRain: signs of the factors reversed (C45)
24. SourceSink: `residual += source`, so the tendency is minus the rate expression (C74)
25. SurfaceFluxes, general formulation: extra factor 1/rho in the temperature flux (C48)
26. add_tracers_to_prognostics: a single swap pass fails for chains of densities, and the caller's list is changed (C55)
27. Rexi.solve ignores `beta2`, so `reduce_to_half` returns half the result (C77); the docstring of `b_coefficients` is wrong (C52)
28. split_continuity_form: the linearisation contains a term without trial function and misses one (C56)
29. IterativeDiagnosticField: docstring and code weigh with gamma differently (C90)
30. Predictor Runge-Kutta and IMEX schemes with two or more source-labelled physics schemes: the last source wins (C61)
31. BackwardEuler, ThetaMethod and the linear Runge-Kutta formulation replace the subject of source terms (C07)
32. setup with a list of field names and two or more active labels: `t.has_label(*labels)` is a non-empty list, always true (C82)
33. SSPRK3 with 5 stages: the decimal weights sum to 1 + 3.2373e-10 (C03)
34. SubcyclingOptions.check_options raises only if both options are given (C54)
35. IMEX schemes: a source term also labelled explicit is counted twice; IMEX_SSP3/Trap2 have different row sums (C12)
36. Checkpoint mode 'w' truncates: a crash during the write loses the checkpoint (C63)
37. StateFields accepts a wrong field_type (C18)
38. get_column_data on a rank without data raises IndexError (C33); the tolerance of numpy.isclose merges nearby columns (C33)
39. SemiImplicitQuasiNewton with accelerator and inner physics: each inner iteration adds physics again (C22); spin-up does not change alpha_u (C64)
40. TRBDF2QuasiNewton: BDF outer loop recombines untransported fields each iteration (C65); slow physics weighted by gamma3 (C66)
41. Parallel RIDC: stale source at node 0 (C26); K = 0 sends to a rank that does not exist (C26)
42. Parallel SDC with a strictly lower triangular explicit matrix uses never-updated values of other nodes (C25)
43. SDC with an explicit matrix that is not strictly lower triangular uses values of the previous step (C24)
44. Serial RIDC with K > M raises IndexError (C67)
45. DG1Limiter/MeanLimiter: the degree check never rejects integer degrees (C27)
46. ConservativeProjector with subtract_mean does not conserve mass for densities of different mass (C28)
47. BoundaryRecovery kernels on a single-layer mesh: the bottom loop overwrites the top correction (C32)
48. saturated_hydrostatic_balance with exner0 raises AttributeError; the non-convergence errors are never raised; the stopping test uses the average density of the iteration before (C72)
49. InstantRain with convective feedback is rejected at set-up (C46); relaxation times shorter than dt give negative vapour (C46)
50. Held-Suarez physics: `evaluate` lacks the parameter x_out (not modelled)
51. SuppressVerticalWind: without a spin-up step dt stays zero and the source is 0/0 (C50)
52. TerminatorToy (analytical) hard-wires the total 4e-6 (C47)
53. Coalescence with negative cloud makes rain negative (C44)
54. vector_impl.py:122 calls an int property (C53)
55. common_forms.py:265: circulation form in the plane has the opposite sign (C79)
56. Configuration rejects numbers for diagfreq, tolerance, h, M (C54); EquationParameters without mesh raises UnboundLocalError (C54)
57. split_hv_advective_form with two advective terms of a field loses terms (C56); split_continuity_form on a linear set inserts nonlinear terms (C56)
58. MixedFSWrapper: set-up changes equation.spaces through an alias; a conservative tracer before its density uses the density of the previous call; a density without wrapper raises KeyError; with an augmentation the wrapper is never applied (C58)
59. PrescribedTransport: output rows carry the velocity of the start of the step; the user's function is called once; one implicit physics scheme is accepted (C57)
60. MeanMixingRatio: a prognostic that is not an active tracer is accepted with a missing density; the limiting is never applied in the increment (default) and linear formulations (C80)
61. VorticityTransport: explicit schemes use a stale vorticity, implicit schemes other than theta methods always start with zero vorticity; any augmentation hides the limiter in the predictor formulation (C81)
62. transport_methods.py:751-757,793-802: the vector manifold correction uses a velocity `Function` of its own: in the advective form it is never replaced by the model velocity, so the correction is identically zero; in the continuity form its label overwrites that of the transport term, so the transport itself is evaluated with zero velocity (C83)
63. transport_methods.py:231-313: on one-dimensional meshes `outflow=True` and `advective_then_flux=True` are accepted and silently ignored, `outflow` also for mass-weighted (tracer_conservative) transport on every mesh; other transport types on one-dimensional meshes raise UnboundLocalError (C87)
64. function_spaces.py:300-309: family BDMCF/BDMCE on quadrilaterals is paired with the tensor product DG space of degree k, which is larger than the divergence of BDMCF(k+1) for k >= 1; in a vertical slice the HCurl space is built from DG(k+1) instead of DG(k) (C85)
65. kernels.py MinKernel/MaxKernel ignore NaN: a field of NaNs has minimum finfo.max and maximum finfo.min, so a blown-up run keeps logging finite Courant numbers (C90)
66. diagnostics.py XComponent/YComponent/ZComponent: unit vectors have length topological_dimension instead of geometric_dimension, so they raise on spherical_shell (C90)
67. diagnostics.py Gradient.setup: boundary terms only on top and bottom of extruded meshes; the gradient of a constant is not zero on a bounded plane (C90)
68. diagnostics.py:1035 TracerDensity: the vertical element is built on the horizontal cell, wrong on 3D extruded meshes (C90)
69. diagnostics.py CourantNumber: only inflow is counted, so a cell with pure outflow reports zero (C91)
70. diagnostics.py CourantNumber with an expression: the component is not part of the name, so log_courant(component=...) raises ValueError; setup_log_courant(name) without expression sets up the Courant number of u (C91)
71. io.py setup_log_courant: courant_name is compared with diagnostic names but is never one, so each run() appends duplicates (C91)
72. SteadyStateError: a second run() without pick_up, or a user-supplied field name_init, is overwritten at setup (C92)
73. shallow_water_diagnostics.py Vorticity (solve): the boundary circulation is missing, so a rotating fluid in a bounded box has diagnosed total vorticity 0 (C93)
74. shallow_water_diagnostics.py Vorticity: in a continuous space with interpolate or project the expression is curl(u), which on the sphere is a vector and fits neither f nor the scalar space (C93)
75. compressible_euler_diagnostics.py RichardsonNumber: required_fields has the density instead of its gradient, so the set-up fails for some orders of the diagnostics (C94)
76. diagnostics.py Gradient: shape (mesh_dim,)*field_dim is wrong except for scalars and 2D vectors (C94)
77. compressible_euler_diagnostics.py BruntVaisalaFrequencySquared: len(active_tracers) > 1 should be > 0 (C94)
78. compressible_euler_diagnostics.py Precipitation: the initial dump adds a full time step of rain (C94)
79. shallow_water_equations.py:151: an invalid u_transport_option raises AttributeError because self.u_transport_option is never set (C95)
80. LinearShallowWaterEquations: the topography of the documented equation is dropped, because it has no linearisation (C95)
81. common_forms.py:38 advection_form of a vector: dot(ubar, grad(q)) contracts the components, giving grad(|u|^2/2) instead of (u.grad)u (C95)
82. ThermalShallowWaterEquations: topography is counted twice, the residual of the super class already has it (C96)
83. ThermalShallowWaterEquations: linear_source_form lacks b' grad(Dbar) (C96)
84. ThermalShallowWaterEquations: the source is linearised whatever the linearisation_map says (C96)
85. ThermalShallowWaterEquations, equivalent buoyancy: the linearisation uses the saturation of the state instead of the reference, takes q_v' = q_t' also when saturated, and lacks beta2 Dbar grad(q_t') (C96)
86. BoussinesqEquations(compressible=False): the pressure keeps its mass term beside phi*(p - div u), so a monolithic time discretisation enforces div u = p + dp/dt, not div u = 0 (C97)
87. boussinesq_equations.py:182-200: the divergence term is linearised whatever the linearisation_map says (C97)
88. boussinesq_equations.py:139: an invalid u_transport_option raises AttributeError because self.u_transport_option is never set (C97)
89. BoussinesqEquations: active_tracers=[] raises NotImplementedError; rotation in a vertical slice fails because cross needs three components (C97)
90. solver_presets.py: with equivalent buoyancy and default solver_prognostics q_t is in no block of the field split; user-given solver_prognostics can overlap the hard-wired blocks; one-dimensional shallow water hands three fields to hybridisation (C98)
91. solver_presets.py: tau_values reach the auxiliary form only for the compressible equations (C98)
92. QuasiNewtonLinearSolver completes the caller's tau_values in place: with TRBDF2 the second solver uses the alpha of the first (C98)
93. boussinesq_equations.py schur_complement_form: `self.parameter.Omega` raises AttributeError for rotating equations (C98)
94. boussinesq_equations.py schur_complement_form: the incompressible pressure row `phi*div(u)` has the wrong sign and scale against the operator, and the preset applies it with preonly, so the divergence is not removed (C98)
95. shallow_water_equations.py schur_complement_form: `-0.5*Dref*b*div(w)` is not the weak gradient for varying Dref, so the elimination is inexact there (documented as approximate) (C98)
96. shallow_water_equations.py schur_complement_form with equivalent buoyancy: `bref += beta2*qvbar` is evaluated when the form is built, with qvbar zero; later updates of qvbar have no effect (not modelled)
97. VerticalHybridizationPC: velocity conditions only on lateral boundaries leave the traces at top and bottom with zero rows (C99)
98. CompressibleEulerEquations: the docstring promises NotImplementedError for tracers that are not mixing ratios; the code only warns (C100)
99. CompressibleEulerEquations: the sponge coefficient is interpolated to DG2 and is negative in parts of the cell at the sponge level: a source of energy (C100)
100. CompressibleEulerEquations: the sponge uses the last Cartesian coordinate: on a sphere there is none in the southern hemisphere (C100)
101. HydrostaticCompressibleEulerEquations: the extra term -(k.w)(k.u) makes the vertical balance 'forces = vertical velocity' in monolithic time stepping (C101)
102. HydrostaticCompressibleEulerEquations: replace_subject leaves the linearisation with the full velocity mass, and the extra term has no linearisation; the projected terms lack the documented `hydrostatic` label (C101)
103. Forcing with hydrostatic equations: the left-hand side vanishes for vertical test functions; the problem is singular and has no solution for a moving balanced column (C101)
104. CompressibleHybridisedSCPC: the docstring says the elimination of theta introduces error near topography; it does wherever the reference varies along the layers, and with discontinuous (DG) reference density the continuity row differs from the operator by the jumps (C102)
105. CompressibleHybridisedSCPC: the moist divergence term is missing, only water tracers count in the pressure gradient while the equations count all mixing ratios, and water densities raise after the equations accepted them (C102)
106. CompressibleHybridisedSCPC with hydrostatic equations: the vertical mass is projected out, the operator keeps it (C102)
107. CompressibleHybridisedSCPC: rows of tracers are never written: tracers in solver_prognostics get zero increments (C102)
108. SIQNModel/LowestOrderSIQNModel: no branch for buoyancy-type fields of thermal or Boussinesq sets / other spaces: either an error or silently not transported (C103)
109. SIQNModel with consistent_metric: z gets two transport schemes; the constructor's flag is not passed to the stepper (C103)
110. LowestOrderSIQNModel on a non-extruded mesh: AttributeError; diffusion_options=None raises; active_tracers list of the caller is mutated (C103)
111. ShallowWaterEquations_1d: the argument space_names is overwritten, an empty list of active tracers raises (C104)
112. LinearShallowWaterEquations_1d: parameters.H is never read; with reference profiles not set the depth equation loses its divergence (C104)
113. ShallowWaterEquations_1d on an interval with the default no_normal_flow_bc_ids=None: the boundary pressure is missing and a fluid at rest accelerates (C104)
114. NumericalIntegral: points outside the bounds silently get the value at the bound; with lower_bound > upper_bound (the check is commented out) every point gets the integral over the whole range; num_points=1 gives zero (C105)
115. get_flat_latlon_mesh (core/meshes.py:636): heights are measured from the minimum radius on the rank, so they are discontinuous across ranks over orography, and a rank without cells raises ValueError; a node on the axis gets longitude zero, so cells at the pole can be spread over more than half the map (C109)
116. Domain (core/domain.py:144, marked TODO): the radius is the minimum over the rank, so the coordinate h and domain_extent_z depend on the partition if the base mesh is not an exact sphere; radially extruded circles pass for vertical slices with the Cartesian z as height (C110)
117. IMEX_Trap2 (time_discretisation/imex_runge_kutta.py:513-515, e = 0): the implicit and explicit tables have different row sums in stage 1, so a steady state in which implicit and explicit terms balance is changed by O(dt^3) per step (C112)
118. advection_form (equations/common_forms.py:38): dot(ubar, grad(q)) for a vector q contracts the velocity with the components of q (u_i d_j q_i), so AdvectionEquation and AdvectionDiffusionEquation of a vector field do not solve dq/dt + (u.grad)q = 0 unless DGUpwind replaces the term (C113; see C95 for the velocity)
119. diffusion_form (equations/common_forms.py:302): kappa*grad(q) with a tensor kappa and a vector q mixes components instead of directions; InteriorPenaltyDiffusion uses grad(q)*kappa (C113)
120. AdvectionEquation, ContinuityEquation, CoupledTransportEquation, AdvectionDiffusionEquation with Vu overwrite the HDiv space of the domain (transport_equations.py:30-31), so later equations without Vu use it too, even if the constructor failed (C113)
121. AdvectionDiffusionEquation (advection_diffusion_equations.py:41): the optional diffusion_parameters=None raises AttributeError (C113)
122. core/logging.py:19, 72: the documentation names GUSTO_LOGFILE_LOG_LEVEL, the code reads GUSTO_FILE_LOG_LEVEL, so the documented variable does nothing (C114)
123. core/logging.py:57-68, 161-162: sys.excepthook is replaced by a function that only logs, and ranks other than 0 have a NullHandler, so an unhandled exception on such a rank is reported nowhere (C114)
124. core/logging.py:175-208: the log file is moved only once, so the records of a second simulation in the same process go to the directory of the first; a second call of the exported set_log_handler makes the next simulation raise LoggingError (C114)
125. core/logging.py:74-80: GUSTO_LOG_LEVEL=NOTSET gives the logger level 0, for which the root's WARNING is used: less is logged than with DEBUG or INFO; a lower-case level name makes import gusto fail with TypeError or ValueError (C114)
126. timestepper.py:282: set_reference_profiles tests field_name+'_bar' in self.fields; Fields iterates over Functions and has no __contains__, so the test is always false and a profile that is already in the state cannot be set from an expression as the comment says (ValueError) (C117)
127. physics_parametrisation.py:80 and the other label names: two SourceSink objects for the same variable (or two Relaxation, or two BoundaryLayerMixing of one field) get the same label string; setup selects terms by that string, so with one scheme each in SemiImplicitQuasiNewton, TRBDF2QuasiNewton or a split timestepper both terms act twice (C120)
128. semi_implicit_quasi_newton.py:262-294: a field whose equation has a transport term but which has no transport scheme is accepted and silently not transported, since the forcing drops transport terms too (C120)
129. boundary_and_turbulence.py:634,658-662: BoundaryLayerMixing uses dS_v (facets between columns) where a vertical interior penalty needs dS_h: fields that are constant with height in each cell are not mixed vertically at all, horizontal differences between columns are, and uniform fields change where the diffusivity differs between columns (C121)
130. boundary_and_turbulence.py:643: dz = k.(k d/dz(k.x)) is identically 1, not the depth of the layer (C121)
131. boundary_and_turbulence.py:637,660: d_dz of a vector is outer(k, .) but the normal is the second index of outer(test, n): the surface term exerts a force on the vertical wind from the shear of the horizontal wind (C121)
132. explicit_runge_kutta.py: the decimal coefficients of SSPRK3 (5 stages) and SSPRK4 give weights that sum to 1+3.2e-10 and 1-8.8e-11: the schemes do not converge, the error has a floor proportional to the elapsed time (C122)
133. multi_level_schemes.py:321-338: AdamsBashforth starts with forward Euler steps, which limits orders 3 and 4 to second-order accuracy (C123)
134. C126: `SDC(quad_type="GAUSS" or "RADAU-LEFT", final_update=False)` returns the value at the last node, which is before the end of the step, as the value at the end (deferred_correction.py 527-540): the run does not converge. The constructor accepts the combination.
135. C127: `RIDC` never evaluates `source_Ukp1[0]` (see C67): for a constant physics source every step applies only (M-1)/M of it, at all resolutions.
136. C128: `Recoverer(expr, x_out, boundary_method=BoundaryMethod.taylor)` raises AttributeError (`x_in.function_space()`, recovery.py 250), although UFL expressions are documented as sources.
137. C128: for a vector target the Taylor method never checks that the target is CG1 (recovery.py 260-281; the scalar case raises the documented ValueError): a VectorCG2 target is silently replaced by its CG1 interpolant.
138. C128: the extruded method tests `isinstance(elt, VectorElement)` to reject vectors (recovery.py 243-244): an HCurl target passes and its vertical degrees of freedom are extrapolated as if they were pairs in a column.
139. C128: with the hcurl method on a VectorElement `project` reads the attribute `boundary_recoverers` (recovery.py 299), set only for the Taylor method.
140. C128: the broken space is built as `VectorElement(BrokenElement(sub))` without the dimension of the target (recovery.py 209): targets with another number of components than the default raise RuntimeError in the Averager.
141. C129: a prognostic outside `solver_prognostics` with a forcing term of its own gets the explicit part (1-alpha) of it only: `zero_non_prognostics` and `copy_active_tracers` (semi_implicit_quasi_newton.py 450-462, 1000-1015) drop the implicit part, so the model converges to another equation.
142. C130: with n outer BDF iterations a forced field without a transport scheme (a linear model) grows by 2 gamma (1 - (1 - gamma3)^n) + gamma2 per unit of forcing and time (tr_bdf2_quasi_newton.py 543-569): one for n = 1, but not for the default n = 2, however small dt is.
143. C131: the field of a diagnostic with to_dump=False has type 'derived', so a second call of run regards it as a non-diagnostic (io.py 346-347) and may evaluate what depends on it first: every dump then has stale values.
144. C132: DiagnosticField.__init__ (diagnostics.py 136-137) builds the message of its assertion from self.method, which is not set yet: AttributeError instead of the intended message.
145. core/io.py 443-451: when picking up without a netCDF file, rank 0 raises inside the `rank == 0` branch and the other ranks block in `bcast` (C133_missing_file_refuted)
146. core/io.py 437-452, 918-926: a run that picks up on another number of ranks appends values in its own node order under the coordinates of the first run (C133_renumbered_refuted)
147. core/io.py 876-885: vector-valued fields listed for output are left out of field_output.nc with only a log warning (C133_vector_refuted)
148. timestepping/tr_bdf2_quasi_newton.py 427: `self.true_adv_z_projection` is never defined: with consistent_metric=True every timestep raises AttributeError (C134_tr_bdf2_refuted)
149. timestepping/tr_bdf2_quasi_newton.py 431: the rate of the height is divided by `factor` although the transporting velocity is already scaled by it (C134_tr_bdf2_factor_refuted)
150. timestepping/semi_implicit_quasi_newton.py 436: `field_name == 'theta'` is false for a simultaneous scheme containing theta, which then ignores the consistent metric term without a warning (C134_simultaneous_refuted)
151. timestepping/semi_implicit_quasi_newton.py 490-500: with predictor='z' the consistent-metric branch is never reached and theta is transported by a zero wind (C134_predictor_refuted)
152. time_discretisation.py 307-329: SUPG does not replace the test function in the all_but_last label, so advective-then-flux transport mixes test functions between the stages (C135_all_but_last_refuted)
153. wrappers.py 346-350: the default tau is 0 for HDiv spaces: SUPG for velocities has silently no effect (C135_hdiv_refuted)
154. time_discretisation.py 313-316: a term carrying two of the labels listed in suboptions gets the SUPG test function twice (C135, example)
155. shallow_water_equations.py 75, 339, 701: the argument space_names is overwritten, so a request for other spaces is silently ignored in all shallow-water classes (C137_ignored_refuted)
156. prognostic_equations.py 348: the spaces of tracers are written into the dictionary of the user, also if the constructor then fails; a second set with the same dictionary and another space, or a corrected retry, is refused (C137_reuse_refuted, C137_retry_refuted)
157. prognostic_equations.py 295: in a set whose only field is u, the no-normal-flow conditions are deleted (C78_single_refuted)
158. time_discretisation.py 617-714 and multi_level_schemes.py 19-45: BackwardEuler, BDF2, Leapfrog, AdamsBashforth and AdamsMoulton accept the argument limiter, store it and never apply it (C138_backward_euler_refuted, C138_multilevel_refuted)
159. explicit_runge_kutta.py 326-329, 391-394: physics schemes are evaluated before the stage field is limited, so they see the negative values that the limiter is meant to remove; the predictor formulation limits first (C138_sources_refuted)
160. wrappers.py 182-192: the limiter acts in the embedding space; the projection back to a continuous space can make the limited field negative (C138_wrapped_refuted)
161. deferred_correction.py 445, parallel_dc.py 306: base.dt is replaced by a number at every node, but the solver of the base scheme is a cached property whose forms hold the number of the first node; with unequal nodes an implicit (or IMEX) base scheme takes wrong steps and the run loses an order (C126_held_step_refuted); with Lobatto nodes it does not move (C139_lobatto_refuted)
162. deferred_correction.py 136 and time_discretisation.py 522: base.dt aliases the Function of the domain, so the setup of a base scheme with fixed_subcycles=n divides the timestep of the whole model by n, and the clock runs n times too slowly (C139_fixed_subcycles_clock_refuted)
163. deferred_correction.py 445, 823: the spacing set after setup is not divided by the number of fixed subcycles, so the guess covers n times the way (C139_fixed_subcycles_guess_refuted); adaptive subcycling calls assign on a number (C139_adaptive_refuted)
164. time_discretisation.py 513-515: the setup of an explicit scheme overwrites ksp_type, pc_type, sub_pc_type and snes_type of the dictionary that the user passed, in place: the choices of the user have no effect, and an implicit scheme that shares the dictionary does one linear solve with a frozen Jacobian instead of Newton's method (C140_explicit_refuted, C140_shared_refuted, C140_two_explicit_refuted)
165. time_discretisation.py 354-355: the parameters of the SUPG wrapper are never taken, since solver_parameters is never None; explicit schemes use CG for the nonsymmetric SUPG mass matrix (model of setup in Model/SolverParams.lean)
166. time_discretisation.py 543-546: the Jacobian of the mass system is kept for the whole run, but the SUPG mass matrix contains the wind: with ksponly the stages solve wrong systems as soon as the wind changes (C141_changing_mass_refuted)
167. explicit_runge_kutta.py 320-344 and implicit_runge_kutta.py 219-241: in the increment formulation the solver imposes the Dirichlet values on the stage increments k, not on the field: with a nonzero value g the boundary value grows by dt*g in every step (C142_increment_refuted)
168. split_timestepper.py 146-148, 207-208, 296-297: physics schemes are set up without boundary conditions, so that they can break the conditions of the equation (C142_split_physics_refuted)
169. augmentation.py 337 with time_discretisation.py 221: MeanMixingRatio has no conditions, so a scheme for a mixed equation loses those of the velocity; with a wrapper the set-up fails with a TypeError (C142_conditions_refuted)
170. wrappers.py 141-157: conservative_project does not use the boundary conditions (C142_conservative_back_refuted)
171. C148: `predictor` is compared with the single names of the transport schemes only (semi_implicit_quasi_newton.py 476-499): a field transported simultaneously, or misspelt, is transported without the predictor and without a message.
172. C149: `TimeLevelFields.add_fields` (fields.py 274-288) does not pass `field_names` on, so a mixed auxiliary equation of SemiImplicitQuasiNewton ends in `TypeError`; an auxiliary field with the name of a prognostic one is accepted, and `update` then copies it into the prognostic field of level n.
