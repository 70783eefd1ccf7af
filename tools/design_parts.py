HEAD = '''# Formal model of gusto in Lean 4: design

Source: `/repo` (firedrakeproject/gusto, pinned).  (This file is composed by `tools/gen_design.py` from
`tools/design_parts.py`, the headers of the model files and `MANIFEST.json`.)

Layout of `lean/Verif/`:

* `Verif/Model/*.lean`  definitions that mirror the Python, each citing file and lines;
* `Verif/Spec/*.lean`   small specifications written from the English property only (textbook
  formulae, order conditions, weak forms ...), never from the model.  Some specifications are so short that
  they stand at the top of the Props file, marked "Specification";
* `Verif/Lemmas/*.lean` helper lemmas;
* `Verif/Props/*.lean`  one section per property: the theorems named in `MANIFEST.json`
  and, beside each, an `example` that meets the hypotheses non-trivially.

Names of theorems: `Cnn_...` belongs to property `Cnn`.  `..._partial` proves a part, its comment says what is
missing.  `..._refuted` proves that (a part of) the English property is false of the code as written, by a
counterexample or by characterising what the code does instead.  A property with a refuted part has status
`partial` in the manifest.

## Trusted base

1. Lean 4.33.0's kernel, and Mathlib's definitions (real numbers, derivatives, `Real.rpow`, `Complex.arg`, integrals...).
2. Axioms: every theorem of the manifest depends on at most `propext`, `Classical.choice`, `Quot.sound` (checked
   with `tools/axioms.py`, which runs `#print axioms` on each of them).  No axioms are added; no `native_decide`,
   `bv_decide`, `implemented_by`, `unsafe`.
3. The reading of the Python: the tie to `/repo` is the citation on each definition.  Nothing was run.
4. Common simplifications, stated again where they are used:
   * floating point is replaced by exact arithmetic (real, rational, or an arbitrary (ordered) field or module);
   * Firedrake/UFL/PETSc/MPI/netCDF4/pandas/qmat are not modelled.  A finite element field is an element of an
     abstract module (or, for pointwise kernels, a function on an index set); an assembled form is
     a function of the state into the module; a linear or non-linear `solve` is either the relation
     "the residual vanishes" or division by an invertible mass map (exact solve);
   * Python objects with identity are modelled by store/heap models only where aliasing matters (C13, C18, C39, C58,
     C80, C81);
   * point-to-point MPI has the semantics written in `Model/MPI.lean`; collectives are functions of the list of
     contributions.

'''
METHOD = {
"C01":'labelled forms (list of terms with label set, time-derivative and other terms), `replace_subject`, default `lhs/rhs/res` as label maps; induction over term list; residual zero ↔ Euler equation',
"C02":'the loops of increment/predictor/linear `solve_stage`, for arbitrary Butcher matrix, F, state; loop invariants; equality with textbook RK defined recursively',
"C03":"the literal tables over ℚ and their constructors; finite table ⇒ `decide`/`norm_num`; lifted to Taylor agreement for `y' = λy`, arbitrary λ, dt",
"C04":'`ExplicitTimeDiscretisation.apply` loop; induction on number of cycles',
"C05":'`ncycles` computation with ceil, cap and reset of dt; order lemmas on `Nat.ceil`',
"C06":'the linear formulation inside the subcycle loop, stage history kept as the code keeps it; refuted by witness; exact discrepancy for general n proved; partial for one cycle',
"C07":'residuals of BackwardEuler, ThetaMethod, TR_BDF2 as label maps; as C01',
"C08":'BDF2, Leapfrog, AB, AM residuals; as C01; Leapfrog refuted, corrected version partial',
"C09":'tables over ℚ; AB1–4, AM1–3 moment conditions; AB5, AM4 refuted',
"C10":'TimeLevelFields.update, counter of initial steps; induction over steps',
"C11":'stage loops of ImplicitRungeKutta; induction over stages; increment refuted for non-constant diagonals',
"C12":'stage and final residuals, tableaux; induction over terms and stages',
"C13":'store of named mutable fields, the sequence of assigns of `apply`; symbolic execution over an arbitrary store',
"C14":'`while t < tmax - 0.5*dt` loop; well-founded recursion over ℝ/ℚ (Archimedean), induction',
"C15":'checkpoint write/read of prognostics and levels, loop; bisimulation, induction on remaining steps',
"C16":'counters of IO; induction on steps; picked-up cadence refuted in general, proved when frequency divides',
"C17":'`topo_sort` (copied generator loop); invariant: emitted list is a topological order, termination measure',
"C18":'registry as association list with object ids; invariant by induction over calls',
"C19":'prefix sums of local sizes and writes; induction over ranks',
"C20":'decision logic and the broadcast of the error flag; case analysis for any number of ranks',
"C21":'checks of SplitTimestepper, sequence of applications; list induction',
"C22":'the SIQN step as composition of abstract operators; algebra of fixed points',
"C23":'the update-time condition as state machine; refuted + characterisation of actual behaviour',
"C24":'SDC sweep (forward-substituted nodes); induction over nodes',
"C25":'per-rank step with allreduce; any rank order; permutation invariance of sums and of updates',
"C26":'ranks as processes with FIFO tagged channels, arbitrary schedule; confluence + progress measure',
"C27":'kernels pointwise; order algebra',
"C28":'projector algebra with integral functional; linear algebra',
"C29":'recoverer composed of abstract linear maps; algebra',
"C30":'loops of averaging kernels over cell–node map; sums over finite maps',
"C31":'Gaussian elimination kernel, general n; induction on elimination steps',
"C32":'kernel on layers; algebra',
"C33":'sorting/grouping of dofs; permutations',
"C34":'formulas over ℝ with Mathlib trigonometry; trigonometric identities',
"C35":'formulas over ℝ with Mathlib trigonometry; trigonometric identities',
"C36":'formulas over ℝ with Mathlib trigonometry; trigonometric identities',
"C37":'composition of the above; refuted + characterisation',
"C38":'formula with numpy `%`; floor arithmetic',
"C39":'formula; aliasing by store model; Cauchy–Schwarz; store witness',
"C40":'formulas over ℝ (`rpow`, `exp`); field algebra, derivatives',
"C41":'formulas over ℝ (`rpow`, `exp`); field algebra, derivatives',
"C42":'formulas over ℝ (`rpow`, `exp`); field algebra, derivatives',
"C43":'pointwise source interpolators and forward/backward Euler; order algebra over an ordered field',
"C44":'pointwise source interpolators and forward/backward Euler; order algebra over an ordered field',
"C45":'pointwise source interpolators and forward/backward Euler; order algebra over an ordered field',
"C46":'pointwise source interpolators and forward/backward Euler; order algebra over an ordered field',
"C47":'pointwise source interpolators and forward/backward Euler; order algebra over an ordered field',
"C48":'pointwise source interpolators and forward/backward Euler; order algebra over an ordered field',
"C49":'column sort; `mergeSort` permutation + sortedness',
"C50":'strength flag state machine; induction over times',
"C51":'partition arithmetic; `Nat` division lemmas',
"C52":'coefficient loops; finite sum reindexing',
"C53":'block algebra; store lenses; algebra over ℂ as pairs',
"C54":'`__setattr__` guard; case analysis over operation sequences',
"C55":'list manipulation of add_tracers; list lemmas; chain case refuted',
"C56":'label maps of split forms over abstract transport operators; list induction',
"C59":'term lists; list induction',
"C60":'linearise label map; list induction + derivative',
"C57":"object state (flags, projection, clock, velocity, dumps), loop of `run`; induction over histories of calls and over steps",
"C58":"per-field wrapper loops over a heap of wrapper Functions; set-up with aliased lists; induction over the field list",
"C61":'labelled terms with a scheme index, stage loops of the explicit Runge-Kutta schemes; one scheme proved, several schemes refuted (last writer wins)',
"C62":'stage equations of the implicit Runge-Kutta model with the literal tableaux; bilinear algebra',
"C63":'checkpoint files with write, crash and resume at any point; case analysis over crash points, induction over steps',
"C64":'step counter and off-centring of SemiImplicitQuasiNewton; induction over steps',
"C65":'TR-BDF2 quasi-Newton step with abstract operators; coefficients, stage equations, order conditions, fields that are never advanced',
"C66":'sequence of scheme applications of the two quasi-Newton steppers; symbolic execution',
"C67":'RIDC loops (predictor, correction sweeps, sources); induction over nodes and sweeps',
"C68":'SDC sweep as in C24; filtrations by powers of dt; induction over nodes',
"C69":'extrema kernels as folds; order algebra',
"C70":'rotated basis vectors over the reals; trigonometric identities',
"C71":'formulas over the reals; algebra, monotonicity',
"C72":"control flow of the moist routines as recursion on the iteration limits with abstract thermodynamics; variational residual as linear maps; induction on iterations",
"C73":'source expressions of SaturationAdjustment pointwise; algebra',
"C74":'SourceSink term and sign of the residual; algebra',
"C75":'Held-Suarez expressions pointwise; order algebra',
"C76":'fall speed expression with real powers; monotonicity',
"C77":'REXI sum on an abstract linear operator with a two-dimensional invariant space; algebra over the complex numbers',
"C78":'generation of the residual as list of labelled terms; list induction',
"C79":'forms as integrands over a commutative algebra with derivations; product rules',
"C80":"construction of the index lists, limiting per cell and field on a mixed Function, Runge-Kutta loops with the limit method; induction over field lists",
"C81":"data flow of augmentation / scheme / Functions, whole runs; induction over cycles and steps",
"C82":'lists of labelled terms, set-up as executed; filters, permutations, induction over fields; counterexample for several labels',
"C83":'forms as functions of the velocities they mention, ufl.replace as substitution; frame, commutation and end-to-end value theorems; refutation for the manifold correction',
"C84":'forms as quadrature sums over cells and both sides of facets in an ordered field; algebra of finite sums, strong induction over a run; concrete two-cell mesh for non-vacuity',
"C86":"same model; Young's inequality pointwise for coercivity",
"C87":'the constructor as a function of its options; refutations where options are ignored',
"C88":'same model, perp and cross products written out',
"C89":'exact energy balance from the discrete divergence theorem',
"C85":'container as partial functions of names (strings), elements as syntax with the standard dimension formulas as a separate specification; frame theorems, injectivity of the suffixes from decimal digits, polynomial identities in the degrees',
"C90":'folds over lists of optional values per process (NaN as none), induction; real square roots and Cauchy-Schwarz; iterates of a damped map in normed spaces; weak forms by quadrature',
"C91":'forms as sums over quadrature points with cell maps; explicit convex-combination argument for DG0; strings for the names of the diagnostics',
"C92":'state machine with events fresh run, run again, step, crash and pick-up; invariant by induction over event lists',
"C93":'weak forms by quadrature, tested with the constant; sums of squares for uniqueness; pointwise real analysis for the partition',
"C94":"C17's schedule theorem and induction over the schedule for the set-up; folds over tracer lists; real powers and their derivatives for the thermodynamics; bilinear forms; induction over steps for precipitation",
"C95":'weak forms as sums over a quadrature rule; derivative by exact first-order expansion with quadratic remainder, term by term; skew-symmetry; energy by testing with the derivative of the energy, composed with the theta residual of C07',
"C96":'same model of forms; the missing term is identified exactly and shown to vanish for flat reference depth; counterexamples on a two-cell mesh',
"C97":'weak forms as sums over a quadrature rule as in C95; derivative by exact expansion term by term; energy by testing with (u, p/cs^2, b/N^2), composed with the theta residual of C07',
"C98":'presets as functions of the name lists; quasi-Newton operator as a weighted sum of the linearised residual terms of C95-C97; block elimination as linear maps; elimination identities by testing the buoyancy equation with the vertical velocity or the divergence',
"C99":'hybridised block system as linear maps with exact local inverses; breaking and averaging composed with the averaging kernels of C30, counted by double sums',
"C100":'weak forms as sums over a quadrature rule as in C95; discrete divergence theorem as hypothesis; real powers and quotients with their derivatives for Exner pressure, virtual temperature and the moist factor; Lagrange basis for the interpolated sponge',
"C101":'projection and extra term as maps of the term list of C100; identities in the quadrature sums; forcing problems as filters of that list; unsolvability shown in a moist balanced column that moves',
"C102":"hybridised forms as sums over quadrature points, solution as a relation between right-hand side and increments; each row compared with the quasi-Newton operator of C100's term list by a discrete divergence theorem, leaving explicit defects; continuity from the constraint tested with the jump",
"C103":"the loops over field names as a collecting fold with errors; counts of schemes and methods per field by induction over the field list; stepper's own assertions modelled and discharged",
"C104":"functions are real polynomials on each cell and forms are Mathlib's interval integrals, so integration by parts with facet and boundary terms is proved, not assumed; forms compared with the pointwise equations; term lists as in C95",
"C105":"linspace, Simpson's rule, cumulative sum and np.interp modelled over an ordered field; Simpson's error from three-fold integration of its third derivative in the half width, interpolation error by convexity; Mathlib's interval integral as specification",
"C106":'the two solves as bilinear forms on abstract spaces, solvability by dimension count; columns of cells with piecewise polynomials and Mathlib interval integrals, uniqueness from an explicit antiderivative, projection property by integration by parts',
"C107":'the tables, offsets and index formulas of the constructor as list-valued functions of n; counts, valences and closedness by bijection with lattice points on the twenty faces, geometry by barycentric coordinates on the faces and a decided finite check on the icosahedron table only',
"C108":'every assignment to the array of panel numbers as a function update, the running maximum as a supremum over the array; proof that the number of a position is an injective code of its lattice point on the cube; closedness by an explicit neighbour table, covering and overlaps by boxes with product weights',
"C109":'nodes as lists of points per cell and rank, the kernel as a fold; uniqueness of representatives of an angle in an arc shorter than half a turn',
"C110":'the classification as nested conditions on dimensions; column arrays of C33; minima and reductions as folds; derivative of the distance along rays',
"C111":'composition of the step characterisations of C01, C02, C06, C07, C08, C10, C11, C12, C24, C61, C67 with a linear functional; induction over stages, nodes, subcycles and steps',
"C112":'composition of the step characterisations with unique solvability of the stage equations; induction over stages, nodes and steps; explicit counterexamples',
"C113":'weak forms against strong equations in a ring with derivations; induction over lists of tracers and over histories of constructor calls; explicit counterexamples with polynomials',
"C114":"a normal form of the logger's state preserved by every event (induction over the history); a counting abstraction for the barriers; an ownership invariant for the files of different ranks; explicit counterexamples",
"C115":'the Shu-Osher form of every table is computed from the Butcher matrix in the code and checked by the kernel over the rationals; stage by stage every stage is a convex combination of Euler steps (induction over stages, iteration over subcycles); composed with C02 (formulations), C05 (subcycles) and C91 (Courant number); sharpness by a pulse on a half-line',
"C116":'energy identities proved from the residuals the model builds (C07, C08, C10) and the Runge-Kutta formulas (C02); G-stability of BDF2 by induction over the run of the level rotation; TR-BDF2 by factorisation around the midpoint of its first stage; the forms of the package meet the hypothesis by C86 and C89; Leapfrog refuted because the class solves forward Euler',
"C117":'the loop of set_reference_profiles on top of the registry model of C18, the dictionary of a checkpoint and the search for profiles on pick-up; induction over the list of profiles with an invariant on the registry; the membership test of Python is modelled through __iter__',
"C118":'a linear functional of one field followed through the model of C22 and C65: invariants of the inner and outer loops, induction on both counts; the linear solve through the equation it solves',
"C119":'the rows of the time-discrete equations (IsSolution of C22) with the pressure gradient as forcing and the divergence as transport; energy identity with two adjoint operators and a skew Coriolis term; exactness of the first iteration from the rows of the linear solver and uniqueness by positivity of the energy',
"C120":'the constructors as functions to Except with the same order of checks; acceptance characterised by induction over the lists; the tendency as the sum of what each scheme selects (selection of C82, forcing of C22), computed term by term by induction over the residual',
"C121":'the diffusivity as real functions, the form at quadrature level with product and quotient rule; the surface terms reduced by the geometry of upright facets',
"C122":"the schemes reduced to the textbook step (C02, C07), local errors by Albrecht's order conditions on the tables (kernel-decided over the rationals) with Taylor expansions of the exact solution, global error by a discrete Gronwall inequality; the limit of a table with wrong weight sum is identified",
"C123":'runs reduced to the recurrences (C10), local errors by quadrature conditions on the coefficient tables (kernel-decided) and Taylor expansions, stability of Adams methods by induction with a monotone bound, of BDF2 by a weighted norm of error and error increment; refutations by solving the recurrences on two equations',
"C124":'the schemes reduced to the textbook additive step (C11, C12); a step compared with reference stages that satisfy the stage equations up to a defect (stability of the stages), the defects bounded by Taylor expansion with the coupling order conditions of the two tables, global error by a discrete Gronwall inequality',
"C125":'a small calculus of one-step methods (stable, first order, second order): scaling by a weight, composition of a list by induction, and the identity that the second-order coefficients of a composition and of the reversed one add up to the exact one, so palindromic lists are of second order; the timestepper is reduced to the composition of the label flows by C21, also with captured timesteps (the first weight of a label takes effect); global error by a discrete Gronwall inequality',
"C126":'the sweep equations of C24 without the mass operator; the defect of the exact solution in them by Taylor expansion of the quadrature; a scalar recursion over the nodes and then over the sweeps (each sweep multiplies the error by h); the initial guess and the final update are estimated separately; global error by a discrete Gronwall inequality; the solver matrices frozen in the first step are carried through the run',
"C127":'the correction equations of C67, the defect of the moving stencil reduced to that of the unit tables, and the recursions of C126 with a table for each correction',
"C128":'case analysis of the constructors into the exact acceptance condition; the loop over the components of project as a fold; induction over the calls; the affine reproduction from the kernel theorem of C31 applied to each component with its own effective coordinates',
"C129":'a calculus of families of maps depending on the timestep (uniformly Lipschitz on bounded sets, equal up to O(h^p)), closed under sums, composition and Taylor expansion; the timestep written as old state plus h times such a family, by induction over inner and outer iterations (each outer iteration gains an order); the linear solver by a Neumann argument; the global error by a discrete Gronwall inequality with a bootstrap keeping the iterates near the solution',
"C130":'the TR stage is shown to be the outer loop of a semi-implicit timestepper and the inner loop of the BDF stage one of its inner loops, so the lemmas of C129 apply; the combined transported states are expanded to the second order on bounded sets and the coefficients of the two stages added up; stability and summation of errors as in C129',
"C131":'evaluation in an order that respects requirements (C17) makes a consistent state, shown by induction over the schedule; consistent states with the same other fields are equal, which gives independence of order; an invariant over the events of a process',
"C132":'case analysis of constructor and setup; invariants of the lookups in the domain and the state; induction over sequences of setups',
"C133":"the file as dimensions, variables and groups with the name checks of the library; an invariant describing the whole file after any list of dumps, built on C19 for the ranks' slices; names shown to be distinct by their first characters",
"C134":'transport_fields as a fold over single and simultaneous entries with xstar, xp, adv_z and the wind as state; an invariant after the pass for z; refinement to the loop without the term (QuasiNewton.lean), so that every theorem about the timestep applies; linear algebra for the effect of the correction',
"C135":'forms as functions of velocity symbols and of the test function, ufl.replace as substitution; an invariant over the loop over suboptions saying which symbol each term contains and how often its test function was adjusted; pointwise algebra for tau',
"C136":'the constructor as a sequence of loops that stop at the first exception; the residual is a permutation of the one of C100 and the additional terms; sums by induction over the lists; derivatives term by term',
"C137":"the user's dictionaries and lists as numbered objects that constructors read and write, also when they raise; loop specification by induction over the tracers; histories by induction, sharing by a simulation between dictionaries that agree on conflicts",
"C138":'the last write to the returned field, for every state of the object: induction over stages, cycles and sweeps; inactivity through the Shu-Osher form of C115; the time-parallel schemes through their equivalence with the serial ones (C25, C26)',
"C139":"a store of timestep cells (the scheme's own, the domain's, plain numbers) and what the cached forms refer to; an invariant over the nodes and over the steps",
"C140":'dictionaries as objects in a heap that schemes refer to; the effect of setup key by key, its idempotence, and an invariant over the list of setups',
"C141":'one Newton step with the operator kept from the first solve (the meaning of ksponly and snes_lag_jacobian=-2 in PETSc, which is trusted); linear algebra; the mass term of SUPG from C135',
"C142":'a solver with prescribed values enforces them (the meaning of bcs in a variational problem, trusted); loop invariants for stages, nodes and outer iterations; the set-up of the conditions as a function of wrapper, augmentation and role',
"C143":'a simulation relation between labelled forms, solvers, limiters and scheme objects on (interior, boundary) pairs and on interior values, preserved by every operation on residuals and every loop',
"C144":'the simulation relation of C143 for an arbitrary linear map; every operation and loop of the schemes and of the quasi-Newton timesteps keeps it; example: rotations of a ring of N cells with upwind transport',
"C145":'discrete maximum principle: where the implicit result is largest nothing larger flows in, which also makes the implicit system uniquely solvable, so an exact solver returns that result; the schemes are compositions and convex combinations of implicit steps and of explicit steps with Courant number at most one (C91); for densities the total over the cells with negative values; a two-cell duct shows the limits are sharp',
"C146":'the work of the difference of two tendencies over the difference of two states is not positive; B-stability identities for the schemes (symplectic tableaux with non-negative weights for Runge-Kutta, the G-norm for BDF2); triangle inequality for the tolerance; a one-sided friction refutes TrapeziumRule',
"C147":'maps of fields and of assembled forms that carry one equation to another are carried through every residual, loop and state of the schemes; two copies of the equation with the maps (x,y) to x, y and a x + b y; exact solvers by uniqueness of the solution; constants are steady states (C112); a clipping limiter refutes the claim without its hypothesis',
"C148":'the predictor branch of transport_fields as a rewriting of the list of transport schemes (equal lists give equal steps; totals through C118; spin-up through C64); a depth in a uniformly diverging wind with exact transport, solved in closed form for every number of iterations, for the refutations',
"C149":'a heap of cells indexed by level and position, Functions as lists of cells, names looked up as attributes are; the loops of update and initialise by induction on the list of fields and on the levels; refinement to the levels of the multi-level model; a two-field example refutes clashing names',
}

NOT_MODELLED = """* Firedrake, UFL, PETSc, MPI, netCDF4, pandas, qmat themselves; assembly, quadrature.  What a solve does with boundary conditions is `solveWith` in Model/BoundaryConditions (C142, C143).
* `core/logging.py`, `solvers/parameters.py`; tolerances and iteration of the linear solvers.
"""

BUGS = [
  'AB5 (multi_level_schemes.py): the last coefficient is 2901/720 instead of 1901/720 (C09)',
  'AM4 (multi_level_schemes.py): coefficient -254/720 instead of -264/720 (C09)',
  'Leapfrog defines `rhs`, which is never used, instead of `res`: the scheme solves a forward Euler step (C08)',
  'Linear Runge-Kutta formulation with two or more cycles counts increments twice (C06)',
  'BackwardEuler and ThetaMethod with `fixed_subcycles` raise AttributeError (C05)',
  'ImplicitRungeKutta, increment formulation: the cached `solvers` capture the diagonal entry of stage 0 (C11)',
  'IMEXRungeKutta drops its `limiter` argument (C12)',
  'SplitTimestepper: physics repeated without weights, physics schemes dropped, unequal weights with a cached solver, fixed subcycling n dt (C21); `subcycle_by_courant` assigns to a UFL product (not modelled)',
  'PointDataOutput overwrites rows from 0 after a pick-up (C16)',
  'IO counters restart at 1 after a pick-up (C16)',
  'SemiImplicitQuasiNewton and TRBDF2QuasiNewton: the condition for updating reference profiles is always true; `last_ref_update_time` None raises TypeError (C23)',
  'RIDC: the source at node 0 is never evaluated, a spurious term remains (C67)',
  'SDC: recomputation of MIN-SR-FLEX matrices has no effect (C24)',
  'SDC/RIDC: sources evaluated before the limiter (not stated as a property)',
  'function_spaces.py: typo `"H1, HCurl"` in a tuple; families "DG"/None raise KeyError; a non-extruded domain with only horizontal_degree raises TypeError (C85)',
  'MultilevelTimeDiscretisation.setup with active labels raises TypeError (not modelled)',
  'setup_log_courant adds duplicate diagnostics; duplicate names in topo_sort (C17)',
  'TRBDF2QuasiNewton: undefined `true_adv_z_projection` (not modelled); prognostics that are neither solver prognostics nor active tracers never advance (C65)',
  'MeanLimiter does not clip negative means (C27)',
  "`field_name + '_bar' in self.fields` tests an iterator of Functions (timestepper.py:281; not modelled)",
  'rotated_lonlatr_coords / vectors apply R instead of its inverse: the new pole is at (lon + 180 degrees, lat) (C37, C70)',
  "great_arc_angle with degrees changes the caller's arrays in place (C39)",
  'EvaporationOfRain: signs of the factors reversed (C45)',
  'SourceSink: `residual += source`, so the tendency is minus the rate expression (C74)',
  'SurfaceFluxes, general formulation: extra factor 1/rho in the temperature flux (C48)',
  "add_tracers_to_prognostics: a single swap pass fails for chains of densities, and the caller's list is changed (C55)",
  'Rexi.solve ignores `beta2`, so `reduce_to_half` returns half the result (C77); the docstring of `b_coefficients` is wrong (C52)',
  'split_continuity_form: the linearisation contains a term without trial function and misses one (C56)',
  'IterativeDiagnosticField: docstring and code weigh with gamma differently (C90)',
  'Predictor Runge-Kutta and IMEX schemes with two or more source-labelled physics schemes: the last source wins (C61)',
  'BackwardEuler, ThetaMethod and the linear Runge-Kutta formulation replace the subject of source terms (C07)',
  'setup with a list of field names and two or more active labels: `t.has_label(*labels)` is a non-empty list, always true (C82)',
  'SSPRK3 with 5 stages: the decimal weights sum to 1 + 3.2373e-10 (C03)',
  'SubcyclingOptions.check_options raises only if both options are given (C54)',
  'IMEX schemes: a source term also labelled explicit is counted twice; IMEX_SSP3/Trap2 have different row sums (C12)',
  "Checkpoint mode 'w' truncates: a crash during the write loses the checkpoint (C63)",
  'StateFields accepts a wrong field_type (C18)',
  'get_column_data on a rank without data raises IndexError (C33); the tolerance of numpy.isclose merges nearby columns (C33)',
  'SemiImplicitQuasiNewton with accelerator and inner physics: each inner iteration adds physics again (C22); spin-up does not change alpha_u (C64)',
  'TRBDF2QuasiNewton: BDF outer loop recombines untransported fields each iteration (C65); slow physics weighted by gamma3 (C66)',
  'Parallel RIDC: stale source at node 0 (C26); K = 0 sends to a rank that does not exist (C26)',
  'Parallel SDC with a strictly lower triangular explicit matrix uses never-updated values of other nodes (C25)',
  'SDC with an explicit matrix that is not strictly lower triangular uses values of the previous step (C24)',
  'Serial RIDC with K > M raises IndexError (C67)',
  'DG1Limiter/MeanLimiter: the degree check never rejects integer degrees (C27)',
  'ConservativeProjector with subtract_mean does not conserve mass for densities of different mass (C28)',
  'BoundaryRecovery kernels on a single-layer mesh: the bottom loop overwrites the top correction (C32)',
  'saturated_hydrostatic_balance with exner0 raises AttributeError; the non-convergence errors are never raised; the stopping test uses the average density of the iteration before (C72)',
  'InstantRain with convective feedback is rejected at set-up (C46); relaxation times shorter than dt give negative vapour (C46)',
  'Held-Suarez physics: `evaluate` lacks the parameter x_out (not modelled)',
  'SuppressVerticalWind: without a spin-up step dt stays zero and the source is 0/0 (C50)',
  'TerminatorToy (analytical) hard-wires the total 4e-6 (C47)',
  'Coalescence with negative cloud makes rain negative (C44)',
  'vector_impl.py:122 calls an int property (C53)',
  'common_forms.py:265: circulation form in the plane has the opposite sign (C79)',
  'Configuration rejects numbers for diagfreq, tolerance, h, M (C54); EquationParameters without mesh raises UnboundLocalError (C54)',
  'split_hv_advective_form with two advective terms of a field loses terms (C56); split_continuity_form on a linear set inserts nonlinear terms (C56)',
  'MixedFSWrapper: set-up changes equation.spaces through an alias; a conservative tracer before its density uses the density of the previous call; a density without wrapper raises KeyError; with an augmentation the wrapper is never applied (C58)',
  "PrescribedTransport: output rows carry the velocity of the start of the step; the user's function is called once; one implicit physics scheme is accepted (C57)",
  'MeanMixingRatio: a prognostic that is not an active tracer is accepted with a missing density; the limiting is never applied in the increment (default) and linear formulations (C80)',
  'VorticityTransport: explicit schemes use a stale vorticity, implicit schemes other than theta methods always start with zero vorticity; any augmentation hides the limiter in the predictor formulation (C81)',
  'transport_methods.py:751-757,793-802: the vector manifold correction uses a velocity `Function` of its own: in the advective form it is never replaced by the model velocity, so the correction is identically zero; in the continuity form its label overwrites that of the transport term, so the transport itself is evaluated with zero velocity (C83)',
  'transport_methods.py:231-313: on one-dimensional meshes `outflow=True` and `advective_then_flux=True` are accepted and silently ignored, `outflow` also for mass-weighted (tracer_conservative) transport on every mesh; other transport types on one-dimensional meshes raise UnboundLocalError (C87)',
  'function_spaces.py:300-309: family BDMCF/BDMCE on quadrilaterals is paired with the tensor product DG space of degree k, which is larger than the divergence of BDMCF(k+1) for k >= 1; in a vertical slice the HCurl space is built from DG(k+1) instead of DG(k) (C85)',
  'kernels.py MinKernel/MaxKernel ignore NaN: a field of NaNs has minimum finfo.max and maximum finfo.min, so a blown-up run keeps logging finite Courant numbers (C90)',
  'diagnostics.py XComponent/YComponent/ZComponent: unit vectors have length topological_dimension instead of geometric_dimension, so they raise on spherical_shell (C90)',
  'diagnostics.py Gradient.setup: boundary terms only on top and bottom of extruded meshes; the gradient of a constant is not zero on a bounded plane (C90)',
  'diagnostics.py:1035 TracerDensity: the vertical element is built on the horizontal cell, wrong on 3D extruded meshes (C90)',
  'diagnostics.py CourantNumber: only inflow is counted, so a cell with pure outflow reports zero (C91)',
  'diagnostics.py CourantNumber with an expression: the component is not part of the name, so log_courant(component=...) raises ValueError; setup_log_courant(name) without expression sets up the Courant number of u (C91)',
  'io.py setup_log_courant: courant_name is compared with diagnostic names but is never one, so each run() appends duplicates (C91)',
  'SteadyStateError: a second run() without pick_up, or a user-supplied field name_init, is overwritten at setup (C92)',
  'shallow_water_diagnostics.py Vorticity (solve): the boundary circulation is missing, so a rotating fluid in a bounded box has diagnosed total vorticity 0 (C93)',
  'shallow_water_diagnostics.py Vorticity: in a continuous space with interpolate or project the expression is curl(u), which on the sphere is a vector and fits neither f nor the scalar space (C93)',
  'compressible_euler_diagnostics.py RichardsonNumber: required_fields has the density instead of its gradient, so the set-up fails for some orders of the diagnostics (C94)',
  'diagnostics.py Gradient: shape (mesh_dim,)*field_dim is wrong except for scalars and 2D vectors (C94)',
  'compressible_euler_diagnostics.py BruntVaisalaFrequencySquared: len(active_tracers) > 1 should be > 0 (C94)',
  'compressible_euler_diagnostics.py Precipitation: the initial dump adds a full time step of rain (C94)',
  'shallow_water_equations.py:151: an invalid u_transport_option raises AttributeError because self.u_transport_option is never set (C95)',
  'LinearShallowWaterEquations: the topography of the documented equation is dropped, because it has no linearisation (C95)',
  'common_forms.py:38 advection_form of a vector: dot(ubar, grad(q)) contracts the components, giving grad(|u|^2/2) instead of (u.grad)u (C95)',
  'ThermalShallowWaterEquations: topography is counted twice, the residual of the super class already has it (C96)',
  "ThermalShallowWaterEquations: linear_source_form lacks b' grad(Dbar) (C96)",
  'ThermalShallowWaterEquations: the source is linearised whatever the linearisation_map says (C96)',
  "ThermalShallowWaterEquations, equivalent buoyancy: the linearisation uses the saturation of the state instead of the reference, takes q_v' = q_t' also when saturated, and lacks beta2 Dbar grad(q_t') (C96)",
  'BoussinesqEquations(compressible=False): the pressure keeps its mass term beside phi*(p - div u), so a monolithic time discretisation enforces div u = p + dp/dt, not div u = 0 (C97)',
  'boussinesq_equations.py:182-200: the divergence term is linearised whatever the linearisation_map says (C97)',
  'boussinesq_equations.py:139: an invalid u_transport_option raises AttributeError because self.u_transport_option is never set (C97)',
  'BoussinesqEquations: active_tracers=[] raises NotImplementedError; rotation in a vertical slice fails because cross needs three components (C97)',
  'solver_presets.py: with equivalent buoyancy and default solver_prognostics q_t is in no block of the field split; user-given solver_prognostics can overlap the hard-wired blocks; one-dimensional shallow water hands three fields to hybridisation (C98)',
  'solver_presets.py: tau_values reach the auxiliary form only for the compressible equations (C98)',
  "QuasiNewtonLinearSolver completes the caller's tau_values in place: with TRBDF2 the second solver uses the alpha of the first (C98)",
  'boussinesq_equations.py schur_complement_form: `self.parameter.Omega` raises AttributeError for rotating equations (C98)',
  'boussinesq_equations.py schur_complement_form: the incompressible pressure row `phi*div(u)` has the wrong sign and scale against the operator, and the preset applies it with preonly, so the divergence is not removed (C98)',
  'shallow_water_equations.py schur_complement_form: `-0.5*Dref*b*div(w)` is not the weak gradient for varying Dref, so the elimination is inexact there (documented as approximate) (C98)',
  'shallow_water_equations.py schur_complement_form with equivalent buoyancy: `bref += beta2*qvbar` is evaluated when the form is built, with qvbar zero; later updates of qvbar have no effect (not modelled)',
  'VerticalHybridizationPC: velocity conditions only on lateral boundaries leave the traces at top and bottom with zero rows (C99)',
  'CompressibleEulerEquations: the docstring promises NotImplementedError for tracers that are not mixing ratios; the code only warns (C100)',
  'CompressibleEulerEquations: the sponge coefficient is interpolated to DG2 and is negative in parts of the cell at the sponge level: a source of energy (C100)',
  'CompressibleEulerEquations: the sponge uses the last Cartesian coordinate: on a sphere there is none in the southern hemisphere (C100)',
  "HydrostaticCompressibleEulerEquations: the extra term -(k.w)(k.u) makes the vertical balance 'forces = vertical velocity' in monolithic time stepping (C101)",
  'HydrostaticCompressibleEulerEquations: replace_subject leaves the linearisation with the full velocity mass, and the extra term has no linearisation; the projected terms lack the documented `hydrostatic` label (C101)',
  'Forcing with hydrostatic equations: the left-hand side vanishes for vertical test functions; the problem is singular and has no solution for a moving balanced column (C101)',
  'CompressibleHybridisedSCPC: the docstring says the elimination of theta introduces error near topography; it does wherever the reference varies along the layers, and with discontinuous (DG) reference density the continuity row differs from the operator by the jumps (C102)',
  'CompressibleHybridisedSCPC: the moist divergence term is missing, only water tracers count in the pressure gradient while the equations count all mixing ratios, and water densities raise after the equations accepted them (C102)',
  'CompressibleHybridisedSCPC with hydrostatic equations: the vertical mass is projected out, the operator keeps it (C102)',
  'CompressibleHybridisedSCPC: rows of tracers are never written: tracers in solver_prognostics get zero increments (C102)',
  'SIQNModel/LowestOrderSIQNModel: no branch for buoyancy-type fields of thermal or Boussinesq sets / other spaces: either an error or silently not transported (C103)',
  "SIQNModel with consistent_metric: z gets two transport schemes; the constructor's flag is not passed to the stepper (C103)",
  'LowestOrderSIQNModel on a non-extruded mesh: AttributeError; diffusion_options=None raises; active_tracers list of the caller is mutated (C103)',
  'ShallowWaterEquations_1d: the argument space_names is overwritten, an empty list of active tracers raises (C104)',
  'LinearShallowWaterEquations_1d: parameters.H is never read; with reference profiles not set the depth equation loses its divergence (C104)',
  'ShallowWaterEquations_1d on an interval with the default no_normal_flow_bc_ids=None: the boundary pressure is missing and a fluid at rest accelerates (C104)',
  'NumericalIntegral: points outside the bounds silently get the value at the bound; with lower_bound > upper_bound (the check is commented out) every point gets the integral over the whole range; num_points=1 gives zero (C105)',
  'get_flat_latlon_mesh (core/meshes.py:636): heights are measured from the minimum radius on the rank, so they are discontinuous across ranks over orography, and a rank without cells raises ValueError; a node on the axis gets longitude zero, so cells at the pole can be spread over more than half the map (C109)',
  'Domain (core/domain.py:144, marked TODO): the radius is the minimum over the rank, so the coordinate h and domain_extent_z depend on the partition if the base mesh is not an exact sphere; radially extruded circles pass for vertical slices with the Cartesian z as height (C110)',
  'IMEX_Trap2 (time_discretisation/imex_runge_kutta.py:513-515, e = 0): the implicit and explicit tables have different row sums in stage 1, so a steady state in which implicit and explicit terms balance is changed by O(dt^3) per step (C112)',
  'advection_form (equations/common_forms.py:38): dot(ubar, grad(q)) for a vector q contracts the velocity with the components of q (u_i d_j q_i), so AdvectionEquation and AdvectionDiffusionEquation of a vector field do not solve dq/dt + (u.grad)q = 0 unless DGUpwind replaces the term (C113; see C95 for the velocity)',
  'diffusion_form (equations/common_forms.py:302): kappa*grad(q) with a tensor kappa and a vector q mixes components instead of directions; InteriorPenaltyDiffusion uses grad(q)*kappa (C113)',
  'AdvectionEquation, ContinuityEquation, CoupledTransportEquation, AdvectionDiffusionEquation with Vu overwrite the HDiv space of the domain (transport_equations.py:30-31), so later equations without Vu use it too, even if the constructor failed (C113)',
  'AdvectionDiffusionEquation (advection_diffusion_equations.py:41): the optional diffusion_parameters=None raises AttributeError (C113)',
  'core/logging.py:19, 72: the documentation names GUSTO_LOGFILE_LOG_LEVEL, the code reads GUSTO_FILE_LOG_LEVEL, so the documented variable does nothing (C114)',
  'core/logging.py:57-68, 161-162: sys.excepthook is replaced by a function that only logs, and ranks other than 0 have a NullHandler, so an unhandled exception on such a rank is reported nowhere (C114)',
  'core/logging.py:175-208: the log file is moved only once, so the records of a second simulation in the same process go to the directory of the first; a second call of the exported set_log_handler makes the next simulation raise LoggingError (C114)',
  "core/logging.py:74-80: GUSTO_LOG_LEVEL=NOTSET gives the logger level 0, for which the root's WARNING is used: less is logged than with DEBUG or INFO; a lower-case level name makes import gusto fail with TypeError or ValueError (C114)",
  "timestepper.py:282: set_reference_profiles tests field_name+'_bar' in self.fields; Fields iterates over Functions and has no __contains__, so the test is always false and a profile that is already in the state cannot be set from an expression as the comment says (ValueError) (C117)",
  'physics_parametrisation.py:80 and the other label names: two SourceSink objects for the same variable (or two Relaxation, or two BoundaryLayerMixing of one field) get the same label string; setup selects terms by that string, so with one scheme each in SemiImplicitQuasiNewton, TRBDF2QuasiNewton or a split timestepper both terms act twice (C120)',
  'semi_implicit_quasi_newton.py:262-294: a field whose equation has a transport term but which has no transport scheme is accepted and silently not transported, since the forcing drops transport terms too (C120)',
  'boundary_and_turbulence.py:634,658-662: BoundaryLayerMixing uses dS_v (facets between columns) where a vertical interior penalty needs dS_h: fields that are constant with height in each cell are not mixed vertically at all, horizontal differences between columns are, and uniform fields change where the diffusivity differs between columns (C121)',
  'boundary_and_turbulence.py:643: dz = k.(k d/dz(k.x)) is identically 1, not the depth of the layer (C121)',
  'boundary_and_turbulence.py:637,660: d_dz of a vector is outer(k, .) but the normal is the second index of outer(test, n): the surface term exerts a force on the vertical wind from the shear of the horizontal wind (C121)',
  'explicit_runge_kutta.py: the decimal coefficients of SSPRK3 (5 stages) and SSPRK4 give weights that sum to 1+3.2e-10 and 1-8.8e-11: the schemes do not converge, the error has a floor proportional to the elapsed time (C122)',
  'multi_level_schemes.py:321-338: AdamsBashforth starts with forward Euler steps, which limits orders 3 and 4 to second-order accuracy (C123)',
  'C126: `SDC(quad_type="GAUSS" or "RADAU-LEFT", final_update=False)` returns the value at the last node, which is before the end of the step, as the value at the end (deferred_correction.py 527-540): the run does not converge. The constructor accepts the combination.',
  'C127: `RIDC` never evaluates `source_Ukp1[0]` (see C67): for a constant physics source every step applies only (M-1)/M of it, at all resolutions.',
  'C128: `Recoverer(expr, x_out, boundary_method=BoundaryMethod.taylor)` raises AttributeError (`x_in.function_space()`, recovery.py 250), although UFL expressions are documented as sources.',
  'C128: for a vector target the Taylor method never checks that the target is CG1 (recovery.py 260-281; the scalar case raises the documented ValueError): a VectorCG2 target is silently replaced by its CG1 interpolant.',
  'C128: the extruded method tests `isinstance(elt, VectorElement)` to reject vectors (recovery.py 243-244): an HCurl target passes and its vertical degrees of freedom are extrapolated as if they were pairs in a column.',
  'C128: with the hcurl method on a VectorElement `project` reads the attribute `boundary_recoverers` (recovery.py 299), set only for the Taylor method.',
  'C128: the broken space is built as `VectorElement(BrokenElement(sub))` without the dimension of the target (recovery.py 209): targets with another number of components than the default raise RuntimeError in the Averager.',
  'C129: a prognostic outside `solver_prognostics` with a forcing term of its own gets the explicit part (1-alpha) of it only: `zero_non_prognostics` and `copy_active_tracers` (semi_implicit_quasi_newton.py 450-462, 1000-1015) drop the implicit part, so the model converges to another equation.',
  'C130: with n outer BDF iterations a forced field without a transport scheme (a linear model) grows by 2 gamma (1 - (1 - gamma3)^n) + gamma2 per unit of forcing and time (tr_bdf2_quasi_newton.py 543-569): one for n = 1, but not for the default n = 2, however small dt is.',
  "C131: the field of a diagnostic with to_dump=False has type 'derived', so a second call of run regards it as a non-diagnostic (io.py 346-347) and may evaluate what depends on it first: every dump then has stale values.",
  'C132: DiagnosticField.__init__ (diagnostics.py 136-137) builds the message of its assertion from self.method, which is not set yet: AttributeError instead of the intended message.',
  'core/io.py 443-451: when picking up without a netCDF file, rank 0 raises inside the `rank == 0` branch and the other ranks block in `bcast` (C133_missing_file_refuted)',
  'core/io.py 437-452, 918-926: a run that picks up on another number of ranks appends values in its own node order under the coordinates of the first run (C133_renumbered_refuted)',
  'core/io.py 876-885: vector-valued fields listed for output are left out of field_output.nc with only a log warning (C133_vector_refuted)',
  'timestepping/tr_bdf2_quasi_newton.py 427: `self.true_adv_z_projection` is never defined: with consistent_metric=True every timestep raises AttributeError (C134_tr_bdf2_refuted)',
  'timestepping/tr_bdf2_quasi_newton.py 431: the rate of the height is divided by `factor` although the transporting velocity is already scaled by it (C134_tr_bdf2_factor_refuted)',
  "timestepping/semi_implicit_quasi_newton.py 436: `field_name == 'theta'` is false for a simultaneous scheme containing theta, which then ignores the consistent metric term without a warning (C134_simultaneous_refuted)",
  "timestepping/semi_implicit_quasi_newton.py 490-500: with predictor='z' the consistent-metric branch is never reached and theta is transported by a zero wind (C134_predictor_refuted)",
  'time_discretisation.py 307-329: SUPG does not replace the test function in the all_but_last label, so advective-then-flux transport mixes test functions between the stages (C135_all_but_last_refuted)',
  'wrappers.py 346-350: the default tau is 0 for HDiv spaces: SUPG for velocities has silently no effect (C135_hdiv_refuted)',
  'time_discretisation.py 313-316: a term carrying two of the labels listed in suboptions gets the SUPG test function twice (C135, example)',
  'shallow_water_equations.py 75, 339, 701: the argument space_names is overwritten, so a request for other spaces is silently ignored in all shallow-water classes (C137_ignored_refuted)',
  'prognostic_equations.py 348: the spaces of tracers are written into the dictionary of the user, also if the constructor then fails; a second set with the same dictionary and another space, or a corrected retry, is refused (C137_reuse_refuted, C137_retry_refuted)',
  'prognostic_equations.py 295: in a set whose only field is u, the no-normal-flow conditions are deleted (C78_single_refuted)',
  'time_discretisation.py 617-714 and multi_level_schemes.py 19-45: BackwardEuler, BDF2, Leapfrog, AdamsBashforth and AdamsMoulton accept the argument limiter, store it and never apply it (C138_backward_euler_refuted, C138_multilevel_refuted)',
  'explicit_runge_kutta.py 326-329, 391-394: physics schemes are evaluated before the stage field is limited, so they see the negative values that the limiter is meant to remove; the predictor formulation limits first (C138_sources_refuted)',
  'wrappers.py 182-192: the limiter acts in the embedding space; the projection back to a continuous space can make the limited field negative (C138_wrapped_refuted)',
  'deferred_correction.py 445, parallel_dc.py 306: base.dt is replaced by a number at every node, but the solver of the base scheme is a cached property whose forms hold the number of the first node; with unequal nodes an implicit (or IMEX) base scheme takes wrong steps and the run loses an order (C126_held_step_refuted); with Lobatto nodes it does not move (C139_lobatto_refuted)',
  'deferred_correction.py 136 and time_discretisation.py 522: base.dt aliases the Function of the domain, so the setup of a base scheme with fixed_subcycles=n divides the timestep of the whole model by n, and the clock runs n times too slowly (C139_fixed_subcycles_clock_refuted)',
  'deferred_correction.py 445, 823: the spacing set after setup is not divided by the number of fixed subcycles, so the guess covers n times the way (C139_fixed_subcycles_guess_refuted); adaptive subcycling calls assign on a number (C139_adaptive_refuted)',
  "time_discretisation.py 513-515: the setup of an explicit scheme overwrites ksp_type, pc_type, sub_pc_type and snes_type of the dictionary that the user passed, in place: the choices of the user have no effect, and an implicit scheme that shares the dictionary does one linear solve with a frozen Jacobian instead of Newton's method (C140_explicit_refuted, C140_shared_refuted, C140_two_explicit_refuted)",
  'time_discretisation.py 354-355: the parameters of the SUPG wrapper are never taken, since solver_parameters is never None; explicit schemes use CG for the nonsymmetric SUPG mass matrix (model of setup in Model/SolverParams.lean)',
  'time_discretisation.py 543-546: the Jacobian of the mass system is kept for the whole run, but the SUPG mass matrix contains the wind: with ksponly the stages solve wrong systems as soon as the wind changes (C141_changing_mass_refuted)',
  'explicit_runge_kutta.py 320-344 and implicit_runge_kutta.py 219-241: in the increment formulation the solver imposes the Dirichlet values on the stage increments k, not on the field: with a nonzero value g the boundary value grows by dt*g in every step (C142_increment_refuted)',
  'split_timestepper.py 146-148, 207-208, 296-297: physics schemes are set up without boundary conditions, so that they can break the conditions of the equation (C142_split_physics_refuted)',
  'augmentation.py 337 with time_discretisation.py 221: MeanMixingRatio has no conditions, so a scheme for a mixed equation loses those of the velocity; with a wrapper the set-up fails with a TypeError (C142_conditions_refuted)',
  'wrappers.py 141-157: conservative_project does not use the boundary conditions (C142_conservative_back_refuted)',
  'C148: `predictor` is compared with the single names of the transport schemes only (semi_implicit_quasi_newton.py 476-499): a field transported simultaneously, or misspelt, is transported without the predictor and without a message.',
  'C149: `TimeLevelFields.add_fields` (fields.py 274-288) does not pass `field_names` on, so a mixed auxiliary equation of SemiImplicitQuasiNewton ends in `TypeError`; an auxiliary field with the name of a prognostic one is accepted, and `update` then copies it into the prognostic field of level n.',
]
