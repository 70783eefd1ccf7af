import Verif.Model.QuasiNewton

set_option autoImplicit false

/-!
# Building a quasi-Newton timestepper: `SemiImplicitQuasiNewton.__init__` and `TRBDF2QuasiNewton.__init__`

The checks of the constructors (semi_implicit_quasi_newton.py:166-343, tr_bdf2_quasi_newton.py:150-276), the lists of schemes they
build, and the terms of the equation each scheme gets (`setup_scheme`, semi_implicit_quasi_newton.py:428-448,
tr_bdf2_quasi_newton.py:368-388, split_timestepper.py:214-233).
Not modelled: auxiliary equations, the objects built for the linear solvers, the fields.
-/

namespace Gusto.QNSetup
open Gusto

/-- The exceptions of the constructors (semi_implicit_quasi_newton.py 166-343, tr_bdf2_quasi_newton.py 150-276). -/
inductive Err where
  | assertion | value | index | notImplemented
  deriving DecidableEq, Repr

/-- `equation_set.field_names` and the names of `equation_set.active_tracers` (prognostic_equations.py 107-180). -/
structure EqSet where
  names : List String
  tracers : Option (List String)

/-- The `field_name` of a scheme: one name or a list of names (semi_implicit_quasi_newton.py 266). -/
inductive Target where
  | one (f : String)
  | many (l : List String)
  deriving DecidableEq

/-- What the constructors look at in a time discretisation (semi_implicit_quasi_newton.py 263-326). -/
structure Scheme where
  target : Target
  nlevels : ℕ
  explicit : Bool
  deriving DecidableEq

/-- A spatial method: its variable, and whether its `term_label` is `transport` (otherwise `diffusion`)
(semi_implicit_quasi_newton.py 276, 290, 336). -/
structure Method where
  variable_ : String
  isTransport : Bool
  deriving DecidableEq

/-- A pair (parametrisation, scheme).  `label` stands for the string of the parametrisation's label: equal strings, equal numbers
(semi_implicit_quasi_newton.py 314-326; physics_parametrisation.py 33). -/
structure Physics where
  label : ℕ
  explicitOnly : Bool
  scheme : Scheme

/-- What the constructor leaves behind (semi_implicit_quasi_newton.py 166-343, tr_bdf2_quasi_newton.py 150-276). -/
structure Setup where
  solver : List String
  nonSolver : List String
  transport : List (Target × Scheme)
  simult : Bool
  physics : List Physics
  diffusion : List (String × Scheme)

/-- The fields of the linear solver and the others, semi_implicit_quasi_newton.py:166-193 and tr_bdf2_quasi_newton.py:152-178. -/
def solverLists (eq : EqSet) (given : Option (List String)) : Except Err (List String × List String) :=
  match given with
  | some l =>
    if l.all (fun n => decide (n ∈ eq.names)) then .ok (l, eq.names.filter (fun f => decide (f ∉ l)))
    else .error .assertion
  | none =>
    match eq.tracers with
    | some ts => .ok (eq.names.filter (fun f => decide (f ∉ ts)), ts)
    | none => .ok (eq.names, [])

/-- The checks for the consistent metric term, semi_implicit_quasi_newton.py:238-254 and tr_bdf2_quasi_newton.py:220-236. -/
def metricCheck (consistent : Bool) (eq : EqSet) (ts : List Scheme) : Except Err Unit :=
  if consistent then
    if "theta" ∉ eq.names then .error .value
    else if "z" ∉ eq.names then .error .value
    else match ts with
      | [] => .error .index
      | s :: _ => if s.target ≠ .one "z" then .error .value else .ok ()
  else .ok ()

/-- Number of transport methods of a variable (the inner loop of semi_implicit_quasi_newton.py 275-277 and 289-292). -/
def methodCount (ms : List Method) (transport : Bool) (f : String) : ℕ :=
  (ms.filter fun m => decide (m.variable_ = f) && (m.isTransport == transport)).length

/-- One pass of the loop over the transport schemes, semi_implicit_quasi_newton.py:263-294: the entries added to
`active_transport`.  For a single field there is one entry for every matching method. -/
def transportEntry (eq : EqSet) (ms : List Method) (s : Scheme) : Except Err (List (Target × Scheme)) :=
  if s.nlevels ≠ 1 then .error .assertion
  else match s.target with
    | .many l =>
      if l.all (fun f => decide (f ∈ eq.names) && decide (0 < methodCount ms true f)) then .ok [(s.target, s)]
      else .error .assertion
    | .one f =>
      if f ∉ eq.names then .error .assertion
      else if methodCount ms true f = 0 then .error .assertion
      else .ok (List.replicate (methodCount ms true f) (s.target, s))

/-- The loop over the transport schemes, semi_implicit_quasi_newton.py:262-294. -/
def transportLoop (eq : EqSet) (ms : List Method) : List Scheme → Except Err (List (Target × Scheme))
  | [] => .ok []
  | s :: ss =>
    match transportEntry eq ms s with
    | .error e => .error e
    | .ok l =>
      match transportLoop eq ms ss with
      | .error e => .error e
      | .ok l' => .ok (l ++ l')

/-- The loop over all physics schemes, semi_implicit_quasi_newton.py:314-321 and tr_bdf2_quasi_newton.py:205-210. -/
def physicsLoop : List Physics → Except Err Unit
  | [] => .ok ()
  | p :: ps =>
    if p.scheme.nlevels ≠ 1 then .error .assertion
    else if p.explicitOnly && !p.scheme.explicit then .error .assertion
    else physicsLoop ps

/-- The loop over the diffusion schemes, semi_implicit_quasi_newton.py:324-337 and tr_bdf2_quasi_newton.py:262-274. -/
def diffusionLoop (eq : EqSet) (ms : List Method) : List Scheme → Except Err (List (String × Scheme))
  | [] => .ok []
  | s :: ss =>
    if s.nlevels ≠ 1 then .error .assertion
    else match s.target with
      | .many _ => .error .assertion
      | .one f =>
        if f ∉ eq.names then .error .assertion
        else if methodCount ms false f = 0 then .error .assertion
        else match diffusionLoop eq ms ss with
          | .error e => .error e
          | .ok l => .ok ((f, s) :: l)

/-- The arguments of `SemiImplicitQuasiNewton` (semi_implicit_quasi_newton.py 38-50). -/
structure Args where
  eq : EqSet
  methods : List Method
  transport : List Scheme
  solver : Option (List String) := none
  consistent : Bool := false
  slow : List Physics := []
  fast : List Physics := []
  final : List Physics := []
  inner : List Physics := []
  diffusion : List Scheme := []

/-- `SemiImplicitQuasiNewton.__init__`, semi_implicit_quasi_newton.py:166-337. -/
def siqnInit (a : Args) : Except Err Setup :=
  match solverLists a.eq a.solver with
  | .error e => .error e
  | .ok (sp, nsp) =>
    match metricCheck a.consistent a.eq a.transport with
    | .error e => .error e
    | .ok _ =>
      match transportLoop a.eq a.methods a.transport with
      | .error e => .error e
      | .ok tr =>
        let physics := a.slow ++ a.fast ++ a.final ++ a.inner
        match physicsLoop physics with
        | .error e => .error e
        | .ok _ =>
          match diffusionLoop a.eq a.methods a.diffusion with
          | .error e => .error e
          | .ok df => .ok { solver := sp, nonSolver := nsp, transport := tr,
                            simult := a.transport.any (fun s => match s.target with | .many _ => true | .one _ => false),
                            physics := physics, diffusion := df }

/-- `TRBDF2QuasiNewton.__init__`, tr_bdf2_quasi_newton.py:150-276: no inner physics; `fastGiven` records that the argument
`fast_physics_schemes` is not `None`; a list of fields is not a field name, so simultaneous transport is rejected (line 252). -/
def trBdf2Init (a : Args) (fastGiven : Bool) : Except Err Setup :=
  match solverLists a.eq a.solver with
  | .error e => .error e
  | .ok (sp, nsp) =>
    if fastGiven then .error .notImplemented
    else match physicsLoop (a.slow ++ a.final) with
      | .error e => .error e
      | .ok _ =>
        match metricCheck a.consistent a.eq a.transport with
        | .error e => .error e
        | .ok _ =>
          if a.transport.any (fun s => match s.target with | .many _ => true | .one _ => false) then .error .assertion
          else match transportLoop a.eq a.methods a.transport with
            | .error e => .error e
            | .ok tr =>
              match diffusionLoop a.eq a.methods a.diffusion with
              | .error e => .error e
              | .ok df => .ok { solver := sp, nonSolver := nsp, transport := tr, simult := false,
                                physics := a.slow ++ a.final, diffusion := df }

/-! ### The terms each scheme gets -/
section terms
variable {X D : Type*} [AddCommMonoid D]

/-- The sum of the terms selected by `p`, at the state `x` (a scheme's residual without its time derivative; the selection is that of
time_discretisation.py:164-212, see C82). -/
def total (R : LForm X D) (p : Term X D → Bool) (x : X) : D := ((R.filter p).map fun t => t.op x).sum

/-- The fields a transport entry overwrites, semi_implicit_quasi_newton.py:477-513. -/
def Target.fields : Target → List String
  | .one f => [f]
  | .many l => l

/-- The tendency of one timestep to first order: what forcing (semi_implicit_quasi_newton.py:749-772), transport (every field from
`xstar`, the last entry of a field wins: lines 477-513), physics (lines 445-448, 590-594, 632-634, 682-685) and diffusion (lines
442-443, 677-680) add together. -/
def tendency (s : Setup) (names : List String) (R : LForm X D) (x : X) : D :=
  total R (fun t => !QN.isNotForcing t && !t.has .timeDerivative) x +
  (names.map fun f => if s.transport.any (fun e => decide (f ∈ e.1.fields)) then
      total R (fun t => t.has (.prognostic f) && t.has .transport && !t.has .timeDerivative) x else 0).sum +
  (s.diffusion.map fun e => total R (fun t => t.has (.prognostic e.1) && t.has .diffusion && !t.has .timeDerivative) x).sum +
  (s.physics.map fun p => total R (fun t => t.has (.physics p.label) && !t.has .timeDerivative) x).sum

/-- The tendency of `SplitPhysicsTimestepper` and `SplitPrescribedTransport`, split_timestepper.py:193-242 and 289-404: the dynamics
label goes on every term that is neither a time derivative nor physics, and every physics scheme gets the terms of its label. -/
def splitTendency (physics : List Physics) (R : LForm X D) (x : X) : D :=
  total R (fun t => !t.has .timeDerivative && !t.physIdx.isSome) x +
  (physics.map fun p => total R (fun t => t.has (.physics p.label) && !t.has .timeDerivative) x).sum

end terms
end Gusto.QNSetup
