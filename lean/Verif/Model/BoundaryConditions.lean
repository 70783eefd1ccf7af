import Verif.Model.FML
import Mathlib.Data.List.Basic

set_option autoImplicit false

/-!
# Dirichlet boundary conditions

The conditions an equation holds (`equation.bcs`), the ones a time discretisation gives to its solvers
(time_discretisation.py:219-223, 277-330, 357-378), and what a variational solver does with them.
-/

namespace Gusto.BC

/-! ## Solving with prescribed boundary values -/
section solver
variable {I B D D₀ : Type*}

/-- `NonlinearVariationalSolver(NonlinearVariationalProblem(res, x, bcs=bcs)).solve()` (Firedrake; built at
time_discretisation.py 414-426, 572-578, explicit_runge_kutta.py 160-196, implicit_runge_kutta.py 193-211): the boundary
degrees of freedom (`B`) of the unknown are set to the prescribed values `g`, and the equations of the interior test
functions (`ρ` keeps them) are solved by `core` for the interior degrees of freedom (`I`), starting from those of the
guess. -/
def solveWith (ρ : D → D₀) (core : Solver I D₀) (g : B) : Solver (I × B) D :=
  fun r x => (core (fun y => ρ (r (y, g))) x.1, g)

end solver

/-! ## Which conditions a scheme uses -/

/-- A `DirichletBC`: space, value (`function_arg`) and part of the boundary (`sub_domain`)
(prognostic_equations.py 288-298). -/
structure Cond where
  space : String
  value : ℚ
  part : String
  deriving DecidableEq, Repr

/-- `PrognosticEquation.bcs`: the conditions by field name; `none` is a `KeyError` (prognostic_equations.py 42-53). -/
abbrev Dict := String → Option (List Cond)

/-- `self.wrapper` and `self.wrapper_name` with the space of the wrapper; for mixed options the names of the fields and
the spaces of the components (time_discretisation.py 110-134, 272-355). -/
inductive Wrapper
  | none
  | supg
  /-- embedded DG or recovery, with its function space -/
  | single (space : String)
  | mixed (names : List String) (subspace : ℕ → String)

/-- The boundary conditions in `TimeDiscretisation.setup`, time_discretisation.py:219-223 and 361-378.  `augmentation`:
`none` without augmentation, else its attribute `bcs` (`none` if it is `None` or missing).  The result `none` is
`self.bcs = None`. -/
def schemeBcs (eq : Dict) (field : String) (applyBcs : Bool) (w : Wrapper) (augmentation : Option (Option (List Cond))) :
    Except String (Option (List Cond)) :=
  match (match augmentation with
    | some b => .ok b
    | none => match eq field with
      | some l => .ok (some l)
      | none => .error "KeyError" : Except String (Option (List Cond))) with
  | .error e => .error e
  | .ok bcs =>
    if !applyBcs then .ok none
    else match w with
      | .none => .ok bcs
      | .supg => .ok bcs
      | .single space =>
        match bcs with
        | none => .error "TypeError"
        | some l => .ok (some (l.map fun c => { c with space := space }))
      | .mixed names subspace =>
        (names.zipIdx.foldlM (m := Except String) (fun (acc : List Cond) (p : String × ℕ) => match eq p.1 with
          | some l => Except.ok (acc ++ l.map fun c => { c with space := subspace p.2 })
          | none => Except.error "KeyError") []).map some

/-- The attribute `bcs` of the augmentations: `VorticityTransport` moves the conditions of the velocity `u` to its own mixed
space (augmentation.py 106-116), `MeanMixingRatio` has `None` (augmentation.py 337). -/
inductive Augmentation | vorticityTransport (space : String) | meanMixingRatio

/-- see `Augmentation` (augmentation.py 106-116, 337). -/
def Augmentation.bcs (eq : Dict) : Augmentation → Option (List Cond)
  | .vorticityTransport space => some (((eq "u").getD []).map fun c => { c with space := space })
  | .meanMixingRatio => none

/-- The timesteppers and the roles of the schemes they set up. -/
inductive Role
  /-- `Timestepper`, the scheme (timestepper.py 363-366) -/
  | timestepper
  /-- `SplitTimestepper`, `SplitPhysicsTimestepper`, `SplitPrescribedTransport`: the scheme of the dynamics
  (split_timestepper.py 139-141, 229-230, 325-326) -/
  | splitDynamics
  /-- the same, a physics scheme (split_timestepper.py 146-148, 207-208, 296-297) -/
  | splitPhysics
  /-- `SemiImplicitQuasiNewton` and `TRBDF2QuasiNewton`, any scheme (semi_implicit_quasi_newton.py 428-448,
  tr_bdf2_quasi_newton.py 368-388) -/
  | quasiNewton

/-- The argument `apply_bcs` that the timesteppers pass to `scheme.setup` (timestepper.py 363-366, split_timestepper.py
139-148, 207-208, 229-230, 296-297, 325-326, semi_implicit_quasi_newton.py 428-448). -/
def Role.applyBcs : Role → Bool
  | .timestepper => true
  | .splitDynamics => true
  | .splitPhysics => false
  | .quasiNewton => true

/-! ## Coming back from the space of a wrapper -/

/-- The ways back to the original space (wrappers.py 136-157, 266-281) -/
inductive Back | project | recover | interpolate | conservativeProject

/-- Which of them are given the boundary conditions (`bcs=post_apply_bcs`, wrappers.py 137-138, 269-270). -/
def Back.usesBcs : Back → Bool
  | .project => true
  | .recover => false
  | .interpolate => false
  | .conservativeProject => false

end Gusto.BC
