import Mathlib.Algebra.Module.Equiv.Basic
import Mathlib.Logic.Function.Basic

set_option autoImplicit false

/-!
# The solver parameters of the time discretisations

`TimeDiscretisation.__init__` and `setup`, `ExplicitTimeDiscretisation.setup` and the constructors of the implicit schemes
(gusto/time_discretisation/time_discretisation.py 140-145, 354-355, 512-546, 640-644, 776-782, 941-947, multi_level_schemes.py 444-448),
`mass_parameters` (gusto/solvers/parameters.py 10-53).

A Python dictionary is an object: the schemes keep a reference to the one of the user and write into it.  The solver takes the contents at
the time of its construction, in the first call of `apply` (time_discretisation.py 413-424, 571-578).  Values are written as strings.

The second part is the step that PETSc takes with these parameters: `ksponly` is one Newton step, and with `snes_lag_jacobian` -2 and
`snes_lag_jacobian_persists` the Jacobian is built in the first solve and kept in all later ones.
-/

namespace Gusto.SolverParams

/-- A dictionary of solver parameters (time_discretisation.py 141-145). -/
abbrev Dict := String → Option String

/-- `d[k] = v` (time_discretisation.py 515). -/
def Dict.set (d : Dict) (k v : String) : Dict := Function.update d k (some v)

/-- `d.setdefault(k, v)` (time_discretisation.py 543-546). -/
def Dict.setdefault (d : Dict) (k v : String) : Dict := if (d k).isSome then d else d.set k v

/-- `mass_parameters`, gusto/solvers/parameters.py 49-53 (the code below the return is never reached), and `update`
(time_discretisation.py 513). -/
def updateMass (d : Dict) : Dict := ((d.set "ksp_type" "cg").set "pc_type" "bjacobi").set "sub_pc_type" "ilu"

/-- The default parameters, time_discretisation.py 141-143 (also 642-644, 779-781, 944-946). -/
def defaults : Dict := fun k =>
  if k = "ksp_type" then some "gmres" else if k = "pc_type" then some "bjacobi" else if k = "sub_pc_type" then some "ilu" else none

/-- The part of `ExplicitTimeDiscretisation.setup` about the parameters, time_discretisation.py 512-546; `nonlinear`: the equation has a
nonlinear time derivative term. -/
def explicitSetup (nonlinear : Bool) (d : Dict) : Dict :=
  let d := updateMass d
  let d := d.set "snes_type" "ksponly"
  if nonlinear ∧ d "snes_type" = some "ksponly" then d.set "snes_type" "newtonls"
  else (((d.setdefault "snes_lag_jacobian" "-2").setdefault "snes_lag_jacobian_persists" "None").setdefault
    "snes_lag_preconditioner" "-2").setdefault "snes_lag_preconditioner_persists" "None"

/-- What kind of scheme: explicit (time_discretisation.py 466), or one of the others, whose `setup` does not write parameters. -/
inductive Kind where
  | explicit (nonlinear : Bool)
  | implicit
  deriving DecidableEq

/-- A scheme: its kind and the dictionary object in its attribute `solver_parameters` (time_discretisation.py 140-145). -/
structure Scheme where
  kind : Kind
  ref : ℕ

/-- The constructor (time_discretisation.py 140-145; for the schemes with `if not solver_parameters` 640-644, an empty dictionary counts as
none): the object of the user is kept, and a new one, with the number `new`, holds the defaults if there is none. -/
def construct (kind : Kind) (emptyIsNone : Bool) (user : Option ℕ) (new : ℕ) (heap : ℕ → Dict) (isEmpty : Dict → Bool) : Scheme × (ℕ → Dict) :=
  match user with
  | some r => if emptyIsNone && isEmpty (heap r) then (⟨kind, new⟩, Function.update heap new defaults) else (⟨kind, r⟩, heap)
  | none => (⟨kind, new⟩, Function.update heap new defaults)

/-- `setup` of a scheme (time_discretisation.py 147, 354-355, 512-546): the attribute is never `None` here, so the parameters of a wrapper
are not taken. -/
def setup (s : Scheme) (heap : ℕ → Dict) : ℕ → Dict :=
  match s.kind with
  | .explicit nl => Function.update heap s.ref (explicitSetup nl (heap s.ref))
  | .implicit => heap

/-- A history: the schemes that are set up, in this order (timestepper.py 363-370, semi_implicit_quasi_newton.py 430-460). -/
def setups (schemes : List Scheme) (heap : ℕ → Dict) : ℕ → Dict := schemes.foldl (fun h s => setup s h) heap

/-- The parameters that the solver of a scheme gets (time_discretisation.py 421, 577). -/
def parameters (s : Scheme) (heap : ℕ → Dict) : Dict := heap s.ref

section lag
variable {K X D : Type*} [Field K] [AddCommGroup X] [Module K X] [AddCommGroup D] [Module K D]

/-- One solve with the parameters of an explicit scheme whose time derivative is linear: the system is `A y = b`; one Newton step from
`guess` with the Jacobian that the first solve built (PETSc: `ksponly`, `snes_lag_jacobian` -2, `snes_lag_jacobian_persists`;
time_discretisation.py 515, 543-546).  Returns the Jacobian that is kept, and the result. -/
def lagSolve (kept : Option (X ≃ₗ[K] D)) (A : X ≃ₗ[K] D) (b : D) (guess : X) : Option (X ≃ₗ[K] D) × X :=
  let J := kept.getD A
  (some J, guess - J.symm (A guess - b))

/-- A sequence of solves with one solver: the operator, the right-hand side and the guess of each (time_discretisation.py 571-578). -/
def lagSolves : Option (X ≃ₗ[K] D) → List ((X ≃ₗ[K] D) × D × X) → List X
  | _, [] => []
  | kept, (A, b, g) :: rest => let r := lagSolve kept A b g; r.2 :: lagSolves r.1 rest

end lag

end Gusto.SolverParams
