import Verif.Model.DGForms
import Mathlib.Algebra.Order.Floor.Ring
import Mathlib.Analysis.SpecialFunctions.Pow.Real

set_option autoImplicit false

/-!
# Diagnostics

Model of `gusto/diagnostics/diagnostics.py`, of the kernels `MinKernel`, `MaxKernel` of `gusto/core/kernels.py`, and of
the parts of `gusto/core/io.py` which log Courant numbers and compute diagnostics over the life of a run.
-/

namespace Gusto.Diag
open Gusto.DG

/-! ### Global statistics -/

section Stats
variable {K : Type*} [Field K] [LinearOrder K] [IsStrictOrderedRing K]

/-- The kernel `minify`, kernels.py:178-180.  Values are `none` for NaN, with which every comparison is false. -/
def minify (a b : Option K) : Option K :=
  match a, b with
  | some x, some y => if x > y then some y else some x
  | a, _ => a
/-- The kernel `maxify`, kernels.py:206-208. -/
def maxify (a b : Option K) : Option K :=
  match a, b with
  | some x, some y => if x < y then some y else some x
  | a, _ => a

/-- `MinKernel.apply`, kernels.py:184-197: every process folds its own DoFs from `top = np.finfo(float).max`, and the
results are combined (here from the first process to the last). -/
def minApply (top : K) (ranks : List (List (Option K))) : Option K :=
  (ranks.map fun xs => xs.foldl minify (some top)).foldl minify (some top)
/-- `MaxKernel.apply`, kernels.py:212-225. -/
def maxApply (bot : K) (ranks : List (List (Option K))) : Option K :=
  (ranks.map fun xs => xs.foldl maxify (some bot)).foldl maxify (some bot)

/-- `Diagnostics.register`, diagnostics.py:48-59: `fset` is not updated in the loop. -/
def register {α : Type*} [DecidableEq α] (fields new : List α) : List α :=
  new.foldl (fun acc f => if f ∈ fields then acc else acc ++ [f]) fields

end Stats

/-- `assemble(inner(f, f)*dx)` for a field with values in `ℝ^n`, with quadrature weights `w`
(diagnostics.py 82-103). -/
noncomputable def sqInt {C : Type*} [Fintype C] {n : ℕ} (w : C → ℝ) (f : C → Fin n → ℝ) : ℝ := ∑ x, w x * dot (f x) (f x)
/-- `Diagnostics.rms`, diagnostics.py:84-94. -/
noncomputable def rms {C : Type*} [Fintype C] {n : ℕ} (w : C → ℝ) (f : C → Fin n → ℝ) : ℝ :=
  Real.sqrt (sqInt w f / ∑ x, w x)
/-- `Diagnostics.l2`, diagnostics.py:96-105. -/
noncomputable def l2 {C : Type*} [Fintype C] {n : ℕ} (w : C → ℝ) (f : C → Fin n → ℝ) : ℝ := Real.sqrt (sqInt w f)
/-- `Diagnostics.total`, diagnostics.py:107-120, for a scalar. -/
noncomputable def total {C : Type*} [Fintype C] (w : C → ℝ) (f : C → ℝ) : ℝ := ∑ x, w x * f x

/-! ### Iterative diagnostics -/

/-- `IterativeDiagnosticField.compute`, diagnostics.py:330-338, with the expression of line 290; `F` is `implicit_expr`
as a function of the current value of the field.  The old value of the field is an argument: it is not used. -/
def iterative {V K : Type*} [Field K] [AddCommGroup V] [Module K V] (gamma : K) (F : V → V) (guess : V) (n : ℕ)
    (_old : V) : V :=
  (fun x => (1 - gamma) • x + gamma • F x)^[n] guess

/-! ### Components of vectors -/

/-- The types of domains of `construct_domain_metadata`, domain.py:213-229. -/
inductive DomainType where
  | interval | plane | verticalSlice | extrudedPlane | sphericalShell | extrudedSphericalShell
  deriving DecidableEq

/-- `mesh.topological_dimension` (Firedrake; core/domain.py 201-253). -/
def DomainType.tdim : DomainType → ℕ
  | .interval => 1
  | .plane | .verticalSlice | .sphericalShell => 2
  | .extrudedPlane | .extrudedSphericalShell => 3
/-- `mesh.geometric_dimension`, the length of vectors such as the velocity (Firedrake; core/domain.py 201-253). -/
def DomainType.gdim : DomainType → ℕ
  | .interval => 1
  | .plane | .verticalSlice => 2
  | .extrudedPlane | .sphericalShell | .extrudedSphericalShell => 3

/-- The exceptions and UFL errors of diagnostics.py 341-760. -/
inductive DErr where
  | valueError | assertionError | typeError
  deriving DecidableEq

section Components
variable {K : Type*} [Field K]

/-- `dot` of UFL: "Dimension mismatch in dot product" unless the lengths agree
(UFL; diagnostics.py 401-451, 572-585). -/
def udot (a b : List K) : Except DErr K :=
  if a.length = b.length then .ok ((List.zipWith (· * ·) a b).sum) else .error .valueError

/-- `XComponent.setup`, diagnostics.py:584-594. -/
def xComponent (ty : DomainType) (f : List K) : Except DErr K :=
  udot f ([1] ++ List.replicate (ty.tdim - 1) 0)
/-- `YComponent.setup`, diagnostics.py:604-616. -/
def yComponent (ty : DomainType) (f : List K) : Except DErr K :=
  if ty = .interval ∨ ty = .verticalSlice then .error .assertionError
  else udot f ([0, 1] ++ List.replicate (ty.tdim - 2) 0)
/-- `ZComponent.setup`, diagnostics.py:626-638. -/
def zComponent (ty : DomainType) (f : List K) : Except DErr K :=
  if ty = .interval ∨ ty = .plane then .error .assertionError
  else udot f (List.replicate (ty.tdim - 1) 0 ++ [1])

end Components

/-! ### Gradient and tracer density -/

section Forms
variable {K : Type*} [Field K] [LinearOrder K] [IsStrictOrderedRing K] {d : ℕ} {C F B : Type*}
variable [Fintype C] [Fintype F] [Fintype B]

/-- The right-hand side `L` of `Gradient.setup`, diagnostics.py:487-490: `topBottom` are the facets of `ds_t` and
`ds_b`, which exist on extruded meshes only. -/
def gradientRHS (M : Mesh K d C F B) (extruded : Bool) (topBottom : B → Bool) (test : Ve K d C F B)
    (f : Sc K d C F B) : K :=
  -(∑ x, M.wC x * (test.div x * f.c x)) +
    (if extruded then ∑ x, M.wB x * (if topBottom x then dot (test.b x) (M.nB x) * f.b x else 0) else 0)

/-- What the solver of `Gradient` computes, diagnostics.py:484-493: `g` with `a(test, g) = L(test)` for all `test` of the
space. -/
def IsGradient (M : Mesh K d C F B) (extruded : Bool) (topBottom : B → Bool) (V : Set (Ve K d C F B))
    (f : Sc K d C F B) (g : C → Fin d → K) : Prop :=
  ∀ v ∈ V, ∑ x, M.wC x * dot (v.c x) (g x) = gradientRHS M extruded topBottom v f

/-- Which cell the quadrature points belong to; on an interior facet the cells of the two sides
(diagnostics.py 401-451). -/
structure Cells (C F B I : Type*) where
  cC : C → I
  cP : F → I
  cM : F → I
  cB : B → I

variable {I : Type*} [DecidableEq I]

/-- The function of DG0 with the values `Q` (diagnostics.py 401-451). -/
def dg0 (E : Cells C F B I) (Q : I → K) : Sc K d C F B where
  c x := Q (E.cC x)
  g _ _ := 0
  p x := Q (E.cP x)
  m x := Q (E.cM x)
  b x := Q (E.cB x)
  gp _ _ := 0
  gm _ _ := 0

/-- The test function of DG0 of the cell `i` (diagnostics.py 401-451). -/
def ind (E : Cells C F B I) (i : I) : Sc K d C F B := dg0 E fun j => if j = i then 1 else 0

/-- `CellVolume` (Firedrake; diagnostics.py 401-451). -/
def vol (M : Mesh K d C F B) (E : Cells C F B I) (i : I) : K := ∑ x, M.wC x * (if E.cC x = i then 1 else 0)

/-- What the solver of `TracerDensity` computes with the method `'solve'`, diagnostics.py:1003-1018: the mass matrix of DG0
is diagonal with the entries `vol i`. -/
def tracerDensity (M : Mesh K d C F B) (E : Cells C F B I) (m rho : C → K) (i : I) : K :=
  (∑ x, M.wC x * (m x * rho x * (if E.cC x = i then 1 else 0))) / vol M E i

/-! ### Courant number -/

/-- `2*avg(un*test)*dS_calc + un*test*ds_calc` with `un` of the velocity `-u`, diagnostics.py:421-425. -/
def cellFlux (M : Mesh K d C F B) (u : Ve K d C F B) (test : Sc K d C F B) : K :=
  (∑ x, M.wF x * (un (-M.aP u x) * test.p x + un (-M.aM u x) * test.m x)) +
    ∑ x, M.wB x * (un (-M.aB u x) * test.b x)

/-- The argument `component` (diagnostics.py 345-399). -/
inductive Comp where
  | whole | horizontal | vertical
  deriving DecidableEq

/-- `u_expr`, diagnostics.py:402-407. -/
def compOf (k : Fin d → K) (u : Ve K d C F B) : Comp → Ve K d C F B
  | .whole => u
  | .vertical => vert k u
  | .horizontal => horiz k u

/-- `CourantNumber.compute`, diagnostics.py:427-438, at a cell. -/
def courant (M : Mesh K d C F B) (E : Cells C F B I) (k : Fin d → K) (comp : Comp) (u : Ve K d C F B) (dt : K)
    (i : I) : K :=
  cellFlux M (compOf k u comp) (ind E i) * dt / vol M E i

end Forms

/-- The elements of `TracerDensity` on an extruded mesh for other methods, diagnostics.py:1033-1036: the cells on which
the horizontal and the vertical factor are defined; `base` is the name of the cell of the base mesh. -/
def tracerElementCells (base : String) : String × String := (base, base)

/-! ### Logging of Courant numbers -/

/-- The velocity given to `CourantNumber`: the name of a field or an expression (diagnostics.py 345-399). -/
inductive Velocity where
  | field (name : String)
  | expr
  deriving DecidableEq

/-- The suffix of a component (diagnostics.py 345-399). -/
def Comp.suffix : Comp → String
  | .whole => ""
  | .horizontal => "_horizontal"
  | .vertical => "_vertical"

/-- The name of the diagnostic, `CourantNumber.__init__`, diagnostics.py:373-391. -/
def courantName (v : Velocity) (comp : Comp) (name : Option String) : Except DErr String :=
  match v with
  | .field f =>
    .ok ((if f = "u" then "CourantNumber" else
      match name with
      | none => "CourantNumber_" ++ f
      | some n => "CourantNumber_" ++ n) ++ comp.suffix)
  | .expr =>
    match name with
    | none => .error .valueError
    | some n => .ok ("CourantNumber_" ++ n)

/-- `IO.setup_log_courant`, io.py:265-296, on the list of names of the diagnostics; `hasU` says that `'u'` is a field. -/
def setupLogCourant (enabled hasU : Bool) (names : List String) (name : String) (comp : Comp) (expression : Bool) :
    Except DErr (List String) :=
  if !enabled then .ok names
  else
    let courant_name := if name = "u" then none else some name
    if (match courant_name with | none => true | some n => decide (n ∉ names)) && hasU then
      (if !expression then courantName (.field "u") comp none else courantName .expr comp courant_name).map
        fun n => names ++ [n]
    else .ok names

/-- The part of `IO.log_courant` which finds the diagnostic, io.py:313-320: the index of the diagnostic that is computed,
`none` if nothing is logged, an error from `list.index`. -/
def logCourant (enabled hasU : Bool) (names : List String) (name : String) (comp : Comp) : Except DErr (Option ℕ) :=
  if enabled && hasU then
    let n := (if name = "u" then "CourantNumber" else "CourantNumber_" ++ name) ++ comp.suffix
    if n ∈ names then .ok (some (names.idxOf n)) else .error .valueError
  else .ok none

/-- The calls of `setup_log_courant` of `BaseTimestepper.run`, timestepper.py:208-214; `prescribed` says that the
timestepper has a transporting velocity which is not the prognostic one. -/
def runSetupCourant (enabled hasU extruded prescribed : Bool) (names : List String) : Except DErr (List String) := do
  let a ← setupLogCourant enabled hasU names "u" .whole false
  let b ← if extruded then setupLogCourant enabled hasU a "u" .horizontal false else pure a
  let c ← if extruded then setupLogCourant enabled hasU b "u" .vertical false else pure b
  if prescribed then setupLogCourant enabled hasU c "transporting_velocity" .whole true else pure c

/-! ### Diagnostics with a memory -/

section History
variable {V : Type*} [AddCommGroup V]

/-- The fields of a checkpoint (those with `pick_up=True`) and the step counter (core/io.py 584-720). -/
structure Ckpt (V : Type*) where
  n : ℕ
  x : V
  init : V
  cum : V

/-- The state of a process: the field `x` after `n` time steps, the fields `x_init` and `x_cumulative` of the state (`none`
when they do not exist yet), the flag `init_field_set`, the counter of checkpoints, and what `compute` put in `x_error`
(diagnostics.py 869-925, 1060-1097). -/
structure HSt (V : Type*) where
  n : ℕ
  x : V
  init : Option V
  initSet : Bool
  cum : V
  err : V
  count : ℕ

/-- `SteadyStateError.setup` and `CumulativeSum.setup`, diagnostics.py:874-903, 1064-1083, called by
`IO.setup_diagnostics`. -/
def setupHistory (s : HSt V) : HSt V :=
  { s with
    init := match s.init with
      | none => some 0
      | some _ => some s.x
    initSet := match s.init with
      | none => false
      | some _ => true
    cum := 0 }

/-- `SteadyStateError.compute` and `CumulativeSum.compute`, diagnostics.py:905-916, 1085-1087. -/
def computeHistory (s : HSt V) : HSt V :=
  let init := if s.initSet then s.init.getD 0 else s.x
  { s with init := some init, initSet := true, err := s.x - init, cum := s.cum + s.x }

/-- `IO.dump`, io.py:745-790, restricted to these diagnostics and the checkpoint. -/
def dumpHistory (freq : ℕ) (s : HSt V) (c : Option (Ckpt V)) : HSt V × Option (Ckpt V) :=
  let s := computeHistory s
  ({ s with count := s.count + 1 },
    if s.count % freq = 0 then some { n := s.n, x := s.x, init := s.init.getD 0, cum := s.cum } else c)

/-- The start of `run(..., pick_up=False)`: `setup_diagnostics`, then `setup_dump` with the initial dump
(timestepper.py 196-267, core/io.py 336-582). -/
def startHistory (freq : ℕ) (s : HSt V) (c : Option (Ckpt V)) : HSt V × Option (Ckpt V) :=
  dumpHistory freq { setupHistory s with count := 0 } c

/-- The start of `run(..., pick_up=True)`: `setup_diagnostics`, `pick_up_from_checkpoint` (io.py:586-710, which sets
`init_field_set`), and no initial dump.  `none` if there is no checkpoint. -/
def pickUpHistory (s : HSt V) (c : Option (Ckpt V)) : Option (HSt V) :=
  c.map fun k => { setupHistory s with n := k.n, x := k.x, init := some k.init, initSet := true, cum := k.cum, count := 1 }

/-- One time step of the loop and its dump (timestepper.py 244-262). -/
def stepHistory (freq : ℕ) (Φ : V → V) (s : HSt V) (c : Option (Ckpt V)) : HSt V × Option (Ckpt V) :=
  dumpHistory freq { s with n := s.n + 1, x := Φ s.x } c

/-- A new process with the initial state `x0` before `run` (timestepper.py 23-40). -/
def newProcess (x0 : V) : HSt V := { n := 0, x := x0, init := none, initSet := false, cum := 0, err := 0, count := 0 }

/-- What may happen to a simulation (specification; timestepper.py 196-267). -/
inductive HEvent where
  /-- a new process, with the initial state, calls `run` -/
  | fresh
  /-- the same process calls `run` again, from its present state -/
  | again
  /-- a time step -/
  | step
  /-- the process is lost (at any point); a new one calls `run(pick_up=True)` -/
  | crashPickUp
  /-- the same process calls `run(pick_up=True)` -/
  | pickUp

/-- The effect of an event; when there is nothing to pick up the process fails and leaves the state as it is
(timestepper.py 196-267). -/
def hStep (freq : ℕ) (Φ : V → V) (x0 : V) (sc : HSt V × Option (Ckpt V)) : HEvent → HSt V × Option (Ckpt V)
  | .fresh => startHistory freq (newProcess x0) sc.2
  | .again => startHistory freq sc.1 sc.2
  | .step => stepHistory freq Φ sc.1 sc.2
  | .crashPickUp => match pickUpHistory (newProcess x0) sc.2 with
    | some s => (s, sc.2)
    | none => sc
  | .pickUp => match pickUpHistory sc.1 sc.2 with
    | some s => (s, sc.2)
    | none => sc

/-- `Difference`, `Perturbation`, diagnostics.py:829-858, 923-956: `bar` is the field `x_bar` of the state, which is
created with the value zero if it does not exist. -/
def perturbation (x : V) (bar : Option V) : V := x - bar.getD 0

end History

end Gusto.Diag
