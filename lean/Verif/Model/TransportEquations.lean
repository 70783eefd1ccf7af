import Verif.Model.EquationSet

set_option autoImplicit false

/-!
# Transport and diffusion equations

Model of `gusto/equations/transport_equations.py`, `diffusion_equations.py`, `advection_diffusion_equations.py` and of the
constructor they share (`prognostic_equations.py:28-57`).

Fields are as in `Verif.Model.CommonForms`: elements of a commutative `ℚ`-algebra with derivations, forms are integrands.  Here a
field may be a scalar or a vector with as many components as there are directions.  UFL conventions: `grad(q)[i, j]` is the
derivative of component `i` in direction `j`; `dot` contracts the last index of its first with the first index of its second
argument; `div` contracts the last index; `*` of two matrices is the matrix product.
-/

namespace Gusto.TranspEq
open Gusto.Forms

/-- The shape of the field of an equation
(the spaces given to transport_equations.py 12-128, diffusion_equations.py 12-34, advection_diffusion_equations.py 12-44). -/
inductive Rank | scalar | vector
  deriving DecidableEq

/-- The values of a field
(UFL; transport_equations.py 12-128, diffusion_equations.py 12-34, advection_diffusion_equations.py 12-44). -/
def Val (R : Type) (d : ℕ) : Rank → Type
  | .scalar => R
  | .vector => Fin d → R

/-- A diffusivity (equation_configuration.py 135-139). -/
inductive Kappa (R : Type) (d : ℕ)
  | scalar (k : R)
  | matrix (k : Fin d → Fin d → R)

variable {R : Type} [CommRing R] [Algebra ℚ R] {d : ℕ} {S : Type}

/-- `inner(q, test)*dx`, transport_equations.py:36, 68, diffusion_equations.py:31, advection_diffusion_equations.py:39. -/
def massForm : (r : Rank) → Val R d r → Val R d r → R
  | .scalar, q, test => (show R from q) * (show R from test)
  | .vector, q, test => dot (show Fin d → R from q) (show Fin d → R from test)

/-- `dot(ubar, grad(q))` for a vector `q`: component `j` (UFL; common_forms.py 23-41). -/
def dotGrad (D : Derivs R d) (u q : Fin d → R) : Fin d → R := fun j => ∑ i, u i * D j (q i)

/-- `advection_form`, common_forms.py:24-42. -/
def advection (D : Derivs R d) (u : Fin d → R) : (r : Rank) → Val R d r → Val R d r → R
  | .scalar, q, test => advectionForm D (show R from test) (show R from q) u
  | .vector, q, test => dot (show Fin d → R from test) (dotGrad D u (show Fin d → R from q))

/-- `continuity_form`, common_forms.py:89-107. -/
def continuity (D : Derivs R d) (u : Fin d → R) : (r : Rank) → Val R d r → Val R d r → R
  | .scalar, q, test => continuityForm D (show R from test) (show R from q) u
  | .vector, q, test => dot (show Fin d → R from test) (fun a => div D (outer ((show Fin d → R from q) a) u))

/-- `kappa*grad(q)`, common_forms.py:302: for a vector `q` the row with number `a`. -/
def kappaGradS (D : Derivs R d) (q : R) : Kappa R d → Fin d → R
  | .scalar k => fun i => k * D i q
  | .matrix k => fun i => ∑ j, k i j * D j q
/-- See `kappaGradS` (UFL; common_forms.py 292-304). -/
def kappaGradV (D : Derivs R d) (q : Fin d → R) : Kappa R d → Fin d → Fin d → R
  | .scalar k => fun a j => k * D j (q a)
  | .matrix k => fun a j => ∑ b, k a b * D j (q b)

/-- `diffusion_form`, common_forms.py:290-304. -/
def diffusion (D : Derivs R d) (k : Kappa R d) : (r : Rank) → Val R d r → Val R d r → R
  | .scalar, q, test => -((show R from test) * div D (kappaGradS D (show R from q) k))
  | .vector, q, test => -dot (show Fin d → R from test) (fun a => div D (kappaGradV D (show Fin d → R from q) k a))

/-- A term of a residual: the form, from the velocity, the field and the test function, and its labels
(fml `Term`; transport_equations.py 12-128, diffusion_equations.py 12-34, advection_diffusion_equations.py 12-44). -/
structure Tm (R : Type) (d : ℕ) (r : Rank) where
  form : (Fin d → R) → Val R d r → Val R d r → R
  timeDerivative : Bool := false
  transport : Option TType := none
  diffusion : Bool := false
  prognostic : String

/-- The exceptions and UFL errors of transport_equations.py 12-128, diffusion_equations.py 12-34, advection_diffusion_equations.py 12-44. -/
inductive Err where
  | attributeError | indexError | shape | names (e : EqSet.Err)
  deriving DecidableEq

/-- The equation object: the space of the prescribed velocity `u`, if there is one, and the residual
(prognostic_equations.py 28-53; transport_equations.py 12-128, diffusion_equations.py 12-34, advection_diffusion_equations.py 12-44). -/
structure Eqn (S R : Type) (d : ℕ) where
  name : String
  rank : Rank
  velocity : Option S
  residual : List (Tm R d rank)

/-- The domain, as far as the equations change it: `domain.spaces("HDiv")` (core/function_spaces.py 92-133). -/
structure Dom (S : Type) where
  hdiv : S

/-- `domain.spaces.add_space("HDiv", Vu, overwrite_space=True)` if `Vu` is given, transport_equations.py:30-31, 62-63, 118-119,
advection_diffusion_equations.py:32-33. -/
def setVu (dom : Dom S) : Option S → Dom S
  | none => dom
  | some V => { dom with hdiv := V }

/-- The classes
(transport_equations.py 12-128, diffusion_equations.py 12-34, advection_diffusion_equations.py 12-44). -/
inductive Kind
  | advection | continuity | diffusion | advectionDiffusion
  deriving DecidableEq

/-- A call of a constructor.  `kappa` is `diffusion_parameters.kappa`, `none` if `diffusion_parameters` is `None`; `Vu` is not an
argument of `DiffusionEquation`
(transport_equations.py 12-128, diffusion_equations.py 12-34, advection_diffusion_equations.py 12-44). -/
structure Call (S R : Type) (d : ℕ) where
  kind : Kind
  name : String
  rank : Rank
  Vu : Option S
  kappa : Option (Kappa R d)

/-- `time_derivative(inner(q, test)*dx)` with the labels of the end (transport_equations.py 12-128 (30-39, 60-69)). -/
def massTm (r : Rank) (name : String) : Tm R d r := { form := fun _ => massForm r, timeDerivative := true, prognostic := name }
/-- `advection_form(test, q, u)` with the labels of the end (transport_equations.py 30-39). -/
def advTm (D : Derivs R d) (r : Rank) (name : String) : Tm R d r :=
  { form := fun u => advection D u r, transport := some .advective, prognostic := name }
/-- `continuity_form(test, q, u)` with the labels of the end (transport_equations.py 60-69). -/
def contTm (D : Derivs R d) (r : Rank) (name : String) : Tm R d r :=
  { form := fun u => continuity D u r, transport := some .conservative, prognostic := name }
/-- `diffusion_form(test, q, kappa)` with the labels of the end (diffusion_equations.py 27-34). -/
def diffTm (D : Derivs R d) (r : Rank) (name : String) (k : Kappa R d) : Tm R d r :=
  { form := fun _ => diffusion D k r, diffusion := true, prognostic := name }

/-- The constructors, transport_equations.py:15-40, 46-72, diffusion_equations.py:15-34,
advection_diffusion_equations.py:15-46: the domain afterwards, and the equation or the exception. -/
def construct (D : Derivs R d) (dom : Dom S) (c : Call S R d) : Dom S × Except Err (Eqn S R d) :=
  match c.kind with
  | .advection =>
    let dom := setVu dom c.Vu
    (dom, .ok ⟨c.name, c.rank, some dom.hdiv, [massTm c.rank c.name, advTm D c.rank c.name]⟩)
  | .continuity =>
    let dom := setVu dom c.Vu
    (dom, .ok ⟨c.name, c.rank, some dom.hdiv, [massTm c.rank c.name, contTm D c.rank c.name]⟩)
  | .diffusion =>
    match c.kappa with
    | none => (dom, .error .attributeError)
    | some k => (dom, .ok ⟨c.name, c.rank, none, [massTm c.rank c.name, diffTm D c.rank c.name k]⟩)
  | .advectionDiffusion =>
    let dom := setVu dom c.Vu
    match c.kappa with
    | none => (dom, .error .attributeError)
    | some k => (dom, .ok ⟨c.name, c.rank, some dom.hdiv,
        [massTm c.rank c.name, advTm D c.rank c.name, diffTm D c.rank c.name k]⟩)

/-- Constructors called one after the other on the same domain (exceptions are caught)
(transport_equations.py 12-128, diffusion_equations.py 12-34, advection_diffusion_equations.py 12-44, repeated). -/
def constructAll (D : Derivs R d) : Dom S → List (Call S R d) → Dom S × List (Except Err (Eqn S R d))
  | dom, [] => (dom, [])
  | dom, c :: l =>
    let a := construct D dom c
    let b := constructAll D a.1 l
    (b.1, a.2 :: b.2)

/-! ### Coupled transport -/

/-- What `CoupledTransportEquation` holds (transport_equations.py 72-128). -/
structure Coupled (S R : Type) where
  fields : List String
  velocity : S
  residual : List (EqSet.STerm R) × List (EqSet.STerm R)

/-- `CoupledTransportEquation.__init__`, transport_equations.py:84-131, for scalar tracers: the domain, and the mass and the
transport terms with the velocity `u`.  `MixedFunctionSpace([])` raises IndexError.  A tracer with the name `u` is taken for the
velocity (prognostic_equations.py:376-378), which UFL refuses for a scalar if something is to be transported. -/
def coupled (D : Derivs R d) (u : Fin d → R) (dom : Dom S) (tracers : Option (List EqSet.Tracer)) (Vu : Option S) :
    Dom S × Except Err (Coupled S R) :=
  let ts := tracers.getD []
  match EqSet.addTracers ⟨[], [], []⟩ ts with
  | .error e => (dom, .error (.names e))
  | .ok n =>
    if n.spaces = [] then (dom, .error .indexError)
    else
      let dom := setVu dom Vu
      let us := EqSet.reorder ts
      match EqSet.massTerms n.fields us with
      | .error e => (dom, .error (.names e))
      | .ok ms =>
        if "u" ∈ n.fields ∧ (us.any fun t => decide (t.eqn ≠ .noTransport)) then (dom, .error .shape)
        else match EqSet.tracerTransport D (some u) n.fields us with
          | .error e => (dom, .error (.names e))
          | .ok tr => (dom, .ok ⟨n.fields, dom.hdiv, (ms, tr)⟩)

/-! ### The forms of spatial methods that replace the terms, in cells -/

/-- `inner(outer(test, ubar), grad(q))`, transport_methods.py:483, of `DGUpwind` with `ibp=NEVER` or `TWICE`, for a vector. -/
def dgAdvectionV (D : Derivs R d) (u q test : Fin d → R) : R := ∑ a, ∑ i, test a * u i * D i (q a)

/-- `inner(grad(test), grad(q)*kappa)`, diffusion_methods.py:54, of `InteriorPenaltyDiffusion`, for a vector. -/
def ipDiffusionV (D : Derivs R d) (q test : Fin d → R) : Kappa R d → R
  | .scalar k => ∑ a, ∑ j, D j (test a) * (D j (q a) * k)
  | .matrix k => ∑ a, ∑ j, D j (test a) * ∑ i, D i (q a) * k i j

end Gusto.TranspEq
