import Mathlib.RingTheory.Derivation.Basic
import Mathlib.Data.Rat.Defs
import Mathlib.Algebra.BigOperators.Fin

set_option autoImplicit false

/-!
# The common forms and the splitting of transport terms

Model of `gusto/equations/common_forms.py`.

Simplifications: smooth fields are elements of a commutative `ℚ`-algebra `R` with commuting or non-commuting
derivations `D i` (the partial derivatives); a form is the integrand that `dx` integrates, as a function of the state
and the test functions.  Transported fields are scalar except in the vector-invariant forms.  The subject of every
term is the state `X` (the forms are built before any replacement of the subject); the velocity is either the
component `u` of the state or a prescribed field.
-/

namespace Gusto.Forms

variable {R : Type*} [CommRing R] [Algebra ℚ R] {d : ℕ}

/-- The partial derivatives (common_forms.py 23-531 through UFL `grad`, `div`, `curl`). -/
abbrev Derivs (R : Type*) [CommRing R] [Algebra ℚ R] (d : ℕ) := Fin d → Derivation ℚ R R

/-- `dot`/`inner` of vectors (UFL, not gusto code; used throughout common_forms.py 23-531). -/
def dot (a b : Fin d → R) : R := ∑ i, a i * b i
/-- `grad` (UFL, not gusto code; used throughout common_forms.py 23-531). -/
def grad (D : Derivs R d) (q : R) : Fin d → R := fun i => D i q
/-- `div` (UFL, not gusto code; used throughout common_forms.py 23-531). -/
def div (D : Derivs R d) (v : Fin d → R) : R := ∑ i, D i (v i)
/-- `outer(q, u)` for a scalar `q` (UFL, not gusto code; used throughout common_forms.py 23-531). -/
def outer (q : R) (u : Fin d → R) : Fin d → R := fun i => q * u i

/-- `advection_form`, common_forms.py:24-42. -/
def advectionForm (D : Derivs R d) (test q : R) (ubar : Fin d → R) : R := test * dot ubar (grad D q)
/-- `linear_advection_form`, common_forms.py:66-86. -/
def linearAdvectionForm (D : Derivs R d) (test q : R) (u : Fin d → R) (qbar : R) (ubar : Fin d → R) : R :=
  test * dot ubar (grad D q) + test * dot u (grad D qbar)
/-- `continuity_form`, common_forms.py:89-107. -/
def continuityForm (D : Derivs R d) (test q : R) (ubar : Fin d → R) : R := test * div D (outer q ubar)
/-- `linear_continuity_form`, common_forms.py:131-151. -/
def linearContinuityForm (D : Derivs R d) (test q : R) (u : Fin d → R) (qbar : R) (ubar : Fin d → R) : R :=
  test * div D (outer q ubar) + test * div D (outer qbar u)
/-- `tracer_conservative_form`, common_forms.py:386-408. -/
def tracerConservativeForm (D : Derivs R d) (test q rho : R) (ubar : Fin d → R) : R :=
  test * div D (outer (q * rho) ubar)
/-- `diffusion_form`, common_forms.py:290-302. -/
def diffusionForm (D : Derivs R d) (test q kappa : R) : R := -(test * div D (fun i => kappa * D i q))
/-- `split_advection_form`, common_forms.py:411-431 (`ubar_full` is only the label). -/
def splitAdvectionForm (D : Derivs R d) (test q : R) (ubar : Fin d → R) : R := test * dot ubar (grad D q)

/-- `curl` in three dimensions (UFL, common_forms.py 153-289). -/
def curl (D : Derivs R 3) (q : Fin 3 → R) : Fin 3 → R :=
  ![D 1 (q 2) - D 2 (q 1), D 2 (q 0) - D 0 (q 2), D 0 (q 1) - D 1 (q 0)]
/-- `cross` (UFL, common_forms.py 153-289). -/
def cross (a b : Fin 3 → R) : Fin 3 → R :=
  ![a 1 * b 2 - a 2 * b 1, a 2 * b 0 - a 0 * b 2, a 0 * b 1 - a 1 * b 0]
/-- `perp` of the plane, ufl: `(-v[1], v[0])` (UFL, not gusto code; used throughout common_forms.py 23-531). -/
def perp (v : Fin 2 → R) : Fin 2 → R := ![-v 1, v 0]

/-- `advection_equation_circulation_form`, three dimensions, common_forms.py:256-257. -/
def circulation3 (D : Derivs R 3) (test q ubar : Fin 3 → R) : R := dot test (cross (curl D q) ubar)
/-- `advection_equation_circulation_form`, the plane, common_forms.py:259-261. -/
def circulation2 (D : Derivs R 2) (test q ubar : Fin 2 → R) : R :=
  dot test (fun i => div D (perp q) * perp ubar i)
/-- `kinetic_energy_form`, common_forms.py:210-229. -/
def kineticEnergyForm (D : Derivs R d) (test q ubar : Fin d → R) : R :=
  -(algebraMap ℚ R (1 / 2) * div D test * dot q ubar)
/-- `vector_invariant_form`, common_forms.py:154-181, three dimensions. -/
def vectorInvariant3 (D : Derivs R 3) (test q ubar : Fin 3 → R) : R :=
  circulation3 D test q ubar - algebraMap ℚ R (1 / 2) * div D test * dot q ubar
/-- `vector_invariant_form`, common_forms.py:154-181, the plane. -/
def vectorInvariant2 (D : Derivs R 2) (test q ubar : Fin 2 → R) : R :=
  circulation2 D test q ubar - algebraMap ℚ R (1 / 2) * div D test * dot q ubar
/-- `linear_circulation_form`, common_forms.py:270-287, three dimensions. -/
def linearCirculation3 (D : Derivs R 3) (test q ubar : Fin 3 → R) : R :=
  circulation3 D test q ubar + circulation3 D test ubar q
/-- `linear_circulation_form`, the plane (common_forms.py 272-289). -/
def linearCirculation2 (D : Derivs R 2) (test q ubar : Fin 2 → R) : R :=
  circulation2 D test q ubar + circulation2 D test ubar q
/-- `linear_vector_invariant_form`, common_forms.py:184-207, three dimensions. -/
def linearVectorInvariant3 (D : Derivs R 3) (test q ubar : Fin 3 → R) : R :=
  linearCirculation3 D test q ubar - div D test * dot q ubar
/-- `linear_vector_invariant_form`, the plane (common_forms.py 185-210). -/
def linearVectorInvariant2 (D : Derivs R 2) (test q ubar : Fin 2 → R) : R :=
  linearCirculation2 D test q ubar - div D test * dot q ubar

/-! ### Splitting of transport terms -/

/-- `TransportEquationType`, configuration.py:24-44. -/
inductive TType where
  | noTransport | advective | conservative | vectorInvariant | circulation | tracerConservative
  deriving DecidableEq

/-- A state (or trial function, reference state): scalar fields by name, and the velocity
(the subjects of common_forms.py 322-531). -/
structure Fld (R : Type*) (d : ℕ) where
  s : String → R
  u : Fin d → R

/-- A form: integrand from the state and the test functions (common_forms.py 322-531). -/
abbrev Form (R : Type*) (d : ℕ) := Fld R d → (String → R) → R
/-- A linearisation: integrand from the state, the reference state, the trial functions and the test functions
(common_forms.py 322-531). -/
abbrev LinForm (R : Type*) (d : ℕ) := Fld R d → Fld R d → Fld R d → (String → R) → R

/-- A labelled term: the labels `transport`, `prognostic`, `linearisation`, `horizontal_transport`/`vertical_transport`
and the names of all other labels (common_forms.py 322-531 (fml `Term`)). -/
structure FTerm (R : Type*) (d : ℕ) where
  form : Form R d
  transport : Option TType := none
  prognostic : Option String := none
  lin : Option (LinForm R d) := none
  others : List String := []

/-- The exceptions and UFL errors of common_forms.py 322-531. -/
inductive Err where
  | valueError | unboundLocal | shape
  deriving DecidableEq

/-- The parts of the equation the routines read: the names of the prognostics of a mixed equation (`none` for an
equation with one field), and a prescribed velocity if there is one (common_forms.py 322-531). -/
structure Eqn (R : Type*) (d : ℕ) where
  fieldNames : Option (List String)
  prescribedU : Option (Fin d → R)

/-- The choice of the velocity, common_forms.py:352-360, 484-498: a prognostic `u`, else a prescribed `u`, else
`ValueError`. -/
def velocity (e : Eqn R d) : Except Err (Fld R d → Fin d → R) :=
  match e.fieldNames with
  | some l => if "u" ∈ l then .ok (fun X => X.u) else
      match e.prescribedU with
      | some v => .ok (fun _ => v)
      | none => .error .valueError
  | none =>
      match e.prescribedU with
      | some v => .ok (fun _ => v)
      | none => .error .valueError

/-- `u_idx` is defined: the velocity is prognostic (common_forms.py 322-531). -/
def progU (e : Eqn R d) : Bool :=
  match e.fieldNames with
  | some l => decide ("u" ∈ l)
  | none => false

/-- `adv_term + div_term` for a term, common_forms.py:341-377.  A linearised term of an equation with a prescribed
velocity uses the unassigned `u_idx`. -/
def splitPair (D : Derivs R d) (e : Eqn R d) (name : String) (vel : Fld R d → Fin d → R) (hasLin : Bool) :
    Except Err (List (FTerm R d)) :=
  if hasLin then
    if progU e then
      .ok [{ form := fun X v => advectionForm D (v name) (X.s name) (vel X), transport := some .advective,
             prognostic := some name,
             lin := some fun X ref tr v => linearAdvectionForm D (v name) (ref.s name) tr.u (ref.s name) (vel X),
             others := ["transporting_velocity", "subject"] },
           { form := fun X v => v name * X.s name * div D (vel X), prognostic := some name,
             lin := some fun _ ref tr v => ref.s name * v name * div D tr.u, others := ["subject"] }]
    else .error .unboundLocal
  else
    .ok [{ form := fun X v => advectionForm D (v name) (X.s name) (vel X), transport := some .advective,
           prognostic := some name, others := ["transporting_velocity", "subject"] },
         { form := fun X v => v name * X.s name * div D (vel X), prognostic := some name, others := ["subject"] }]

/-- `t.get(transport) == TransportEquationType.conservative`, common_forms.py:338,381. -/
def isConservative (t : FTerm R d) : Bool := decide (t.transport = some .conservative)

/-- The loop of `split_continuity_form`, common_forms.py:337-383.  It runs over the terms the residual has at the
start; `res` is `equation.residual`, which is replaced in the loop.  (`t.get(prognostic)` is a name of a field:
a term without it makes the equation unusable anyway; the model takes the empty name.) -/
def splitContinuityLoop (D : Derivs R d) (e : Eqn R d) :
    List (FTerm R d) → List (FTerm R d) → Except Err (List (FTerm R d))
  | [], res => .ok res
  | t :: ts, res =>
    if isConservative t then
      match velocity e with
      | .error er => .error er
      | .ok vel =>
        match splitPair D e (t.prognostic.getD "") vel t.lin.isSome with
        | .error er => .error er
        | .ok new => splitContinuityLoop D e ts ((res ++ new).filter fun t => !isConservative t)
    else splitContinuityLoop D e ts res

/-- `split_continuity_form`, common_forms.py:322-383. -/
def splitContinuity (D : Derivs R d) (e : Eqn R d) (res : List (FTerm R d)) : Except Err (List (FTerm R d)) :=
  splitContinuityLoop D e res res

/-- `q = subj`, `test = TestFunction(W)` for a prescribed velocity, common_forms.py:493-497: of a mixed equation this
is the whole mixed function, whose gradient cannot be contracted with the velocity. -/
def mixedPrescribed (e : Eqn R d) : Bool := e.fieldNames.isSome && !progU e

/-- The horizontal and vertical terms, common_forms.py:500-540. -/
def hvPair (D : Derivs R d) (e : Eqn R d) (k : Fin d → R) (name : String) (vel : Fld R d → Fin d → R)
    (hasLin : Bool) : Except Err (List (FTerm R d)) :=
  let vert : (Fin d → R) → Fin d → R := fun w i => k i * dot w k
  let horiz : (Fin d → R) → Fin d → R := fun w i => w i - vert w i
  if mixedPrescribed e then .error .shape
  else if hasLin then
    if progU e then
      .ok [{ form := fun X v => splitAdvectionForm D (v name) (X.s name) (horiz (vel X)), transport := some .advective,
             prognostic := some name,
             lin := some fun _ ref tr v => splitAdvectionForm D (v name) (ref.s name) (horiz tr.u),
             others := ["horizontal_transport", "transporting_velocity", "subject"] },
           { form := fun X v => splitAdvectionForm D (v name) (X.s name) (vert (vel X)), transport := some .advective,
             prognostic := some name,
             lin := some fun _ ref tr v => splitAdvectionForm D (v name) (ref.s name) (vert tr.u),
             others := ["vertical_transport", "transporting_velocity", "subject"] }]
    else .error .unboundLocal
  else
    .ok [{ form := fun X v => splitAdvectionForm D (v name) (X.s name) (horiz (vel X)), transport := some .advective,
           prognostic := some name, others := ["horizontal_transport", "transporting_velocity", "subject"] },
         { form := fun X v => splitAdvectionForm D (v name) (X.s name) (vert (vel X)), transport := some .advective,
           prognostic := some name, others := ["vertical_transport", "transporting_velocity", "subject"] }]

/-- The filter of `split_hv_advective_form`, common_forms.py:479,545. -/
def isAdvectiveFor (name : String) (t : FTerm R d) : Bool :=
  decide (t.transport = some .advective) && decide (t.prognostic = some name)

/-- The loop of `split_hv_advective_form`, common_forms.py:478-549: here the old terms are dropped before the new ones
are added, and the filter also matches the new ones. -/
def splitHVLoop (D : Derivs R d) (e : Eqn R d) (k : Fin d → R) (name : String) :
    List (FTerm R d) → List (FTerm R d) → Except Err (List (FTerm R d))
  | [], res => .ok res
  | t :: ts, res =>
    if isAdvectiveFor name t then
      match velocity e with
      | .error er => .error er
      | .ok vel =>
        match hvPair D e k name vel t.lin.isSome with
        | .error er => .error er
        | .ok new => splitHVLoop D e k name ts ((res.filter fun t => !isAdvectiveFor name t) ++ new)
    else splitHVLoop D e k name ts res

/-- `split_hv_advective_form`, common_forms.py:455-551. -/
def splitHV (D : Derivs R d) (e : Eqn R d) (k : Fin d → R) (name : String) (res : List (FTerm R d)) :
    Except Err (List (FTerm R d)) :=
  splitHVLoop D e k name res res

/-- The residual: the sum of the integrands of the terms (common_forms.py 322-531: the residual that results). -/
def total (res : List (FTerm R d)) : Form R d := fun X v => (res.map fun t => t.form X v).sum

end Gusto.Forms
