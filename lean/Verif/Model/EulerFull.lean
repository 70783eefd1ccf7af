import Verif.Model.Euler

set_option autoImplicit false

/-!
# The compressible Euler equation set with tracers, diffusion and extra terms

The parts of `CompressibleEulerEquations.__init__` (compressible_euler_equations.py 41-289) that `Model/Euler.lean` leaves out: the
names, mass terms and transport terms of the active tracers, the diffusion terms and the extra terms of the user.

Simplifications: the spaces of tracers agree with `space_names`; the order in which `add_tracers_to_prognostics` puts the tracers is
that of the list (C55 is about it); the form in the label `mass_weighted` is that of C78 and only marked here; the diffusivity is a
number; the label `prognostic` of these terms is not recorded, it is the field whose test function the form contains.
-/

noncomputable section

namespace Gusto.EulerFull
open Gusto.DG Gusto.EqSet Gusto.SW Gusto.Bou Gusto.Euler
open Gusto.EqnDiag (MTracer)
open Gusto.Forms (TType)

variable {d : ℕ} {C F B : Type*}

/-- The exceptions (compressible_euler_equations.py 41-289, prognostic_equations.py 135-176, 304-412). -/
inductive FErr where
  | attributeError | shapeError | assertionError | valueError
  deriving DecidableEq

/-- The errors of the dry equations (compressible_euler_equations.py 41-289). -/
def ofE : EErr → FErr
  | .attributeError => .attributeError
  | .shapeError => .shapeError
  | .assertionError => .assertionError

/-- An `ActiveTracer` (active_tracers.py 45-101). -/
structure FTracer where
  m : MTracer
  eqn : TType
  density : Option String

/-- An expression of the user: scalar or vector, its values at the quadrature points of the cells, its symbolic derivative, and
whether that is empty (compressible_euler_equations.py 278-283). -/
inductive Expr (d : ℕ) (C F B : Type*) where
  | scalar (f : EuSt d C F B → C → ℝ) (df : EuSt d C F B → EuSt d C F B → C → ℝ) (empty : Bool)
  | vector (f : EuSt d C F B → C → Fin d → ℝ) (df : EuSt d C F B → EuSt d C F B → C → Fin d → ℝ) (empty : Bool)

/-- `div(grad(q))` at the quadrature points of the cells, for scalars and vectors (UFL; common_forms.py 302). -/
structure Lap (d : ℕ) (C F B : Type*) where
  s : Sc ℝ d C F B → C → ℝ
  v : Ve ℝ d C F B → C → Fin d → ℝ

/-- What is given to the constructor beyond `ECfg`: the tracers, `diffusion_options` (a field and a diffusivity) and `extra_terms`
(compressible_euler_equations.py 41-50). -/
structure Extras (d : ℕ) (C F B : Type*) where
  tracers : List FTracer
  diffusion : List (String × ℝ)
  extra : List (String × Expr d C F B)

/-- `f` for every entry of a list, until the first exception (the loops of compressible_euler_equations.py 269-283 and
prognostic_equations.py 149-178, 383-420). -/
def collect {α β ε : Type*} (f : α → Except ε β) : List α → Except ε (List β)
  | [] => .ok []
  | a :: as => match f a with
    | .error e => .error e
    | .ok b => match collect f as with
      | .error e => .error e
      | .ok bs => .ok (b :: bs)

/-- The names are added one after the other; one that is there already raises `ValueError`
(prognostic_equations.py 332-352). -/
def addNames : List String → List FTracer → Except FErr (List String)
  | ns, [] => .ok ns
  | ns, t :: ts => if t.m.name ∈ ns then .error .valueError else addNames (ns ++ [t.m.name]) ts

/-- `split(self.X)[idx]` of a scalar field (compressible_euler_equations.py 271-273). -/
def scalarOf (X : EuSt d C F B) (f : String) : Sc ℝ d C F B :=
  if f = "rho" then X.rho else if f = "theta" then X.th else X.tr f

variable [Fintype C] [Fintype F] [Fintype B]

/-- The mass term of a tracer (prognostic_equations.py 149-172): a conservatively transported one needs its density. -/
def trMass (M : Mesh ℝ d C F B) (fields : List String) (t : FTracer) : Except FErr (ET d C F B) :=
  let m : ET d C F B := {
    form := fun X v => cells M fun x => (X.tr t.m.name).c x * (v.tr t.m.name).c x
    dform := fun _ h v => cells M fun x => (h.tr t.m.name).c x * (v.tr t.m.name).c x
    empty := false, lin := none, labels := ["time_derivative"] }
  if t.eqn = .tracerConservative then
    if t.density.getD "" ∈ fields then .ok { m with labels := m.labels ++ ["mass_weighted"] } else .error .valueError
  else .ok m

/-- The advective transport term of a tracer (prognostic_equations.py 388-391, 396-399). -/
def trAdvective (M : Mesh ℝ d C F B) (n : String) : ET d C F B where
  form X v := advCells M (v.tr n) (X.tr n) X.u
  dform X h v := advCells M (v.tr n) (h.tr n) X.u + advCells M (v.tr n) (X.tr n) h.u
  empty := false
  lin := none
  labels := ["transport"]
/-- The conservative one (prognostic_equations.py 392-395). -/
def trConservative (M : Mesh ℝ d C F B) (n : String) : ET d C F B where
  form X v := contCells M (v.tr n) (X.tr n) X.u
  dform X h v := contCells M (v.tr n) (h.tr n) X.u + contCells M (v.tr n) (X.tr n) h.u
  empty := false
  lin := none
  labels := ["transport"]

/-- The transport term of a tracer (prognostic_equations.py 383-412). -/
def trTransport (M : Mesh ℝ d C F B) (fields : List String) (t : FTracer) : Except FErr (ET d C F B) :=
  match t.eqn with
  | .advective => .ok (trAdvective M t.m.name)
  | .conservative => .ok (trConservative M t.m.name)
  | .tracerConservative =>
    if t.density.getD "" ∈ fields then
      .ok { trAdvective M t.m.name with labels := ["transport", "mass_weighted"] }
    else .error .valueError
  | _ => .error .valueError

/-- A diffusion term (compressible_euler_equations.py 269-276, common_forms.py 292-304). -/
def diffTerm (M : Mesh ℝ d C F B) (L : Lap d C F B) (fields : List String) (q : String × ℝ) : Except FErr (ET d C F B) :=
  if q.1 ∈ fields then
    .ok (if q.1 = "u" then
      { form := fun X v => -cells M fun x => dot (v.u.c x) (fun i => q.2 * L.v X.u x i)
        dform := fun _ h v => -cells M fun x => dot (v.u.c x) (fun i => q.2 * L.v h.u x i)
        empty := false, lin := none, labels := ["diffusion"] }
    else
      { form := fun X v => -cells M fun x => (scalarOf v q.1).c x * (q.2 * L.s (scalarOf X q.1) x)
        dform := fun _ h v => -cells M fun x => (scalarOf v q.1).c x * (q.2 * L.s (scalarOf h q.1) x)
        empty := false, lin := none, labels := ["diffusion"] })
  else .error .valueError

/-- An extra term `inner(test, term)*dx` (compressible_euler_equations.py 278-283): the shapes must agree. -/
def extraTerm (M : Mesh ℝ d C F B) (fields : List String) (q : String × Expr d C F B) : Except FErr (ET d C F B) :=
  if q.1 ∈ fields then
    match q.2 with
    | .scalar f df e =>
      if q.1 = "u" then .error .shapeError
      else .ok { form := fun X v => cells M fun x => (scalarOf v q.1).c x * f X x
                 dform := fun X h v => cells M fun x => (scalarOf v q.1).c x * df X h x
                 empty := e, lin := none, labels := [] }
    | .vector f df e =>
      if q.1 = "u" then
        .ok { form := fun X v => cells M fun x => dot (v.u.c x) (f X x)
              dform := fun X h v => cells M fun x => dot (v.u.c x) (df X h x)
              empty := e, lin := none, labels := [] }
      else .error .shapeError
  else .error .valueError

/-- `CompressibleEulerEquations.__init__` (compressible_euler_equations.py 41-289), with everything.  The tracers of `c` are those
of `q`. -/
def eulerFull (c : ECfg d C F B) (L : Lap d C F B) (q : Extras d C F B) (p : ET d C F B → Bool) (Xref : EuSt d C F B) :
    Except FErr (List (ET d C F B)) :=
  let c := { c with tracers := q.tracers.map FTracer.m }
  match addNames ["u", "rho", "theta"] q.tracers with
  | .error e => .error e
  | .ok fields =>
  match collect (trMass c.base.M fields) q.tracers with
  | .error e => .error e
  | .ok ms =>
  match Euler.uTransport c p Xref with
  | .error e => .error (ofE e)
  | .ok ut =>
  match collect (trTransport c.base.M fields) (q.tracers.filter fun t => decide (t.eqn ≠ .noTransport)) with
  | .error e => .error e
  | .ok tt =>
  match corOp c.base with
  | .error _ => .error .shapeError
  | .ok op =>
  match spongeTerms c with
  | .error e => .error (ofE e)
  | .ok sp =>
  match collect (diffTerm c.base.M L fields) q.diffusion with
  | .error e => .error e
  | .ok df =>
  match collect (extraTerm c.base.M fields) q.extra with
  | .error e => .error e
  | .ok ex =>
    .ok (generateLinear Xref p ([Euler.massU c.base.M, massRho c.base.M, massTh c.base.M] ++ ms ++ ut ++
      [rhoAdv c p Xref, thAdv c p Xref] ++ tt ++ [pg c, Euler.grav c] ++ moistTerms c ++ Euler.corTerms c op ++ sp ++ df ++ ex))

end Gusto.EulerFull
