import Verif.Model.CommonForms

set_option autoImplicit false

/-!
# Equation sets: active tracers, mass and transport terms, boundary conditions, linearisation

Model of `gusto/equations/prognostic_equations.py` and `gusto/equations/active_tracers.py:48-101`.

Simplifications: the entries of `active_tracers` are `ActiveTracer` objects (the `TypeError` of :352 is not modelled);
function spaces are their names (`domain.spaces` is injective on names and total).
-/

namespace Gusto.EqSet
open Gusto.Forms

/-- The exceptions of prognostic_equations.py 69-443 and active_tracers.py 45-178. -/
inductive Err where
  | valueError | assertionError | notImplemented
  deriving DecidableEq

/-- `ActiveTracer`, active_tracers.py:48-101, as far as the equations read it. -/
structure Tracer where
  name : String
  space : String
  eqn : TType
  density : Option String
  deriving DecidableEq

/-- `ActiveTracer.__init__`, active_tracers.py:97-101: conservative transport needs a density. -/
def mkTracer (name space : String) (eqn : TType) (density : Option String) : Except Err Tracer :=
  if eqn = .tracerConservative ∧ density = none then .error .valueError else .ok ⟨name, space, eqn, density⟩

/-- Body of the loop of prognostic_equations.py:322-329 for the index `i`: `ref_density` is the first tracer with the
name of the density, or the tracer itself; swap it with the tracer if it stands later. -/
def swapStep (ts : List Tracer) (i : ℕ) : List Tracer :=
  match ts[i]? with
  | none => ts
  | some t =>
    if t.eqn = .tracerConservative then
      match ts.findIdx? (fun x => decide (some x.name = t.density)) with
      | none => ts
      | some j =>
        if i < j then
          match ts[j]? with
          | none => ts
          | some r => (ts.set i r).set j t
        else ts
    else ts

/-- The loop `for i in range(len(active_tracers) - 1)`, prognostic_equations.py:322-329. -/
def reorder (ts : List Tracer) : List Tracer := (List.range (ts.length - 1)).foldl swapStep ts

/-- `field_names`, `space_names`, `spaces` (prognostic_equations.py 78-129, 304-351). -/
structure Names where
  fields : List String
  spaceNames : List (String × String)
  spaces : List String

/-- The loop of prognostic_equations.py:332-352. -/
def addLoop : Names → List Tracer → Except Err Names
  | n, [] => .ok n
  | n, t :: ts =>
    if t.name ∈ n.fields then .error .valueError
    else match n.spaceNames.lookup t.name with
      | some s => if s = t.space then
            addLoop { fields := n.fields ++ [t.name], spaceNames := n.spaceNames, spaces := n.spaces ++ [t.space] } ts
          else .error .assertionError
      | none => addLoop { fields := n.fields ++ [t.name], spaceNames := n.spaceNames ++ [(t.name, t.space)],
                          spaces := n.spaces ++ [t.space] } ts

/-- `add_tracers_to_prognostics`, prognostic_equations.py:304-352. -/
def addTracers (n : Names) (ts : List Tracer) : Except Err Names := addLoop n (reorder ts)

/-! ### Mass and transport terms -/

variable {R : Type*} [CommRing R] [Algebra ℚ R] {d : ℕ}

/-- A term of the equation set: the name in its `prognostic` label, its form, and the form in the label
`mass_weighted`, if it has one.  A form is the integrand, from the fields and the test functions by index
(prognostic_equations.py 353-419). -/
structure STerm (R : Type*) where
  prognostic : String
  form : (ℕ → R) → (ℕ → R) → R
  weighted : Option ((ℕ → R) → (ℕ → R) → R) := none
  transport : Option TType := none

/-- `self.field_names.index(name)` (prognostic_equations.py 135-176). -/
def index (fields : List String) (name : String) : Except Err ℕ :=
  match fields.findIdx? (fun x => decide (x = name)) with
  | some i => .ok i
  | none => .error .valueError

/-- The mass term of a field, prognostic_equations.py:149-172: the label `mass_weighted` is set for every tracer with
the name of the field that is transported conservatively. -/
def massTerm (fields : List String) (ts : List Tracer) (i : ℕ) (name : String) : Except Err (STerm R) :=
  ts.foldl (fun acc t =>
    match acc with
    | .error e => .error e
    | .ok m =>
      if name = t.name ∧ t.eqn = .tracerConservative then
        match index fields (t.density.getD "") with
        | .error e => .error e
        | .ok k => .ok { m with weighted := some fun X v => X i * X k * v i }
      else .ok m)
    (.ok { prognostic := name, form := fun X v => X i * v i })

/-- The loop of `generate_mass_terms`, prognostic_equations.py:149-178. -/
def massLoop (fields : List String) (ts : List Tracer) : ℕ → List String → Except Err (List (STerm R))
  | _, [] => .ok []
  | i, name :: l =>
    match massTerm fields ts i name with
    | .error e => .error e
    | .ok m =>
      match massLoop fields ts (i + 1) l with
      | .error e => .error e
      | .ok ms => .ok (m :: ms)

/-- `generate_mass_terms`, prognostic_equations.py:131-180. -/
def massTerms (fields : List String) (ts : List Tracer) : Except Err (List (STerm R)) := massLoop fields ts 0 fields

/-- The transport term of a tracer, prognostic_equations.py:385-412. -/
def tracerTerm (D : Derivs R d) (u : Fin d → R) (fields : List String) (t : Tracer) : Except Err (STerm R) :=
  match index fields t.name with
  | .error e => .error e
  | .ok i =>
    match t.eqn with
    | .advective => .ok { prognostic := t.name, form := fun X v => advectionForm D (v i) (X i) u, transport := some .advective }
    | .conservative => .ok { prognostic := t.name, form := fun X v => continuityForm D (v i) (X i) u,
                             transport := some .conservative }
    | .tracerConservative =>
      match index fields (t.density.getD "") with
      | .error e => .error e
      | .ok k => .ok { prognostic := t.name, form := fun X v => advectionForm D (v i) (X i) u,
                       weighted := some fun X v => tracerConservativeForm D (v i) (X i) (X k) u,
                       transport := some .advective }
    | _ => .error .valueError

/-- The loop of prognostic_equations.py:383-420. -/
def tracerLoop (D : Derivs R d) (u : Fin d → R) (fields : List String) : List Tracer → Except Err (List (STerm R))
  | [] => .ok []
  | t :: ts =>
    if t.eqn = .noTransport then tracerLoop D u fields ts
    else match tracerTerm D u fields t with
      | .error e => .error e
      | .ok m =>
        match tracerLoop D u fields ts with
        | .error e => .error e
        | .ok ms => .ok (m :: ms)

/-- `generate_tracer_transport_terms`, prognostic_equations.py:354-422; `u` is the velocity, prognostic or prescribed,
if there is one.  (The code returns `None` for the empty list.) -/
def tracerTransport (D : Derivs R d) (u : Option (Fin d → R)) (fields : List String) (ts : List Tracer) :
    Except Err (List (STerm R)) :=
  match u with
  | none => .error .valueError
  | some u => tracerLoop D u fields ts

/-! ### Boundary conditions -/

/-- A boundary condition: the value and the boundary (prognostic_equations.py 261-298). -/
structure BC where
  value : ℤ
  boundary : String
  deriving DecidableEq

/-- The boundary conditions of `u`, prognostic_equations.py:286-292. -/
def uBCs (extruded periodic : Bool) (ids : List String) : List BC :=
  (if extruded && !periodic then [⟨0, "bottom"⟩, ⟨0, "top"⟩] else []) ++ ids.map (fun i => ⟨0, i⟩)

/-- `full_field_name = "_".join(self.field_names)`, prognostic_equations.py:118. -/
def fullName : List String → String
  | [] => ""
  | [a] => a
  | a :: l => a ++ "_" ++ fullName l

/-- The dictionary `self.bcs` when the loop of prognostic_equations.py:296-298 starts: the conditions of `u` have been
added (:287-291), then the entry of the whole set is emptied (:295). -/
def bcsOf (fields : List String) (extruded periodic : Bool) (ids : List String) (f : String) : List BC :=
  if f = fullName fields then [] else if f = "u" then uBCs extruded periodic ids else []

/-- `set_no_normal_flow_bcs`, prognostic_equations.py:262-300: the boundary conditions of the mixed space (the entry of
the whole set), with the index of the component.  The other fields have none. -/
def setBCs (fields : List String) (extruded periodic : Bool) (ids : List String) : Except Err (List (ℕ × BC)) :=
  if "u" ∈ fields then
    .ok (fields.zipIdx.flatMap fun p => (bcsOf fields extruded periodic ids p.1).map (fun b => (p.2, b)))
  else .error .notImplemented

/-! ### Linearisation -/

/-- A term for the linearisation: the form, its symbolic derivative, whether UFL finds the derivative empty (then
`action` raises `IndexError`), and the form in its label `linearisation`, as a function of the trial function
(prognostic_equations.py 186-255). -/
structure LTerm (E F : Type*) where
  form : E → F
  dform : E → E → F
  empty : Bool
  lin : Option (E → F)
  labels : List String

variable {E F : Type*}

/-- `linearise`, prognostic_equations.py:216-226. -/
def linearise (Xref : E) (t : LTerm E F) : LTerm E F :=
  if t.empty then t else { t with lin := some (t.dform Xref) }

/-- `generate_linear_terms`, prognostic_equations.py:189-235. -/
def generateLinear (Xref : E) (p : LTerm E F → Bool) (res : List (LTerm E F)) : List (LTerm E F) :=
  res.map fun t => if t.lin.isNone && p t then linearise Xref t else t

/-- `linearise_equation_set`, prognostic_equations.py:237-256: terms with a linearisation become it, with the trial
function replaced by the prognostic; the others are dropped. -/
def lineariseSet (res : List (LTerm E F)) : List (LTerm E F) :=
  res.flatMap fun t => match t.lin with
    | some l => [{ t with form := l }]
    | none => []

/-- `self.linearisation_map`, prognostic_equations.py:104. -/
def linearisationMap (m : Option (LTerm E F → Bool)) : LTerm E F → Bool :=
  fun t => match m with
    | none => false
    | some f => f t

/-- The value of a residual (the residual of prognostic_equations.py 69-443). -/
def value [AddCommMonoid F] (res : List (LTerm E F)) (X : E) : F := (res.map fun t => t.form X).sum

end Gusto.EqSet
