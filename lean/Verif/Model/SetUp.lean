import Mathlib.Algebra.BigOperators.Group.List.Basic
import Mathlib.Algebra.Group.Pi.Basic

set_option autoImplicit false

/-!
# Setting up the equation and the time discretisation

Model of `SpatialMethod.__init__`/`replace_form` (`gusto/spatial_methods/spatial_methods.py`), of
`TransportMethod.replace_form` (`gusto/spatial_methods/transport_methods.py:62-158`), of the selection of terms in
`TimeDiscretisation.setup` (`gusto/time_discretisation/time_discretisation.py:148-269`) and of
`BaseTimestepper.setup_equation` and `setup_transporting_velocity` (`gusto/timestepping/timestepper.py:75-171`).

A form is a function of the values of the velocities it mentions: `Function`s created while the form is built
(`Vel.func i`) and the velocity of the timestepper (`Vel.model`).  `ufl.replace` is substitution.
Simplifications: labels without a value that matters here are names; the forms held in labels carry no further forms
in labels; boundary conditions and wrappers are not part of this model.
-/

namespace Gusto.SetUp

/-- The exceptions of timestepper.py 76-169, spatial_methods.py 18-87, transport_methods.py 24-188 and time_discretisation.py 147-385. -/
inductive Err where
  | valueError | assertionError | runtimeError | notImplemented | attributeError
  deriving DecidableEq

/-- A velocity mentioned by a form (timestepper.py 121-169). -/
inductive Vel where
  | model
  | func (i : ℕ)
  deriving DecidableEq

/-- A `ufl.Form` (UFL; timestepper.py 121-169). -/
abbrev Form (U D : Type*) := (Vel → U) → D

/-- `ufl.replace(form, {v: w})` (UFL; timestepper.py 121-169). -/
def replace {U D : Type*} (v w : Vel) (F : Form U D) : Form U D := fun ρ => F fun x => if x = v then ρ w else ρ x

/-- A `fml.Term` without forms in its labels.  `prog`: the value of `prognostic`; `labels`: the names of the labels
(`"time_derivative"`, `"transport"`, ...); `phys`: the evaluation method held by the physics label; `vel`: the value of
`transporting_velocity` (fml; core/labels.py 90-118). -/
structure Base (U D : Type*) where
  form : Form U D
  prog : Option String := none
  labels : List String := []
  phys : Option ℕ := none
  vel : Option Vel := none

/-- The value of the label `mass_weighted`: a `LabelledForm` or a `Term` (the validator of labels.py:101 accepts
both). -/
inductive Att (U D : Type*) where
  | lform (l : List (Base U D))
  | term (b : Base U D)

/-- A `fml.Term` (fml; core/labels.py 90-118). -/
structure STerm (U D : Type*) extends Base U D where
  mw : Option (Att U D) := none
  abl : Option (List (Base U D)) := none

variable {U D : Type*}

/-- The terms of a `LabelledForm` or `Term` used as a summand (fml; used at spatial_methods.py 73-87). -/
def Att.terms : Att U D → List (Base U D)
  | .lform l => l
  | .term b => [b]

/-- `t.has_label(l)` (fml; used at spatial_methods.py 18-71). -/
def Base.has (t : Base U D) (l : String) : Bool := decide (l ∈ t.labels)
/-- `t.has_label(mass_weighted)` (fml; used at transport_methods.py 29-56). -/
def STerm.hasMW (t : STerm U D) : Bool := t.mw.isSome
/-- `t.get(prognostic) == name` (used at spatial_methods.py 18-71, time_discretisation.py 147-385). -/
def Base.isProg (t : Base U D) (name : String) : Bool := decide (t.prog = some name)
/-- The truth value of `t.has_label(*labels)` (fml): the Boolean for one label, a tuple otherwise, which is true unless
it is empty (fml; used at time_discretisation.py 147-385). -/
def STerm.hasTruthy (t : STerm U D) : List String → Bool
  | [] => false
  | [l] => t.has l
  | _ => true

/-! ### Time discretisation -/

/-- The field a scheme was built for: one name or a list of names (time_discretisation.py 67-145). -/
inductive Target where
  | one (f : String)
  | many (l : List String)

/-- time_discretisation.py:164-176: select the terms of the field and its block of each form (`split k` is
`split_form(form)[k].form`).  `names` is `equation.field_names`, absent for a `PrognosticEquation`. -/
def selectField (split : ℕ → Form U D → Form U D) (names : Option (List String)) (target : Option Target)
    (res : List (STerm U D)) : Except Err (List (STerm U D)) :=
  match names, target with
  | some l, some (.one f) =>
    match l.findIdx? (fun x => decide (x = f)) with
    | none => .error .valueError
    | some k => .ok ((res.filter (fun t => t.isProg f)).map fun t => { t with form := split k t.form })
  | _, _ => .ok res

/-- time_discretisation.py:187-212: keep the terms with an active label. -/
def selectActive (names : Option (List String)) (target : Option Target) (active : List String)
    (res : List (STerm U D)) : List (STerm U D) :=
  match active with
  | [] => res
  | _ =>
    match names, target with
    | some _, some (.many subs) =>
      subs.foldl (fun acc sub => acc ++ (res.filter (fun t => t.isProg sub)).filter (fun t => t.hasTruthy active))
        (res.filter (fun t => t.has "time_derivative"))
    | _, _ => res.filter (fun t => ("time_derivative" :: active).any (fun l => t.has l))

/-- time_discretisation.py:226-232: the evaluation methods of the physics terms. -/
def evaluateSource (res : List (STerm U D)) : List ℕ :=
  res.foldl (fun acc t => match t.phys with
    | none => acc
    | some m => if m ∈ acc then acc else acc ++ [m]) []

/-- time_discretisation.py:241-269 for one field. -/
def massWeightedField (field : String) (res : List (STerm U D)) : Except Err (List (STerm U D)) :=
  if (res.filter (fun t => t.isProg field && t.has "time_derivative" && t.hasMW)).length = 1 then
    let terms := res.filter (fun t => t.isProg field && !t.has "time_derivative")
    if 0 < (terms.filter STerm.hasMW).length then
      if 0 < (terms.filter (fun t => !t.hasMW)).length then .error .valueError
      else .ok (res.flatMap fun t =>
        if t.isProg field then
          match t.mw with
          | some a => a.terms.map fun b => { toBase := b }
          | none => [t]
        else [t])
    else .ok res
  else .ok res

/-- time_discretisation.py:240-269: the loop over the fields. -/
def massWeightedLoop : List String → List (STerm U D) → Except Err (List (STerm U D))
  | [], res => .ok res
  | f :: fs, res =>
    match massWeightedField f res with
    | .error e => .error e
    | .ok r => massWeightedLoop fs r

/-- time_discretisation.py:234-269. -/
def massWeighted (names : Option (List String)) (res : List (STerm U D)) : Except Err (List (STerm U D)) :=
  if 0 < (res.filter STerm.hasMW).length then
    match names with
    | some l => massWeightedLoop l res
    | none => .error .attributeError
  else .ok res

/-- The residual and the source evaluations chosen by `TimeDiscretisation.setup`, time_discretisation.py:148-269,
without augmentation and wrapper. -/
def setup (split : ℕ → Form U D → Form U D) (names : Option (List String)) (target : Option Target)
    (active : List String) (res : List (STerm U D)) : Except Err (List (STerm U D) × List ℕ) :=
  match selectField split names target res with
  | .error e => .error e
  | .ok r =>
    let r' := selectActive names target active r
    match massWeighted names r' with
    | .error e => .error e
    | .ok r'' => .ok (r'', evaluateSource r')

/-! ### Spatial methods -/

/-- A spatial method: its variable and its form (a labelled form), the forms of the directions for a split method, and
the form for all but the last stages (spatial_methods.py 13-87, transport_methods.py 24-157). -/
structure Method (U D : Type*) where
  variable_ : String
  form : List (STerm U D)
  formH : Option (List (STerm U D)) := none
  formV : Option (List (STerm U D)) := none
  allButLast : Option (List (Base U D)) := none

/-- `labelled_form.form`: the sum of the terms (fml; transport_methods.py 58-157). -/
def formSum [AddCommMonoid D] (l : List (STerm U D)) : Form U D := (l.map fun t => t.form).sum

/-- `labelled_form.terms[0].get(transporting_velocity)` (transport_methods.py 58-157). -/
def headVel (l : List (STerm U D)) : Option Vel := l.head?.bind fun t => t.vel

/-- The transport terms of a variable, transport_methods.py:76-79. -/
def isTransport (v : String) (t : STerm U D) : Bool := t.has "transport" && t.isProg v

/-- `SpatialMethod.replace_form`, spatial_methods.py:71-86 (used by the diffusion methods, `label = "diffusion"`). -/
def replaceBase [AddCommMonoid D] (label : String) (m : Method U D) (res : List (STerm U D)) : List (STerm U D) :=
  res.map fun t => if t.has label && t.isProg m.variable_ then { t with form := formSum m.form } else t

/-- The new term of transport_methods.py:86-113. -/
def newTerm [AddCommMonoid D] (m : Method U D) (t : STerm U D) : Except Err (STerm U D) :=
  let t1 : STerm U D := { t with form := formSum m.form, vel := headVel m.form,
                                 abl := match m.allButLast with
                                   | some f => some f
                                   | none => t.abl }
  match t.mw with
  | none => .ok t1
  | some a =>
    match a.terms.head?, m.form.head?.bind (fun s => s.mw) with
    | some b, some w =>
      .ok { t1 with mw := some (.term { b with form := (w.terms.map fun s => s.form).sum
                                               vel := w.terms.head?.bind fun s => s.vel }) }
    | _, _ => .error .attributeError

/-- `TransportMethod.replace_form`, transport_methods.py:62-158. -/
def replaceTransport [AddCommMonoid D] (m : Method U D) (res : List (STerm U D)) : Except Err (List (STerm U D)) :=
  match res.filter (isTransport m.variable_) with
  | [] => .ok res
  | [t] =>
    match newTerm m t with
    | .error e => .error e
    | .ok n => .ok (res.map fun s => if isTransport m.variable_ s then n else s)
  | _ =>
    match res.filter (fun t => isTransport m.variable_ t && t.has "horizontal_transport"),
          res.filter (fun t => isTransport m.variable_ t && t.has "vertical_transport") with
    | [h], [v] =>
      match m.formH, m.formV with
      | some fh, some fv =>
        if h.hasMW || v.hasMW then .error .notImplemented
        else .ok ((res.map fun s => if isTransport m.variable_ s && s.has "horizontal_transport"
                      then { h with form := formSum fh, vel := headVel fh } else s).map fun s =>
                    if isTransport m.variable_ s && s.has "vertical_transport"
                      then { v with form := formSum fv, vel := headVel fv } else s)
      | _, _ => .error .attributeError
    | _, _ => .error .runtimeError

/-- `setup_equation` for transport methods, timestepper.py:107-109. -/
def setupEquation [AddCommMonoid D] : List (Method U D) → List (STerm U D) → Except Err (List (STerm U D))
  | [], res => .ok res
  | m :: ms, res =>
    match replaceTransport m res with
    | .error e => .error e
    | .ok r => setupEquation ms r

/-! ### The transporting velocity -/

/-- Replace the labelled velocity of a term, timestepper.py:144-150. -/
def Base.setVel (t : Base U D) : Base U D :=
  match t.vel with
  | some v => { t with form := replace v .model t.form, vel := some .model }
  | none => t

/-- timestepper.py:144-171 for one term: the term itself, and the labelled forms held in its labels (a `Term` held in a
label is left as it is, :157). -/
def STerm.setVel (t : STerm U D) : STerm U D :=
  match t.vel with
  | some _ => { toBase := t.toBase.setVel
                mw := t.mw.map fun a => match a with
                  | .lform l => .lform (l.map Base.setVel)
                  | .term b => .term b
                abl := t.abl.map fun l => l.map Base.setVel }
  | none => t

/-- `setup_transporting_velocity`, timestepper.py:121-171. -/
def setupVelocity (res : List (STerm U D)) : List (STerm U D) := res.map STerm.setVel

/-! ### The forms of `DGUpwind` -/

/-- `transporting_velocity(L, ubar)`, then `transport`, of `upwind_advection_form` and the like
(transport_methods.py:488-490): `A` is the operator, `i` its `Function`. -/
def upwindTerm (A : U → D) (i : ℕ) : STerm U D :=
  { form := fun ρ => A (ρ (.func i)), labels := ["transporting_velocity", "transport", "ibp"], vel := some (.func i) }

/-- `vector_manifold_advection_form`, transport_methods.py:711-757: the correction terms `C₁`, `C₂` use a `Function` of
their own and are added without labels. -/
def manifoldAdvection (A C₁ C₂ : U → D) (i j : ℕ) : List (STerm U D) :=
  [upwindTerm A i, { form := fun ρ => C₁ (ρ (.func j)) }, { form := fun ρ => C₂ (ρ (.func j)) }]

/-- `vector_manifold_continuity_form`, transport_methods.py:760-802: as above, and then `transporting_velocity(L, ubar)`
labels every term with the `Function` of the correction. -/
def manifoldContinuity (A C₁ C₂ : U → D) (i j : ℕ) : List (STerm U D) :=
  (manifoldAdvection A C₁ C₂ i j).map fun t =>
    { t with vel := some (.func j), labels := t.labels ++ ["transporting_velocity", "transport"] }

/-- The values of the velocities when the model runs: the timestepper's velocity, and zero for every `Function` that
was not replaced (specification; timestepper.py 121-169). -/
def running [Zero U] (u : U) : Vel → U
  | .model => u
  | .func _ => 0

/-- The value of a residual when the model runs with velocity `u`
(specification; the residual after timestepper.py 76-169). -/
def value [Zero U] [AddCommMonoid D] (u : U) (res : List (STerm U D)) : D := (res.map fun t => t.form (running u)).sum

end Gusto.SetUp
