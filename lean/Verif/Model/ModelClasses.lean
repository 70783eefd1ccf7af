import Verif.Model.CommonForms
import Verif.Model.Solvers
import Verif.Model.Spaces

set_option autoImplicit false

/-!
# The model classes

Model of `gusto/model/model.py`, of `RecoverySpaces` (recovery/recovery_options.py) as far as it fails, and of the part of
`SemiImplicitQuasiNewton.__init__` that matches schemes with spatial methods (semi_implicit_quasi_newton.py:237-299,
331-345).

Simplifications: an equation set is the list of its prognostics, each with the name of its space and the types of its
transport terms; limiters, subcycling options and the parameters of the diffusion are left out.
-/

namespace Gusto.MC
open Gusto.Forms (TType)

/-- The exceptions of model/model.py 12-519 and of the constructors it calls (semi_implicit_quasi_newton.py 38-391). -/
inductive Err where
  | valueError | assertionError | attributeError | typeError | indexError | unboundLocal | notImplemented
  deriving DecidableEq, Repr

/-- What is read of a prognostic: `transport` are the transport equation types of its terms with the label `transport`
(`mass_weighted` counts as `tracer_conservative`, transport_methods.py:46-49), `diffusion` the number of its terms with the
label `diffusion`. -/
structure Fld where
  name : String
  space : String
  transport : List TType
  diffusion : ℕ := 0
  deriving DecidableEq

/-- What is read of the mesh and of the domain: `oneD` is the condition of transport_methods.py:240. -/
structure Geo where
  extruded : Bool
  cell : String
  oneD : Bool

/-- The choice of the family, model.py:57-74. -/
def chooseFamily (g : Geo) : Option String → Except Err String
  | some f => .ok f
  | none =>
    if g.cell = "interval" then .ok "CG"
    else if g.cell = "quadrilateral" then .ok "RTCF"
    else if g.cell = "triangle" then .ok "BDM"
    else .error .valueError

/-! ### Schemes and methods -/

/-- The classes of the time discretisations, model/model.py 280-327, 450-500. -/
inductive Kind where
  | ssprk3 | forwardEuler | backwardEuler
  deriving DecidableEq, Repr

/-- The `options` of a scheme (model/model.py 450-500). -/
inductive Opts where
  | none | embedded | recoverU | recoverDG | recoverTheta
  deriving DecidableEq, Repr

/-- A time discretisation of one field; `linear` says whether the Runge-Kutta formulation is `linear`
(model/model.py 280-327, 450-500). -/
structure Scheme where
  field : String
  kind : Kind
  opts : Opts := .none
  linear : Bool := false
  deriving DecidableEq, Repr

/-- The labels a spatial method replaces, spatial_methods.py 18-71. -/
inductive Label where
  | transport | diffusion
  deriving DecidableEq, Repr

/-- A spatial method (model/model.py 330-354, 503-519). -/
structure Method where
  variable_ : String
  label : Label
  advThenFlux : Bool := false
  deriving DecidableEq, Repr

/-- `DGUpwind(equation, name, advective_then_flux=atf)`, spatial_methods.py:33-51, transport_methods.py:226-313: which
exception is raised. -/
def dgUpwind (g : Geo) (flds : List Fld) (name : String) (atf : Bool) : Except Err Method :=
  match flds.find? (fun f => f.name = name) with
  | none => .error .valueError
  | some f =>
    match f.transport with
    | [ty] =>
      if atf ∧ ty ≠ .conservative then .error .valueError
      else if g.oneD then
        if ty = .advective ∨ ty = .conservative then .ok ⟨name, .transport, atf⟩ else .error .unboundLocal
      else if ty = .noTransport then .error .notImplemented
      else .ok ⟨name, .transport, atf⟩
    | _ => .error .assertionError

/-- `InteriorPenaltyDiffusion(equation, name, params)`, spatial_methods.py:33-51. -/
def interiorPenalty (flds : List Fld) (name : String) : Except Err Method :=
  match flds.find? (fun f => f.name = name) with
  | none => .error .valueError
  | some f => if f.diffusion = 1 then .ok ⟨name, .diffusion, false⟩ else .error .assertionError

/-- A loop that appends what its body makes, and stops with the first exception
(Python loop; model/model.py 252-519). -/
def collect {A B : Type} (f : A → Except Err (Option B)) : List A → Except Err (List B)
  | [] => .ok []
  | a :: l =>
    match f a with
    | .error e => .error e
    | .ok none => collect f l
    | .ok (some b) =>
      match collect f l with
      | .error e => .error e
      | .ok r => .ok (b :: r)

/-! ### `SIQNModel` -/

/-- The body of the loop of `SIQNModel.transported_fields`, model.py:304-331: the spaces are tested before the field `z`. -/
def siqnScheme (metric : Bool) (f : Fld) : Except Err (Option Scheme) :=
  if f.space = "L2" then .ok (some ⟨f.name, .ssprk3, .none, true⟩)
  else if f.space = "theta" then .ok (some ⟨f.name, .ssprk3, .embedded, false⟩)
  else if metric ∧ f.name = "z" then .ok none
  else .ok (some ⟨f.name, .ssprk3, .none, false⟩)

/-- `SIQNModel.transported_fields`, model.py:286-332. -/
def siqnTransported (metric : Bool) (flds : List Fld) : Except Err (List Scheme) :=
  match collect (siqnScheme metric) flds with
  | .error e => .error e
  | .ok l => .ok ((if metric then [⟨"z", .forwardEuler, .embedded, false⟩] else []) ++ l)

/-- The body of the loop of `SIQNModel.transport_methods`, model.py:346-357. -/
def siqnMethod (g : Geo) (metric : Bool) (flds : List Fld) (f : Fld) : Except Err (Option Method) :=
  if f.space = "L2" then (dgUpwind g flds f.name true).map some
  else if metric ∧ f.name = "z" then .ok none
  else (dgUpwind g flds f.name false).map some

/-- The method of the metric term, model.py:343-344, 507-508. -/
def metricMethod (g : Geo) (metric : Bool) (flds : List Fld) : Except Err (List Method) :=
  if metric then (dgUpwind g flds "z" false).map fun m => [m] else .ok []

/-- `SIQNModel.transport_methods`, model.py:334-358. -/
def siqnMethods (g : Geo) (metric : Bool) (flds : List Fld) : Except Err (List Method) :=
  match metricMethod g metric flds with
  | .error e => .error e
  | .ok a =>
    match collect (siqnMethod g metric flds) flds with
    | .error e => .error e
    | .ok l => .ok (a ++ l)

/-- `diffusion_methods`, model.py:258-270 and 408-420; `names` are the fields of `diffusion_options`. -/
def diffMethods (flds : List Fld) (names : List String) : Except Err (List Method) :=
  collect (fun n => (interiorPenalty flds n).map some) names

/-- `SIQNModel.diffusion_schemes`, model.py:272-284. -/
def siqnDiffSchemes (names : List String) : List Scheme := names.map fun n => ⟨n, .backwardEuler, .none, false⟩

/-! ### `LowestOrderSIQNModel` -/

/-- `RecoverySpaces.__init__`, recovery_options.py:34-80, as far as it fails: on meshes that are not extruded it reads
`self.mesh`, which is never set. -/
def recoverySpaces (g : Geo) : Except Err Unit := if g.extruded then .ok () else .error .attributeError

/-- The body of the loop of `LowestOrderSIQNModel.transported_fields`, model.py:467-497. -/
def lowScheme (metric : Bool) (f : Fld) : Except Err (Option Scheme) :=
  if f.space = "HDiv" then .ok (some ⟨f.name, .ssprk3, .recoverU, false⟩)
  else if f.space = "L2" then .ok (some ⟨f.name, .ssprk3, .recoverDG, false⟩)
  else if metric ∧ f.name = "z" then .ok none
  else if f.space = "theta" then .ok (some ⟨f.name, .ssprk3, .recoverTheta, false⟩)
  else .ok none

/-- `LowestOrderSIQNModel.transported_fields`, model.py:448-498. -/
def lowTransported (g : Geo) (metric : Bool) (flds : List Fld) : Except Err (List Scheme) :=
  match recoverySpaces g with
  | .error e => .error e
  | .ok _ =>
    match collect (lowScheme metric) flds with
    | .error e => .error e
    | .ok l => .ok ((if metric then [⟨"z", .forwardEuler, .recoverTheta, false⟩] else []) ++ l)

/-- The body of the loop of `LowestOrderSIQNModel.transport_methods`, model.py:514-518. -/
def lowMethod (g : Geo) (metric : Bool) (flds : List Fld) (f : Fld) : Except Err (Option Method) :=
  if metric ∧ f.name = "z" then .ok none
  else (dgUpwind g flds f.name false).map some

/-- `LowestOrderSIQNModel.transport_methods`, model.py:500-519. -/
def lowMethods (g : Geo) (metric : Bool) (flds : List Fld) : Except Err (List Method) :=
  match metricMethod g metric flds with
  | .error e => .error e
  | .ok a =>
    match collect (lowMethod g metric flds) flds with
    | .error e => .error e
    | .ok l => .ok (a ++ l)

/-- The body of the loop of `LowestOrderSIQNModel.diffusion_schemes`, model.py:434-446. -/
def lowDiff (flds : List Fld) (n : String) : Except Err (Option Scheme) :=
  match flds.find? (fun f => f.name = n) with
  | none => .error .valueError
  | some f =>
    if f.space = "HDiv" then .ok (some ⟨n, .backwardEuler, .recoverU, false⟩)
    else if f.space = "L2" then .ok (some ⟨n, .backwardEuler, .recoverDG, false⟩)
    else if f.space = "theta" then .ok (some ⟨n, .backwardEuler, .recoverTheta, false⟩)
    else .ok none

/-- `LowestOrderSIQNModel.diffusion_schemes`, model.py:422-446. -/
def lowDiffSchemes (g : Geo) (flds : List Fld) (names : List String) : Except Err (List Scheme) :=
  match recoverySpaces g with
  | .error e => .error e
  | .ok _ => collect (lowDiff flds) names

/-! ### The timestepper -/

/-- One scheme in the loop of semi_implicit_quasi_newton.py:270-299: an entry for every method of the field. -/
def matchScheme (names : List String) (methods : List Method) (s : Scheme) : Except Err (List Scheme) :=
  if s.field ∈ names then
    let l := (methods.filter fun m => m.variable_ = s.field ∧ m.label = .transport).map fun _ => s
    if l = [] then .error .assertionError else .ok l
  else .error .assertionError

/-- `active_transport`, semi_implicit_quasi_newton.py:269-299. -/
def activeTransport (names : List String) (methods : List Method) : List Scheme → Except Err (List Scheme)
  | [] => .ok []
  | s :: l =>
    match matchScheme names methods s with
    | .error e => .error e
    | .ok a =>
      match activeTransport names methods l with
      | .error e => .error e
      | .ok r => .ok (a ++ r)

/-- The checks of the diffusion schemes, semi_implicit_quasi_newton.py:331-345. -/
def activeDiffusion (names : List String) (methods : List Method) : List Scheme → Except Err (List Scheme)
  | [] => .ok []
  | s :: l =>
    if s.field ∈ names ∧ (methods.any fun m => m.variable_ = s.field ∧ m.label = .diffusion) then
      match activeDiffusion names methods l with
      | .error e => .error e
      | .ok r => .ok (s :: r)
    else .error .assertionError

/-- The checks for the metric term, semi_implicit_quasi_newton.py:241-259. -/
def metricCheck (metric : Bool) (names : List String) (schemes : List Scheme) : Except Err Unit :=
  if metric then
    if "theta" ∉ names then .error .valueError
    else if "z" ∉ names then .error .valueError
    else match schemes with
      | [] => .error .indexError
      | s :: _ => if s.field ≠ "z" then .error .valueError else .ok ()
  else .ok ()

/-- What the timestepper applies: the transport and the diffusion schemes in order, and whether it uses the consistent
metric (semi_implicit_quasi_newton.py 38-391). -/
structure Stepper where
  transport : List Scheme
  diffusion : List Scheme
  metric : Bool

/-- `SemiImplicitQuasiNewton.__init__` as above (semi_implicit_quasi_newton.py 38-391, model/model.py 171-200). -/
def stepper (metric : Bool) (names : List String) (schemes : List Scheme) (methods : List Method) (diff : List Scheme) :
    Except Err Stepper :=
  match metricCheck metric names schemes with
  | .error e => .error e
  | .ok _ =>
    match activeTransport names methods schemes with
    | .error e => .error e
    | .ok t =>
      match activeDiffusion names methods diff with
      | .error e => .error e
      | .ok d => .ok ⟨t, d, metric⟩

/-- The two model classes (model/model.py 203-519). -/
inductive Cls where
  | siqn | lowest
  deriving DecidableEq

/-- `transported_fields`, `transport_methods` and `diffusion_schemes` of the two classes
(model/model.py 280-327, 450-500). -/
def transported (c : Cls) (g : Geo) (metric : Bool) (flds : List Fld) : Except Err (List Scheme) :=
  match c with
  | .siqn => siqnTransported metric flds
  | .lowest => lowTransported g metric flds
/-- See `transport_methods`, model/model.py 330-354, 503-519. -/
def methods (c : Cls) (g : Geo) (metric : Bool) (flds : List Fld) : Except Err (List Method) :=
  match c with
  | .siqn => siqnMethods g metric flds
  | .lowest => lowMethods g metric flds
/-- See `diffusion_schemes`, model/model.py 266-277, 420-447. -/
def diffSchemes (c : Cls) (g : Geo) (flds : List Fld) (names : List String) : Except Err (List Scheme) :=
  match c with
  | .siqn => .ok (siqnDiffSchemes names)
  | .lowest => lowDiffSchemes g flds names

/-- `setup`, model.py:180-210: `metric` is the argument of the constructor, `stepMetric` the keyword
`consistent_metric` given to `setup`, which is passed to the timestepper; `diff` are the fields of the diffusion options
(`none`: the value `None`). -/
def setup (c : Cls) (g : Geo) (metric stepMetric : Bool) (flds : List Fld) (diff : Option (List String)) :
    Except Err Stepper :=
  match transported c g metric flds with
  | .error e => .error e
  | .ok ss =>
    match methods c g metric flds with
    | .error e => .error e
    | .ok ms =>
      match diff with
      | none => .error .typeError
      | some dn =>
        match diffMethods flds dn with
        | .error e => .error e
        | .ok dm =>
          match diffSchemes c g flds dn with
          | .error e => .error e
          | .ok ds => stepper stepMetric (flds.map (·.name)) ss (ms ++ dm) ds

/-- `tau_values`, model.py:165-178. -/
def tauValues {K : Type*} [One K] (names : List String) (n : String) : Option K :=
  if n ∈ names ∧ n ≠ "u" then some 1 else none

/-! ### The tracer of the metric term -/

/-- The list of tracers after `ModelBase.__init__`, model.py:79-92: what the equation gets, and what the caller's list is
afterwards (`none`: no list given).  `some none` is the argument `None`. -/
def withMetric {T : Type} (zT : T) (metric : Bool) : Option (Option (List T)) →
    Except Err (Option (List T) × Option (Option (List T)))
  | none => if metric then .ok (some [zT], none) else .ok (none, none)
  | some none => if metric then .error .attributeError else .ok (none, some none)
  | some (some l) => if metric then .ok (some (l ++ [zT]), some (some (l ++ [zT]))) else .ok (some l, some (some l))

end Gusto.MC
