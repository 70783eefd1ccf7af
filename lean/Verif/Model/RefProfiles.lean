import Verif.Model.Registry

set_option autoImplicit false

/-!
# Reference profiles: setting, checkpointing and picking up

`BaseTimestepper.set_reference_profiles` (gusto/timestepping/timestepper.py:269-308), the part of `IO.dump` that stores fields and
the part of `IO.pick_up_from_checkpoint` that finds reference profiles (gusto/core/io.py:560-721, 757-801).

Fields are objects of the registry of `Model/Registry` with a function space and a value.  Simplifications: values are opaque, a
space is never mixed, HDF5 files are association lists from names to a space and a value.
-/

namespace Gusto.RefProfiles
open Registry
variable {N Sp E V K : Type*} [DecidableEq N] [DecidableEq Sp]

/-- What can be passed as a profile: a `Function` with its space and value, or another expression (timestepper.py:269-280). -/
inductive Profile (Sp E V : Type*)
  | func (space : Sp) (v : V)
  | expr (e : E)

/-- The equation and the operations that are not gusto's: `names` are `equation.field_names` when the equation is a
`PrognosticEquationSet` and empty otherwise, `xspace` the spaces of the components of `X_ref`, `bar` appends `'_bar'`, `interp` is
`Function.interpolate` into a space (timestepper.py:281-306). -/
structure Setting (N Sp E V : Type*) where
  names : List N
  xspace : N → Sp
  bar : N → N
  interp : Sp → Profile Sp E V → V

/-- The timestepper: the registry, the spaces and values of its fields, `equation.X_ref`, `reference_profiles_initialised` and
`last_ref_update_time` (timestepper.py:29-35). -/
structure St (N Sp V K : Type*) where
  reg : Reg N
  space : ℕ → Sp
  val : ℕ → V
  xref : N → V
  initialised : Bool
  last : Option K

/-- `function == 'a string'`: UFL's `Coefficient.__eq__` is `False` for an object that is not a coefficient (UFL, not gusto code;
used by timestepper.py:282). -/
def functionEqString (_ : ℕ) (_ : N) : Bool := false

/-- `name in self.fields` of timestepper.py:282: `Fields` defines `__iter__` (core/fields.py:66-68) and no `__contains__`, so the
name is compared with every field. -/
def inFields (r : Reg N) (name : N) : Bool := r.fields.any fun o => functionEqString o name

/-- How `set_reference_profiles` can fail: an exception of the registry, the `ValueError` of timestepper.py:293-294, or `assign`
between different spaces (304). [timestepper.py] -/
inductive Err
  | registry | mustBeFunction | wrongSpace
  deriving DecidableEq

/-- The call of the registry that adds a profile, timestepper.py:291-292. -/
def barCall (name : N) : Call N :=
  { name, field := none, space := some false, dump := false, pickUp := true, ftype := .given .reference }

/-- timestepper.py:295-308, once the field `o` of the profile is known. -/
def store (S : Setting N Sp E V) (s : St N Sp V K) (f : N) (p : Profile Sp E V) (o : ℕ) : St N Sp V K × Option Err :=
  let v := S.interp (s.space o) p
  let s := { s with val := Function.update s.val o v }
  if f ∈ S.names then
    if s.space o = S.xspace f then ({ s with xref := Function.update s.xref f v }, none) else (s, some .wrongSpace)
  else (s, none)

/-- One pass of the loop of `set_reference_profiles`, timestepper.py:281-308. -/
def setOne (S : Setting N Sp E V) (s : St N Sp V K) (f : N) (p : Profile Sp E V) : St N Sp V K × Option Err :=
  if inFields s.reg (S.bar f) then
    match s.reg.attr (S.bar f) with
    | some o => store S s f p o
    | none => (s, some .registry)
  else
    match p with
    | .expr _ => (s, some .mustBeFunction)
    | .func sp _ =>
      match s.reg.attr (S.bar f), call s.reg (barCall (S.bar f)) with
      | some o, _ => store S s f p o
      | none, (r, .ret o) => store S { s with reg := r, space := Function.update s.space o sp } f p o
      | none, (r, .raised) => ({ s with reg := r }, some .registry)

/-- The loop of `set_reference_profiles`; an exception ends it, and what was done before stays (timestepper.py:281-308). -/
def setAll (S : Setting N Sp E V) (s : St N Sp V K) : List (N × Profile Sp E V) → St N Sp V K × Option Err
  | [] => (s, none)
  | (f, p) :: ps =>
    match setOne S s f p with
    | (s', none) => setAll S s' ps
    | (s', some e) => (s', some e)

/-- `set_reference_profiles`, timestepper.py:269-312. -/
def setReferenceProfiles (S : Setting N Sp E V) (s : St N Sp V K) (ps : List (N × Profile Sp E V)) (last : Option K) :
    St N Sp V K × Option Err :=
  match setAll S s ps with
  | (s', none) => ({ s' with initialised := true, last := last }, none)
  | (s', some e) => (s', some e)

/-- The fields a checkpoint holds, core/io.py:564-566 and 757-793: those of `to_pick_up`. -/
def save (s : St N Sp V K) : List (N × Sp × V) :=
  s.reg.toPickUp.filterMap fun n => (s.reg.attr n).map fun o => (n, s.space o, s.val o)

/-- `chk.load_function(mesh, name)`: `none` is the `RuntimeError` for a name that is not in the file (core/io.py:667, 679). -/
def load (c : List (N × Sp × V)) (name : N) : Option (Sp × V) := (c.find? fun e => e.1 = name).map (·.2)

/-- The compulsory fields, core/io.py:665-668: `none` if one is missing from the file. -/
def pickUpFields (c : List (N × Sp × V)) (s : St N Sp V K) : List N → Option (St N Sp V K)
  | [] => some s
  | n :: ns =>
    match load c n, s.reg.attr n with
    | some (_, v), some o => pickUpFields c { s with val := Function.update s.val o v } ns
    | _, _ => none

/-- The profiles found in the file, core/io.py:611-616 and 675-683: for every field of the model that is not a reference profile
itself, one named after it is looked for. -/
def findProfiles (S : Setting N Sp E V) (c : List (N × Sp × V)) (r : Reg N) : List (N × Profile Sp E V) :=
  (r.names.zip r.types).filterMap fun e =>
    if e.2 = .reference then none else (load c (S.bar e.1)).map fun d => (e.1, .func d.1 d.2)

/-- Picking up: core/io.py:584-720 followed by `set_reference_profiles` (timestepper.py:217-224). -/
def pickUp (S : Setting N Sp E V) (s : St N Sp V K) (c : List (N × Sp × V)) (last : Option K) : Option (St N Sp V K × Option Err) :=
  (pickUpFields c s s.reg.toPickUp).map fun s' => setReferenceProfiles S s' (findProfiles S c s'.reg) last

/-- `update_reference_profiles` when an update is due: `X_ref` becomes the state at the start of the step
(semi_implicit_quasi_newton.py:520-525, tr_bdf2_quasi_newton.py:443-448). -/
def updateProfiles (s : St N Sp V K) (xn : N → V) (t : K) : St N Sp V K := { s with xref := xn, last := some t }

end Gusto.RefProfiles
