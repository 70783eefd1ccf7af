import Verif.Model.EquationSet

set_option autoImplicit false

/-!
# The prognostic variables and function spaces of the equation sets

Model of the first part of the constructors of the equation sets: `field_names`, `space_names` and `active_tracers` as
Python objects, which the constructors can share with the user (equations/prognostic_equations.py 78-129, 304-352,
equations/shallow_water_equations.py 71-80, 337-360, 700-709, equations/compressible_euler_equations.py 86-97,
equations/boussinesq_equations.py 82-96).

Simplifications: function spaces are their names; `domain.spaces` is a test for the name.  What the constructors do after the
spaces are built (residual, boundary conditions) changes none of these objects and is not repeated here.
-/

namespace Gusto.EqNames
open Gusto.EqSet

/-- A dictionary `space_names`, from names of variables to names of spaces (prognostic_equations.py 85-87). -/
abbrev Dict := List (String × String)

/-- The equation sets with a default list of variables (classes of shallow_water_equations.py, boussinesq_equations.py,
compressible_euler_equations.py).  The flag of the thermal sets is `equivalent_buoyancy`. -/
inductive Kind where
  | shallowWater | linearShallowWater
  | thermal (equivalent : Bool) | linearThermal (equivalent : Bool)
  | shallowWater1d | linearShallowWater1d
  | boussinesq | linearBoussinesq
  | euler | hydrostatic
  deriving DecidableEq

/-- The exceptions of the constructors (prognostic_equations.py 106-107, 332-352, function_spaces.py 86-90,
boussinesq_equations.py 87-88, shallow_water_equations.py 703-704). -/
inductive Fail where
  | keyError | noSpace | duplicate | conflict | noTracers
  deriving DecidableEq

/-- `field_names`, shallow_water_equations.py:74, 338-347, 700, boussinesq_equations.py:82,
compressible_euler_equations.py:86.  The linear and hydrostatic classes call the constructor of their parent. -/
def fieldNames : Kind → List String
  | .shallowWater | .linearShallowWater => ["u", "D"]
  | .thermal e | .linearThermal e => ["u", "D"] ++ (if e then ["b_e", "q_t"] else ["b"])
  | .shallowWater1d | .linearShallowWater1d => ["u", "v", "D"]
  | .boussinesq | .linearBoussinesq => ["u", "p", "b"]
  | .euler | .hydrostatic => ["u", "rho", "theta"]

/-- The dictionary the constructor builds itself, shallow_water_equations.py:75, 339-348, 701,
boussinesq_equations.py:85, compressible_euler_equations.py:89. -/
def ownDict : Kind → Dict
  | .shallowWater | .linearShallowWater => [("u", "HDiv"), ("D", "L2")]
  | .thermal e | .linearThermal e =>
    [("u", "HDiv"), ("D", "L2")] ++ (if e then [("b_e", "L2"), ("q_t", "L2")] else [("b", "L2")])
  | .shallowWater1d | .linearShallowWater1d => [("u", "HDiv"), ("v", "L2"), ("D", "L2")]
  | .boussinesq | .linearBoussinesq => [("u", "HDiv"), ("p", "L2"), ("b", "theta")]
  | .euler | .hydrostatic => [("u", "HDiv"), ("rho", "L2"), ("theta", "theta")]

/-- Whether `space_names` given by the user is used: `if space_names is None` guards the assignment in
boussinesq_equations.py:84-85 and compressible_euler_equations.py:88-89; in shallow_water_equations.py:75, 339, 701 the
assignment is unconditional. -/
def usesGiven : Kind → Bool
  | .boussinesq | .linearBoussinesq | .euler | .hydrostatic => true
  | _ => false

/-- Whether any list of tracers, even an empty one, is refused: boussinesq_equations.py:87-88,
shallow_water_equations.py:703-704. -/
def refusesTracers : Kind → Bool
  | .boussinesq | .linearBoussinesq | .shallowWater1d | .linearShallowWater1d => true
  | _ => false

/-- The objects of the user that constructors can share: dictionaries and lists of tracers, by number
(the arguments `space_names` and `active_tracers` of prognostic_equations.py 78-80). -/
structure Objs where
  dicts : ℕ → Dict
  tracers : ℕ → List Tracer

/-- A call of a constructor: the class and which objects are passed, if any (prognostic_equations.py 78-80). -/
structure Call where
  kind : Kind
  dict : Option ℕ
  tracers : Option ℕ
  deriving DecidableEq

/-- `field_names` and `spaces` of the set that is built (prognostic_equations.py 100-118). -/
structure Built where
  fields : List String
  spaces : List String
  deriving DecidableEq

/-- `[self.space_names[field_name] for field_name in self.field_names]`, prognostic_equations.py:107. -/
def lookups (d : Dict) : List String → Except Fail (List String)
  | [] => .ok []
  | f :: fs =>
    match d.lookup f with
    | none => .error .keyError
    | some s =>
      match lookups d fs with
      | .error e => .error e
      | .ok l => .ok (s :: l)

/-- The spaces of the variables of the set, prognostic_equations.py:106-107: `domain.spaces` of each name. -/
def baseSpaces (known : String → Bool) (d : Dict) (fs : List String) : Except Fail (List String) :=
  match lookups d fs with
  | .error e => .error e
  | .ok l => if l.all known then .ok l else .error .noSpace

/-- The assertion of prognostic_equations.py:341-346 fails: the dictionary has another space for the tracer. -/
def clash (d : Dict) (t : Tracer) : Prop :=
  match d.lookup t.name with
  | some s => s ≠ t.space
  | none => False

instance (d : Dict) (t : Tracer) : Decidable (clash d t) := by
  unfold clash
  cases d.lookup t.name <;> infer_instance

/-- `self.space_names[tracer.name] = tracer.space` if the name is not there yet, prognostic_equations.py:341-348. -/
def enter (d : Dict) (t : Tracer) : Dict :=
  match d.lookup t.name with
  | some _ => d
  | none => d ++ [(t.name, t.space)]

/-- The loop of `add_tracers_to_prognostics`, prognostic_equations.py:332-352, with the state it has reached if it
raises. -/
def addAll (known : String → Bool) : Names → List Tracer → Names × Option Fail
  | n, [] => (n, none)
  | n, t :: ts =>
    if t.name ∈ n.fields then (n, some .duplicate)
    else if clash n.spaceNames t then ({ n with fields := n.fields ++ [t.name] }, some .conflict)
    else if known t.space then
      addAll known { fields := n.fields ++ [t.name], spaceNames := enter n.spaceNames t,
                     spaces := n.spaces ++ [t.space] } ts
    else ({ n with fields := n.fields ++ [t.name], spaceNames := enter n.spaceNames t }, some .noSpace)

/-- The dictionary a constructor works on, boussinesq_equations.py:84-85, compressible_euler_equations.py:88-89,
shallow_water_equations.py:75, 339-348, 701. -/
def startDict (O : Objs) (c : Call) : Dict :=
  match c.dict with
  | none => ownDict c.kind
  | some i => if usesGiven c.kind then O.dicts i else ownDict c.kind

/-- The list of tracers a constructor works on: a new empty list for `None`
(shallow_water_equations.py:71-72, 350-351, compressible_euler_equations.py:91-92, prognostic_equations.py:110-111). -/
def startTracers (O : Objs) (c : Call) : List Tracer :=
  match c.tracers with
  | none => []
  | some j => O.tracers j

/-- The user's dictionary after the call: the one the constructor worked on, if it was used (`self.space_names` is the
object of the user, prognostic_equations.py:101, 348). -/
def writeDict (O : Objs) (c : Call) (d : Dict) : Objs :=
  match c.dict with
  | none => O
  | some i => if usesGiven c.kind then { O with dicts := Function.update O.dicts i d } else O

/-- The user's list after the call: reordered in place, prognostic_equations.py:322-329. -/
def writeTracers (O : Objs) (c : Call) (l : List Tracer) : Objs :=
  match c.tracers with
  | none => O
  | some j => { O with tracers := Function.update O.tracers j l }

/-- The constructor as far as the spaces: boussinesq_equations.py:82-96, shallow_water_equations.py:71-80, 337-360, 700-709,
compressible_euler_equations.py:86-97 and prognostic_equations.py:100-118.  The objects of the user afterwards, and the
set or the exception. -/
def construct (known : String → Bool) (c : Call) (O : Objs) : Objs × Except Fail Built :=
  if refusesTracers c.kind && c.tracers.isSome then (O, .error .noTracers)
  else
    let d := startDict O c
    match baseSpaces known d (fieldNames c.kind) with
    | .error e => (O, .error e)
    | .ok l =>
      let ts := reorder (startTracers O c)
      match addAll known ⟨fieldNames c.kind, d, l⟩ ts with
      | (n, some e) => (writeTracers (writeDict O c n.spaceNames) c ts, .error e)
      | (n, none) => (writeTracers (writeDict O c n.spaceNames) c ts, .ok ⟨n.fields, n.spaces⟩)

/-- A history of constructors in one program, each with the objects the earlier ones have left
(prognostic_equations.py 78-129). -/
def run (known : String → Bool) (O : Objs) : List Call → Objs
  | [] => O
  | c :: cs => run known (construct known c O).1 cs

end Gusto.EqNames
