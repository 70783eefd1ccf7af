import Mathlib.Logic.Function.Basic
import Mathlib.Data.List.Basic

set_option autoImplicit false

/-!
# `StateFields` (gusto/core/fields.py:106-250)

Objects are identified by a number; a newly created Function gets a number not used before.
-/

namespace Gusto
variable {N : Type*} [DecidableEq N]

namespace Registry

/-- The permitted types, fields.py:225-226. -/
inductive FieldType
  | prognostic | prescribed | diagnostic | derived | reference
  deriving DecidableEq

/-- The argument `field_type`: left out, a permitted string, or another string (core/fields.py 162-235). -/
inductive TypeArg
  | default
  | given (ty : FieldType)
  | bad
  deriving DecidableEq

/-- The object: `attr` are its attributes (those of the class and of the instance, such as
`to_dump`, `X`, `field_type`, as well as the fields) (core/fields.py 106-160). -/
structure Reg (N : Type*) where
  attr : N → Option ℕ
  fields : List ℕ
  toDump : List N
  toPickUp : List N
  names : List N
  types : List FieldType
  fresh : ℕ

/-- The arguments of `__call__`.  `field = some (o, b)`: the object `o`, and whether it is a
Function; `space = some b`: a space, `b` telling whether it has more than one component (core/fields.py 162-235). -/
structure Call (N : Type*) where
  name : N
  field : Option (ℕ × Bool)
  space : Option Bool
  dump : Bool
  pickUp : Bool
  ftype : TypeArg

/-- `return` or an exception (core/fields.py 162-235). -/
inductive Out
  | ret (o : ℕ)
  | raised
  deriving DecidableEq

/-- The type recorded, fields.py:215-229; `none` is the failing assertion. -/
def typeOf (c : Call N) : Option FieldType :=
  match c.ftype with
  | .default =>
    some (if c.pickUp then .prescribed else if c.dump then .diagnostic else .derived)
  | .given ty => some ty
  | .bad => none

/-- fields.py:209-233, after the field has been set as attribute `o`. -/
def finish (r : Reg N) (c : Call N) (o : ℕ) : Reg N × Out :=
  let r := { r with
    toDump := if c.dump then r.toDump ++ [c.name] else r.toDump
    toPickUp := if c.pickUp then r.toPickUp ++ [c.name] else r.toPickUp }
  match typeOf c with
  | none => (r, .raised)
  | some ty => ({ r with types := r.types ++ [ty], names := r.names ++ [c.name] }, .ret o)

/-- `StateFields.__call__`, fields.py:162-235, with `Fields.add_field` (18-54).  The test
`name == 'X'` of `add_field` is never reached, because `X` is an attribute. -/
def call (r : Reg N) (c : Call N) : Reg N × Out :=
  match r.attr c.name with
  | some o => (r, .ret o)
  | none =>
    match c.field, c.space with
    | none, none => (r, .raised)
    | some _, some _ => (r, .raised)
    | some (o, isFunction), none =>
      if isFunction then
        finish { r with attr := Function.update r.attr c.name (some o), fields := r.fields ++ [o] } c o
      else (r, .raised)
    | none, some mixed =>
      let r' := { r with
        attr := Function.update r.attr c.name (some r.fresh)
        fields := r.fields ++ [r.fresh]
        fresh := r.fresh + 1 }
      if mixed then (r', .raised)   -- `len(subfield_names)` with `None`
      else finish r' c r.fresh

/-- A sequence of calls (the caller may catch exceptions) (core/fields.py 162-235, repeated). -/
def calls (r : Reg N) (cs : List (Call N)) : Reg N := cs.foldl (fun r c => (call r c).1) r

/-- `field_type(name)`, fields.py:237-250: `none` is an exception (AssertionError or ValueError). -/
def fieldType (r : Reg N) (name : N) : Option FieldType :=
  match r.attr name with
  | none => none
  | some _ => if name ∈ r.names then r.types[r.names.idxOf name]? else none

/-- The object before the first `__call__` of `__init__` (fields.py:125-131): `reserved` are the
attributes of the class and those set so far. -/
def start (reserved : N → Option ℕ) (fresh : ℕ) : Reg N :=
  { attr := reserved, fields := [], toDump := [], toPickUp := [], names := [], types := [], fresh }

end Registry
end Gusto
