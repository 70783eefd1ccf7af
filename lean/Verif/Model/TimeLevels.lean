import Verif.Model.Multilevel

set_option autoImplicit false

/-!
# The fields of the time levels (gusto/core/fields.py)

`Fields` and `TimeLevelFields` with the memory they share: a mixed Function owns one cell for each component, and the Functions of
its components are views of these cells.  Not modelled: the values of prescribed and diagnostic fields, names that are attributes of
the class (`fields`, `add_field`), and the spaces beyond their number of components.
-/

namespace Gusto.TimeLevels

/-- A `Fields` object: the Functions of `self.fields` in order, each with its name and its cells; attribute `name` is the last Function
of that name (fields.py 6-68). -/
abbrev Fields := List (String × List ℕ)

/-- The exceptions of `add_field` (fields.py 31-45): the name `X`, `len(None)`, the assertion on the lengths. -/
inductive Err | nameX | typeError | assertion
  deriving DecidableEq

/-- The number of cells a `Fields` object has allocated: every Function made by `Function(space, name=name)` (fields.py 37). -/
def size : Fields → ℕ
  | [] => 0
  | e :: F => max (e.2.foldl (fun m c => max m (c + 1)) 0) (size F)

/-- `Fields.add_field(name, space, subfield_names)`, fields.py 18-54; `n` is `len(space)`. -/
def addField (F : Fields) (name : String) (n : ℕ) (subs : Option (List String)) : Except Err Fields :=
  if name = "X" then .error .nameX
  else
    let cells := List.range' (size F) n
    let F := F ++ [(name, cells)]
    if n > 1 then
      match subs with
      | none => .error .typeError
      | some names =>
        if names.length ≠ n then .error .assertion
        else if "X" ∈ names then .error .nameX
        else .ok (F ++ names.zip (cells.map fun c => [c]))
    else .ok F

/-- An equation, seen by the field containers: `field_name`, the number of components of its space, and `field_names` if it has them
(fields.py 8-16). -/
structure Eqn where
  name : String
  n : ℕ
  subs : Option (List String)

/-- `Fields.__init__`, fields.py 8-16. -/
def newFields (e : Eqn) : Except Err Fields := addField [] e.name e.n e.subs

/-- One existing level in `TimeLevelFields.add_fields`, fields.py 274-288: the names of the components are not passed on. -/
def addEquation (F : Fields) (e : Eqn) : Except Err Fields := addField F e.name e.n none

/-- The levels of a timestepper after `setup_fields`: the main equation (fields.py 256-272) and the auxiliary ones
(semi_implicit_quasi_newton.py 410-426).  All levels are built by the same calls, so one list of Functions describes each. -/
def setup (e : Eqn) (aux : List Eqn) : Except Err Fields := do
  aux.foldlM addEquation (← newFields e)

/-- `getattr(self, name)`, fields.py 56-64. -/
def lookup (F : Fields) (name : String) : Option (List ℕ) := (F.reverse.find? fun e => e.1 = name).map (·.2)

variable {V : Type*}

/-- The values of all cells: level and cell (fields.py 6-68). -/
abbrev Heap (V : Type*) := ℕ → ℕ → V

/-- Setting one cell. -/
def put (h : Heap V) (l c : ℕ) (v : V) : Heap V := fun l' c' => if l' = l ∧ c' = c then v else h l' c'

/-- `Function.assign` (Firedrake; used at fields.py 297-310): component by component; `none` is the exception for spaces that differ
(here: in the number of components). -/
def assign (h : Heap V) (dst : ℕ) (d : List ℕ) (src : ℕ) (s : List ℕ) : Option (Heap V) :=
  if d.length = s.length then some ((d.zip s).foldl (fun h' p => put h' dst p.1 (h src p.2)) h) else none

/-- `for field in xi: field.assign(xip1(field.name()))`, fields.py 303-310; `none` is an exception. -/
def copyLevel (F : Fields) (dst src : ℕ) (h : Heap V) : Option (Heap V) :=
  F.foldlM (fun h e => (lookup F e.1).bind fun s => assign h dst e.2 src s) h

/-- `TimeLevelFields.update`, fields.py 301-310, with levels numbered from the oldest: `0 .. p - 1` are `previous` (the last is `n`) and
`p` is `np1`. -/
def update (F : Fields) (p : ℕ) (h : Heap V) : Option (Heap V) := do
  let h ← (List.range (p - 1)).foldlM (fun h i => copyLevel F i (i + 1) h) h
  copyLevel F (p - 1) p h

/-- `TimeLevelFields.initialise`, fields.py 290-299; the prognostic fields of `state_fields` are those of `np1` (fields.py 131-145). -/
def initialise (F : Fields) (p : ℕ) (h : Heap V) : Option (Heap V) :=
  F.foldlM (fun h e => (lookup F e.1).bind fun s => (assign h (p - 1) e.2 p s).bind fun h => assign h p s (p - 1) e.2) h

end Gusto.TimeLevels
