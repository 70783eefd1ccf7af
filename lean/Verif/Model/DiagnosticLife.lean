import Verif.Model.TopoSort

set_option autoImplicit false

/-!
# The life of diagnostic fields

Model of `DiagnosticField` (gusto/diagnostics/diagnostics.py 120-221), of the way `IO.setup_diagnostics` and `IO.dump`
(gusto/core/io.py 336-368, 745-749) use the diagnostics over the life of a process, and of the part of
`StateFields.__call__` (gusto/core/fields.py 164-235) which they rely on.
-/

namespace Gusto.DiagLife
open Gusto.TopoSort

/-! ### Evaluation of all the diagnostics of a run -/

section Eval
variable {V : Type*}

/-- A diagnostic without memory: `name`, `required_fields`, `to_dump`, and what its `compute` puts into its field as a
function of the fields of the state (diagnostics.py 122-149, 204-216). -/
structure Diag (V : Type*) where
  name : String
  requires : List String
  toDump : Bool
  eval : (String → V) → V

/-- The loop `for field in self.diagnostic_fields: field.compute()` of `IO.dump`, io.py:748-749, on the values of the
fields. -/
def computeAll (ds : List (Diag V)) (st : String → V) : String → V :=
  ds.foldl (fun s d => Function.update s d.name (d.eval s)) st

/-- The types of fields which matter here: those that `StateFields.__call__` gives to fields made by diagnostics,
fields.py:214-222, and all others. -/
inductive FType where
  | diagnostic | derived | other
  deriving DecidableEq

/-- `fname[-k:] == suffix` with `k` the length of the suffix, io.py:351-352. -/
def endsIn (fname suffix : String) : Bool := fname.toList.drop (fname.toList.length - suffix.toList.length) = suffix.toList

/-- `non_diagnostics` of `IO.setup_diagnostics`, io.py:346-353: from `_field_names` with their types and the diagnostics. -/
def nonDiagnostics (fields : List (String × FType)) (ds : List (Diag V)) : List String :=
  ((fields.filter fun f => f.2 ≠ .diagnostic ∨ f.1 ∉ ds.map Diag.name).map Prod.fst) ++
    ((ds.flatMap Diag.requires).filter fun r => endsIn r "_bar") ++
    ((ds.flatMap Diag.requires).filter fun r => endsIn r "_init")

/-- `name2field`, io.py:949: of two diagnostics with one name the last one is meant. -/
def byName (ds : List (Diag V)) (n : String) : Option (Diag V) := ds.reverse.find? fun d => d.name = n

/-- The call of `state_fields` in `DiagnosticField.setup` (diagnostics.py 188, fields.py 187-235): an existing field is
kept with its type, a new one is a diagnostic or a derived field. -/
def addField (fields : List (String × FType)) (d : Diag V) : List (String × FType) :=
  if d.name ∈ fields.map Prod.fst then fields
  else fields ++ [(d.name, if d.toDump then .diagnostic else .derived)]

/-- `IO.setup_diagnostics`, io.py:336-362, when it succeeds: the diagnostics are put in the order of `topo_sort` and
their fields are made. -/
def SetsUp (ds : List (Diag V)) (fields : List (String × FType)) (ds' : List (Diag V))
    (fields' : List (String × FType)) : Prop :=
  ∃ sched, Sorts (fieldDeps (ds.map fun d => (d.name, d.requires)) (nonDiagnostics fields ds)) (.ok sched) ∧
    ds' = sched.filterMap (byName ds) ∧ fields' = ds'.foldl addField fields

/-- What a process has: the diagnostics in order, the names and types of the fields, and their values (core/io.py 214-251,
core/fields.py 105-160). -/
structure Proc (V : Type*) where
  ds : List (Diag V)
  fields : List (String × FType)
  st : String → V

/-- What may happen (timestepper.py 196-267): `run` is called, which sets up the diagnostics; fields change in any way (time
steps, logging of Courant numbers, pick-up); `IO.dump` computes the diagnostics. -/
inductive Event : Proc V → Proc V → Prop
  | run {p : Proc V} {ds' : List (Diag V)} {fields' : List (String × FType)} :
      SetsUp p.ds p.fields ds' fields' → Event p ⟨ds', fields', p.st⟩
  | change {p : Proc V} (st : String → V) : Event p { p with st := st }
  | dump {p : Proc V} : Event p { p with st := computeAll p.ds p.st }

end Eval

/-! ### A single diagnostic field -/

/-- A function space: its name, if it has one, and which space it is (Firedrake; diagnostics.py 170-186). -/
structure FSpace where
  name : Option String
  id : ℕ
  deriving DecidableEq

/-- `method` (diagnostics.py 122-137). -/
inductive Method where
  | interpolate | project | solve | assign
  deriving DecidableEq

/-- The exceptions of diagnostics.py 122-221. -/
inductive Err where
  | assertionError | attributeError | notImplementedError | valueError
  deriving DecidableEq

/-- `DiagnosticField.__init__`, diagnostics.py:136-151.  When the assertion fails its message is built from `self.method`,
which has not been set yet. -/
def construct (method : String) (solveImplemented : Bool) : Except Err Method :=
  match (if method = "interpolate" then some Method.interpolate else if method = "project" then some .project
    else if method = "solve" then some .solve else if method = "assign" then some .assign else none) with
  | none => .error .attributeError
  | some m => if m = .solve && !solveImplemented then .error .notImplementedError else .ok m

/-- A diagnostic field: `name`, `method`, `space`, whether the setup of the child class has made an expression or (for
`'solve'`) a solver, `to_dump`, `_initialised`, the space of `self.field` and whether there is an `evaluator`
(diagnostics.py 122-202). -/
structure Field where
  name : String
  method : Method
  space : Option FSpace
  hasExpr : Bool
  hasSolver : Bool
  toDump : Bool
  initialised : Bool
  field : Option FSpace
  evaluator : Bool
  deriving DecidableEq

/-- The spaces of the domain (core/function_spaces.py 64-130), the fields of the state with their spaces, and the lists
`to_dump` and `to_pick_up` (core/fields.py 116-160). -/
structure Env where
  spaces : List (String × FSpace)
  fields : List (String × FSpace)
  toDump : List String
  toPickUp : List String
  deriving DecidableEq

/-- The choice of the space, diagnostics.py:171-180; `dg0` is what `create_space("DG0", "DG", 0)` makes. -/
def chooseSpace (dg0 : ℕ) (d : Field) (e : Env) (arg : Option FSpace) : FSpace × Env :=
  match d.space with
  | some s => (s, e)
  | none =>
    match arg with
    | some s => (s, e)
    | none =>
      match e.spaces.lookup "DG0" with
      | some s => (s, e)
      | none => (⟨some "DG0", dg0⟩, { e with spaces := e.spaces ++ [("DG0", ⟨some "DG0", dg0⟩)] })

/-- `state_fields(self.name, space=space, dump=self.to_dump, pick_up=False)` (diagnostics.py 188, fields.py 187-235). -/
def stateField (e : Env) (name : String) (space : FSpace) (dump : Bool) : FSpace × Env :=
  match e.fields.lookup name with
  | some s => (s, e)
  | none => (space, { e with
      fields := e.fields ++ [(name, space)], toDump := if dump then e.toDump ++ [name] else e.toDump })

/-- `DiagnosticField.setup`, diagnostics.py:170-202; `arg` is the argument `space`. -/
def setup (dg0 : ℕ) (d : Field) (e : Env) (arg : Option FSpace) : Except Err (Field × Env) :=
  if d.initialised then .ok (d, e)
  else
    let c := chooseSpace dg0 d e arg
    match c.1.name with
    | none => .error .assertionError
    | some n =>
      let e' := match c.2.spaces.lookup n with
        | some _ => c.2
        | none => { c.2 with spaces := c.2.spaces ++ [(n, c.1)] }
      let f := stateField e' d.name c.1 d.toDump
      if d.method ≠ .solve ∧ !d.hasExpr then .error .assertionError
      else .ok ({ d with
        space := some c.1, field := some f.1, initialised := true,
        evaluator := if d.method = .solve then d.hasSolver else true }, f.2)

/-- `DiagnosticField.compute`, diagnostics.py:204-216: interpolation makes a function of `self.space`, which is assigned to
the field. -/
def compute (d : Field) : Except Err Unit :=
  match d.field with
  | none => .error .attributeError
  | some f =>
    if !d.evaluator then .error .attributeError
    else if d.method = .interpolate ∧ d.space ≠ some f then .error .valueError
    else .ok ()

/-- A sequence of calls of `setup`, for several diagnostics, with their arguments (io.py:359-362). -/
def setupMany (dg0 : ℕ) : List (Field × Option FSpace) → Env → Except Err (List Field × Env)
  | [], e => .ok ([], e)
  | (d, a) :: ds, e => do
    let (d', e') ← setup dg0 d e a
    let (ds', e'') ← setupMany dg0 ds e'
    pure (d' :: ds', e'')

end Gusto.DiagLife
