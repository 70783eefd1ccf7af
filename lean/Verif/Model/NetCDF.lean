import Verif.Model.ParallelIO

set_option autoImplicit false

/-!
# The netCDF field file (gusto/core/io.py, gusto/core/coordinates.py)

`IO.setup_dump` (the netCDF part), `IO.create_nc_dump`, `IO.write_nc_dump` and `Coordinates.register_space`.  A degree of freedom
of a scalar space is identified by a point of type `P` (its node); a space is given by the lists of the nodes that the ranks own, in
their local order.  A field of the model is a function on the nodes.
-/

namespace Gusto
namespace NetCDF
open ParallelIO
variable {α P : Type}

/-- Errors raised by the netCDF library, or by gusto (core/io.py 428-455, 809-931). -/
inductive Err
  /-- the name of a dimension, variable or group is in use -/
  | nameInUse (name : String)
  /-- no variable or group of this name -/
  | noSuchName (name : String)
  /-- more values than the dimension has -/
  | outOfRange (name : String)
  /-- `The space container has no space` (function_spaces.py 89-90) -/
  | noSpace (name : String)
  /-- the file does not exist -/
  | noFile
  deriving DecidableEq

/-- A value in `domain.metadata` (core/domain.py 212-253). -/
inductive Meta (α : Type)
  | none
  | bool (b : Bool)
  | text (s : String)
  | num (x : α)

/-- A variable of the file (core/io.py 816-871). -/
inductive Var (α : Type)
  | time (v : ℕ → Option α)
  | text (s : List Char)
  | num (x : α)
  | coord (dim : String) (v : ℕ → Option α)

/-- The variable `field_values` of a group, by degree of freedom and time index (core/io.py 888-889). -/
structure FieldGroup (α : Type) where
  dim : String
  values : ℕ → ℕ → Option α

/-- The file.  `length` is the current length of the unlimited dimension `time`; other dimensions have fixed sizes
(core/io.py 809-891). -/
structure File (α : Type) where
  dims : List (String × Option ℕ)
  vars : List (String × Var α)
  groups : List (String × FieldGroup α)
  length : ℕ

/-- A function space: number of components (`np.prod(space.value_shape)`) and the nodes owned by each rank
(core/coordinates.py 87-112). -/
structure Space (P : Type) where
  components : ℕ
  points : List (List P)

/-- What is used of the domain: the coordinate names with the coordinate functions (`zip` of `coords_name` and `chi_coords`), the
spaces by name and the metadata (core/coordinates.py 27-59, core/function_spaces.py 64-90, core/domain.py 199-253). -/
structure Dom (α P : Type) where
  coords : List (String × (P → α))
  spaces : List (String × Space P)
  metadata : List (String × Meta α)

/-- A field to be dumped: its name and the name of its space (core/io.py 432, 876-878). -/
structure Field where
  name : String
  space : String
  deriving DecidableEq

/-- How the netCDF library works: with parallel access (ranks writing in the order `order`) or from rank 0 only; a recent version
takes strings of 64 characters, an older one 256 (core/io.py 837-850, 980-1017). -/
structure Library where
  parallel : Bool
  order : List ℕ
  recent : Bool

/-! ### The operations of the library -/

/-- `Dataset.createDimension` (netCDF4; core/io.py 816-862). -/
def addDim (f : File α) (name : String) (size : Option ℕ) : Except Err (File α) :=
  if name ∈ f.dims.map Prod.fst then .error (.nameInUse name) else .ok { f with dims := f.dims ++ [(name, size)] }

/-- `Dataset.createVariable` with the value given to it (netCDF4; core/io.py 817-871); variables and groups share their names. -/
def addVar (f : File α) (name : String) (v : Var α) : Except Err (File α) :=
  if name ∈ f.vars.map Prod.fst ∨ name ∈ f.groups.map Prod.fst then .error (.nameInUse name)
  else .ok { f with vars := f.vars ++ [(name, v)] }

/-- `createGroup` and `createVariable('field_values', …)` in it (netCDF4; core/io.py 888-889). -/
def addGroup (f : File α) (name dim : String) : Except Err (File α) :=
  if name ∈ f.vars.map Prod.fst ∨ name ∈ f.groups.map Prod.fst then .error (.nameInUse name)
  else .ok { f with groups := f.groups ++ [(name, ⟨dim, fun _ _ => none⟩)] }

/-- The entries that the ranks' arrays `locals` give to a new variable or a new column of one: the slices `start:stop` with parallel
access, otherwise the gathered array (core/io.py 866-871, 918-926). -/
def stored (lib : Library) (locals : List (List α)) (old : ℕ → Option α) : ℕ → Option α :=
  if lib.parallel then writeAll locals lib.order old else fun i => (gather locals)[i]?

/-! ### Spaces and coordinates -/

/-- `Coordinates.register_space` (core/coordinates.py 65-112); `chi` are the keys of `chi_coords`. -/
def registerSpace (dom : Dom α P) (chi : List String) (name : String) : Except Err (List String) :=
  if name ∈ chi then .ok chi
  else match dom.spaces.lookup name with
    | none => .error (.noSpace name)
    | some sp => if sp.components > 1 then .ok chi else .ok (chi ++ [name])

/-- The nodes of a space, by rank (`field.dat.data_ro`, in the local order; core/coordinates.py 105-112). -/
def points (dom : Dom α P) (space : String) : List (List P) := ((dom.spaces.lookup space).map Space.points).getD []

/-- The name of the coordinate variable (core/io.py 864). -/
def coordVar (coord space : String) : String := coord ++ "_" ++ space
/-- The name of the dimension of a space (core/io.py 861). -/
def coordDim (space : String) : String := "coords_" ++ space

/-- `str(metadata_value)` for `None` and Booleans, then the fixed-length character array (core/io.py 823-853). -/
def metaVar (lib : Library) : Meta α → Var α
  | .none => .text ("None".toList)
  | .bool b => .text ((if b then "True" else "False").toList)
  | .text s => .text (s.toList.take (if lib.recent then 64 else 256))
  | .num x => .num x

/-! ### `create_nc_dump` -/

/-- The coordinates of one space (core/io.py 856-871); a space that is not registered is passed over. -/
def addSpace (lib : Library) (dom : Dom α P) (chi : List String) (f : File α) (space : String) : Except Err (File α) :=
  if space ∉ chi then .ok f
  else do
    let f ← addDim f (coordDim space) (some (points dom space).flatten.length)
    dom.coords.foldlM (fun f c => addVar f (coordVar c.1 space)
      (.coord (coordDim space) (stored lib ((points dom space).map (List.map c.2)) fun _ => none))) f

/-- The group of one field (core/io.py 874-889); only a warning if the space is not registered. -/
def addField (chi : List String) (f : File α) (fld : Field) : Except Err (File α) :=
  if fld.space ∉ chi then .ok f else addGroup f fld.name (coordDim fld.space)

/-- `IO.create_nc_dump` (core/io.py 809-891): the new file. -/
def create (lib : Library) (dom : Dom α P) (chi : List String) (spaceNames : List String) (toDump : List Field) : Except Err (File α) := do
  let f ← addDim (⟨[], [], [], 0⟩ : File α) "time" none
  let f ← addVar f "time" (.time fun _ => none)
  let f ← addDim f "dim_one" (some 1)
  let f ← addDim f "dim_string" (some 256)
  let f ← dom.metadata.foldlM (fun f m => addVar f m.1 (metaVar lib m.2)) f
  let f ← spaceNames.foldlM (addSpace lib dom chi) f
  toDump.foldlM (addField chi) f

/-! ### `write_nc_dump` -/

/-- `nc_field_file['time'][idx] = t`, if there is such a variable (core/io.py 897-902). -/
def writeTime (f : File α) (idx : ℕ) (t : α) : File α :=
  if "time" ∈ f.vars.map Prod.fst then
    { f with
      vars := f.vars.map fun nv => match nv with
        | (n, .time v) => if n = "time" then (n, .time (Function.update v idx (some t))) else (n, .time v)
        | nv => nv
      length := max f.length (idx + 1) }
  else f

/-- One field (core/io.py 905-926): nothing for an unregistered space; an error if the file has no group for the field, or the
dimension is too short. -/
def writeField (lib : Library) (dom : Dom α P) (chi : List String) (idx : ℕ) (state : String → P → α) (f : File α) (fld : Field) :
    Except Err (File α) :=
  if fld.space ∉ chi then .ok f
  else match f.groups.lookup fld.name with
    | none => .error (.noSuchName fld.name)
    | some g =>
      let locals := (points dom fld.space).map (List.map (state fld.name))
      if f.dims.lookup g.dim = some (some locals.flatten.length) then
        .ok { f with
          groups := f.groups.map fun ng =>
            if ng.1 = fld.name then (ng.1, ⟨ng.2.dim, fun j k => if k = idx then stored lib locals (fun j => ng.2.values j idx) j
              else ng.2.values j k⟩) else ng
          length := max f.length (idx + 1) }
      else .error (.outOfRange fld.name)

/-- The netCDF part of the state of the `IO` object: the registered spaces and `field_t_idx`; the file is on disk
(core/io.py 439-455, 810, 931). -/
structure Session (α : Type) where
  chi : List String
  idx : ℕ
  file : File α

/-- `IO.write_nc_dump` (core/io.py 893-931). -/
def write (lib : Library) (dom : Dom α P) (toDump : List Field) (s : Session α) (t : α) (state : String → P → α) :
    Except Err (Session α) := do
  let f ← toDump.foldlM (writeField lib dom s.chi s.idx state) (writeTime s.file s.idx t)
  return ⟨s.chi, s.idx + 1, f⟩

/-! ### `setup_dump` -/

/-- `sorted(set(...))` of the names of the spaces (core/io.py 439): the order does not matter here, so any order is taken. -/
def spaceNames (toDump : List Field) : List String := (toDump.map Field.space).dedup

/-- The netCDF part of `setup_dump` in a run that does not pick up (core/io.py 437-441, 453-455). -/
def setupNew (lib : Library) (dom : Dom α P) (chi : List String) (toDump : List Field) : Except Err (Session α) := do
  let chi ← (spaceNames toDump).foldlM (registerSpace dom) chi
  let f ← create lib dom chi (spaceNames toDump) toDump
  return ⟨chi, 0, f⟩

/-- The netCDF part of `setup_dump` when picking up (core/io.py 437-452), with the file of the earlier run: the file is not created
again, and `field_t_idx` is the length of its time variable. -/
def setupPickUp (dom : Dom α P) (chi : List String) (toDump : List Field) (old : Option (File α)) : Except Err (Session α) := do
  let chi ← (spaceNames toDump).foldlM (registerSpace dom) chi
  match old with
  | none => .error .noFile
  | some f => if "time" ∈ f.vars.map Prod.fst then return ⟨chi, f.length, f⟩ else .error (.noSuchName "time")

/-- What one rank does at the pick-up of the time index (core/io.py 443-451): rank 0 opens the file and may raise, the others wait
for its broadcast. -/
inductive RankOutcome
  | goesOn (idx : ℕ)
  | raises (e : Err)
  /-- waits for a message that is never sent -/
  | blocked
  deriving DecidableEq

/-- The outcome on rank `r` of the pick-up of the time index (core/io.py 443-451). -/
def pickUpIndex (old : Option (File α)) (r : ℕ) : RankOutcome :=
  match old with
  | some f =>
    if "time" ∈ f.vars.map Prod.fst then .goesOn f.length
    else if r = 0 then .raises (.noSuchName "time") else .blocked
  | none => if r = 0 then .raises .noFile else .blocked

/-- A sequence of dumps (core/io.py 799-802). -/
def dumps (lib : Library) (dom : Dom α P) (toDump : List Field) (s : Session α) (ds : List (α × (String → P → α))) :
    Except Err (Session α) :=
  ds.foldlM (fun s d => write lib dom toDump s d.1 d.2) s

end NetCDF
end Gusto
