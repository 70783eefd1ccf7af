import Mathlib.Data.Rat.Defs
import Mathlib.Data.List.Basic

set_option autoImplicit false

/-!
# Configuration objects

Model of `gusto/core/configuration.py`, `gusto/core/equation_configuration.py` and
`gusto/rexi/rexi.py:15-22`.

Simplifications: a Python object is the list of attributes of its class with their defaults and the list of the
attributes set on the instance (later entries in front).  Names inherited from `object` (`__doc__`, ...) are not
represented, so that `hasattr` ranges over the attributes and methods written in the classes.  Floating-point numbers
are rationals.
-/

namespace Gusto.Config

/-- Python values, by the types the code distinguishes.  `real m q` is `Function(FunctionSpace(m, 'R', 0), val=q)`,
`other k` any other object (configuration.py 47-87; equation_configuration.py 40-69). -/
inductive Val where
  | none
  | bool (b : Bool)
  | int (i : ℤ)
  | float (q : ℚ)
  | const (q : ℚ)
  | str (s : String)
  | real (mesh : ℕ) (q : ℚ)
  | other (k : ℕ)
  deriving DecidableEq

/-- The exceptions of configuration.py 47-87 and equation_configuration.py 22-69. -/
inductive Err where
  | attributeError
  | valueError
  | unboundLocal
  deriving DecidableEq

/-- A class: its name and its attributes (including methods) with their values, nearest definition first
(configuration.py 47-87). -/
structure Cls where
  name : String
  attrs : List (String × Val)

/-- An instance (configuration.py 47-87). -/
structure Obj where
  cls : Cls
  own : List (String × Val)

/-- `getattr`: the instance dictionary, then the class (Python; used at configuration.py 47-87). -/
def Obj.get? (o : Obj) (n : String) : Option Val :=
  match o.own.lookup n with
  | some v => some v
  | Option.none => o.cls.attrs.lookup n

/-- `hasattr` (configuration.py 58-87). -/
def Obj.has (o : Obj) (n : String) : Bool := (o.get? n).isSome

/-- `object.__setattr__` (configuration.py 58-87). -/
def Obj.put (o : Obj) (n : String) (v : Val) : Obj := { o with own := (n, v) :: o.own }

/-- `non_constants`, configuration.py:80-83. -/
def nonConstants : List String :=
  ["dumpfreq", "pddumpfreq", "chkptfreq", "fixed_subcycles", "max_subcycles", "subcycle_by_courant"]

/-- `type(value) in [float, int]`, configuration.py:84 (a `bool` is not an `int` for `type`). -/
def isNumber : Val → Bool
  | .int _ => true
  | .float _ => true
  | _ => false

/-- `Configuration.__setattr__`, configuration.py:58-87: the object afterwards, and the error raised if any. -/
def setattr (o : Obj) (n : String) (v : Val) : Obj × Option Err :=
  if !o.has n then (o, some .attributeError)
  else if isNumber v && !(nonConstants.contains n) then (o, some .attributeError)
  else (o.put n v, Option.none)

/-- `Configuration.__init__`, configuration.py:50-56: the first error stops it and no object is returned. -/
def initLoop : Obj → List (String × Val) → Except Err Obj
  | o, [] => .ok o
  | o, (n, v) :: kw =>
    match setattr o n v with
    | (_, some e) => .error e
    | (o', Option.none) => initLoop o' kw

/-- `Cls(**kwargs)` (configuration.py 50-56). -/
def construct (c : Cls) (kw : List (String × Val)) : Except Err Obj := initLoop ⟨c, []⟩ kw

/-- A sequence of assignments by a user who catches the errors (configuration.py 58-87, repeated). -/
def assignAll : Obj → List (String × Val) → Obj
  | o, [] => o
  | o, (n, v) :: l => assignAll (setattr o n v).1 l

/-- `SubcyclingOptions.check_options`, configuration.py:211-218. -/
def checkOptions (o : Obj) : Except Err Unit :=
  if o.get? "fixed_subcycles" ≠ some .none && o.get? "subcycle_by_courant" ≠ some .none then .error .valueError
  else .ok ()

/-! ### The classes -/

/-- `OutputParameters`, configuration.py:90-115 (`[]` and the methods are `other`). -/
def outputParameters : Cls := ⟨"OutputParameters",
  [("dump_vtus", .bool true), ("dump_nc", .bool false), ("dumpfreq", .int 1), ("pddumpfreq", .none),
   ("dumplist", .none), ("dumplist_latlon", .other 0), ("dump_diagnostics", .bool true), ("diagfreq", .int 1),
   ("checkpoint", .bool false), ("checkpoint_method", .str "checkpointfile"),
   ("checkpoint_pickup_filename", .none), ("chkptfreq", .int 1), ("multichkpt", .bool false), ("dirname", .none),
   ("log_courant", .bool true), ("project_fields", .bool false), ("point_data", .other 1), ("tolerance", .none),
   ("overwrite_files", .bool false)]⟩

/-- `EmbeddedDGOptions`, configuration.py:126-131. -/
def embeddedDGOptions : Cls := ⟨"EmbeddedDGOptions",
  [("name", .str "embedded_dg"), ("project_back_method", .str "project"), ("embedding_space", .none)]⟩

/-- `ConservativeEmbeddedDGOptions`, configuration.py:134-139. -/
def conservativeEmbeddedDGOptions : Cls := ⟨"ConservativeEmbeddedDGOptions",
  [("project_back_method", .str "conservative_project"), ("rho_name", .none), ("orig_rho_space", .none)]
    ++ embeddedDGOptions.attrs⟩

/-- `RecoveryOptions`, configuration.py:142-152. -/
def recoveryOptions : Cls := ⟨"RecoveryOptions",
  [("name", .str "recovered"), ("embedding_space", .none), ("recovered_space", .none), ("boundary_method", .none),
   ("injection_method", .str "interpolate"), ("project_high_method", .str "interpolate"),
   ("project_low_method", .str "project"), ("broken_method", .str "interpolate")]⟩

/-- `ConservativeRecoveryOptions`, configuration.py:155-161. -/
def conservativeRecoveryOptions : Cls := ⟨"ConservativeRecoveryOptions",
  [("rho_name", .none), ("orig_rho_space", .none), ("project_high_method", .str "conservative_project"),
   ("project_low_method", .str "conservative_project")] ++ recoveryOptions.attrs⟩

/-- `SUPGOptions`, configuration.py:164-176 (`1/sqrt(15)` is a UFL expression, `IntegrateByParts.TWICE` an `Enum`). -/
def supgOptions : Cls := ⟨"SUPGOptions",
  [("name", .str "supg"), ("tau", .none), ("default", .other 2), ("ibp", .other 3), ("suboptions", .none)]⟩

/-- `MixedFSOptions`, configuration.py:179-190. -/
def mixedFSOptions : Cls := ⟨"MixedFSOptions", [("name", .str "mixed_options"), ("suboptions", .none)]⟩

/-- `SubcyclingOptions`, configuration.py:193-218. -/
def subcyclingOptions : Cls := ⟨"SubcyclingOptions",
  [("fixed_subcycles", .none), ("max_subcycles", .int 10), ("subcycle_by_courant", .none),
   ("check_options", .other 4)]⟩

/-- `RexiParameters`, rexi.py:15-22. -/
def rexiParameters : Cls := ⟨"RexiParameters",
  [("h", .float (1/5)), ("M", .int 64), ("reduce_to_half", .bool false), ("coefficients", .str "haut")]⟩

/-! ### Equation parameters -/

/-- `type(val) in [float, int, Constant]`, equation_configuration.py:34,66; the value of `float(value)`. -/
def numeric : Val → Option ℚ
  | .int i => some i
  | .float q => some q
  | .const q => some q
  | _ => Option.none

/-- A mesh as a Python value (equation_configuration.py 22-69). -/
def meshVal : Option ℕ → Val
  | Option.none => .none
  | some m => .other m

/-- `EquationParameters.__setattr__`, equation_configuration.py:40-69.  `R` is unbound while `self.mesh` is `None`. -/
def psetattr (o : Obj) (mesh : Option ℕ) (n : String) (v : Val) : Except Err Obj :=
  if !o.has n then .error .attributeError
  else match numeric v with
    | Option.none => .ok (o.put n v)
    | some q => match mesh with
      | Option.none => .error .unboundLocal
      | some m => .ok (o.put n (.real m q))

/-- The loop of `EquationParameters.__init__`, equation_configuration.py:37-38. -/
def pinitLoop (mesh : Option ℕ) : Obj → List (String × Val) → Except Err Obj
  | o, [] => .ok o
  | o, (n, v) :: l =>
    match psetattr o mesh n v with
    | .error e => .error e
    | .ok o' => pinitLoop mesh o' l

/-- `dict(inspect.getmembers(self, typecheck))`, equation_configuration.py:35: the numeric attributes, nearest
definition of each name only. -/
def numericMembers (c : Cls) : List (String × Val) :=
  c.attrs.filter fun p => (numeric p.2).isSome && decide (c.attrs.lookup p.1 = some p.2)

/-- `EquationParameters.__init__`, equation_configuration.py:27-38.  `params.update(kwargs)` replaces the values of
the keys already present and appends the others.  `getmembers` sorts by name; the order is that of the class here. -/
def pconstruct (c : Cls) (mesh : Option ℕ) (kw : List (String × Val)) : Except Err Obj :=
  pinitLoop mesh ⟨c, [("mesh", meshVal mesh)]⟩
    ((numericMembers c).map (fun p => (p.1, (kw.lookup p.1).getD p.2)) ++
      kw.filter fun p => !((numericMembers c).map Prod.fst).contains p.1)

/-- `BoussinesqParameters`, equation_configuration.py:72-78. -/
def boussinesqParameters : Cls := ⟨"BoussinesqParameters",
  [("g", .float (9810616/1000000)), ("N", .float (1/100)), ("cs", .int 340), ("Omega", .none), ("mesh", .none)]⟩

/-- `CompressibleParameters`, equation_configuration.py:81-101. -/
def compressibleParameters : Cls := ⟨"CompressibleParameters",
  [("g", .float (9810616/1000000)), ("N", .float (1/100)), ("cp", .float (10045/10)), ("R_d", .float 287),
   ("kappa", .float (2/7)), ("p_0", .float 100000), ("cv", .float (7175/10)), ("c_pl", .float 4186),
   ("c_pv", .float 1885), ("c_vv", .float 1424), ("R_v", .float 461), ("L_v0", .float 2500000),
   ("T_0", .float (27315/100)), ("w_sat1", .float (3803/10)), ("w_sat2", .float (-1727/100)),
   ("w_sat3", .float (3586/100)), ("w_sat4", .float (6109/10)), ("Omega", .none), ("mesh", .none)]⟩

/-- `ShallowWaterParameters`, equation_configuration.py:104-124. -/
def shallowWaterParameters : Cls := ⟨"ShallowWaterParameters",
  [("g", .float (980616/100000)), ("rotation", .other 42), ("Omega", .float (7292/100000000)), ("f0", .none),
   ("beta", .none), ("y0", .none), ("topog_expr", .none), ("H", .none), ("beta2", .none), ("nu", .none),
   ("q0", .none), ("mesh", .none)]⟩

/-- `SpongeLayerParameters`, equation_configuration.py:127-132. -/
def spongeLayerParameters : Cls := ⟨"SpongeLayerParameters",
  [("H", .none), ("z_level", .none), ("mubar", .none), ("mesh", .none)]⟩

/-- `DiffusionParameters`, equation_configuration.py:135-139. -/
def diffusionParameters : Cls := ⟨"DiffusionParameters", [("kappa", .none), ("mu", .none), ("mesh", .none)]⟩

/-- `BoundaryLayerParameters`, equation_configuration.py:142-154. -/
def boundaryLayerParameters : Cls := ⟨"BoundaryLayerParameters",
  [("coeff_drag_0", .float (7/10000)), ("coeff_drag_1", .float (65/1000000)), ("coeff_drag_2", .float (2/1000)),
   ("coeff_heat", .float (11/10000)), ("coeff_evap", .float (11/10000)), ("height_surface_layer", .float 75),
   ("mu", .float 100), ("mesh", .none)]⟩

/-- `HeldSuarezParameters`, equation_configuration.py:157-167. -/
def heldSuarezParameters : Cls := ⟨"HeldSuarezParameters",
  [("T0stra", .int 200), ("T0surf", .int 315), ("T0horiz", .int 60), ("T0vert", .int 10), ("sigmab", .float (7/10)),
   ("tau_d", .int (40 * 24 * 60 * 60)), ("tau_u", .int (4 * 24 * 60 * 60)), ("mesh", .none)]⟩

end Gusto.Config
