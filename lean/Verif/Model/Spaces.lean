import Mathlib.Data.Rat.Defs

set_option autoImplicit false

/-!
# The container of function spaces and the degrees of a domain

Model of `gusto/core/function_spaces.py` and of the degree arguments of `gusto/core/domain.py`.

A function space is described by its element; names are strings, concatenated as in the code.  A Python attribute is a
partial function from names; an attribute holding `None` is `some none`.
-/

namespace Gusto.Spaces

/-- The exceptions of core/function_spaces.py 43-566 and core/domain.py 29-167. -/
inductive Err where
  | runtimeError | notImplemented | keyError | attributeError | valueError | typeError | assertionError
  deriving DecidableEq, Repr

/-- Finite elements: `FiniteElement(family, cell, degree)`, `TensorProductElement`, `HDiv`, `HCurl` and sums
(UFL/finat; core/function_spaces.py 242-516). -/
inductive Elt where
  | fe (family cell : String) (degree : ℕ)
  | equispacedDG1 (cell : String)
  | tp (h v : Elt)
  | hdiv (e : Elt)
  | hcurl (e : Elt)
  | plus (a b : Elt)
  deriving DecidableEq, Repr

/-- What is read of a mesh; `cell` is the cell of the base mesh if the mesh is extruded
(core/function_spaces.py 244-270). -/
structure MeshInfo where
  extruded : Bool
  cell : String
  topDim : ℕ
  deriving DecidableEq

/-- Continuity: one flag, or one for each direction on extruded meshes (core/function_spaces.py 75-158). -/
inductive Cont where
  | flat (b : Bool)
  | dirs (horizontal vertical : Bool)
  deriving DecidableEq

/-- `hdiv_hcurl_dict`, function_spaces.py:13-24; the outer `none` is a missing key. -/
def hcurlOf : String → Option (Option String)
  | "RT" => some (some "RTE") | "RTE" => some (some "RTE") | "RTF" => some (some "RTE")
  | "BDM" => some (some "BDME") | "BDME" => some (some "BDME") | "BDMF" => some (some "BDME")
  | "RTCF" => some (some "RTCE") | "RTCE" => some (some "RTCE") | "CG" => some (some "DG")
  | "BDFM" => some none | "BDMCF" => some (some "BDMCE") | "BDMCE" => some (some "BDMCE")
  | _ => none

/-- `hcurl_hdiv_dict`, function_spaces.py:28-39. -/
def hdivOf : String → Option String
  | "RT" => some "RTF" | "RTE" => some "RTF" | "RTF" => some "RTF"
  | "BDM" => some "BDMF" | "BDME" => some "BDMF" | "BDMF" => some "BDMF"
  | "RTCE" => some "RTCF" | "RTCF" => some "RTCF" | "CG" => some "CG"
  | "BDFM" => some "BDFM" | "BDMCF" => some "BDMCF" | "BDMCE" => some "BDMCF"
  | _ => none

/-- `h1_degree`, function_spaces.py:43-61. -/
def h1Degree (family : String) (l : ℕ) : Except Err ℕ :=
  if family ∈ ["CG", "RT", "RTE", "RTF", "RTCE", "RTCF"] then .ok (l + 1)
  else if family ∈ ["BDM", "BDME", "BDMF", "BDMCE", "BDMCF"] then .ok (l + 2)
  else if family = "BDFM" then .ok (l + 1)
  else .error .valueError

/-- `implemented_families`, function_spaces.py:260-261. -/
def implemented : List String :=
  ["DG", "CG", "RT", "RTF", "RTE", "RTCF", "RTCE", "BDM", "BDMF", "BDME", "BDFM", "BDMCE", "BDMCF"]

/-- The base elements, `DeRhamComplex.build_base_spaces`, function_spaces.py:273-318. -/
structure Base where
  hdiv : Elt
  hcurl : Option Elt
  dg : Elt
  cg : Elt
  vert : Option (Elt × Elt)

/-- See `build_base_spaces`, core/function_spaces.py 272-311. -/
def buildBase (m : MeshInfo) (family : Option String) (h : ℕ) (v : Option ℕ) : Except Err Base :=
  match family with
  | none => .error .keyError
  | some f =>
    match hdivOf f, hcurlOf f with
    | some d, some c =>
      (h1Degree f h).map fun k =>
        { hdiv := .fe d m.cell (h + 1)
          hcurl := c.map fun c => .fe c m.cell (h + 1)
          dg := .fe "DG" m.cell h
          cg := if d = "BDMCF" then .fe "S" m.cell k
                else if d = "BDFM" then .plus (.fe "CG" m.cell k) (.fe "Bubble" m.cell (h + 2))
                else .fe "CG" m.cell k
          vert := v.map fun v => (.fe "CG" "interval" (v + 1), .fe "DG" "interval" v) }
    | _, _ => .error .keyError

/-- The attributes and the continuity dictionary of a `DeRhamComplex`, function_spaces.py:238-498. -/
structure DeRham where
  h1 : Elt
  hcurl : Option Elt
  hdiv : Elt
  l2 : Elt
  theta : Option Elt
  cont : String → Option (Option Cont)

/-- `DeRhamComplex.__init__`: the check of the family, then `build_base_spaces` and `build_compatible_spaces`
(core/function_spaces.py 244-399). -/
def buildComplex (m : MeshInfo) (family : Option String) (h : ℕ) (v : Option ℕ) : Except Err DeRham :=
  if ∃ f, family = some f ∧ f ∉ implemented then .error .notImplemented
  else (buildBase m family h v).bind fun b =>
    if m.extruded then
      match b.vert with
      | none => .error .attributeError
      | some (vc, vd) =>
        .ok { h1 := .tp b.cg vc
              hcurl := b.hcurl.map fun e => .plus (.hcurl (.tp e vc)) (.hcurl (.tp b.cg vd))
              hdiv := .plus (.hdiv (.tp b.hdiv vd)) (.hdiv (.tp b.dg vc))
              l2 := .tp b.dg vd
              theta := some (.tp b.dg vc)
              cont := fun n =>
                if n = "H1" then some (some (.dirs true true))
                else if n = "HCurl" then some (b.hcurl.map fun _ => .dirs true true)
                else if n = "HDiv" then some (some (.dirs true true))
                else if n = "L2" then some (some (.dirs false false))
                else if n = "theta" then some (some (.dirs false true)) else none }
    else if 1 < m.topDim then
      .ok { h1 := b.cg
            hcurl := b.hcurl
            hdiv := b.hdiv
            l2 := b.dg
            theta := none
            cont := fun n =>
              if n = "H1" then some (some (.flat true))
              else if n = "HCurl" then some (b.hcurl.map fun _ => .flat true)
              else if n = "HDiv" then some (some (.flat true))
              else if n = "L2" then some (some (.flat false)) else none }
    else
      .ok { h1 := b.cg
            hcurl := none
            hdiv := b.cg
            l2 := b.dg
            theta := none
            cont := fun n =>
              if n = "H1" then some (some (.flat true))
              else if n = "HDiv" then some (some (.flat true))
              else if n = "L2" then some (some (.flat false)) else none }

/-- `hasattr(de_rham_complex, name)` for the names that are asked, function_spaces.py:203. -/
def DeRham.has (d : DeRham) (n : String) : Bool :=
  n = "H1" ∨ n = "HCurl" ∨ n = "HDiv" ∨ n = "L2" ∨ (n = "theta" ∧ d.theta.isSome)

/-- `degree_key`, function_spaces.py:167-170. -/
abbrev Key := ℕ × Option ℕ

/-- The container, function_spaces.py:64-75. -/
structure Spaces where
  attr : String → Option (Option Elt)
  cont : String → Option (Option Cont)
  keys : List Key

/-- See `Spaces.__init__`, core/function_spaces.py 66-73. -/
def Spaces.empty : Spaces := ⟨fun _ => none, fun _ => none, []⟩

/-- `setattr` (Python; core/function_spaces.py 92-133). -/
def setName {α : Type} (f : String → Option α) (n : String) (a : α) : String → Option α :=
  fun k => if k = n then some a else f k

/-- The default suffix, function_spaces.py:173-179. -/
def suffix (s : Spaces) (h : ℕ) (v : Option ℕ) : Option String → String
  | some n => n
  | none =>
    if s.keys = [] then ""
    else match v with
      | some v => if h ≠ v then h.repr ++ "_" ++ v.repr else h.repr
      | none => h.repr

/-- The loop over the names whose continuity is stored, function_spaces.py:201-204; the first entry of the tuple is the
string `"H1, HCurl"`. -/
def storeCont (d : DeRham) (suf : String) (c : String → Option (Option Cont)) :
    Except Err (String → Option (Option Cont)) :=
  ["H1, HCurl", "HDiv", "L2", "DG", "theta"].foldlM (fun c n =>
    if d.has n then
      match d.cont n with
      | some k => .ok (setName c (n ++ suf) k)
      | none => .error .keyError
    else .ok c) c

/-- `Spaces.build_compatible_spaces`, function_spaces.py:149-204. -/
def build (m : MeshInfo) (s : Spaces) (family : Option String) (h : ℕ) (v : Option ℕ) (name : Option String) :
    Except Err Spaces :=
  let suf := suffix s h v name
  if (h, v) ∈ s.keys then .error .runtimeError
  else (buildComplex m family h v).bind fun d =>
    let a := setName s.attr ("H1" ++ suf) (some d.h1)
    let a := setName a ("HCurl" ++ suf) d.hcurl
    let a := setName a ("HDiv" ++ suf) (some d.hdiv)
    let a := setName a ("L2" ++ suf) (some d.l2)
    let a := setName a ("DG" ++ suf) (some d.l2)
    let a := match d.theta with
      | some t => setName a ("theta" ++ suf) (some t)
      | none => a
    (storeCont d suf s.cont).map fun c => { attr := a, cont := c, keys := (h, v) :: s.keys }

/-- `Spaces.__call__`, function_spaces.py:77-92. -/
def Spaces.call (s : Spaces) (n : String) : Except Err (Option Elt) :=
  match s.attr n with
  | some e => .ok e
  | none => .error .valueError

/-- `Spaces.add_space`, function_spaces.py:94-132; `isCg` is the value of `is_cg(space)`.  Simplification: a continuity
argument of the wrong kind for the mesh is not modelled. -/
def addSpace (m : MeshInfo) (s : Spaces) (n : String) (e : Elt) (isCg : Bool) (overwrite : Bool) (cont : Option Cont) :
    Except Err Spaces :=
  if (s.attr n).isSome ∧ overwrite = false then .error .runtimeError
  else .ok { s with
    attr := setName s.attr n (some e)
    cont := setName s.cont n (some (match cont with
      | some c => c
      | none => if m.extruded then .dirs isCg isCg else .flat isCg)) }

/-- `Spaces.build_dg1_equispaced`, function_spaces.py:206-229. -/
def buildDG1 (m : MeshInfo) (s : Spaces) : Except Err Spaces :=
  addSpace m s "DG1_equispaced"
    (if m.extruded then .tp (.equispacedDG1 m.cell) (.equispacedDG1 "interval") else .equispacedDG1 m.cell)
    false false (some (if m.extruded then .dirs false false else .flat false))

/-- `check_degree_args`, function_spaces.py:501-527. -/
def checkDegreeArgs (m : MeshInfo) (degree h v : Option ℕ) : Except Err Unit :=
  if degree = none ∧ h = none then .error .valueError
  else if m.extruded ∧ degree = none ∧ v = none then .error .valueError
  else if degree ≠ none ∧ h ≠ none then .error .valueError
  else if m.extruded ∧ degree ≠ none ∧ v ≠ none then .error .valueError
  else if ¬ m.extruded ∧ v ≠ none then .error .valueError
  else .ok ()

/-- What a `Domain` holds of its degrees and spaces (core/domain.py 29-167). -/
structure Dom where
  hDeg : ℕ
  vDeg : Option ℕ
  quad : ℕ
  spaces : Spaces

/-- The part of `Domain.__init__` on degrees and spaces, domain.py:76-94.  `max(horizontal, None)` raises a TypeError. -/
def domain (m : MeshInfo) (family : Option String) (degree h v quad : Option ℕ) : Except Err Dom :=
  (checkDegreeArgs m degree h v).bind fun _ =>
    let hd := h.orElse fun _ => degree
    let vd := v.orElse fun _ => degree
    match hd with
    | none => .error .typeError
    | some hd =>
      let q : Except Err ℕ := match quad, vd with
        | some q, _ => .ok q
        | none, some vd => .ok (2 * max hd vd + 3)
        | none, none => .error .typeError
      q.bind fun q =>
        (build m .empty family hd vd none).bind fun s =>
          (buildDG1 m s).map fun s => { hDeg := hd, vDeg := vd, quad := q, spaces := s }

end Gusto.Spaces
