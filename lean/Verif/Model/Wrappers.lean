import Mathlib.Data.List.Basic
import Mathlib.Logic.Function.Basic

set_option autoImplicit false

/-!
# Wrappers around time discretisations

Model of `gusto/time_discretisation/wrappers.py`, of `wrapper_apply` (time_discretisation.py:33-61) and of the set-up
of `MixedFSWrapper` (time_discretisation.py:110-134, 275-300).

Simplifications: the value of a field is of one type `V` whatever its space; the transfer operators (interpolation,
projection, recovery) are parameters; a conservative operator also reads the densities in the two spaces.
-/

namespace Gusto.Wrap
variable {V : Type*}

/-- The operators of an `EmbeddedDGWrapper` or `RecoveryWrapper` (wrappers.py:88-161, 203-281).  `plain lift back`: into
the embedding space and back.  `conservative rho lift back` (`is_conservative`, with the name of the density): `lift`
reads the densities in the original and the embedding space (`rho_in_orig`, `rho_in_embedded`), `back` those in the
embedding and the original space (`rho_out_embedded`, `rho_out_orig`). -/
inductive Sub (V : Type*)
  | plain (lift back : V → V)
  | conservative (rho : String) (lift back : V → V → V → V)

/-- The Functions of a wrapper object (wrappers.py 91-161, 204-281, 317-377). -/
structure Bufs (V : Type*) where
  xInOrig : V
  xIn : V
  xOut : V
  xProj : V
  rhoInOrig : V
  rhoInEmb : V
  rhoOutOrig : V
  rhoOutEmb : V

/-- `pre_apply` of a wrapper, wrappers.py:163-180, 283-293. -/
def Sub.pre (w : Sub V) (b : Bufs V) (x : V) : Bufs V :=
  match w with
  | .plain lift _ => { b with xInOrig := x, xIn := lift x }
  | .conservative _ lift _ => { b with xInOrig := x, xIn := lift b.rhoInOrig b.rhoInEmb x }

/-- `post_apply` of a wrapper, wrappers.py:182-192, 295-308. -/
def Sub.post (w : Sub V) (b : Bufs V) : Bufs V :=
  match w with
  | .plain _ back => { b with xProj := back b.xOut }
  | .conservative _ _ back => { b with xProj := back b.rhoOutEmb b.rhoOutOrig b.xOut }

/-- A `MixedFSWrapper`: `subwrappers` by field name (Python dictionary) (wrappers.py 433-445). -/
abbrev Subs (V : Type*) := String → Option (Sub V)
/-- The Functions of all subwrappers (wrappers.py 425-511). -/
abbrev Heap (V : Type*) := String → Bufs V

/-- `pre_update_rho`, wrappers.py:487-498: `KeyError` if the density has no wrapper. -/
def preRho (subs : Subs V) (name rho : String) (h : Heap V) : Except String (Heap V) :=
  match subs rho with
  | none => .error "KeyError"
  | some _ => .ok (Function.update h name
      { h name with rhoInOrig := (h rho).xInOrig, rhoInEmb := (h rho).xIn })

/-- `post_update_rho`, wrappers.py:500-511. -/
def postRho (subs : Subs V) (name rho : String) (h : Heap V) : Except String (Heap V) :=
  match subs rho with
  | none => .error "KeyError"
  | some _ => .ok (Function.update h name
      { h name with rhoOutOrig := (h rho).xProj, rhoOutEmb := (h rho).xOut })

/-- Iteration of the loop of `MixedFSWrapper.pre_apply`, wrappers.py:453-465, for one field; `m` is `self.x_in` (a field
by its index in `names`; `names.idxOf name` is `field_names.index(field_name)`). -/
def preStep (subs : Subs V) (names : List String) (x : ℕ → V) (s : Heap V × (ℕ → V)) (name : String) :
    Except String (Heap V × (ℕ → V)) :=
  let i := names.idxOf name
  match subs name with
  | none => .ok (s.1, Function.update s.2 i (x i))
  | some w =>
    match (match w with
      | .plain _ _ => .ok s.1
      | .conservative rho _ _ => preRho subs name rho s.1 : Except String (Heap V)) with
    | .error e => .error e
    | .ok h =>
      let b := w.pre (h name) (x i)
      .ok (Function.update h name b, Function.update s.2 i b.xIn)

/-- A `for` loop whose body may raise (Python; wrappers.py 439-511). -/
def loop {σ : Type*} (f : σ → String → Except String σ) : List String → σ → Except String σ
  | [], s => .ok s
  | n :: l, s =>
    match f s n with
    | .error e => .error e
    | .ok s' => loop f l s'

/-- `MixedFSWrapper.pre_apply`, wrappers.py:447-465. -/
def preApply (subs : Subs V) (names : List String) (x : ℕ → V) (s : Heap V × (ℕ → V)) :
    Except String (Heap V × (ℕ → V)) :=
  loop (preStep subs names x) names s

/-- Iteration of the loop of `MixedFSWrapper.post_apply`, wrappers.py:473-485; `y` is `self.x_out`, the accumulator
the caller's `x_out`. -/
def postStep (subs : Subs V) (names : List String) (y : ℕ → V) (s : Heap V × (ℕ → V)) (name : String) :
    Except String (Heap V × (ℕ → V)) :=
  let i := names.idxOf name
  match subs name with
  | none => .ok (s.1, Function.update s.2 i (y i))
  | some w =>
    let h := Function.update s.1 name { s.1 name with xOut := y i }
    match (match w with
      | .plain _ _ => .ok h
      | .conservative rho _ _ => postRho subs name rho h : Except String (Heap V)) with
    | .error e => .error e
    | .ok h =>
      let b := w.post (h name)
      .ok (Function.update h name b, Function.update s.2 i b.xProj)

/-- `MixedFSWrapper.post_apply`, wrappers.py:467-485. -/
def postApply (subs : Subs V) (names : List String) (y : ℕ → V) (s : Heap V × (ℕ → V)) :
    Except String (Heap V × (ℕ → V)) :=
  loop (postStep subs names y) names s

/-- `wrapper_apply`, time_discretisation.py:47-54, with a `MixedFSWrapper`: `scheme` is the original `apply` on the
wrapped mixed space; `xOut` is the caller's output before the call.  Returns the subwrappers' Functions, the mixed
`x_in` and the output. -/
def apply (subs : Subs V) (names : List String) (scheme : (ℕ → V) → ℕ → V) (h : Heap V) (m xOut x : ℕ → V) :
    Except String (Heap V × (ℕ → V) × (ℕ → V)) :=
  match preApply subs names x (h, m) with
  | .error e => .error e
  | .ok (h1, m1) =>
    match postApply subs names (scheme m1) (h1, xOut) with
    | .error e => .error e
    | .ok (h2, out) => .ok (h2, m1, out)

/-- `wrapper_apply`, time_discretisation.py:33-61, for a scheme on one field with an optional augmentation and an
optional wrapper (each a pair of transfers): the augmentation hides the wrapper. -/
def applySingle {W : Type*} (aug wrapper : Option ((V → W) × (W → V))) (schemeV : V → V) (schemeW : W → W) (x : V) : V :=
  match aug with
  | some a => a.2 (schemeW (a.1 x))
  | none =>
    match wrapper with
    | some a => a.2 (schemeW (a.1 x))
    | none => schemeV x

/-! ### Construction and set-up -/

/-- The kinds of options (`name` of the options object) (configuration.py 118-190). -/
inductive Kind
  | embeddedDG | recovered | supg | mixed | other
  deriving DecidableEq

/-- Construction of the subwrappers, time_discretisation.py:110-124. -/
def constructMixed : List (String × Kind) → Except String Unit
  | [] => .ok ()
  | (_, .embeddedDG) :: l => constructMixed l
  | (_, .recovered) :: l => constructMixed l
  | (_, _) :: _ => .error "RuntimeError"

/-- The objects touched by the set-up: the space of each field in the list `equation.spaces`, in the list
`wrapper.wrapper_spaces`, and the space of the subwrapper of each field that was set up
(wrappers.py 439-445, time_discretisation.py 147-385). -/
structure Setup (S : Type*) where
  equationSpaces : List S
  wrapperSpaces : List S
  original : List (String × S)

/-- The loop over the subwrappers, time_discretisation.py:280-292.  `self.wrapper.wrapper_spaces = equation.spaces`
(277) makes the two lists the same object, so that the assignment of 292 changes `equation.spaces` too.
`embed` is the function space of the subwrapper for its original space. -/
def setupLoop {S : Type*} (names : List String) : List (String × (S → S)) → Setup S → Except String (Setup S)
  | [], st => .ok st
  | (f, embed) :: l, st =>
    if f ∈ names then
      let i := names.idxOf f
      match st.equationSpaces[i]? with
      | none => .error "IndexError"
      | some s =>
        let spaces := st.equationSpaces.set i (embed s)
        setupLoop names l { equationSpaces := spaces, wrapperSpaces := spaces, original := st.original ++ [(f, s)] }
    else .error "ValueError"

/-- Set-up of a time discretisation with mixed options on an equation with these spaces, time_discretisation.py:275-295:
the mixed space of the scheme is `MixedFunctionSpace(wrapper_spaces)`. -/
def setupMixed {S : Type*} (names : List String) (spaces : List S) (subs : List (String × (S → S))) :
    Except String (Setup S) :=
  setupLoop names subs { equationSpaces := spaces, wrapperSpaces := spaces, original := [] }

end Gusto.Wrap
