import Mathlib.Data.Complex.Basic
import Mathlib.Analysis.Calculus.LineDeriv.Basic

set_option autoImplicit false

/-!
# Complex-valued proxy spaces

Model of `gusto/complex_proxy/` (`common.py`, `mixed_impl.py`, `vector_impl.py`).

A Function on a mixed space is the list of its components; `X` is the type of the value of one component.
-/

namespace Gusto.Cpx

/-- `Part`, common.py:15. -/
inductive Part
  | re
  | im
  deriving DecidableEq, Repr

/-- The integer value of the enum, common.py:15. -/
def Part.toNat : Part → ℕ
  | .re => 0
  | .im => 1

/-- Entry `i` of a pair (complex_proxy/vector_impl.py 83-107, mixed_impl.py 88-98). -/
def Part.pick {X : Type*} (i : Part) (r m : X) : X :=
  match i with
  | .re => r
  | .im => m

/-- The other part (for statements) (specification; complex_proxy/common.py 51-72). -/
def Part.other : Part → Part
  | .re => .im
  | .im => .re

/-! ### Mixed implementation -/

/-- Real elements: anything that is not a `MixedElement` is a leaf (mixed_impl.py:24-25). -/
inductive Elem
  | leaf (name : String)
  | mixed (children : List Elem)

/-- `_flatten_tree`, common.py:36-51. -/
def Elem.flatten : Elem → List String
  | .leaf n => [n]
  | .mixed l => l.attach.flatMap fun c => c.1.flatten
termination_by e => sizeOf e
decreasing_by
  have := List.sizeOf_lt_of_mem c.2
  simp only [Elem.mixed.sizeOf_spec]; omega

/-- `FiniteElement`, mixed_impl.py:12-29: `[e for ee in zip(flat, flat) for e in ee]`. -/
def finiteElement (e : Elem) : List String := (e.flatten.zip e.flatten).flatMap fun ee => [ee.1, ee.2]

/-- The slice `us[0::2]`. [complex_proxy/mixed_impl.py 88-181] -/
def everySecond {X : Type*} : List X → List X
  | [] => []
  | [a] => [a]
  | a :: _ :: t => a :: everySecond t

/-- `_component_elements`, mixed_impl.py:77-87: `us[i::2]`. -/
def componentElements {X : Type*} (us : List X) (i : Part) : List X := everySecond (us.drop i.toNat)

/-- `_get_part`, mixed_impl.py:116-130: the loop over `zip(usub, vsub)` assigns the components of `vout`. -/
def getPart {X : Type*} (u vout : List X) (i : Part) : List X :=
  ((componentElements u i).zip vout).zipIdx.foldl (fun v p => v.set p.2 p.1.1) vout

/-- `_set_part`, mixed_impl.py:133-145: the k-th entry of `us[i::2]` is component `2*k + i` of `us`. -/
def setPart {X : Type*} (u vnew : List X) (i : Part) : List X :=
  ((componentElements u i).zip vnew).zipIdx.foldl (fun w p => w.set (2 * p.2 + i.toNat) p.1.2) u

/-- `DirichletBC`, mixed_impl.py:57-74: the components of the complex space that get the condition of
component `index` of the real space (`none`: the real space is not mixed). -/
def bcComponents (index : Option ℕ) : List ℕ :=
  let off := match index with
    | some k => 2 * k
    | none => 0
  (List.range 2).map fun i => off + i

/-! ### Vector implementation -/

/-- Real elements for the vector implementation, vector_impl.py:12-38; a nested `mixed` is not allowed inside
`vector` and `tensor`. -/
inductive VElem
  | scalar
  | vector (n : ℕ)
  | tensor (shape : List ℕ)
  | mixed (children : List VElem)

/-- The value of a Function on the complex space: for a non-mixed element the array of shape `(2, ...)`, i.e.
the two parts, each a value of the real element; for a mixed element the list of the components
(complex_proxy/vector_impl.py 13-62). -/
inductive VFun (X : Type*)
  | leaf (e : VElem) (re im : X)
  | mixed (l : List (VFun X))

/-- `subfunctions`, vector_impl.py:110-132, on values: for a scalar element the part, for vectors and tensors
`elem.num_sub_elements()` calls an integer: TypeError (`num_sub_elements` is a property, see line 29). -/
def VFun.subfunctions {X : Type*} (i : Part) : VFun X → Except String (List X)
  | .leaf .scalar r m => .ok [i.pick r m]
  | .leaf (.vector _) _ _ => .error "TypeError"
  | .leaf (.tensor _) _ _ => .error "TypeError"
  | .leaf (.mixed _) _ _ => .error "ValueError"
  | .mixed l => do
    let parts ← l.attach.mapM fun c => c.1.subfunctions i
    return parts.flatten
termination_by f => sizeOf f
decreasing_by
  have := List.sizeOf_lt_of_mem c.2
  simp only [VFun.mixed.sizeOf_spec]; omega

/-- `_get_part`, vector_impl.py:135-149. -/
def getPartVector {X : Type*} (u : VFun X) (vout : List X) (i : Part) : Except String (List X) := do
  let usub ← u.subfunctions i
  return (usub.zip vout).zipIdx.foldl (fun v p => v.set p.2 p.1.1) vout

/-! ### Forms

`W` is the complex space with the projections `split : Part → W → V` on the parts (`split`, mixed_impl.py:90-102,
vector_impl.py:84-107), `V` the real space. -/

/-- `split` of the mixed implementation for `n` components with values in `E`: component `2*k + i`
(complex_proxy/mixed_impl.py 88-98). -/
def splitMixed {n : ℕ} {E : Type*} (i : Part) (u : Fin (2 * n) → E) : Fin n → E :=
  fun k => u ⟨2 * k.1 + i.toNat, by have := k.2; cases i <;> simp [Part.toNat] <;> omega⟩

/-- `split` of the vector implementation: entry `i` of the first index of component `k`
(complex_proxy/vector_impl.py 83-107). -/
def splitVector {n : ℕ} {E : Type*} (i : Part) (u : Fin n → Fin 2 → E) : Fin n → E :=
  fun k => u k ⟨i.toNat, by cases i <;> simp [Part.toNat]⟩

/-- `_complex_components`, common.py:54-76: a number or a 2-tuple of Constants; anything else is a
ValueError. -/
inductive Coeff
  | number (z : ℂ)
  | constants (zr zi : ℝ)
  | other

/-- common.py:54-76. -/
def complexComponents : Coeff → Except String (ℝ × ℝ)
  | .number z => .ok (z.re, z.im)
  | .constants a b => .ok (a, b)
  | .other => .error "ValueError"

/-- `_build_twoform`, common.py:79-118: `A` may depend on the part of `u` it is given. -/
def twoform {V W : Type*} (split : Part → W → V) (z : ℝ × ℝ) (A : V → V → ℝ) (u v : W) : ℝ :=
  z.1 * A (split .re u) (split .re v) + -z.2 * A (split .im u) (split .re v)
    + z.2 * A (split .re u) (split .im v) + z.1 * A (split .im u) (split .im v)

/-- `_build_oneform`, common.py:121-147. -/
def oneform {V W : Type*} (split : Part → W → V) (z : ℝ × ℝ) (f : V → ℝ) (v : W) : ℝ :=
  z.1 * f (split .re v) + z.2 * f (split .im v)

/-- `derivative`, mixed_impl.py:211-234: `A(*args) = derivative(F(*args), u)`, where the first argument is a
part of `u` itself, in the direction of the trial function `d`. -/
noncomputable def derivativeForm {V W : Type*} [NormedAddCommGroup W] [NormedSpace ℝ W]
    (split : Part → W → V) (z : ℝ × ℝ) (F : V → V → ℝ) (u d v : W) : ℝ :=
  z.1 * lineDeriv ℝ (fun w => F (split .re w) (split .re v)) u d
    + -z.2 * lineDeriv ℝ (fun w => F (split .im w) (split .re v)) u d
    + z.2 * lineDeriv ℝ (fun w => F (split .re w) (split .im v)) u d
    + z.1 * lineDeriv ℝ (fun w => F (split .im w) (split .im v)) u d

end Gusto.Cpx
