import Mathlib.Algebra.Order.Field.Basic
import Mathlib.Logic.Function.Basic

set_option autoImplicit false

/-!
# Limiters

Model of `gusto/spatial_methods/limiters.py` and of the kernels of `gusto/core/kernels.py`.

A field is a function from degrees of freedom to values.  A `par_loop` runs the kernel cell by cell;
a cell is the list of its degrees of freedom.  Values are elements of an ordered field: rounding is
not modelled.  Interpolation between two nodal bases of the same discontinuous space is exact, so
fields in DG1 are represented by their values at the vertices (equispaced basis).
-/

namespace Gusto.Limiters
variable {K : Type*} [Field K] [LinearOrder K] {ι : Type*} [DecidableEq ι]

/-- `ClipZero`, kernels.py:92-99: body of the loop over the degrees of freedom of one cell; `fin` are
the values read. -/
def clipStep (fin : ι → K) (field : ι → K) (i : ι) : ι → K :=
  Function.update field i (if fin i < 0 then 0 else fin i)

/-- `ClipZero` on one cell, with `field` and `field_in` the same Function (limiters.py:207, 210). -/
def clipCell (field : ι → K) (cell : List ι) : ι → K := cell.foldl (clipStep field) field

/-- `ClipZero.apply`, kernels.py:104-114: the par loop. -/
def clipZero (cells : List (List ι)) (field : ι → K) : ι → K := cells.foldl clipCell field

/-- `ZeroLimiter.apply`, limiters.py:196-210: clipping in another space if one was given; `into` and
`back` are the interpolations. -/
def zeroLimiter {ι' : Type*} [DecidableEq ι']
    (clipping : Option (List (List ι') × ((ι → K) → ι' → K) × ((ι' → K) → ι → K)))
    (cells : List (List ι)) (field : ι → K) : ι → K :=
  match clipping with
  | some (cells', into, back) => back (clipZero cells' (into field))
  | none => clipZero cells field

/-- `LimitMidpoints`, kernels.py:41-57, on one cell with `n` base degrees of freedom: three values
per base degree of freedom in the result, two in the limited DG1 field.  Body of the loop over `i`. -/
def midStep (dg1 old : ℕ → K) (hat : ℕ → K) (i : ℕ) : ℕ → K :=
  let hat := (List.range 2).foldl (fun hat j => Function.update hat (i * 3 + 2 * j) (dg1 (i * 2 + j))) hat
  let maxValue := max (dg1 (i * 2)) (dg1 (i * 2 + 1))
  let minValue := min (dg1 (i * 2)) (dg1 (i * 2 + 1))
  if old (i * 3 + 1) > maxValue then
    Function.update hat (i * 3 + 1) (1 / 2 * (dg1 (i * 2) + dg1 (i * 2 + 1)))
  else if old (i * 3 + 1) < minValue then
    Function.update hat (i * 3 + 1) (1 / 2 * (dg1 (i * 2) + dg1 (i * 2 + 1)))
  else Function.update hat (i * 3 + 1) (old (i * 3 + 1))

/-- The kernel for one cell (core/kernels.py 28-60). -/
def limitMidpoints (n : ℕ) (dg1 old hat : ℕ → K) : ℕ → K :=
  (List.range n).foldl (midStep dg1 old) hat

/-- `ThetaLimiter.apply`, limiters.py:143-164, on one cell.  `vertexLimiter` is Firedrake's
`VertexBasedLimiter` seen from this cell; the vertex values are the end points of the vertical
lines (interpolation to DG1, 158). -/
def thetaLimiter (n : ℕ) (vertexLimiter : (ℕ → K) → ℕ → K) (hat field : ℕ → K) : ℕ → K :=
  let old := field
  let dg1 := fun m => field (m / 2 * 3 + 2 * (m % 2))
  let dg1 := vertexLimiter dg1
  limitMidpoints n dg1 old hat

/-- `MeanMixingRatioWeights`, kernels.py:137-146, on one cell. -/
def lamdaKernel (n : ℕ) (mX : ℕ → K) (mean lamda : K) : K :=
  let minValue := (List.range n).foldl (fun mn i => min mn (mX i)) 0
  if minValue < 0 then max lamda (-minValue / (mean - minValue)) else lamda

/-- First loop of `MeanLimiter.apply`, limiters.py:331-340, on one cell: `fields` pairs each mixing
ratio with its mean. -/
def meanLamda (n : ℕ) (fields : List ((ℕ → K) × K)) : K :=
  fields.foldl (fun lamda f => lamdaKernel n f.1 f.2 lamda) 0

/-- `MeanLimiter.apply`, limiters.py:319-349, on one cell. -/
def meanLimiter (n : ℕ) (fields : List ((ℕ → K) × K)) : List (ℕ → K) :=
  let lamda := meanLamda n fields
  fields.map fun f => fun i => (1 - lamda) * f.1 i + lamda * f.2

/-- The degree of a finite element: an integer, or a tuple for a tensor product element
(limiters.py 28-66, 102-141). -/
inductive Degree where
  | int (d : ℕ)
  | tuple (ds : List ℕ)

/-- The check in the constructors of `DG1Limiter` (limiters.py:47-51) and `MeanLimiter` (283-289):
`true` = no error.  (`degree != 1` is true for every tuple.) -/
def dg1Accepts (sobolev : String) (degree : Degree) : Bool :=
  !(sobolev != "L2" ||
    ((match degree with
      | .int _ => false
      | .tuple ds => ds.any (· != 1)) &&
     (match degree with
      | .int d => d != 1
      | .tuple _ => true)))

/-- `DG1Limiter.apply`, limiters.py:68-90, for a field that may have components. -/
def dg1Limiter {κ : Type*} [DecidableEq κ] {V : Type*} (vertexLimiter : V → V) (subspace : κ)
    (fields : κ → V) : κ → V :=
  Function.update fields subspace (vertexLimiter (fields subspace))

/-- `MixedFSLimiter.__init__`, limiters.py:237-254: the pairs of index and limiter, or the
ValueError. -/
def mixedInit {V : Type*} (fieldNames : List String) :
    List (String × (V → V)) → Except String (List (ℕ × (V → V)))
  | [] => .ok []
  | (f, l) :: rest =>
    if f ∈ fieldNames then
      match mixedInit fieldNames rest with
      | .ok r => .ok ((fieldNames.idxOf f, l) :: r)
      | .error e => .error e
    else .error f

/-- `MixedFSLimiter.apply`, limiters.py:256-263: the subfunctions in order. -/
def mixedApply {V : Type*} (subs : List (ℕ × (V → V))) (fields : ℕ → V) : ℕ → V :=
  subs.foldl (fun fs p => Function.update fs p.1 (p.2 (fs p.1))) fields

/-- `MinKernel.apply`, kernels.py:171-192: `big` is the largest float. -/
def minKernel (big : K) (field : List K) : K := field.foldl (fun a b => if a > b then b else a) big

/-- `MaxKernel.apply`, kernels.py:200-221: `small` is the most negative float. -/
def maxKernel (small : K) (field : List K) : K :=
  field.foldl (fun a b => if a < b then b else a) small

end Gusto.Limiters
