import Mathlib.Algebra.Order.Field.Basic
import Mathlib.Algebra.Order.Group.Abs
import Mathlib.Data.Prod.Lex
import Mathlib.Data.List.Sort
import Mathlib.Logic.Function.Basic

set_option autoImplicit false

/-!
# Column data

Model of `Coordinates.get_column_data` and `Coordinates.set_field_from_column_data`
(gusto/core/coordinates.py:111-238).

`H` is the type of horizontal positions: `K` on vertical slices, `K ×ₗ K` (ordered by X, then Y) in
three dimensions; `round` is the rounding of lines 140-152 and `close` the test of lines 169-176.
`pandas.DataFrame.sort_values` with several keys is a stable lexicographic sort.
-/

namespace Gusto.Columns
variable {K H : Type*}

/-- A row of the data frame (lines 158-165). [core/coordinates.py] -/
structure Row (K H : Type*) where
  field : K
  hori : H
  z : K
  index : ℕ

/-- `numpy.isclose(a, b)` with the default tolerances (numpy, called at coordinates.py 111-216). -/
def isclose [Field K] [LinearOrder K] (a b : K) : Bool :=
  decide (|a - b| ≤ 1 / 10 ^ 8 + 1 / 10 ^ 5 * |b|)

/-- Lines 170-171, three dimensions. [core/coordinates.py] -/
def close3 [Field K] [LinearOrder K] (a b : K ×ₗ K) : Bool :=
  isclose (ofLex a).1 (ofLex b).1 && isclose (ofLex a).2 (ofLex b).2

/-- Sorting key of lines 168 and 174. [core/coordinates.py] -/
def rowLE [LinearOrder H] [LinearOrder K] (a b : Row K H) : Bool :=
  decide (toLex (a.hori, a.z) ≤ toLex (b.hori, b.z))

/-- Lines 158-165: the data frame, in the order of the degrees of freedom. [core/coordinates.py] -/
def frame (round : H → H) (field : List K) (coords : List (H × K)) : List (Row K H) :=
  ((field.zip coords).zipIdx).map fun p => ⟨p.1.1, round p.1.2.1, p.1.2.2, p.2⟩

/-- The two arrays returned: `num_hori_points`, `num_levels`, `field_data`, `index_data` (coordinates.py 111-216). -/
structure ColumnData (K : Type*) where
  numHori : ℕ
  numLevels : ℕ
  field : ℕ → ℕ → K
  index : ℕ → ℕ → ℕ

/-- The part of `get_column_data` after the sort, coordinates.py:169-216, on the sorted frame.  `others`
says whether the division into levels works on all the other ranks (line 184).  `values[0]` of an empty
frame is an IndexError (169, 175). -/
def fromSorted [Zero K] (close : H → H → Bool) (others : Bool) :
    List (Row K H) → Except String (ColumnData K)
  | [] => .error "IndexError"
  | first :: rest =>
    let numLevels := ((first :: rest).filter fun r => close r.hori first.hori).length
    if numLevels = 0 then .error "ZeroDivisionError"
    else if (first :: rest).length % numLevels = 0 ∧ others = true then
      .ok
        { numHori := (first :: rest).length / numLevels
          numLevels := numLevels
          field := fun h lev => ((first :: rest).map Row.field).getD (lev + h * numLevels) 0
          index := fun h lev => ((first :: rest).map Row.index).getD (lev + h * numLevels) 0 }
    else .error "RuntimeError"

/-- `get_column_data`, coordinates.py:111-216. -/
def getColumnData [Zero K] [LinearOrder H] [LinearOrder K] (round : H → H) (close : H → H → Bool)
    (others : Bool) (field : List K) (coords : List (H × K)) : Except String (ColumnData K) :=
  fromSorted close others ((frame round field coords).mergeSort rowLE)

/-- `set_field_from_column_data`, coordinates.py:218-238: level by level, the assignments of one level
from the first column to the last. -/
def setField (numHori numLevels : ℕ) (col : ℕ → ℕ → K) (index : ℕ → ℕ → ℕ) (field : ℕ → K) : ℕ → K :=
  (List.range numLevels).foldl (fun field lev =>
    (List.range numHori).foldl (fun field h => Function.update field (index h lev) (col h lev)) field)
    field

end Gusto.Columns
