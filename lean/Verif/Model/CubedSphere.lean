import Mathlib.Analysis.SpecialFunctions.Pow.Real
import Mathlib.Analysis.SpecialFunctions.Trigonometric.Arctan
import Mathlib.Analysis.InnerProductSpace.PiL2
import Mathlib.Data.Finset.Lattice.Fold

set_option autoImplicit false

/-!
# The cubed-sphere mesh

Model of `_cubedsphere_cells_and_coords` and `GeneralCubedSphereMesh`, core/meshes.py:437-632.

The array `panel_numbering` is a function of panel, row and column, changed by the assignments of the code one after the other;
`coords` is a function of the number of the point, changed by the writes of the six panels one after the other.  Reals instead of
floats, naturals instead of 32-bit integers.  Left out: `plex_from_cell_list` and the mesh object; reordering, distribution and
names.
-/

namespace Gusto.CubedSphere
open Finset

/-- A quadrilateral: the numbers of its four corners in order (core/meshes.py 439-562). -/
abbrev Cell := ℕ × ℕ × ℕ × ℕ

/-- `panel_numbering`: panel, row, column (core/meshes.py 439-562). -/
abbrev Numbering := ℕ → ℕ → ℕ → ℕ

/-- `panel_numbering.max()`, core/meshes.py:468, 472, 484, 495, 509, 528. -/
def maxNumber (Nx : ℕ) (P : Numbering) : ℕ :=
  (range 6 ×ˢ range Nx ×ˢ range Nx).sup fun t => P t.1 t.2.1 t.2.2

/-- Panel 0, core/meshes.py:464-467. -/
def number0 (Nx : ℕ) : Numbering := fun p i j => if p = 0 then i * Nx + j else 0

/-- Panel 5, core/meshes.py:468-471. -/
def number5 (Nx : ℕ) (P : Numbering) : Numbering :=
  let count := maxNumber Nx P + 1
  fun p i j => if p = 5 then count + (i * Nx + j) else P p i j

/-- Panel 4, interior rows, core/meshes.py:472-478. -/
def number4 (Nx : ℕ) (P : Numbering) : Numbering :=
  let count := maxNumber Nx P + 1
  fun p i j => if p = 4 ∧ 1 ≤ i ∧ i < Nx - 1 then count + ((i - 1) * Nx + j) else P p i j

/-- Panel 4, bottom edge, core/meshes.py:481. -/
def number4b (Nx : ℕ) (P : Numbering) : Numbering := fun p i j => if p = 4 ∧ i = 0 then P 5 (Nx - 1) j else P p i j

/-- Panel 4, top edge, core/meshes.py:483. -/
def number4t (Nx : ℕ) (P : Numbering) : Numbering := fun p i j => if p = 4 ∧ i = Nx - 1 then P 0 0 j else P p i j

/-- Panel 3, interior rows, core/meshes.py:484-490. -/
def number3 (Nx : ℕ) (P : Numbering) : Numbering :=
  let count := maxNumber Nx P + 1
  fun p i j => if p = 3 ∧ 1 ≤ i ∧ i < Nx - 1 then count + ((i - 1) * Nx + j) else P p i j

/-- Panel 3, bottom edge, core/meshes.py:492. -/
def number3b (Nx : ℕ) (P : Numbering) : Numbering := fun p i j => if p = 3 ∧ i = 0 then P 0 (Nx - 1) j else P p i j

/-- Panel 3, top edge, core/meshes.py:494. -/
def number3t (Nx : ℕ) (P : Numbering) : Numbering := fun p i j => if p = 3 ∧ i = Nx - 1 then P 5 0 j else P p i j

/-- The interior of panel 1 or 2, core/meshes.py:495-500, 509-514. -/
def numberInterior (q Nx : ℕ) (P : Numbering) : Numbering :=
  let count := maxNumber Nx P + 1
  fun p i j => if p = q ∧ (1 ≤ i ∧ i < Nx - 1) ∧ 1 ≤ j ∧ j < Nx - 1 then count + ((i - 1) * (Nx - 2) + (j - 1)) else P p i j

/-- Panel 1, left edge, core/meshes.py:502. -/
def number1l (Nx : ℕ) (P : Numbering) : Numbering := fun p i j => if p = 1 ∧ j = 0 then P 5 (Nx - 1 - i) 0 else P p i j

/-- Panel 1, right edge, core/meshes.py:504. -/
def number1r (Nx : ℕ) (P : Numbering) : Numbering := fun p i j => if p = 1 ∧ j = Nx - 1 then P 0 i 0 else P p i j

/-- Panel 1, top edge, core/meshes.py:506. -/
def number1t (Nx : ℕ) (P : Numbering) : Numbering :=
  fun p i j => if p = 1 ∧ i = Nx - 1 ∧ 1 ≤ j ∧ j < Nx - 1 then P 3 (Nx - 1 - j) 0 else P p i j

/-- Panel 1, bottom edge, core/meshes.py:508. -/
def number1b (Nx : ℕ) (P : Numbering) : Numbering :=
  fun p i j => if p = 1 ∧ i = 0 ∧ 1 ≤ j ∧ j < Nx - 1 then P 4 j 0 else P p i j

/-- Panel 2, left edge, core/meshes.py:516. -/
def number2l (Nx : ℕ) (P : Numbering) : Numbering := fun p i j => if p = 2 ∧ j = 0 then P 0 i (Nx - 1) else P p i j

/-- Panel 2, right edge, core/meshes.py:518. -/
def number2r (Nx : ℕ) (P : Numbering) : Numbering :=
  fun p i j => if p = 2 ∧ j = Nx - 1 then P 5 (Nx - 1 - i) (Nx - 1) else P p i j

/-- Panel 2, bottom edge, core/meshes.py:520. -/
def number2b (Nx : ℕ) (P : Numbering) : Numbering :=
  fun p i j => if p = 2 ∧ i = 0 ∧ 1 ≤ j ∧ j < Nx - 1 then P 4 (Nx - 1 - j) (Nx - 1) else P p i j

/-- Panel 2, top edge, core/meshes.py:522. -/
def number2t (Nx : ℕ) (P : Numbering) : Numbering :=
  fun p i j => if p = 2 ∧ i = Nx - 1 ∧ 1 ≤ j ∧ j < Nx - 1 then P 3 j (Nx - 1) else P p i j

/-- Panels 0 and 5, core/meshes.py:464-471. -/
def numbering05 (Nx : ℕ) : Numbering := number5 Nx (number0 Nx)
/-- Panels 0, 5 and 4, core/meshes.py:464-483. -/
def numbering054 (Nx : ℕ) : Numbering := number4t Nx (number4b Nx (number4 Nx (numbering05 Nx)))
/-- Panels 0, 5, 4 and 3, core/meshes.py:464-494. -/
def numbering0543 (Nx : ℕ) : Numbering := number3t Nx (number3b Nx (number3 Nx (numbering054 Nx)))
/-- Panels 0, 5, 4, 3 and 1, core/meshes.py:464-508. -/
def numbering05431 (Nx : ℕ) : Numbering :=
  number1b Nx (number1t Nx (number1r Nx (number1l Nx (numberInterior 1 Nx (numbering0543 Nx)))))
/-- `panel_numbering` in the end, core/meshes.py:464-522. -/
def panelNumbering (Nx : ℕ) : Numbering :=
  number2t Nx (number2b Nx (number2r Nx (number2l Nx (numberInterior 2 Nx (numbering05431 Nx)))))

/-- `Npoints`, core/meshes.py:528. -/
def numPoints (Nx : ℕ) : ℕ := maxNumber Nx (panelNumbering Nx) + 1

/-- `a`, core/meshes.py:448. -/
noncomputable def halfSide (radius : ℝ) : ℝ := (3 : ℝ) ^ (-(0.5) : ℝ) * radius

/-- `np.linspace(start, stop, n + 1)[k]` (numpy; core/meshes.py 439-562). -/
noncomputable def linspace (start stop : ℝ) (n k : ℕ) : ℝ := if k = n then stop else start + k * ((stop - start) / n)

/-- `x`, core/meshes.py:449-450; `n = cells_per_cube_edge`. -/
noncomputable def gridX (radius : ℝ) (n k : ℕ) : ℝ :=
  halfSide radius * Real.tan (linspace (Real.arctan (-1)) (Real.arctan 1) n k)

/-- The arguments of `coordinates_on_panel`, core/meshes.py:545-550. -/
noncomputable def panelXYZ (a lX lY : ℝ) : ℕ → EuclideanSpace ℝ (Fin 3)
  | 0 => !₂[lX, lY, -a]
  | 1 => !₂[-a, lY, -lX]
  | 2 => !₂[a, lY, lX]
  | 3 => !₂[lX, a, lY]
  | 4 => !₂[lX, -a, -lY]
  | _ => !₂[lX, -lY, a]

/-- The positions of a panel in the order of the flattened array (core/meshes.py 539-562). -/
def grid (Nx : ℕ) : List (ℕ × ℕ) := (List.range Nx).flatMap fun i => (List.range Nx).map fun j => (i, j)

/-- What `coordinates_on_panel` writes, and where, core/meshes.py:530-543. -/
noncomputable def panelWrites (radius : ℝ) (n p : ℕ) : List (ℕ × EuclideanSpace ℝ (Fin 3)) :=
  (grid (n + 1)).map fun (i, j) =>
    let lX := gridX radius n j
    let lY := gridX radius n i
    let a := halfSide radius
    let r := (a ^ 2 + lX ^ 2 + lY ^ 2) ^ (0.5 : ℝ)
    (panelNumbering (n + 1) p i j, (radius / r) • panelXYZ a lX lY p)

/-- `coords` after the writes of all panels, core/meshes.py:529, 545-550. -/
noncomputable def coordsArray (radius : ℝ) (n : ℕ) : ℕ → EuclideanSpace ℝ (Fin 3) :=
  ((List.range 6).flatMap (panelWrites radius n)).foldl (fun c w => Function.update c w.1 w.2) (fun _ => 0)

/-- `coords`: one row for each point, core/meshes.py:528-529, 562. -/
noncomputable def coords (radius : ℝ) (n : ℕ) : List (EuclideanSpace ℝ (Fin 3)) :=
  (List.range (numPoints (n + 1))).map (coordsArray radius n)

/-- `cells`: the faces in local numbers, then the numbers of the panel, core/meshes.py:554-561. -/
def cells (n : ℕ) : List Cell :=
  (List.range 6).flatMap fun p => (grid n).map fun (i, j) =>
    let P := panelNumbering (n + 1) p
    (P i j, P (i + 1) j, P (i + 1) (j + 1), P i (j + 1))

/-- The exceptions (core/meshes.py 439-606). -/
inductive Err | runtimeError | valueError
  deriving DecidableEq

/-- The cells and the points given to `mesh.Mesh`, core/meshes.py:587-597.  `num % 1` is nonzero iff `num` is no integer
(a float with an integer value, which passes the check and is refused by `np.linspace`, is not distinguished). -/
noncomputable def cubedSphere (radius : ℝ) (num : ℚ) (degree : ℤ) : Except Err (List Cell × List (EuclideanSpace ℝ (Fin 3))) :=
  if num < 1 ∨ Int.fract num ≠ 0 then .error .runtimeError
  else if degree < 1 then .error .valueError
  else .ok (cells ⌊num⌋.toNat, coords radius ⌊num⌋.toNat)

/-- The nodes of the coordinate field of higher degree, core/meshes.py:599-604: interpolated from the bilinear field, then
pushed out. -/
noncomputable def higherDegree (radius : ℝ) (nodes : List (EuclideanSpace ℝ (Fin 3))) : List (EuclideanSpace ℝ (Fin 3)) :=
  nodes.map fun x => (radius / ‖x‖) • x

end Gusto.CubedSphere
