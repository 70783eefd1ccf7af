import Mathlib.Analysis.SpecialFunctions.Complex.Arg
import Mathlib.Analysis.SpecialFunctions.Trigonometric.Inverse
import Mathlib.Data.Real.Sqrt

set_option autoImplicit false

/-!
# Coordinate transforms

Model of `gusto/core/coord_transforms.py`, pointwise and over the real numbers (no rounding).  The
functions of numpy and firedrake that the module chooses between (17-38) have the same real meaning:
`cos`, `sin`, `sqrt`, `acos`, `pi` and `atan2`.
-/

namespace Gusto.Coord
open Real

/-- A vector of three Cartesian components (the triples of coord_transforms.py 63-533). -/
@[ext] structure V3 where
  x : ℝ
  y : ℝ
  z : ℝ

namespace V3
/-- Sum (numpy/UFL; coord_transforms.py 63-533). -/
def add (a b : V3) : V3 := ⟨a.x + b.x, a.y + b.y, a.z + b.z⟩
/-- Multiplication by a number (numpy/UFL; coord_transforms.py 63-533). -/
def smul (c : ℝ) (a : V3) : V3 := ⟨c * a.x, c * a.y, c * a.z⟩
/-- `dot` (numpy/UFL; coord_transforms.py 287-336). -/
def dot (a b : V3) : ℝ := a.x * b.x + a.y * b.y + a.z * b.z
/-- `cross` (numpy/UFL; coord_transforms.py 287-374). -/
def cross (a b : V3) : V3 := ⟨a.y * b.z - a.z * b.y, a.z * b.x - a.x * b.z, a.x * b.y - a.y * b.x⟩
end V3

/-- `atan2(y, x)` (numpy `arctan2`, without signed zeros) (numpy/UFL; coord_transforms.py 105-142). -/
noncomputable def atan2 (y x : ℝ) : ℝ := Complex.arg ⟨x, y⟩

/-- `xyz_from_lonlatr`, coord_transforms.py:81-102. -/
noncomputable def xyzFromLonlatr (lon lat r : ℝ) (units : String) : Except String V3 :=
  if units ≠ "rad" ∧ units ≠ "deg" then .error "ValueError"
  else
    let unitFactor := if units = "deg" then π / 180 else 1
    let lon := lon * unitFactor
    let lat := lat * unitFactor
    .ok ⟨r * cos lon * cos lat, r * sin lon * cos lat, r * sin lat⟩

/-- `lonlatr_from_xyz`, coord_transforms.py:123-142: the triple `(lon, lat, r)`. -/
noncomputable def lonlatrFromXyz (x y z : ℝ) (units : String) : Except String (ℝ × ℝ × ℝ) :=
  if units ≠ "rad" ∧ units ≠ "deg" then .error "ValueError"
  else
    let unitFactor := if units = "deg" then 180 / π else 1
    let lon := atan2 y x
    let r := √(x ^ 2 + y ^ 2 + z ^ 2)
    let l := √(x ^ 2 + y ^ 2)
    let lat := atan2 z l
    .ok (lon * unitFactor, lat * unitFactor, r)

/-- Conversion of the position, coord_transforms.py:172-191 and 242-261: `(lon, lat)` in radians. -/
noncomputable def positionLonLat (pos : V3) (units : String) : Except String (ℝ × ℝ) :=
  if units ≠ "xyz" ∧ units ≠ "lonlatr_rad" ∧ units ≠ "lonlatr_deg" then .error "ValueError"
  else if units = "xyz" then
    match lonlatrFromXyz pos.x pos.y pos.z "rad" with
    | .error e => .error e
    | .ok q => .ok (q.1, q.2.1)
  else if units = "lonlatr_rad" then .ok (pos.x, pos.y)
  else .ok (pos.x * π / 180, pos.y * π / 180)

/-- `xyz_vector_from_lonlatr`, coord_transforms.py:193-217. -/
noncomputable def xyzVectorFromLonlatr (lonC latC rC : ℝ) (pos : V3) (units : String) :
    Except String V3 :=
  match positionLonLat pos units with
  | .error e => .error e
  | .ok (lon, lat) =>
    .ok ⟨cos lon * cos lat * rC - sin lon * lonC - cos lon * sin lat * latC,
      sin lon * cos lat * rC + cos lon * lonC - sin lon * sin lat * latC,
      sin lat * rC + cos lat * latC⟩

/-- `lonlatr_components_from_xyz`, coord_transforms.py:263-284: `(zonal, meridional, radial)`. -/
noncomputable def lonlatrComponentsFromXyz (v pos : V3) (units : String) :
    Except String (ℝ × ℝ × ℝ) :=
  match positionLonLat pos units with
  | .error e => .error e
  | .ok (lon, lat) =>
    .ok (-sin lon * v.x + cos lon * v.y,
      -cos lon * sin lat * v.x - sin lon * sin lat * v.y + cos lat * v.z,
      cos lon * cos lat * v.x + sin lon * cos lat * v.y + sin lat * v.z)

/-- `rodrigues_rotation`, coord_transforms.py:332-334, at one point (the reshaping of 317-330 repeats
the axis for each row of an array). -/
noncomputable def rodrigues (v axis : V3) (angle : ℝ) : V3 :=
  ((V3.smul (cos angle) v).add (V3.smul (sin angle) (V3.cross axis v))).add
    (V3.smul (V3.dot axis v * (1 - cos angle)) axis)

/-- `pole_rotation`, coord_transforms.py:355-374. -/
noncomputable def poleRotation (lon lat : ℝ) : Except String (V3 × ℝ) :=
  let oldLat := π / 2
  let lonRot := lon + π / 2
  let latRot := 0
  let angle := oldLat - lat
  match xyzVectorFromLonlatr 0 0 1 ⟨lonRot, latRot, 1⟩ "lonlatr_rad" with
  | .error e => .error e
  | .ok axis => .ok (axis, angle)

/-- Normalisation, coord_transforms.py:412-414. -/
noncomputable def normalise (v : V3) : V3 := V3.smul (1 / √(V3.dot v v)) v

/-- `rotated_lonlatr_vectors`, coord_transforms.py:396-416. -/
noncomputable def rotatedLonlatrVectors (xyz : V3) (lon lat : ℝ) : Except String (V3 × V3 × V3) :=
  match poleRotation lon lat with
  | .error e => .error e
  | .ok (axis, angle) =>
    let newXyz := rodrigues xyz axis angle
    match xyzVectorFromLonlatr 1 0 0 newXyz "xyz", xyzVectorFromLonlatr 0 1 0 newXyz "xyz",
        xyzVectorFromLonlatr 0 0 1 xyz "xyz" with
    | .ok eLon, .ok eLat, .ok eR =>
      .ok (normalise (rodrigues eLon axis (-angle)), normalise (rodrigues eLat axis (-angle)),
        normalise eR)
    | _, _, _ => .error "ValueError"

/-- `rotated_lonlatr_coords`, coord_transforms.py:435-457. -/
noncomputable def rotatedLonlatrCoords (xyz : V3) (lon lat : ℝ) : Except String (ℝ × ℝ × ℝ) :=
  match poleRotation lon lat with
  | .error e => .error e
  | .ok (axis, angle) =>
    let newXyz := rodrigues xyz axis angle
    lonlatrFromXyz newXyz.x newXyz.y newXyz.z "rad"

/-- `periodic_distance`, coord_transforms.py:484-491. -/
noncomputable def periodicDistance (x1 x2 maxX minX : ℝ) : ℝ :=
  let Lx := maxX - minX
  let longest := Lx / 2
  let trial := x1 - x2
  if trial > longest then trial - Lx else if trial < -longest then trial + Lx else trial

/-- An argument of `great_arc_angle`: a number (or another immutable value), or an array of the
caller, given by its address (coord_transforms.py 494-533). -/
inductive Arg where
  | value (v : ℝ)
  | array (loc : ℕ)

/-- The arrays of the caller: address and index (coord_transforms.py 494-533). -/
abbrev Heap := ℕ → ℕ → ℝ

/-- Entry `i` of an argument (broadcasting of numbers) (coord_transforms.py 494-533). -/
def Arg.get (h : Heap) (a : Arg) (i : ℕ) : ℝ :=
  match a with
  | .value v => v
  | .array loc => h loc i

/-- `a *= c`: for an array numpy multiplies in place; a number is rebound (coord_transforms.py 494-533). -/
def imul (c : ℝ) (h : Heap) (a : Arg) : Heap × Arg :=
  match a with
  | .value v => (h, .value (v * c))
  | .array loc => (Function.update h loc (fun i => h loc i * c), .array loc)

/-- `great_arc_angle`, coord_transforms.py:515-533: the heap after the call and the result at each
index. -/
noncomputable def greatArcAngle (h : Heap) (lon1 lat1 lon2 lat2 : Arg) (units : String) :
    Heap × (ℕ → ℝ) :=
  let c := π / 180
  let s := if units = "deg" then
      let s1 := imul c h lon1
      let s2 := imul c s1.1 lat1
      let s3 := imul c s2.1 lon2
      let s4 := imul c s3.1 lat2
      (s4.1, s1.2, s2.2, s3.2, s4.2)
    else (h, lon1, lat1, lon2, lat2)
  let h := s.1
  let arc := fun i => arccos (cos (s.2.1.get h i - s.2.2.2.1.get h i) * cos (s.2.2.1.get h i)
    * cos (s.2.2.2.2.get h i) + sin (s.2.2.1.get h i) * sin (s.2.2.2.2.get h i))
  let arc := if units = "deg" then fun i => arc i * (180 / π) else arc
  (h, arc)

end Gusto.Coord
