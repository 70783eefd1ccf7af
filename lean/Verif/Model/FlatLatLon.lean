import Verif.Model.CoordTransforms

set_option autoImplicit false

/-!
# The flat longitude-latitude mesh

Model of `get_flat_latlon_mesh`, core/meshes.py:609-670, on one rank: the nodes of the discontinuous linear coordinate field, cell
by cell.  `PI` and `TWO_PI` of the kernel, doubles with 16 digits, are `π` and `2 π`; reals instead of floats.  Left out: the
interpolation of the coordinates into the discontinuous space, the mesh object.
-/

namespace Gusto.FlatLatLon
open Gusto.Coord Real

/-- A node of the flat mesh (core/meshes.py 609-670). -/
structure LL where
  lon : ℝ
  lat : ℝ
  height : ℝ

/-- `np.sqrt(x**2 + y**2 + z**2)` (numpy; core/meshes.py 609-670). -/
noncomputable def norm3 (p : V3) : ℝ := √(p.x ^ 2 + p.y ^ 2 + p.z ^ 2)

/-- `np.min`, which raises ValueError for an empty array (numpy; core/meshes.py 609-670). -/
noncomputable def npMin : List ℝ → Except String ℝ
  | [] => .error "ValueError"
  | a :: l => .ok (l.foldl min a)

/-- Longitude, latitude and height of a node, core/meshes.py:633-638. -/
noncomputable def latlonNode (radius : ℝ) (p : V3) : LL := ⟨atan2 p.y p.x, arcsin (p.z / norm3 p), norm3 p - radius⟩

/-- `max_diff` of the kernel, core/meshes.py:646-656: the inner loop runs over `j`.  The signed difference is stored. -/
noncomputable def maxDiff (lons : List ℝ) : ℝ :=
  (lons.flatMap fun a => lons.map fun b => a - b).foldl (fun m diff => if |diff| > m then diff else m) 0

/-- The kernel `splat_coords` on the nodes of a cell, core/meshes.py:645-665. -/
noncomputable def splat (cell : List LL) : List LL :=
  if maxDiff (cell.map LL.lon) > π then cell.map fun n => if n.lon < 0 then { n with lon := n.lon + 2 * π } else n
  else cell

/-- `get_flat_latlon_mesh`, core/meshes.py:632-670: the nodes of every cell of this rank. -/
noncomputable def flatMesh (cells : List (List V3)) : Except String (List (List LL)) := do
  let radius ← npMin (cells.flatten.map norm3)
  return cells.map fun c => splat (c.map (latlonNode radius))

end Gusto.FlatLatLon
