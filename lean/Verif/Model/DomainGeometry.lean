import Verif.Model.Columns
import Mathlib.Analysis.Calculus.Gradient.Basic
import Mathlib.Analysis.InnerProductSpace.PiL2

set_option autoImplicit false

/-!
# The geometry of a domain

Model of the parts of `Domain.__init__` on the geometry (core/domain.py:97-164), of `Domain.set_height_above_surface`
(core/domain.py:166-197), of `construct_domain_metadata` (core/domain.py:200-253) and of `Coordinates.__init__`
(core/coordinates.py:18-57).  Degrees and spaces are in `Verif.Model.Spaces`, the perpendicular in `Verif.Model.ShallowWater`, the
longitude and latitude in `Verif.Model.CoordTransforms`.
-/

namespace Gusto.DomainGeometry
open Gusto.Columns

/-- What is asked of a mesh: `extruded`, `geometric_dimension`, `topological_dimension`, and the two dimensions of `_base_mesh`
(`none` if the attribute is missing) (core/domain.py 29-167, 201-253). -/
structure Mesh where
  extruded : Bool
  gdim : ℕ
  tdim : ℕ
  base : Option (ℕ × ℕ)

/-- `on_sphere`, core/domain.py:104-107. -/
def onSphere (m : Mesh) : Bool :=
  match m.extruded, m.base with
  | true, some (g, t) => g == 3 && t == 2
  | _, _ => m.gdim == 3 && m.tdim == 2

/-- `coords_name` of `Coordinates.__init__`, core/coordinates.py:35-57. -/
def coordsName (m : Mesh) : Except String (List String) :=
  if onSphere m then
    if m.extruded then .ok ["lon", "lat", "h"] else .ok ["lon", "lat"]
  else if m.gdim = 1 then .ok ["x"]
  else if m.gdim = 2 ∧ m.extruded then .ok ["x", "z"]
  else if m.gdim = 2 then .ok ["x", "y"]
  else if m.gdim = 3 then .ok ["x", "y", "z"]
  else .error "ValueError"

/-- `metadata['domain_type']`, core/domain.py:215-230. -/
def domainType (m : Mesh) : Except String String :=
  if onSphere m ∧ m.extruded then .ok "extruded_spherical_shell"
  else if onSphere m then .ok "spherical_shell"
  else if m.gdim = 1 ∧ m.tdim = 1 then .ok "interval"
  else if m.gdim = 2 ∧ m.tdim = 2 ∧ m.extruded then .ok "vertical_slice"
  else if m.gdim = 2 ∧ m.tdim = 2 then .ok "plane"
  else if m.gdim = 3 ∧ m.tdim = 3 ∧ m.extruded then .ok "extruded_plane"
  else .error "ValueError"

/-- `dot(self.k, x)` with the constant `self.k` of core/domain.py:126-128: UFL raises ValueError unless the lengths agree. -/
def flatVertical (m : Mesh) : Except String (List ℝ) :=
  let k := (List.replicate m.tdim (0 : ℝ)).set (m.tdim - 1) 1
  if k.length = m.gdim then .ok k else .error "ValueError"

/-- The result of a constructor, as far as it is about the geometry: the names of the coordinates (core/domain.py:151), the
vertical direction used for heights (core/domain.py:157, only for extruded meshes off the sphere), the type (core/domain.py:164). -/
structure Geometry where
  names : List String
  vertical : Option (List ℝ)
  type : String

/-- The constructor, core/domain.py:97-164, in its order. -/
noncomputable def geometry (m : Mesh) : Except String Geometry := do
  let names ← coordsName m
  let vertical ← if m.extruded ∧ ¬ onSphere m then (flatVertical m).map some else .ok none
  let type ← domainType m
  return ⟨names, vertical, type⟩

/-! ### Heights -/

/-- `self.k = grad(R)` with `R = sqrt(inner(x, x))`, core/domain.py:112-114, on a volume. -/
noncomputable def sphereVertical {n : ℕ} (x : EuclideanSpace ℝ (Fin n)) : EuclideanSpace ℝ (Fin n) :=
  gradient (fun y : EuclideanSpace ℝ (Fin n) => √(inner ℝ y y)) x

/-- `dot(self.k, x)`, core/domain.py:182, on the sphere. -/
noncomputable def sphereHeight {n : ℕ} (x : EuclideanSpace ℝ (Fin n)) : ℝ := inner ℝ (sphereVertical x) x

/-- `dot(self.k, x)`, core/domain.py:182, off the sphere. -/
def flatHeight (k x : List ℝ) : ℝ := (List.zipWith (· * ·) k x).sum

variable {K : Type} {H : Type*}

/-- `np.min(row)` of a row with `n` entries, `n` positive (numpy; core/coordinates.py 65-109). -/
def rowMin [LinearOrder K] (n : ℕ) (row : ℕ → K) : K := (List.range n).foldl (fun m l => min m (row l)) (row 0)

/-- `set_height_above_surface`, core/domain.py:184-197, after the interpolation of the heights. -/
def heightAboveSurface [AddCommGroup K] [LinearOrder H] [LinearOrder K] (round : H → H) (close : H → H → Bool) (others : Bool)
    (heights : List K) (coords : List (H × K)) : Except String (ℕ → K) := do
  let cd ← getColumnData round close others heights coords
  let surface := fun h => rowMin cd.numLevels (cd.field h)
  let data := fun h lev => cd.field h lev - surface h
  return setField cd.numHori cd.numLevels data cd.index fun _ => 0

/-! ### Extents -/

/-- `np.min`: ValueError for an empty array (numpy; core/domain.py 201-253). -/
def npMin [LinearOrder K] : List K → Except String K
  | [] => .error "ValueError"
  | a :: l => .ok (l.foldl min a)

/-- `np.max`: ValueError for an empty array (numpy; core/domain.py 201-253). -/
def npMax [LinearOrder K] : List K → Except String K
  | [] => .error "ValueError"
  | a :: l => .ok (l.foldl max a)

/-- An extent, such as core/domain.py:236-240: the argument lists the values on each rank.  An error on a rank is an error of the
program.  `allreduce` gives all ranks the same result. -/
def extent [LinearOrder K] [Sub K] (ranks : List (List K)) : Except String K := do
  let mins ← ranks.mapM npMin
  let maxs ← ranks.mapM npMax
  let lo ← npMin mins
  let hi ← npMax maxs
  return hi - lo

/-- The extents among the metadata (core/domain.py 201-253). -/
structure Extents (K : Type) where
  x : Option K
  y : Option K
  z : Option K

/-- `construct_domain_metadata`, core/domain.py:232-251, on `chi`: the component of the coordinates, the rank, the values. -/
def extents [LinearOrder K] [Sub K] (m : Mesh) (chi : List (List (List K))) : Except String (Extents K) := do
  let type ← domainType m
  let x ← if ¬ onSphere m then (extent (chi.getD 0 [])).map some else .ok none
  let y ← if ¬ onSphere m ∧ (type = "plane" ∨ type = "extruded_plane") then (extent (chi.getD 1 [])).map some else .ok none
  let z ← if m.extruded then (extent (chi.getD (chi.length - 1) [])).map some else .ok none
  return ⟨x, y, z⟩

/-! ### The radius -/

/-- The radius of a rank, core/domain.py:143-145, from the distances of the vertices of its part of the sphere. -/
def radius [LinearOrder K] (base : List K) : Except String K := npMin base

/-- `metadata['domain_extent_z']` on an extruded sphere: on each rank the distances of the vertices of the sphere and the distances
of the nodes of the extruded mesh, whose last coordinate is `r - radius` (core/coordinates.py:40). -/
def shellExtent [LinearOrder K] [Sub K] (ranks : List (List K × List K)) : Except String K := do
  let chi ← ranks.mapM fun (base, nodes) => (radius base).map fun R => nodes.map fun r => r - R
  extent chi

end Gusto.DomainGeometry
