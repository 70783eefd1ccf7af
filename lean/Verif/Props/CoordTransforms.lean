import Verif.Model.CoordTransforms
import Mathlib.Tactic.LinearCombination
import Mathlib.Tactic.FieldSimp
import Mathlib.Tactic.Linarith
import Mathlib.Tactic.NormNum
import Mathlib.Analysis.SpecialFunctions.Trigonometric.Bounds

set_option autoImplicit false
set_option linter.unusedSectionVars false
set_option linter.unusedSimpArgs false

/-! # C34-C39, C70: coordinate transforms -/

namespace Gusto.Props.CoordProps
open Gusto.Coord Real

/-! ### The arctangent of two arguments -/

theorem cnorm (x y : ℝ) : ‖(⟨x, y⟩ : ℂ)‖ = √(x ^ 2 + y ^ 2) := by
  rw [Complex.norm_def, Complex.normSq_mk]; congr 1; ring

theorem norm_cos_atan2 (x y : ℝ) : √(x ^ 2 + y ^ 2) * cos (atan2 y x) = x := by
  rw [← cnorm, atan2, Complex.norm_mul_cos_arg]

theorem norm_sin_atan2 (x y : ℝ) : √(x ^ 2 + y ^ 2) * sin (atan2 y x) = y := by
  rw [← cnorm, atan2, Complex.norm_mul_sin_arg]

theorem norm_l (x y z : ℝ) : √(√(x ^ 2 + y ^ 2) ^ 2 + z ^ 2) = √(x ^ 2 + y ^ 2 + z ^ 2) := by
  rw [sq_sqrt (by positivity)]

theorem atan2_polar {r θ : ℝ} (hr : 0 < r) (h1 : -π < θ) (h2 : θ ≤ π) :
    atan2 (r * sin θ) (r * cos θ) = θ := by
  have h := Complex.arg_mul_cos_add_sin_mul_I hr ⟨h1, h2⟩
  rw [atan2]
  refine Eq.trans (congrArg Complex.arg ?_) h
  apply Complex.ext <;> simp [Complex.cos_ofReal_re, Complex.sin_ofReal_re]

/-! ### C34 -/

/-- The Cartesian point with the given spherical coordinates in radians. -/
noncomputable def sph (lon lat r : ℝ) : V3 :=
  ⟨r * cos lon * cos lat, r * sin lon * cos lat, r * sin lat⟩

theorem lonlatr_rad (x y z : ℝ) :
    lonlatrFromXyz x y z "rad" =
      .ok (atan2 y x, atan2 z √(x ^ 2 + y ^ 2), √(x ^ 2 + y ^ 2 + z ^ 2)) := by
  simp [lonlatrFromXyz]

theorem sph_atan2 (x y z : ℝ) :
    sph (atan2 y x) (atan2 z √(x ^ 2 + y ^ 2)) √(x ^ 2 + y ^ 2 + z ^ 2) = ⟨x, y, z⟩ := by
  have h1 := norm_cos_atan2 √(x ^ 2 + y ^ 2) z
  have h2 := norm_sin_atan2 √(x ^ 2 + y ^ 2) z
  rw [norm_l] at h1 h2
  have h3 := norm_cos_atan2 x y
  have h4 := norm_sin_atan2 x y
  ext
  · show √(x ^ 2 + y ^ 2 + z ^ 2) * cos _ * cos _ = x
    calc _ = √(x ^ 2 + y ^ 2 + z ^ 2) * cos (atan2 z √(x ^ 2 + y ^ 2)) * cos (atan2 y x) := by ring
      _ = x := by rw [h1, h3]
  · show √(x ^ 2 + y ^ 2 + z ^ 2) * sin _ * cos _ = y
    calc _ = √(x ^ 2 + y ^ 2 + z ^ 2) * cos (atan2 z √(x ^ 2 + y ^ 2)) * sin (atan2 y x) := by ring
      _ = y := by rw [h1, h4]
  · exact h2

/-- **C34** (units).  Both functions accept exactly the units 'rad' and 'deg'. -/
theorem C34_units (a b c : ℝ) (units : String) :
    ((∃ v, xyzFromLonlatr a b c units = .ok v) ↔ units = "rad" ∨ units = "deg") ∧
    ((∃ v, lonlatrFromXyz a b c units = .ok v) ↔ units = "rad" ∨ units = "deg") := by
  constructor
  · unfold xyzFromLonlatr
    by_cases h1 : units = "rad" <;> by_cases h2 : units = "deg" <;> simp [h1, h2]
  · unfold lonlatrFromXyz
    by_cases h1 : units = "rad" <;> by_cases h2 : units = "deg" <;> simp [h1, h2]

/-- **C34** (Cartesian round trip).  For every point of space, including the poles and the centre, and
both units. -/
theorem C34_xyz_round_trip (x y z : ℝ) (units : String) (hu : units = "rad" ∨ units = "deg") :
    ∃ lon lat r, lonlatrFromXyz x y z units = .ok (lon, lat, r) ∧
      xyzFromLonlatr lon lat r units = .ok ⟨x, y, z⟩ := by
  have key := sph_atan2 x y z
  rcases hu with rfl | rfl
  · refine ⟨_, _, _, lonlatr_rad x y z, ?_⟩
    rw [← key]
    simp [xyzFromLonlatr, sph]
  · refine ⟨atan2 y x * (180 / π), atan2 z √(x ^ 2 + y ^ 2) * (180 / π), √(x ^ 2 + y ^ 2 + z ^ 2),
      by simp [lonlatrFromXyz], ?_⟩
    have hp : ∀ t : ℝ, t * (180 / π) * (π / 180) = t := fun t => by
      have := pi_ne_zero
      field_simp
    rw [← key]
    simp [xyzFromLonlatr, sph, hp]

theorem atan2_sph {lon lat r : ℝ} (hr : 0 < r) (h1 : -π < lon) (h2 : lon ≤ π) (h3 : -(π / 2) < lat)
    (h4 : lat < π / 2) :
    atan2 (sph lon lat r).y (sph lon lat r).x = lon ∧
    atan2 (sph lon lat r).z √((sph lon lat r).x ^ 2 + (sph lon lat r).y ^ 2) = lat ∧
    √((sph lon lat r).x ^ 2 + (sph lon lat r).y ^ 2 + (sph lon lat r).z ^ 2) = r := by
  have hc : 0 < cos lat := cos_pos_of_mem_Ioo ⟨h3, h4⟩
  have hrc : 0 < r * cos lat := mul_pos hr hc
  have e1 := sin_sq_add_cos_sq lon
  have e2 := sin_sq_add_cos_sq lat
  have hl : √((sph lon lat r).x ^ 2 + (sph lon lat r).y ^ 2) = r * cos lat := by
    rw [show (sph lon lat r).x ^ 2 + (sph lon lat r).y ^ 2 = (r * cos lat) ^ 2 by
      simp only [sph]; linear_combination (r * cos lat) ^ 2 * e1, sqrt_sq hrc.le]
  refine ⟨?_, ?_, ?_⟩
  · rw [show (sph lon lat r).y = (r * cos lat) * sin lon by simp only [sph]; ring,
      show (sph lon lat r).x = (r * cos lat) * cos lon by simp only [sph]; ring]
    exact atan2_polar hrc h1 h2
  · rw [hl]
    exact atan2_polar hr (by linarith [pi_pos]) (by linarith [pi_pos])
  · rw [show (sph lon lat r).x ^ 2 + (sph lon lat r).y ^ 2 + (sph lon lat r).z ^ 2 = r ^ 2 by
      simp only [sph]; linear_combination (r * cos lat) ^ 2 * e1 + r ^ 2 * e2, sqrt_sq hr.le]

/-- **C34** (spherical round trip).  For every positive radius, longitude in `(-180, 180]` degrees and
latitude strictly between the poles, in both units. -/
theorem C34_lonlatr_round_trip (lon lat r : ℝ) (hr : 0 < r) :
    (-π < lon → lon ≤ π → -(π / 2) < lat → lat < π / 2 →
      ∃ v, xyzFromLonlatr lon lat r "rad" = .ok v ∧
        lonlatrFromXyz v.x v.y v.z "rad" = .ok (lon, lat, r)) ∧
    (-180 < lon → lon ≤ 180 → -90 < lat → lat < 90 →
      ∃ v, xyzFromLonlatr lon lat r "deg" = .ok v ∧
        lonlatrFromXyz v.x v.y v.z "deg" = .ok (lon, lat, r)) := by
  have hpi := pi_pos
  constructor
  · intro h1 h2 h3 h4
    refine ⟨sph lon lat r, by simp [xyzFromLonlatr, sph], ?_⟩
    obtain ⟨a, b, c⟩ := atan2_sph hr h1 h2 h3 h4
    rw [lonlatr_rad, a, b, c]
  · intro h1 h2 h3 h4
    refine ⟨sph (lon * (π / 180)) (lat * (π / 180)) r, by simp [xyzFromLonlatr, sph], ?_⟩
    obtain ⟨a, b, c⟩ := atan2_sph (lon := lon * (π / 180)) (lat := lat * (π / 180)) hr
      (by nlinarith) (by nlinarith) (by nlinarith) (by nlinarith)
    have hp : ∀ t : ℝ, t * (π / 180) * (180 / π) = t := fun t => by
      have := pi_ne_zero
      field_simp
    simp only [lonlatrFromXyz]
    rw [a, b, c]
    norm_num [hp]

/-- **C34** (ranges).  The results are always in the stated ranges: longitude in `(-pi, pi]`, latitude in
`[-pi/2, pi/2]`, non-negative radius. -/
theorem C34_ranges (x y z : ℝ) : ∃ lon lat r, lonlatrFromXyz x y z "rad" = .ok (lon, lat, r) ∧
    -π < lon ∧ lon ≤ π ∧ -(π / 2) ≤ lat ∧ lat ≤ π / 2 ∧ 0 ≤ r := by
  refine ⟨_, _, _, lonlatr_rad x y z, Complex.neg_pi_lt_arg _, Complex.arg_le_pi _, ?_, ?_,
    sqrt_nonneg _⟩
  · exact (abs_le.mp (Complex.abs_arg_le_pi_div_two_iff.mpr (sqrt_nonneg _))).1
  · exact (abs_le.mp (Complex.abs_arg_le_pi_div_two_iff.mpr (sqrt_nonneg _))).2

example : (-180 : ℝ) < 180 ∧ (180 : ℝ) ≤ 180 ∧ (-90 : ℝ) < -60 ∧ (-60 : ℝ) < 90 := by norm_num

/-! ### C35 -/

/-- Accepted position units. -/
def PosUnits (u : String) : Prop := u = "xyz" ∨ u = "lonlatr_rad" ∨ u = "lonlatr_deg"

theorem position_ok (pos : V3) (u : String) :
    (∃ lon lat, positionLonLat pos u = .ok (lon, lat)) ↔ PosUnits u := by
  unfold positionLonLat PosUnits
  by_cases h1 : u = "xyz"
  · subst h1; simp [lonlatr_rad]
  · by_cases h2 : u = "lonlatr_rad" <;> by_cases h3 : u = "lonlatr_deg" <;> simp [h1, h2, h3]

/-- **C35** (units).  The transforms succeed exactly for the three documented position units. -/
theorem C35_units (a b c : ℝ) (v pos : V3) (u : String) :
    ((∃ w, xyzVectorFromLonlatr a b c pos u = .ok w) ↔ PosUnits u) ∧
    ((∃ w, lonlatrComponentsFromXyz v pos u = .ok w) ↔ PosUnits u) := by
  rw [← position_ok pos u]
  unfold xyzVectorFromLonlatr lonlatrComponentsFromXyz
  cases h : positionLonLat pos u with
  | error e => simp
  | ok q => simp; exact ⟨q.1, q.2, rfl⟩

/-- **C35** (inverse, spherical first).  For every vector, position and unit. -/
theorem C35_inverse (a b c : ℝ) (pos : V3) (u : String) (hu : PosUnits u) :
    ∃ w, xyzVectorFromLonlatr a b c pos u = .ok w ∧
      lonlatrComponentsFromXyz w pos u = .ok (a, b, c) := by
  obtain ⟨lon, lat, h⟩ := (position_ok pos u).mpr hu
  unfold xyzVectorFromLonlatr lonlatrComponentsFromXyz
  rw [h]
  refine ⟨_, rfl, ?_⟩
  have e1 := sin_sq_add_cos_sq lon
  have e2 := sin_sq_add_cos_sq lat
  simp only [Except.ok.injEq, Prod.mk.injEq]
  refine ⟨?_, ?_, ?_⟩
  · linear_combination a * e1
  · linear_combination (sin lat ^ 2 * b - sin lat * cos lat * c) * e1 + b * e2
  · linear_combination (cos lat ^ 2 * c - sin lat * cos lat * b) * e1 + c * e2

/-- **C35** (inverse, Cartesian first). -/
theorem C35_inverse' (v pos : V3) (u : String) (hu : PosUnits u) :
    ∃ a b c, lonlatrComponentsFromXyz v pos u = .ok (a, b, c) ∧
      xyzVectorFromLonlatr a b c pos u = .ok v := by
  obtain ⟨lon, lat, h⟩ := (position_ok pos u).mpr hu
  unfold xyzVectorFromLonlatr lonlatrComponentsFromXyz
  rw [h]
  refine ⟨_, _, _, rfl, ?_⟩
  have e1 := sin_sq_add_cos_sq lon
  have e2 := sin_sq_add_cos_sq lat
  simp only [Except.ok.injEq]
  ext
  · show _ = v.x
    linear_combination (cos lon ^ 2 * v.x + cos lon * sin lon * v.y) * e2 + v.x * e1
  · show _ = v.y
    linear_combination (sin lon ^ 2 * v.y + cos lon * sin lon * v.x) * e2 + v.y * e1
  · show _ = v.z
    linear_combination v.z * e2

/-- **C35** (isometry).  Dot products are preserved. -/
theorem C35_isometry (v w pos : V3) (u : String) (hu : PosUnits u) :
    ∃ a b c a' b' c', lonlatrComponentsFromXyz v pos u = .ok (a, b, c) ∧
      lonlatrComponentsFromXyz w pos u = .ok (a', b', c') ∧
      a * a' + b * b' + c * c' = V3.dot v w := by
  obtain ⟨lon, lat, h⟩ := (position_ok pos u).mpr hu
  unfold lonlatrComponentsFromXyz
  rw [h]
  refine ⟨_, _, _, _, _, _, rfl, rfl, ?_⟩
  have e1 := sin_sq_add_cos_sq lon
  have e2 := sin_sq_add_cos_sq lat
  simp only [V3.dot]
  linear_combination (v.x * w.x + v.y * w.y) * e1 +
    ((cos lon * v.x + sin lon * v.y) * (cos lon * w.x + sin lon * w.y) + v.z * w.z) * e2

theorem cos_sin_atan2 {r θ : ℝ} (hr : 0 < r) :
    cos (atan2 (r * sin θ) (r * cos θ)) = cos θ ∧ sin (atan2 (r * sin θ) (r * cos θ)) = sin θ := by
  have h1 := norm_cos_atan2 (r * cos θ) (r * sin θ)
  have h2 := norm_sin_atan2 (r * cos θ) (r * sin θ)
  have e := sin_sq_add_cos_sq θ
  rw [show (r * cos θ) ^ 2 + (r * sin θ) ^ 2 = r ^ 2 by linear_combination r ^ 2 * e,
    sqrt_sq hr.le] at h1 h2
  exact ⟨mul_left_cancel₀ hr.ne' h1, mul_left_cancel₀ hr.ne' h2⟩

theorem cos_sin_sph {lon lat r : ℝ} (hr : 0 < r) (h3 : 0 < cos lat) :
    cos (atan2 (sph lon lat r).y (sph lon lat r).x) = cos lon ∧
    sin (atan2 (sph lon lat r).y (sph lon lat r).x) = sin lon ∧
    cos (atan2 (sph lon lat r).z √((sph lon lat r).x ^ 2 + (sph lon lat r).y ^ 2)) = cos lat ∧
    sin (atan2 (sph lon lat r).z √((sph lon lat r).x ^ 2 + (sph lon lat r).y ^ 2)) = sin lat := by
  have hrc : 0 < r * cos lat := mul_pos hr h3
  have e1 := sin_sq_add_cos_sq lon
  have hl : √((sph lon lat r).x ^ 2 + (sph lon lat r).y ^ 2) = r * cos lat := by
    rw [show (sph lon lat r).x ^ 2 + (sph lon lat r).y ^ 2 = (r * cos lat) ^ 2 by
      simp only [sph]; linear_combination (r * cos lat) ^ 2 * e1, sqrt_sq hrc.le]
  have hy : (sph lon lat r).y = (r * cos lat) * sin lon := by simp only [sph]; ring
  have hx : (sph lon lat r).x = (r * cos lat) * cos lon := by simp only [sph]; ring
  refine ⟨?_, ?_, ?_, ?_⟩
  · rw [hy, hx]; exact (cos_sin_atan2 hrc).1
  · rw [hy, hx]; exact (cos_sin_atan2 hrc).2
  · rw [hl]; exact (cos_sin_atan2 hr).1
  · rw [hl]; exact (cos_sin_atan2 hr).2

/-- **C35** (the position units agree).  For the same position, away from the poles and the centre, the
three ways of giving the position lead to the same vector and the same components (for every
longitude, not only in `(-pi, pi]`). -/
theorem C35_options_agree (a b c lon lat r : ℝ) (v : V3) (hr : 0 < r) (h1 : -(π / 2) < lat)
    (h2 : lat < π / 2) :
    (xyzVectorFromLonlatr a b c (sph lon lat r) "xyz" =
        xyzVectorFromLonlatr a b c ⟨lon, lat, r⟩ "lonlatr_rad" ∧
      xyzVectorFromLonlatr a b c ⟨lon * 180 / π, lat * 180 / π, r⟩ "lonlatr_deg" =
        xyzVectorFromLonlatr a b c ⟨lon, lat, r⟩ "lonlatr_rad") ∧
    (lonlatrComponentsFromXyz v (sph lon lat r) "xyz" =
        lonlatrComponentsFromXyz v ⟨lon, lat, r⟩ "lonlatr_rad" ∧
      lonlatrComponentsFromXyz v ⟨lon * 180 / π, lat * 180 / π, r⟩ "lonlatr_deg" =
        lonlatrComponentsFromXyz v ⟨lon, lat, r⟩ "lonlatr_rad") := by
  obtain ⟨c1, s1, c2, s2⟩ := cos_sin_sph (lon := lon) hr (cos_pos_of_mem_Ioo ⟨h1, h2⟩)
  have hp : ∀ t : ℝ, t * 180 / π * π / 180 = t := fun t => by
    have := pi_ne_zero
    field_simp
  have p1 : positionLonLat (sph lon lat r) "xyz" =
      .ok (atan2 (sph lon lat r).y (sph lon lat r).x,
        atan2 (sph lon lat r).z √((sph lon lat r).x ^ 2 + (sph lon lat r).y ^ 2)) := by
    simp [positionLonLat, lonlatr_rad]
  have p2 : positionLonLat ⟨lon, lat, r⟩ "lonlatr_rad" = .ok (lon, lat) := by simp [positionLonLat]
  have p3 : positionLonLat ⟨lon * 180 / π, lat * 180 / π, r⟩ "lonlatr_deg" = .ok (lon, lat) := by
    simp [positionLonLat, hp]
  unfold xyzVectorFromLonlatr lonlatrComponentsFromXyz
  rw [p1, p2, p3]
  simp only [c1, s1, c2, s2, and_self]

/-! ### C36 -/

/-- The unit of length one. -/
def Unit' (k : V3) : Prop := V3.dot k k = 1

/-- **C36** (isometry).  Rotation about a unit axis preserves all dot products. -/
theorem C36_isometry (k v w : V3) (hk : Unit' k) (t : ℝ) :
    V3.dot (rodrigues v k t) (rodrigues w k t) = V3.dot v w := by
  have e := sin_sq_add_cos_sq t
  unfold Unit' at hk
  simp only [rodrigues, V3.dot, V3.add, V3.smul, V3.cross] at hk ⊢
  linear_combination
    (sin t ^ 2 * (v.x * w.x + v.y * w.y + v.z * w.z) + (1 - cos t) ^ 2 *
      (k.x * v.x + k.y * v.y + k.z * v.z) * (k.x * w.x + k.y * w.y + k.z * w.z)) * hk +
    ((v.x * w.x + v.y * w.y + v.z * w.z) -
      (k.x * v.x + k.y * v.y + k.z * v.z) * (k.x * w.x + k.y * w.y + k.z * w.z)) * e

/-- **C36** (orientation).  Rotation about a unit axis preserves cross products. -/
theorem C36_orientation (k v w : V3) (hk : Unit' k) (t : ℝ) :
    V3.cross (rodrigues v k t) (rodrigues w k t) = rodrigues (V3.cross v w) k t := by
  have e := sin_sq_add_cos_sq t
  unfold Unit' at hk
  simp only [rodrigues, V3.dot, V3.add, V3.smul, V3.cross] at hk ⊢
  ext
  · dsimp only
    linear_combination (cos t * (1 - cos t) * (v.y * w.z - v.z * w.y) + sin t * (1 - cos t) *
        (k.y * (v.x * w.y - v.y * w.x) - k.z * (v.z * w.x - v.x * w.z))) * hk +
      k.x * (k.x * (v.y * w.z - v.z * w.y) + k.y * (v.z * w.x - v.x * w.z)
        + k.z * (v.x * w.y - v.y * w.x)) * e
  · dsimp only
    linear_combination (cos t * (1 - cos t) * (v.z * w.x - v.x * w.z) + sin t * (1 - cos t) *
        (k.z * (v.y * w.z - v.z * w.y) - k.x * (v.x * w.y - v.y * w.x))) * hk +
      k.y * (k.x * (v.y * w.z - v.z * w.y) + k.y * (v.z * w.x - v.x * w.z)
        + k.z * (v.x * w.y - v.y * w.x)) * e
  · dsimp only
    linear_combination (cos t * (1 - cos t) * (v.x * w.y - v.y * w.x) + sin t * (1 - cos t) *
        (k.x * (v.z * w.x - v.x * w.z) - k.y * (v.y * w.z - v.z * w.y))) * hk +
      k.z * (k.x * (v.y * w.z - v.z * w.y) + k.y * (v.z * w.x - v.x * w.z)
        + k.z * (v.x * w.y - v.y * w.x)) * e

/-- **C36** (axis).  The axis is fixed. -/
theorem C36_axis (k : V3) (hk : Unit' k) (t : ℝ) : rodrigues k k t = k := by
  unfold Unit' at hk
  simp only [rodrigues, V3.dot, V3.add, V3.smul, V3.cross] at hk ⊢
  ext
  · show _ = k.x
    linear_combination k.x * (1 - cos t) * hk
  · show _ = k.y
    linear_combination k.y * (1 - cos t) * hk
  · show _ = k.z
    linear_combination k.z * (1 - cos t) * hk

/-- **C36** (composition).  Rotations about one axis compose by adding the angles. -/
theorem C36_compose (k v : V3) (hk : Unit' k) (s t : ℝ) :
    rodrigues (rodrigues v k t) k s = rodrigues v k (s + t) := by
  unfold Unit' at hk
  simp only [rodrigues, V3.dot, V3.add, V3.smul, V3.cross, cos_add, sin_add] at hk ⊢
  ext
  · dsimp only
    linear_combination (-sin s * sin t * v.x + (1 - cos s) * (1 - cos t) *
      (k.x * v.x + k.y * v.y + k.z * v.z) * k.x) * hk
  · dsimp only
    linear_combination (-sin s * sin t * v.y + (1 - cos s) * (1 - cos t) *
      (k.x * v.x + k.y * v.y + k.z * v.z) * k.y) * hk
  · dsimp only
    linear_combination (-sin s * sin t * v.z + (1 - cos s) * (1 - cos t) *
      (k.x * v.x + k.y * v.y + k.z * v.z) * k.z) * hk

theorem rodrigues_zero (k v : V3) : rodrigues v k 0 = v := by
  ext <;> simp [rodrigues, V3.dot, V3.add, V3.smul, V3.cross]

/-- **C36** (inverse).  Rotation by the opposite angle undoes a rotation, in both orders. -/
theorem C36_inverse (k v : V3) (hk : Unit' k) (t : ℝ) :
    rodrigues (rodrigues v k t) k (-t) = v ∧ rodrigues (rodrigues v k (-t)) k t = v := by
  rw [C36_compose k v hk, C36_compose k v hk]
  simp [rodrigues_zero]

/-- The axis and angle of `pole_rotation`. -/
theorem poleRotation_eq (lon lat : ℝ) :
    poleRotation lon lat = .ok (⟨-sin lon, cos lon, 0⟩, π / 2 - lat) := by
  simp [poleRotation, xyzVectorFromLonlatr, positionLonLat, cos_add_pi_div_two, sin_add_pi_div_two]

/-- **C36** (pole).  `pole_rotation` returns a unit axis and an angle such that the rotation carries the
north pole to the point with longitude `lon` and latitude `lat`, for all angles. -/
theorem C36_pole (lon lat : ℝ) :
    ∃ axis angle, poleRotation lon lat = .ok (axis, angle) ∧ Unit' axis ∧
      rodrigues ⟨0, 0, 1⟩ axis angle = sph lon lat 1 := by
  refine ⟨_, _, poleRotation_eq lon lat, ?_, ?_⟩
  · simp only [Unit', V3.dot]
    linear_combination sin_sq_add_cos_sq lon
  · ext <;> simp [rodrigues, V3.dot, V3.add, V3.smul, V3.cross, sph, cos_pi_div_two_sub,
      sin_pi_div_two_sub, mul_comm]

example : Unit' ⟨3 / 5, 0, 4 / 5⟩ := by simp only [Unit', V3.dot]; norm_num

/-! ### C37 -/

/-- The rotation of `rotated_lonlatr_coords`. -/
noncomputable def poleR (lon lat : ℝ) (v : V3) : V3 :=
  rodrigues v ⟨-sin lon, cos lon, 0⟩ (π / 2 - lat)

theorem rotated_eq (lon lat : ℝ) (v : V3) :
    rotatedLonlatrCoords v lon lat =
      lonlatrFromXyz (poleR lon lat v).x (poleR lon lat v).y (poleR lon lat v).z "rad" := by
  simp only [rotatedLonlatrCoords, poleRotation_eq, poleR]

theorem poleAxis_unit (lon : ℝ) : Unit' ⟨-sin lon, cos lon, 0⟩ := by
  simp only [Unit', V3.dot]; linear_combination sin_sq_add_cos_sq lon

theorem poleR_actual (lon lat r : ℝ) : poleR lon lat (sph (lon + π) lat r) = ⟨0, 0, r⟩ := by
  have e1 := sin_sq_add_cos_sq lon
  have e2 := sin_sq_add_cos_sq lat
  simp only [poleR, rodrigues, V3.dot, V3.add, V3.smul, V3.cross, sph, cos_pi_div_two_sub,
    sin_pi_div_two_sub, cos_add_pi, sin_add_pi]
  ext
  · dsimp only; ring
  · dsimp only; ring
  · dsimp only; linear_combination r * cos lat ^ 2 * e1 + r * e2

theorem poleR_requested (lon lat r : ℝ) :
    poleR lon lat (sph lon lat r) =
      ⟨r * sin (2 * lat) * cos lon, r * sin (2 * lat) * sin lon, -(r * cos (2 * lat))⟩ := by
  have e1 := sin_sq_add_cos_sq lon
  have e2 := sin_sq_add_cos_sq lat
  simp only [poleR, rodrigues, V3.dot, V3.add, V3.smul, V3.cross, sph, cos_pi_div_two_sub,
    sin_pi_div_two_sub, sin_two_mul, cos_two_mul]
  ext
  · dsimp only; ring
  · dsimp only; ring
  · dsimp only; linear_combination -r * cos lat ^ 2 * e1 + r * e2

/-- **C37** (actual pole).  The new latitude is 90 degrees at the point whose original longitude is
`lon + 180` degrees and latitude is `lat`, not at `new_pole = (lon, lat)`. -/
theorem C37_actual_pole (lon lat r : ℝ) (hr : 0 < r) :
    ∃ l, rotatedLonlatrCoords (sph (lon + π) lat r) lon lat = .ok (l, π / 2, r) := by
  rw [rotated_eq, poleR_actual, lonlatr_rad]
  refine ⟨atan2 0 0, ?_⟩
  have h1 : √((0 : ℝ) ^ 2 + 0 ^ 2) = 0 := by simp
  have h2 : √((0 : ℝ) ^ 2 + 0 ^ 2 + r ^ 2) = r := by simp [sqrt_sq hr.le]
  dsimp only
  rw [h1, h2, show atan2 r 0 = π / 2 from Complex.arg_eq_pi_div_two_iff.mpr ⟨rfl, hr⟩]

theorem atan2_range (z l : ℝ) (hl : 0 ≤ l) : -(π / 2) ≤ atan2 z l ∧ atan2 z l ≤ π / 2 :=
  abs_le.mp (Complex.abs_arg_le_pi_div_two_iff.mpr hl)

/-- **C37** (refuted).  For every requested pole, the sine of the new latitude of the requested point is
`-cos(2 lat)`.  It is 90 degrees only if the requested pole is one of the geographic ones; for a pole on
the equator it is -90 degrees. -/
theorem C37_refuted (lon lat r : ℝ) (hr : 0 < r) :
    ∃ l lat', rotatedLonlatrCoords (sph lon lat r) lon lat = .ok (l, lat', r) ∧
      sin lat' = -cos (2 * lat) ∧ (lat' = π / 2 ↔ cos lat = 0) ∧
      (lat = 0 → lat' = -(π / 2)) := by
  rw [rotated_eq, poleR_requested, lonlatr_rad]
  dsimp only
  set X := r * sin (2 * lat) * cos lon with hX
  set Y := r * sin (2 * lat) * sin lon with hY
  set Z := -(r * cos (2 * lat)) with hZ
  have e1 := sin_sq_add_cos_sq lon
  have e2 := sin_sq_add_cos_sq (2 * lat)
  have hrr : √(X ^ 2 + Y ^ 2 + Z ^ 2) = r := by
    rw [show X ^ 2 + Y ^ 2 + Z ^ 2 = r ^ 2 by
      rw [hX, hY, hZ]; linear_combination (r * sin (2 * lat)) ^ 2 * e1 + r ^ 2 * e2, sqrt_sq hr.le]
  have hs : sin (atan2 Z √(X ^ 2 + Y ^ 2)) = -cos (2 * lat) := by
    have := norm_sin_atan2 √(X ^ 2 + Y ^ 2) Z
    rw [norm_l, hrr] at this
    apply mul_left_cancel₀ hr.ne'
    rw [this, hZ]; ring
  obtain ⟨b1, b2⟩ := atan2_range Z _ (sqrt_nonneg (X ^ 2 + Y ^ 2))
  have harc := arcsin_sin b1 b2
  refine ⟨_, _, by rw [hrr], hs, ?_, ?_⟩
  · constructor
    · intro h
      rw [h, sin_pi_div_two, cos_two_mul] at hs
      have : cos lat ^ 2 = 0 := by linarith
      simpa using this
    · intro h
      rw [← harc, hs, cos_two_mul, h]
      norm_num
  · intro h
    rw [← harc, hs, h]
    norm_num

/-- **C37** (what holds).  The rotated coordinates have the same radius, and they are the coordinates
of the rotated point, so that distances are kept: the map is a rotation of the sphere carrying the
point `(lon + 180, lat)` to the new north pole. -/
theorem C37_rotation (lon lat : ℝ) (v w : V3) :
    (∃ l l' r, rotatedLonlatrCoords v lon lat = .ok (l, l', r) ∧ r = √(V3.dot v v) ∧
      sph l l' r = poleR lon lat v) ∧
    V3.dot (poleR lon lat v) (poleR lon lat w) = V3.dot v w ∧
    V3.cross (poleR lon lat v) (poleR lon lat w) = poleR lon lat (V3.cross v w) ∧
    poleR lon lat (sph (lon + π) lat 1) = ⟨0, 0, 1⟩ := by
  have hiso := C36_isometry _ v v (poleAxis_unit lon) (π / 2 - lat)
  refine ⟨⟨_, _, _, (rotated_eq lon lat v).trans (lonlatr_rad _ _ _), ?_,
    sph_atan2 (poleR lon lat v).x (poleR lon lat v).y (poleR lon lat v).z⟩,
    C36_isometry _ v w (poleAxis_unit lon) _, C36_orientation _ v w (poleAxis_unit lon) _,
    poleR_actual lon lat 1⟩
  rw [← hiso]
  congr 1
  show _ = (poleR lon lat v).x * (poleR lon lat v).x + (poleR lon lat v).y * (poleR lon lat v).y
    + (poleR lon lat v).z * (poleR lon lat v).z
  ring

/-! ### C70 -/

theorem xyzVec_xyz (a b c : ℝ) (p : V3) :
    xyzVectorFromLonlatr a b c p "xyz" =
      xyzVectorFromLonlatr a b c ⟨atan2 p.y p.x, atan2 p.z √(p.x ^ 2 + p.y ^ 2), 1⟩ "lonlatr_rad" := by
  simp [xyzVectorFromLonlatr, positionLonLat, lonlatr_rad]

/-- The local unit vectors at a position in radians. -/
noncomputable def eLon (lon : ℝ) : V3 := ⟨-sin lon, cos lon, 0⟩
/-- Northward. -/
noncomputable def eLat (lon lat : ℝ) : V3 := ⟨-(cos lon * sin lat), -(sin lon * sin lat), cos lat⟩

theorem eBasis (lon lat : ℝ) :
    V3.dot (eLon lon) (eLon lon) = 1 ∧ V3.dot (eLat lon lat) (eLat lon lat) = 1 ∧
    V3.dot (sph lon lat 1) (sph lon lat 1) = 1 ∧ V3.dot (eLon lon) (eLat lon lat) = 0 ∧
    V3.cross (eLon lon) (eLat lon lat) = sph lon lat 1 := by
  have e1 := sin_sq_add_cos_sq lon
  have e2 := sin_sq_add_cos_sq lat
  refine ⟨?_, ?_, ?_, ?_, ?_⟩
  · simp only [V3.dot, eLon]; linear_combination e1
  · simp only [V3.dot, eLat]; linear_combination sin lat ^ 2 * e1 + e2
  · simp only [V3.dot, sph]; linear_combination cos lat ^ 2 * e1 + e2
  · simp only [V3.dot, eLon, eLat]; ring
  · simp only [V3.cross, eLon, eLat, sph]
    ext
    · dsimp only; ring
    · dsimp only; ring
    · dsimp only; linear_combination sin lat * e1

theorem vec_basis (p : V3) :
    xyzVectorFromLonlatr 1 0 0 p "xyz" = .ok (eLon (atan2 p.y p.x)) ∧
    xyzVectorFromLonlatr 0 1 0 p "xyz" = .ok (eLat (atan2 p.y p.x) (atan2 p.z √(p.x ^ 2 + p.y ^ 2))) ∧
    xyzVectorFromLonlatr 0 0 1 p "xyz" =
      .ok (sph (atan2 p.y p.x) (atan2 p.z √(p.x ^ 2 + p.y ^ 2)) 1) := by
  simp [xyzVectorFromLonlatr, positionLonLat, lonlatr_rad, eLon, eLat, sph]

theorem normalise_unit (v : V3) (h : Unit' v) : normalise v = v := by
  unfold Unit' at h
  simp [normalise, h, V3.smul]

theorem rodrigues_smul (c : ℝ) (v k : V3) (t : ℝ) :
    rodrigues (V3.smul c v) k t = V3.smul c (rodrigues v k t) := by
  simp only [rodrigues, V3.dot, V3.add, V3.smul, V3.cross]
  ext <;> dsimp only <;> ring

/-- The inverse of the rotation. -/
noncomputable def poleRinv (lon lat : ℝ) (v : V3) : V3 :=
  rodrigues v ⟨-sin lon, cos lon, 0⟩ (-(π / 2 - lat))

/-- The radial unit vector. -/
theorem sph_radial (p : V3) (hp : p ≠ ⟨0, 0, 0⟩) :
    sph (atan2 p.y p.x) (atan2 p.z √(p.x ^ 2 + p.y ^ 2)) 1 = V3.smul (1 / √(V3.dot p p)) p := by
  have hd : V3.dot p p = p.x ^ 2 + p.y ^ 2 + p.z ^ 2 := by simp only [V3.dot]; ring
  have hpos : 0 < √(p.x ^ 2 + p.y ^ 2 + p.z ^ 2) := by
    apply sqrt_pos.mpr
    rcases lt_or_eq_of_le (show 0 ≤ p.x ^ 2 + p.y ^ 2 + p.z ^ 2 by positivity) with h | h
    · exact h
    · exfalso
      apply hp
      ext
      · nlinarith [sq_nonneg p.x, sq_nonneg p.y, sq_nonneg p.z]
      · nlinarith [sq_nonneg p.x, sq_nonneg p.y, sq_nonneg p.z]
      · nlinarith [sq_nonneg p.x, sq_nonneg p.y, sq_nonneg p.z]
  have h := sph_atan2 p.x p.y p.z
  rw [hd]
  have hx := congrArg V3.x h
  have hy := congrArg V3.y h
  have hz := congrArg V3.z h
  simp only [sph] at hx hy hz
  simp only [sph, V3.smul]
  ext
  · dsimp only; rw [eq_comm, one_div, inv_mul_eq_iff_eq_mul₀ hpos.ne']; linarith
  · dsimp only; rw [eq_comm, one_div, inv_mul_eq_iff_eq_mul₀ hpos.ne']; linarith
  · dsimp only; rw [eq_comm, one_div, inv_mul_eq_iff_eq_mul₀ hpos.ne']; linarith

theorem vectors_eq (xyz : V3) (lon lat : ℝ) :
    rotatedLonlatrVectors xyz lon lat =
      .ok (poleRinv lon lat (eLon (atan2 (poleR lon lat xyz).y (poleR lon lat xyz).x)),
        poleRinv lon lat (eLat (atan2 (poleR lon lat xyz).y (poleR lon lat xyz).x)
          (atan2 (poleR lon lat xyz).z √((poleR lon lat xyz).x ^ 2 + (poleR lon lat xyz).y ^ 2))),
        sph (atan2 xyz.y xyz.x) (atan2 xyz.z √(xyz.x ^ 2 + xyz.y ^ 2)) 1) := by
  have hu := poleAxis_unit lon
  simp only [rotatedLonlatrVectors, poleRotation_eq, (vec_basis _).1, (vec_basis _).2.1,
    (vec_basis _).2.2]
  rw [normalise_unit, normalise_unit, normalise_unit]
  · rfl
  · exact (eBasis _ _).2.2.1
  · exact (C36_isometry _ _ _ hu _).trans (eBasis _ _).2.1
  · exact (C36_isometry _ _ _ hu _).trans (eBasis _ 0).1

/-- **C70** (basis).  At every point but the centre and for every pole, the three rotated basis vectors
are orthonormal and right-handed, and the third is the unit vector of the position. -/
theorem C70_orthonormal (xyz : V3) (hx : xyz ≠ ⟨0, 0, 0⟩) (lon lat : ℝ) :
    ∃ e1 e2 e3, rotatedLonlatrVectors xyz lon lat = .ok (e1, e2, e3) ∧
      V3.dot e1 e1 = 1 ∧ V3.dot e2 e2 = 1 ∧ V3.dot e3 e3 = 1 ∧ V3.dot e1 e2 = 0 ∧
      V3.cross e1 e2 = e3 ∧ e3 = V3.smul (1 / √(V3.dot xyz xyz)) xyz := by
  have hu := poleAxis_unit lon
  have hne : poleR lon lat xyz ≠ ⟨0, 0, 0⟩ := by
    intro h
    apply hx
    have := (C36_inverse _ xyz hu (π / 2 - lat)).1
    rw [show rodrigues xyz ⟨-sin lon, cos lon, 0⟩ (π / 2 - lat) = poleR lon lat xyz from rfl, h] at this
    rw [← this]
    ext <;> simp [rodrigues, V3.dot, V3.add, V3.smul, V3.cross]
  refine ⟨_, _, _, vectors_eq xyz lon lat, (C36_isometry _ _ _ hu _).trans (eBasis _ 0).1,
    (C36_isometry _ _ _ hu _).trans (eBasis _ _).2.1, (eBasis _ _).2.2.1,
    (C36_isometry _ _ _ hu _).trans (eBasis _ _).2.2.2.1, ?_, sph_radial xyz hx⟩
  refine (C36_orientation _ _ _ hu _).trans ?_
  rw [(eBasis _ _).2.2.2.2, sph_radial _ hne, sph_radial _ hx]
  rw [show V3.dot (poleR lon lat xyz) (poleR lon lat xyz) = V3.dot xyz xyz from
    C36_isometry _ _ _ hu _, rodrigues_smul]
  congr 1
  exact (C36_inverse _ xyz hu (π / 2 - lat)).1

/-- **C70** (components).  The components of a vector along the rotated basis are the zonal, meridional
components of the rotated vector at the rotated position, and the radial component. -/
theorem C70_components (xyz w : V3) (lon lat : ℝ) :
    ∃ e1 e2 e3 a b c, rotatedLonlatrVectors xyz lon lat = .ok (e1, e2, e3) ∧
      lonlatrComponentsFromXyz (poleR lon lat w) (poleR lon lat xyz) "xyz" = .ok (a, b, c) ∧
      V3.dot w e1 = a ∧ V3.dot w e2 = b := by
  have hu := poleAxis_unit lon
  have key : ∀ e, V3.dot w (poleRinv lon lat e) = V3.dot (poleR lon lat w) e := fun e => by
    have h1 := C36_isometry _ w (poleRinv lon lat e) hu (π / 2 - lat)
    have h2 := (C36_inverse _ e hu (π / 2 - lat)).2
    rw [show rodrigues (poleRinv lon lat e) ⟨-sin lon, cos lon, 0⟩ (π / 2 - lat) = e from h2] at h1
    exact h1.symm
  have hc : lonlatrComponentsFromXyz (poleR lon lat w) (poleR lon lat xyz) "xyz" =
      .ok (V3.dot (poleR lon lat w) (eLon (atan2 (poleR lon lat xyz).y (poleR lon lat xyz).x)),
        V3.dot (poleR lon lat w) (eLat (atan2 (poleR lon lat xyz).y (poleR lon lat xyz).x)
          (atan2 (poleR lon lat xyz).z √((poleR lon lat xyz).x ^ 2 + (poleR lon lat xyz).y ^ 2))),
        V3.dot (poleR lon lat w) (sph (atan2 (poleR lon lat xyz).y (poleR lon lat xyz).x)
          (atan2 (poleR lon lat xyz).z √((poleR lon lat xyz).x ^ 2 + (poleR lon lat xyz).y ^ 2)) 1)) := by
    simp only [lonlatrComponentsFromXyz, positionLonLat, lonlatr_rad]
    simp only [ne_eq, not_true_eq_false, false_and, if_false, if_true, Except.ok.injEq, Prod.mk.injEq]
    refine ⟨?_, ?_, ?_⟩ <;> simp only [V3.dot, eLon, eLat, sph] <;> ring
  exact ⟨_, _, _, _, _, _, vectors_eq xyz lon lat, hc, key _, key _⟩

/-- **C70** (directions).  The zonal vector is orthogonal to the pole and the meridional vector does not
point away from it, where the pole is the point `(lon + 180, lat)`. -/
theorem C70_pole_direction (xyz : V3) (lon lat : ℝ) :
    ∃ e1 e2 e3, rotatedLonlatrVectors xyz lon lat = .ok (e1, e2, e3) ∧
      V3.dot (sph (lon + π) lat 1) e1 = 0 ∧ 0 ≤ V3.dot (sph (lon + π) lat 1) e2 := by
  have hu := poleAxis_unit lon
  have key : ∀ e, V3.dot (sph (lon + π) lat 1) (poleRinv lon lat e) = e.z := fun e => by
    have h1 := C36_isometry _ (sph (lon + π) lat 1) (poleRinv lon lat e) hu (π / 2 - lat)
    have h2 := (C36_inverse _ e hu (π / 2 - lat)).2
    rw [show rodrigues (poleRinv lon lat e) ⟨-sin lon, cos lon, 0⟩ (π / 2 - lat) = e from h2,
      show rodrigues (sph (lon + π) lat 1) ⟨-sin lon, cos lon, 0⟩ (π / 2 - lat) = ⟨0, 0, 1⟩ from
        poleR_actual lon lat 1] at h1
    rw [← h1]; simp [V3.dot]
  refine ⟨_, _, _, vectors_eq xyz lon lat, ?_, ?_⟩
  · rw [key]; rfl
  · rw [key]
    obtain ⟨b1, b2⟩ := atan2_range (poleR lon lat xyz).z _
      (sqrt_nonneg ((poleR lon lat xyz).x ^ 2 + (poleR lon lat xyz).y ^ 2))
    exact cos_nonneg_of_neg_pi_div_two_le_of_le b1 b2

/-- **C70** (refuted part).  With the new pole requested on the equator at longitude 0, the meridional
vector at the old north pole points exactly away from the requested pole. -/
theorem C70_pole_refuted :
    ∃ e1 e2 e3, rotatedLonlatrVectors ⟨0, 0, 1⟩ 0 0 = .ok (e1, e2, e3) ∧
      V3.dot (sph 0 0 1) e2 = -1 := by
  refine ⟨_, _, _, vectors_eq _ 0 0, ?_⟩
  have hR : poleR 0 0 ⟨0, 0, 1⟩ = ⟨1, 0, 0⟩ := by
    ext <;> simp [poleR, rodrigues, V3.dot, V3.add, V3.smul, V3.cross]
  rw [hR]
  have h1 : atan2 0 1 = 0 := by
    have := atan2_polar (r := 1) (θ := 0) one_pos (by linarith [pi_pos]) pi_pos.le
    simpa using this
  have h2 : √((1 : ℝ) ^ 2 + 0 ^ 2) = 1 := by norm_num
  dsimp only
  rw [h2, h1]
  simp [poleRinv, rodrigues, V3.dot, V3.add, V3.smul, V3.cross, eLat, sph]

/-! ### C38 -/

/-- **C38** (congruence and range).  For points of the interval, the result is congruent to `x1 - x2`
modulo the period and has absolute value at most half a period. -/
theorem C38_shortest (x1 x2 a b : ℝ) (h1 : a ≤ x1) (h1' : x1 ≤ b) (h2 : a ≤ x2) (h2' : x2 ≤ b) :
    (∃ n : ℤ, periodicDistance x1 x2 b a = x1 - x2 + n * (b - a)) ∧
    |periodicDistance x1 x2 b a| ≤ (b - a) / 2 ∧
    (∀ n : ℤ, |periodicDistance x1 x2 b a| ≤ |x1 - x2 + n * (b - a)|) := by
  have key : (∃ n : ℤ, periodicDistance x1 x2 b a = x1 - x2 + n * (b - a)) ∧
      |periodicDistance x1 x2 b a| ≤ (b - a) / 2 := by
    simp only [periodicDistance]
    split
    · refine ⟨⟨-1, by push_cast; ring⟩, ?_⟩
      rw [abs_le]; constructor <;> linarith
    · split
      · refine ⟨⟨1, by push_cast; ring⟩, ?_⟩
        rw [abs_le]; constructor <;> linarith
      · refine ⟨⟨0, by push_cast; ring⟩, ?_⟩
        rw [abs_le]; constructor <;> linarith
  refine ⟨key.1, key.2, fun n => ?_⟩
  obtain ⟨⟨m, hm⟩, hb⟩ := key
  by_cases hnm : n = m
  · rw [hnm, ← hm]
  · have hd : x1 - x2 + n * (b - a) = periodicDistance x1 x2 b a + ((n - m : ℤ) : ℝ) * (b - a) := by
      rw [hm]; push_cast; ring
    have hk : (1 : ℝ) ≤ |((n - m : ℤ) : ℝ)| := by
      rw [← Int.cast_abs]
      exact_mod_cast Int.one_le_abs (sub_ne_zero.mpr hnm)
    have hL : 0 ≤ b - a := by linarith
    have h3 : b - a ≤ |((n - m : ℤ) : ℝ) * (b - a)| := by
      rw [abs_mul, abs_of_nonneg hL]; nlinarith
    have h4 : |((n - m : ℤ) : ℝ) * (b - a)| ≤
        |periodicDistance x1 x2 b a + ((n - m : ℤ) : ℝ) * (b - a)| + |periodicDistance x1 x2 b a| := by
      have := abs_sub (periodicDistance x1 x2 b a + ((n - m : ℤ) : ℝ) * (b - a))
        (periodicDistance x1 x2 b a)
      simpa using this
    rw [hd]
    linarith

/-- **C38** (antisymmetry).  Exchanging the points changes the sign; so the magnitude is symmetric. -/
theorem C38_antisymmetric (x1 x2 a b : ℝ) (hab : a ≤ b) :
    periodicDistance x2 x1 b a = -periodicDistance x1 x2 b a ∧
      |periodicDistance x2 x1 b a| = |periodicDistance x1 x2 b a| := by
  have h : periodicDistance x2 x1 b a = -periodicDistance x1 x2 b a := by
    simp only [periodicDistance]
    split_ifs <;> linarith
  exact ⟨h, by rw [h, abs_neg]⟩

/-- **C38** (coincidence).  The distance of points of the interval is zero exactly if they are equal or
are the two ends (one point of the circle). -/
theorem C38_zero (x1 x2 a b : ℝ) (hab : a < b) (h1 : a ≤ x1) (h1' : x1 ≤ b) (h2 : a ≤ x2)
    (h2' : x2 ≤ b) : periodicDistance x1 x2 b a = 0 ↔
      x1 = x2 ∨ (x1 = a ∧ x2 = b) ∨ (x1 = b ∧ x2 = a) := by
  simp only [periodicDistance]
  split_ifs with c1 c2
  · constructor
    · intro h; right; right; constructor <;> linarith
    · rintro (h | ⟨h, h'⟩ | ⟨h, h'⟩) <;> subst_vars <;> linarith
  · constructor
    · intro h; right; left; constructor <;> linarith
    · rintro (h | ⟨h, h'⟩ | ⟨h, h'⟩) <;> subst_vars <;> linarith
  · constructor
    · intro h; left; linarith
    · rintro (h | ⟨h, h'⟩ | ⟨h, h'⟩) <;> subst_vars <;> linarith

/-- A tie at exactly half a period keeps the sign of the difference. -/
example : periodicDistance 7 2 10 0 = 5 ∧ periodicDistance 2 7 10 0 = -5 ∧
    periodicDistance 9 1 10 0 = -2 := by
  simp only [periodicDistance]; norm_num

/-! ### C39 -/

/-- No array is passed for two of the arguments. -/
def NoAlias (l : List Arg) : Prop := l.Pairwise fun a b => ∀ loc, a = .array loc → b ≠ .array loc

/-- The angle between two points given in radians. -/
noncomputable def arcOf (lon1 lat1 lon2 lat2 : ℝ) : ℝ :=
  arccos (V3.dot (sph lon1 lat1 1) (sph lon2 lat2 1))

theorem arcOf_eq (a b c d : ℝ) :
    arccos (cos (a - c) * cos b * cos d + sin b * sin d) = arcOf a b c d := by
  unfold arcOf
  congr 1
  simp only [V3.dot, sph, cos_sub]
  ring

/-- **C39** (radians).  With units 'rad' the result is, entry by entry, the angle between the two unit
vectors, and no array is changed. -/
theorem C39_rad (h : Heap) (lon1 lat1 lon2 lat2 : Arg) :
    greatArcAngle h lon1 lat1 lon2 lat2 "rad" =
      (h, fun i => arcOf (lon1.get h i) (lat1.get h i) (lon2.get h i) (lat2.get h i)) := by
  have hu : ¬("rad" = "deg") := by decide
  simp only [greatArcAngle, if_neg hu, arcOf_eq]

theorem imul_get_self (c : ℝ) (h : Heap) (a : Arg) (i : ℕ) :
    (imul c h a).2.get (imul c h a).1 i = a.get h i * c := by
  cases a with
  | value v => rfl
  | array loc => simp [imul, Arg.get]

theorem imul_get_other (c : ℝ) (h : Heap) (a b : Arg) (i : ℕ)
    (hab : ∀ loc, a = .array loc → b ≠ .array loc) :
    b.get (imul c h a).1 i = b.get h i := by
  cases a with
  | value v => rfl
  | array loc =>
    cases b with
    | value v => rfl
    | array loc' =>
      have : loc' ≠ loc := fun e => hab loc rfl (by rw [e])
      simp [imul, Arg.get, Function.update_of_ne this]

theorem imul_arg (c : ℝ) (h : Heap) (a : Arg) (loc : ℕ) :
    (imul c h a).2 = .array loc ↔ a = .array loc := by
  cases a <;> simp [imul]

/-- **C39** (degrees).  With units 'deg' and arrays that are not passed twice, the result is the angle in
degrees between the two points given in degrees. -/
theorem C39_deg (h : Heap) (lon1 lat1 lon2 lat2 : Arg) (hna : NoAlias [lon1, lat1, lon2, lat2])
    (i : ℕ) :
    (greatArcAngle h lon1 lat1 lon2 lat2 "deg").2 i =
      arcOf (lon1.get h i * (π / 180)) (lat1.get h i * (π / 180)) (lon2.get h i * (π / 180))
        (lat2.get h i * (π / 180)) * (180 / π) := by
  simp only [NoAlias, List.pairwise_cons, List.mem_cons, List.not_mem_nil, or_false, forall_eq_or_imp,
    forall_eq] at hna
  obtain ⟨⟨n12, n13, n14⟩, ⟨n23, n24⟩, n34, _⟩ := hna
  have hs : ∀ {a b : Arg}, (∀ loc, a = .array loc → b ≠ .array loc) →
      ∀ loc, b = .array loc → a ≠ .array loc := fun hab loc hb ha => hab loc ha hb
  set c := π / 180 with hc
  set s1 := imul c h lon1 with hs1
  set s2 := imul c s1.1 lat1 with hs2
  set s3 := imul c s2.1 lon2 with hs3
  set s4 := imul c s3.1 lat2 with hs4
  have g4 : s4.2.get s4.1 i = lat2.get h i * c := by
    rw [hs4, imul_get_self, hs3, imul_get_other _ _ _ _ _ n34, hs2, imul_get_other _ _ _ _ _ n24, hs1,
      imul_get_other _ _ _ _ _ n14]
  have g3 : s3.2.get s4.1 i = lon2.get h i * c := by
    rw [hs4, imul_get_other _ _ _ _ _ fun loc hb => by
        rw [hs3]; exact fun hx => hs n34 loc hb ((imul_arg _ _ _ _).mp hx),
      hs3, imul_get_self, hs2, imul_get_other _ _ _ _ _ n23, hs1, imul_get_other _ _ _ _ _ n13]
  have g2 : s2.2.get s4.1 i = lat1.get h i * c := by
    rw [hs4, imul_get_other _ _ _ _ _ fun loc hb => by
        rw [hs2]; exact fun hx => hs n24 loc hb ((imul_arg _ _ _ _).mp hx),
      hs3, imul_get_other _ _ _ _ _ fun loc hb => by
        rw [hs2]; exact fun hx => hs n23 loc hb ((imul_arg _ _ _ _).mp hx),
      hs2, imul_get_self, hs1, imul_get_other _ _ _ _ _ n12]
  have g1 : s1.2.get s4.1 i = lon1.get h i * c := by
    rw [hs4, imul_get_other _ _ _ _ _ fun loc hb => by
        rw [hs1]; exact fun hx => hs n14 loc hb ((imul_arg _ _ _ _).mp hx),
      hs3, imul_get_other _ _ _ _ _ fun loc hb => by
        rw [hs1]; exact fun hx => hs n13 loc hb ((imul_arg _ _ _ _).mp hx),
      hs2, imul_get_other _ _ _ _ _ fun loc hb => by
        rw [hs1]; exact fun hx => hs n12 loc hb ((imul_arg _ _ _ _).mp hx),
      hs1, imul_get_self]
  rw [← g1, ← g2, ← g3, ← g4, ← arcOf_eq]
  rfl

/-- **C39** (metric properties).  The angle is symmetric, lies between 0 and `pi`, its cosine is the dot
product of the unit vectors, and it vanishes exactly if the two points coincide on the sphere. -/
theorem C39_metric (a b c d : ℝ) :
    arcOf a b c d = arcOf c d a b ∧ 0 ≤ arcOf a b c d ∧ arcOf a b c d ≤ π ∧
      cos (arcOf a b c d) = V3.dot (sph a b 1) (sph c d 1) ∧
      (arcOf a b c d = 0 ↔ sph a b 1 = sph c d 1) := by
  have u : ∀ a b, V3.dot (sph a b 1) (sph a b 1) = 1 := fun a b => by
    simp only [V3.dot, sph]
    linear_combination cos b ^ 2 * sin_sq_add_cos_sq a + sin_sq_add_cos_sq b
  have up : 0 ≤ ((sph a b 1).x - (sph c d 1).x) ^ 2 + ((sph a b 1).y - (sph c d 1).y) ^ 2
      + ((sph a b 1).z - (sph c d 1).z) ^ 2 := by positivity
  have lo : 0 ≤ ((sph a b 1).x + (sph c d 1).x) ^ 2 + ((sph a b 1).y + (sph c d 1).y) ^ 2
      + ((sph a b 1).z + (sph c d 1).z) ^ 2 := by positivity
  have h1 := u a b
  have h2 := u c d
  have e1 : V3.dot (sph a b 1) (sph c d 1) ≤ 1 := by
    simp only [V3.dot] at h1 h2 ⊢; nlinarith
  have e2 : -1 ≤ V3.dot (sph a b 1) (sph c d 1) := by
    simp only [V3.dot] at h1 h2 ⊢; nlinarith
  refine ⟨?_, arccos_nonneg _, arccos_le_pi _, cos_arccos e2 e1, ?_⟩
  · unfold arcOf; congr 1; simp only [V3.dot]; ring
  · unfold arcOf
    rw [arccos_eq_zero]
    constructor
    · intro h
      have hz : ((sph a b 1).x - (sph c d 1).x) ^ 2 + ((sph a b 1).y - (sph c d 1).y) ^ 2
          + ((sph a b 1).z - (sph c d 1).z) ^ 2 ≤ 0 := by
        simp only [V3.dot] at h1 h2 h; nlinarith
      ext
      · nlinarith [sq_nonneg ((sph a b 1).x - (sph c d 1).x), sq_nonneg ((sph a b 1).y - (sph c d 1).y),
          sq_nonneg ((sph a b 1).z - (sph c d 1).z)]
      · nlinarith [sq_nonneg ((sph a b 1).x - (sph c d 1).x), sq_nonneg ((sph a b 1).y - (sph c d 1).y),
          sq_nonneg ((sph a b 1).z - (sph c d 1).z)]
      · nlinarith [sq_nonneg ((sph a b 1).x - (sph c d 1).x), sq_nonneg ((sph a b 1).y - (sph c d 1).y),
          sq_nonneg ((sph a b 1).z - (sph c d 1).z)]
    · intro h; rw [h, h2]

/-- **C39** (refuted part).  In degrees, every array passed by the caller is multiplied by `pi/180`; in
particular the array of a non-zero longitude is changed. -/
theorem C39_mutation_refuted (h : Heap) (loc : ℕ) (v1 v2 v3 : ℝ) :
    (greatArcAngle h (.array loc) (.value v1) (.value v2) (.value v3) "deg").1 =
      Function.update h loc (fun i => h loc i * (π / 180)) ∧
    (∀ i, h loc i ≠ 0 →
      (greatArcAngle h (.array loc) (.value v1) (.value v2) (.value v3) "deg").1 loc i ≠ h loc i) := by
  have e : (greatArcAngle h (.array loc) (.value v1) (.value v2) (.value v3) "deg").1 =
      Function.update h loc (fun i => h loc i * (π / 180)) := rfl
  refine ⟨e, fun i hi => ?_⟩
  rw [e, Function.update_self]
  intro he
  have : π / 180 = 1 := mul_left_cancel₀ hi (by rw [he, mul_one])
  have := pi_le_four
  linarith

/-- **C39** (refuted part).  If one array is passed as longitude and latitude of the first point, it is
converted twice and the result is wrong: the distance from (90, 90) degrees to (0, 90) degrees, both
the north pole, is not 0. -/
theorem C39_alias_refuted :
    (greatArcAngle (fun _ _ => 90) (.array 0) (.array 0) (.value 0) (.value 90) "deg").2 0 ≠ 0 ∧
    arcOf (90 * (π / 180)) (90 * (π / 180)) (0 * (π / 180)) (90 * (π / 180)) * (180 / π) = 0 := by
  have h90 : (90 : ℝ) * (π / 180) = π / 2 := by ring
  constructor
  · have e : (greatArcAngle (fun _ _ => 90) (.array 0) (.array 0) (.value 0) (.value 90) "deg").2 0 =
        arccos (cos (90 * (π / 180) * (π / 180) - 0 * (π / 180)) * cos (90 * (π / 180) * (π / 180))
          * cos (90 * (π / 180)) + sin (90 * (π / 180) * (π / 180)) * sin (90 * (π / 180)))
          * (180 / π) := rfl
    rw [e, h90, cos_pi_div_two, sin_pi_div_two]
    have hp := pi_pos
    have h4 := pi_le_four
    apply mul_ne_zero _ (by positivity)
    rw [Ne, arccos_eq_zero, not_le]
    have h0 : 0 < π / 2 * (π / 180) := by positivity
    have := sin_lt h0
    nlinarith
  · rw [h90, ← arcOf_eq]
    simp

end Gusto.Props.CoordProps
