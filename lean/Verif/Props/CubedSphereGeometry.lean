import Verif.Props.CubedSphere
import Mathlib.Algebra.BigOperators.Ring.Finset
import Mathlib.Order.Interval.Finset.Nat

set_option autoImplicit false
set_option linter.unusedSectionVars false
set_option linter.unusedSimpArgs false

/-!
# C108: the cubed-sphere mesh is a sphere made of quadrilaterals (points)

Model: `Verif.Model.CubedSphere`.
-/

namespace Gusto.Props.CubedSphereGeomProps
open Gusto.CubedSphere Gusto.Props.CubedSphereProps Finset

local notation "E3" => EuclideanSpace ℝ (Fin 3)

/-! ### Specification -/

/-- The cone over some of the points: their combinations with weights that are not negative. -/
def cone (P : List E3) (S : Finset ℕ) : Set E3 :=
  {x | ∃ α : ℕ → ℝ, (∀ v, 0 ≤ α v) ∧ x = ∑ v ∈ S, α v • P.getD v 0}

/-- The determinant of three vectors. -/
def det (u v w : E3) : ℝ := u 0 * (v 1 * w 2 - v 2 * w 1) - u 1 * (v 0 * w 2 - v 2 * w 0) + u 2 * (v 0 * w 1 - v 1 * w 0)

/-- Three corners of a quadrilateral in a row. -/
def turns (q : Cell) : List (ℕ × ℕ × ℕ) :=
  [(q.1, q.2.1, q.2.2.1), (q.2.1, q.2.2.1, q.2.2.2), (q.2.2.1, q.2.2.2, q.1), (q.2.2.2, q.1, q.2.1)]

/-- The quadrilaterals `F` with the points `P` make up the sphere with the given radius about the origin: they form a closed
oriented surface, the points are different and on the sphere, every direction is in the cone over a quadrilateral, a direction in the
cones over two of them is in the cone over their common corners, and all quadrilaterals are convex and run through their corners
counter-clockwise, seen from outside. -/
structure QuadSphere (radius : ℝ) (F : List Cell) (P : List E3) : Prop where
  closed : ClosedOriented F P.length
  onSphere : ∀ x ∈ P, ‖x‖ = radius
  distinct : P.Nodup
  cover : ∀ x : E3, ∃ q ∈ F, x ∈ cone P (corners q)
  overlap : ∀ q ∈ F, ∀ q' ∈ F, ∀ x ∈ cone P (corners q), x ∈ cone P (corners q') → x ∈ cone P (corners q ∩ corners q')
  outward : ∀ q ∈ F, ∀ t ∈ turns q, 0 < det (P.getD t.1 0) (P.getD t.2.1 0) (P.getD t.2.2 0)

/-! ### The grid lines -/

theorem halfSide_pos (radius : ℝ) (hr : 0 < radius) : 0 < halfSide radius := by
  unfold halfSide; positivity

theorem linspace_eq (n k : ℕ) (hn : 0 < n) : linspace (Real.arctan (-1)) (Real.arctan 1) n k =
    -(Real.pi / 4) + k * (Real.pi / (2 * n)) := by
  have hn' : (n : ℝ) ≠ 0 := by exact_mod_cast hn.ne'
  unfold linspace
  rw [Real.arctan_neg, Real.arctan_one]
  split_ifs with h
  · subst h; field_simp; ring
  · field_simp; ring

theorem gridX_eq (radius : ℝ) (n k : ℕ) (hn : 0 < n) :
    gridX radius n k = halfSide radius * Real.tan (-(Real.pi / 4) + k * (Real.pi / (2 * n))) := by
  unfold gridX; rw [linspace_eq n k hn]

theorem gridX_zero (radius : ℝ) (n : ℕ) (hn : 0 < n) : gridX radius n 0 = -halfSide radius := by
  rw [gridX_eq radius n 0 hn]
  simp [Real.tan_neg, Real.tan_pi_div_four]

theorem gridX_last (radius : ℝ) (n : ℕ) (hn : 0 < n) : gridX radius n n = halfSide radius := by
  rw [gridX_eq radius n n hn]
  have hn' : (n : ℝ) ≠ 0 := by exact_mod_cast hn.ne'
  have : -(Real.pi / 4) + n * (Real.pi / (2 * n)) = Real.pi / 4 := by field_simp; ring
  rw [this, Real.tan_pi_div_four, mul_one]

theorem gridX_symm (radius : ℝ) (n k : ℕ) (hn : 0 < n) (hk : k ≤ n) : gridX radius n (n - k) = -gridX radius n k := by
  rw [gridX_eq radius n _ hn, gridX_eq radius n _ hn]
  have hn' : (n : ℝ) ≠ 0 := by exact_mod_cast hn.ne'
  have : -(Real.pi / 4) + ((n - k : ℕ) : ℝ) * (Real.pi / (2 * n)) = -(-(Real.pi / 4) + k * (Real.pi / (2 * n))) := by
    rw [Nat.cast_sub hk]; field_simp; ring
  rw [this, Real.tan_neg]; ring

theorem gridX_lt (radius : ℝ) (hr : 0 < radius) (n k l : ℕ) (hl : l ≤ n) (h : k < l) : gridX radius n k < gridX radius n l := by
  have hn : 0 < n := by omega
  rw [gridX_eq radius n _ hn, gridX_eq radius n _ hn]
  refine mul_lt_mul_of_pos_left ?_ (halfSide_pos radius hr)
  have hpi := Real.pi_pos
  have hn' : (0 : ℝ) < n := by exact_mod_cast hn
  have hs : 0 < Real.pi / (2 * n) := by positivity
  have hkl : (k : ℝ) < l := by exact_mod_cast h
  have hln : (l : ℝ) ≤ n := by exact_mod_cast hl
  have h1 : (l : ℝ) * (Real.pi / (2 * n)) ≤ Real.pi / 2 := by
    calc (l : ℝ) * (Real.pi / (2 * n)) ≤ n * (Real.pi / (2 * n)) := by gcongr
      _ = Real.pi / 2 := by field_simp
  have h2 : (0 : ℝ) ≤ k * (Real.pi / (2 * n)) := by positivity
  exact Real.tan_lt_tan_of_lt_of_lt_pi_div_two (by linarith) (by linarith) (by gcongr)

theorem gridX_le (radius : ℝ) (hr : 0 < radius) (n k l : ℕ) (hl : l ≤ n) (h : k ≤ l) : gridX radius n k ≤ gridX radius n l := by
  rcases h.eq_or_lt with rfl | h
  · exact le_rfl
  · exact (gridX_lt radius hr n k l hl h).le

/-! ### The points -/

/-- The point of the cube with side `2 a` at a lattice point. -/
noncomputable def cubePoint (radius : ℝ) (n : ℕ) (t : ℕ × ℕ × ℕ) : E3 :=
  !₂[gridX radius n t.1, gridX radius n t.2.1, gridX radius n t.2.2]

theorem panelXYZ_eq (radius : ℝ) (n p i j : ℕ) (hn : 0 < n) (hp : p < 6) (hi : i ≤ n) (hj : j ≤ n) :
    panelXYZ (halfSide radius) (gridX radius n j) (gridX radius n i) p = cubePoint radius n (panelPoint n p i j) := by
  unfold cubePoint
  interval_cases p <;> simp only [panelXYZ, panelPoint, gridX_zero radius n hn, gridX_last radius n hn, gridX_symm radius n _ hn hi,
    gridX_symm radius n _ hn hj]

theorem norm_panelXYZ (a lX lY : ℝ) (p : ℕ) : (a ^ 2 + lX ^ 2 + lY ^ 2) ^ (0.5 : ℝ) = ‖panelXYZ a lX lY p‖ := by
  rw [EuclideanSpace.norm_eq, show (0.5 : ℝ) = 1 / 2 by norm_num, ← Real.sqrt_eq_rpow, Fin.sum_univ_three]
  congr 1
  match p with
  | 0 => simp [panelXYZ]; ring
  | 1 => simp [panelXYZ]; ring
  | 2 => simp [panelXYZ]; ring
  | 3 => simp [panelXYZ]; ring
  | 4 => simp [panelXYZ]; ring
  | (k + 5) => simp [panelXYZ]; ring

theorem foldl_update {β : Type*} (ws : List (ℕ × β)) (c : ℕ → β) (v : ℕ) (y : β) (h : ∀ w ∈ ws, w.1 = v → w.2 = y)
    (hv : (∃ w ∈ ws, w.1 = v) ∨ c v = y) : ws.foldl (fun c w => Function.update c w.1 w.2) c v = y := by
  induction ws generalizing c with
  | nil => simpa using hv
  | cons w ws ih =>
    rw [List.foldl_cons]
    refine ih _ (fun w' hw' => h w' (List.mem_cons_of_mem _ hw')) ?_
    by_cases he : w.1 = v
    · right; rw [← he, Function.update_self]; exact h w List.mem_cons_self he
    · rcases hv with ⟨w', hw', e⟩ | hv
      · rcases List.mem_cons.1 hw' with rfl | hw'
        · exact absurd e he
        · exact .inl ⟨w', hw', e⟩
      · right; rw [Function.update_of_ne (Ne.symm he)]; exact hv

/-- All panels give a point the same coordinates. -/
theorem coordsArray_eq (radius : ℝ) (n p i j : ℕ) (hn : 0 < n) (hp : p < 6) (hi : i ≤ n) (hj : j ≤ n) :
    coordsArray radius n (code n (panelPoint n p i j)) =
      (radius / ‖cubePoint radius n (panelPoint n p i j)‖) • cubePoint radius n (panelPoint n p i j) := by
  unfold coordsArray
  apply foldl_update
  · intro w hw e
    obtain ⟨p', hp', hw⟩ := List.mem_flatMap.1 hw
    obtain ⟨⟨i', j'⟩, hij, rfl⟩ := List.mem_map.1 hw
    rw [mem_grid] at hij
    rw [List.mem_range] at hp'
    simp only at e ⊢
    rw [panelNumbering_eq n hn p' i' j' hp' (by omega) (by omega)] at e
    have e' := code_inj n hn _ _ (panelPoint_onCube n hn p' i' j' hp' (by omega) (by omega)) (panelPoint_onCube n hn p i j hp hi hj) e
    rw [norm_panelXYZ _ _ _ p', panelXYZ_eq radius n p' i' j' hn hp' (by omega) (by omega), e']
  · left
    refine ⟨_, List.mem_flatMap.2 ⟨p, List.mem_range.2 hp, List.mem_map.2 ⟨(i, j), (mem_grid _ _ _).2 ⟨by omega, by omega⟩, rfl⟩⟩, ?_⟩
    exact panelNumbering_eq n hn p i j hp hi hj

theorem cubePoint_apply (radius : ℝ) (n : ℕ) (t : ℕ × ℕ × ℕ) : cubePoint radius n t 0 = gridX radius n t.1 ∧
    cubePoint radius n t 1 = gridX radius n t.2.1 ∧ cubePoint radius n t 2 = gridX radius n t.2.2 := by
  simp [cubePoint]

/-- The largest absolute value of a coordinate. -/
noncomputable def sup3 (x : E3) : ℝ := max (max |x 0| |x 1|) |x 2|

theorem gridX_abs (radius : ℝ) (hr : 0 < radius) (n k : ℕ) (hn : 0 < n) (hk : k ≤ n) : |gridX radius n k| ≤ halfSide radius := by
  rw [abs_le, ← gridX_zero radius n hn]
  exact ⟨gridX_le radius hr n 0 k hk (by omega), by rw [← gridX_last radius n hn]; exact gridX_le radius hr n k n le_rfl hk⟩

theorem onCube_panel (n : ℕ) (t : ℕ × ℕ × ℕ) (h : OnCube n t) : ∃ p < 6, ∃ i ≤ n, ∃ j ≤ n, t = panelPoint n p i j := by
  obtain ⟨a, b, c⟩ := t
  obtain ⟨h1, h2, h3, h4⟩ := h
  simp only at h1 h2 h3 h4
  rcases h4 with h | h | h | h | h | h
  · exact ⟨1, by omega, b, h2, n - c, by omega, by simp only [panelPoint, Prod.mk.injEq, true_and, and_true]; omega⟩
  · exact ⟨2, by omega, b, h2, c, h3, by simp only [panelPoint, Prod.mk.injEq, true_and, and_true]; omega⟩
  · exact ⟨4, by omega, n - c, by omega, a, h1, by simp only [panelPoint, Prod.mk.injEq, true_and, and_true]; omega⟩
  · exact ⟨3, by omega, c, h3, a, h1, by simp only [panelPoint, Prod.mk.injEq, true_and, and_true]; omega⟩
  · exact ⟨0, by omega, b, h2, a, h1, by simp only [panelPoint, Prod.mk.injEq, true_and, and_true]; omega⟩
  · exact ⟨5, by omega, n - b, by omega, a, h1, by simp only [panelPoint, Prod.mk.injEq, true_and, and_true]; omega⟩

theorem coords_length (radius : ℝ) (n : ℕ) : (coords radius n).length = numPoints (n + 1) := by
  simp [coords]

theorem coords_code (radius : ℝ) (n : ℕ) (hn : 0 < n) (t : ℕ × ℕ × ℕ) (h : OnCube n t) :
    (coords radius n).getD (code n t) 0 = (radius / ‖cubePoint radius n t‖) • cubePoint radius n t := by
  have hl : code n t < numPoints (n + 1) := by rw [numPoints_eq n hn]; exact code_lt n hn t h
  obtain ⟨p, hp, i, hi, j, hj, rfl⟩ := onCube_panel n t h
  rw [← coordsArray_eq radius n p i j hn hp hi hj, coords, List.getD_eq_getElem?_getD, List.getElem?_map,
    List.getElem?_range hl]
  rfl

theorem sup3_cube (radius : ℝ) (hr : 0 < radius) (n : ℕ) (hn : 0 < n) (x : E3)
    (hb : |x 0| ≤ halfSide radius ∧ |x 1| ≤ halfSide radius ∧ |x 2| ≤ halfSide radius)
    (h : ∃ k : Fin 3, |x k| = halfSide radius) : sup3 x = halfSide radius := by
  obtain ⟨b0, b1, b2⟩ := hb
  obtain ⟨k, hk⟩ := h
  unfold sup3
  refine le_antisymm (max_le (max_le b0 b1) b2) ?_
  fin_cases k
  · exact le_max_of_le_left (le_max_of_le_left hk.ge)
  · exact le_max_of_le_left (le_max_of_le_right hk.ge)
  · exact le_max_of_le_right hk.ge

theorem sup3_smul (s : ℝ) (hs : 0 ≤ s) (x : E3) : sup3 (s • x) = s * sup3 x := by
  unfold sup3
  simp only [PiLp.smul_apply, smul_eq_mul, abs_mul, abs_of_nonneg hs]
  rw [mul_max_of_nonneg _ _ hs, mul_max_of_nonneg _ _ hs]

/-! ### Boxes -/

/-- The lattice points of a box. -/
def box (lo hi : ℕ × ℕ × ℕ) : Finset (ℕ × ℕ × ℕ) := Icc lo.1 hi.1 ×ˢ Icc lo.2.1 hi.2.1 ×ˢ Icc lo.2.2 hi.2.2

theorem mem_box (lo hi t : ℕ × ℕ × ℕ) : t ∈ box lo hi ↔ (lo.1 ≤ t.1 ∧ t.1 ≤ hi.1) ∧ (lo.2.1 ≤ t.2.1 ∧ t.2.1 ≤ hi.2.1) ∧
    lo.2.2 ≤ t.2.2 ∧ t.2.2 ≤ hi.2.2 := by
  simp only [box, mem_product, mem_Icc]

/-- The solid box spanned by a box of lattice points. -/
def InBox (radius : ℝ) (n : ℕ) (lo hi : ℕ × ℕ × ℕ) (z : E3) : Prop :=
  (gridX radius n lo.1 ≤ z 0 ∧ z 0 ≤ gridX radius n hi.1) ∧ (gridX radius n lo.2.1 ≤ z 1 ∧ z 1 ≤ gridX radius n hi.2.1) ∧
    gridX radius n lo.2.2 ≤ z 2 ∧ z 2 ≤ gridX radius n hi.2.2

theorem weights1 (radius : ℝ) (hr : 0 < radius) (n lo hi : ℕ) (h1 : lo ≤ hi) (h2 : hi ≤ lo + 1) (h3 : hi ≤ n) (y : ℝ)
    (hy1 : gridX radius n lo ≤ y) (hy2 : y ≤ gridX radius n hi) :
    ∃ w : ℕ → ℝ, (∀ k, 0 ≤ w k) ∧ ∑ k ∈ Icc lo hi, w k = 1 ∧ ∑ k ∈ Icc lo hi, w k * gridX radius n k = y := by
  rcases h1.eq_or_lt with rfl | h1
  · exact ⟨fun _ => 1, fun _ => zero_le_one, by simp, by simp; linarith⟩
  · obtain rfl : hi = lo + 1 := by omega
    have hlt := gridX_lt radius hr n lo (lo + 1) h3 h1
    have hne : gridX radius n (lo + 1) - gridX radius n lo ≠ 0 := (sub_pos.2 hlt).ne'
    have hI : Icc lo (lo + 1) = {lo, lo + 1} := by ext k; simp only [mem_Icc, mem_insert, mem_singleton]; omega
    refine ⟨fun k => if k = lo then (gridX radius n (lo + 1) - y) / (gridX radius n (lo + 1) - gridX radius n lo)
      else (y - gridX radius n lo) / (gridX radius n (lo + 1) - gridX radius n lo), fun k => ?_, ?_, ?_⟩
    · beta_reduce
      split_ifs
      · exact div_nonneg (by linarith) (by linarith)
      · exact div_nonneg (by linarith) (by linarith)
    · rw [hI, sum_pair (by omega), if_pos rfl, if_neg (by omega)]; field_simp; ring
    · rw [hI, sum_pair (by omega)]
      beta_reduce
      rw [if_pos rfl, if_neg (by omega)]; field_simp; ring

theorem cone_of_weights (radius : ℝ) (hr : 0 < radius) (n : ℕ) (hn : 0 < n) (B : Finset (ℕ × ℕ × ℕ)) (hB : ∀ t ∈ B, OnCube n t)
    (f : ℕ × ℕ × ℕ → ℝ) (hf : ∀ t, 0 ≤ f t) : (∑ t ∈ B, f t • cubePoint radius n t) ∈ cone (coords radius n) (B.image (code n)) := by
  have hinj : Set.InjOn (code n) B := fun t ht t' ht' e => code_inj n hn t t' (hB t ht) (hB t' ht') e
  refine ⟨fun v => ∑ t ∈ B, if code n t = v then f t * (‖cubePoint radius n t‖ / radius) else 0, fun v => ?_, ?_⟩
  · refine sum_nonneg fun t _ => ?_
    split_ifs
    · exact mul_nonneg (hf t) (by positivity)
    · exact le_rfl
  · rw [sum_image hinj]
    refine sum_congr rfl fun t ht => ?_
    have : (∑ t' ∈ B, if code n t' = code n t then f t' * (‖cubePoint radius n t'‖ / radius) else 0) =
        f t * (‖cubePoint radius n t‖ / radius) := by
      rw [sum_eq_single_of_mem t ht]
      · rw [if_pos rfl]
      · intro t' ht' hne
        rw [if_neg fun e => hne (hinj ht' ht e)]
    beta_reduce
    rw [this, coords_code radius n hn t (hB t ht), smul_smul]
    by_cases h0 : ‖cubePoint radius n t‖ = 0
    · rw [norm_eq_zero] at h0; simp [h0]
    · congr 1; field_simp

theorem weights_of_cone (radius : ℝ) (hr : 0 < radius) (n : ℕ) (hn : 0 < n) (B : Finset (ℕ × ℕ × ℕ)) (hB : ∀ t ∈ B, OnCube n t)
    (x : E3) (hx : x ∈ cone (coords radius n) (B.image (code n))) :
    ∃ f : ℕ × ℕ × ℕ → ℝ, (∀ t, 0 ≤ f t) ∧ x = ∑ t ∈ B, f t • cubePoint radius n t := by
  have hinj : Set.InjOn (code n) B := fun t ht t' ht' e => code_inj n hn t t' (hB t ht) (hB t' ht') e
  obtain ⟨α, ha, rfl⟩ := hx
  refine ⟨fun t => α (code n t) * (radius / ‖cubePoint radius n t‖), fun t => mul_nonneg (ha _) (by positivity), ?_⟩
  rw [sum_image hinj]
  refine sum_congr rfl fun t ht => ?_
  rw [coords_code radius n hn t (hB t ht), smul_smul]

theorem sum_apply3 {ι : Type*} (B : Finset ι) (f : ι → ℝ) (g : ι → E3) (k : Fin 3) :
    (∑ t ∈ B, f t • g t) k = ∑ t ∈ B, f t * g t k := by
  rw [WithLp.ofLp_sum, Finset.sum_apply]
  rfl

theorem sum_box (lo hi : ℕ × ℕ × ℕ) (f g h : ℕ → ℝ) : ∑ t ∈ box lo hi, f t.1 * g t.2.1 * h t.2.2 =
    (∑ k ∈ Icc lo.1 hi.1, f k) * (∑ k ∈ Icc lo.2.1 hi.2.1, g k) * ∑ k ∈ Icc lo.2.2 hi.2.2, h k := by
  unfold box
  rw [sum_product, mul_assoc, sum_mul]
  refine sum_congr rfl fun a _ => ?_
  rw [sum_product, sum_mul_sum, mul_sum]
  refine sum_congr rfl fun b _ => ?_
  rw [mul_sum]
  exact sum_congr rfl fun c _ => by ring

theorem cone_of_box (radius : ℝ) (hr : 0 < radius) (n : ℕ) (hn : 0 < n) (lo hi : ℕ × ℕ × ℕ)
    (h1 : lo.1 ≤ hi.1 ∧ hi.1 ≤ lo.1 + 1) (h2 : lo.2.1 ≤ hi.2.1 ∧ hi.2.1 ≤ lo.2.1 + 1) (h3 : lo.2.2 ≤ hi.2.2 ∧ hi.2.2 ≤ lo.2.2 + 1)
    (hB : ∀ t ∈ box lo hi, OnCube n t) (s : ℝ) (hs : 0 ≤ s) (z : E3) (hz : InBox radius n lo hi z) :
    s • z ∈ cone (coords radius n) ((box lo hi).image (code n)) := by
  have hh := hB hi ((mem_box _ _ _).2 ⟨⟨h1.1, le_rfl⟩, ⟨h2.1, le_rfl⟩, h3.1, le_rfl⟩)
  obtain ⟨u, hu, u1, u2⟩ := weights1 radius hr n lo.1 hi.1 h1.1 h1.2 hh.1 (z 0) hz.1.1 hz.1.2
  obtain ⟨v, hv, v1, v2⟩ := weights1 radius hr n lo.2.1 hi.2.1 h2.1 h2.2 hh.2.1 (z 1) hz.2.1.1 hz.2.1.2
  obtain ⟨w, hw, w1, w2⟩ := weights1 radius hr n lo.2.2 hi.2.2 h3.1 h3.2 hh.2.2.1 (z 2) hz.2.2.1 hz.2.2.2
  have key : s • z = ∑ t ∈ box lo hi, (s * (u t.1 * v t.2.1 * w t.2.2)) • cubePoint radius n t := by
    ext k
    rw [sum_apply3]
    fin_cases k
    · have := sum_box lo hi (fun k => u k * gridX radius n k) v w
      rw [u2, v1, w1] at this
      simp only [cubePoint_apply, Fin.zero_eta, Fin.isValue, PiLp.smul_apply, smul_eq_mul]
      rw [show z 0 = z 0 * 1 * 1 by ring, ← this, mul_sum]
      exact sum_congr rfl fun t _ => by ring
    · have := sum_box lo hi u (fun k => v k * gridX radius n k) w
      rw [u1, v2, w1] at this
      simp only [cubePoint_apply, Fin.mk_one, Fin.isValue, PiLp.smul_apply, smul_eq_mul]
      rw [show z 1 = 1 * z 1 * 1 by ring, ← this, mul_sum]
      exact sum_congr rfl fun t _ => by ring
    · have := sum_box lo hi u v (fun k => w k * gridX radius n k)
      rw [u1, v1, w2] at this
      simp only [cubePoint_apply, Fin.reduceFinMk, Fin.isValue, PiLp.smul_apply, smul_eq_mul]
      rw [show z 2 = 1 * 1 * z 2 by ring, ← this, mul_sum]
      exact sum_congr rfl fun t _ => by ring
  rw [key]
  exact cone_of_weights radius hr n hn _ hB _ fun t => mul_nonneg hs (mul_nonneg (mul_nonneg (hu _) (hv _)) (hw _))

theorem box_of_cone (radius : ℝ) (hr : 0 < radius) (n : ℕ) (hn : 0 < n) (lo hi : ℕ × ℕ × ℕ)
    (h1 : lo.1 ≤ hi.1) (h2 : lo.2.1 ≤ hi.2.1) (h3 : lo.2.2 ≤ hi.2.2)
    (hB : ∀ t ∈ box lo hi, OnCube n t) (x : E3) (hx : x ∈ cone (coords radius n) ((box lo hi).image (code n))) :
    ∃ (s : ℝ) (z : E3), 0 ≤ s ∧ InBox radius n lo hi z ∧ x = s • z := by
  have hmem : hi ∈ box lo hi := (mem_box _ _ _).2 ⟨⟨h1, le_rfl⟩, ⟨h2, le_rfl⟩, h3, le_rfl⟩
  have hh := hB hi hmem
  have pts : ∀ t ∈ box lo hi, InBox radius n lo hi (cubePoint radius n t) := by
    intro t ht
    have ho := hB t ht
    rw [mem_box] at ht
    unfold InBox
    simp only [cubePoint_apply]
    exact ⟨⟨gridX_le radius hr n _ _ ho.1 ht.1.1, gridX_le radius hr n _ _ hh.1 ht.1.2⟩,
      ⟨gridX_le radius hr n _ _ ho.2.1 ht.2.1.1, gridX_le radius hr n _ _ hh.2.1 ht.2.1.2⟩,
      gridX_le radius hr n _ _ ho.2.2.1 ht.2.2.1, gridX_le radius hr n _ _ hh.2.2.1 ht.2.2.2⟩
  obtain ⟨f, hf, rfl⟩ := weights_of_cone radius hr n hn _ hB x hx
  rcases (sum_nonneg fun t (_ : t ∈ box lo hi) => hf t).eq_or_lt with h0 | hpos
  · refine ⟨0, cubePoint radius n hi, le_rfl, pts hi hmem, ?_⟩
    rw [zero_smul]
    have := (sum_eq_zero_iff_of_nonneg fun t (_ : t ∈ box lo hi) => hf t).1 h0.symm
    exact sum_eq_zero fun t ht => by rw [this t ht, zero_smul]
  · set s := ∑ t ∈ box lo hi, f t with hsdef
    refine ⟨s, s⁻¹ • ∑ t ∈ box lo hi, f t • cubePoint radius n t, hpos.le, ?_, by rw [smul_smul, mul_inv_cancel₀ hpos.ne', one_smul]⟩
    have av : ∀ (k : Fin 3) (l h : ℝ), (∀ t ∈ box lo hi, l ≤ cubePoint radius n t k ∧ cubePoint radius n t k ≤ h) →
        l ≤ (s⁻¹ • ∑ t ∈ box lo hi, f t • cubePoint radius n t) k ∧ (s⁻¹ • ∑ t ∈ box lo hi, f t • cubePoint radius n t) k ≤ h := by
      intro k l h hb
      rw [PiLp.smul_apply, sum_apply3, smul_eq_mul, ← div_eq_inv_mul, le_div_iff₀ hpos, div_le_iff₀ hpos, hsdef, mul_sum, mul_sum]
      exact ⟨sum_le_sum fun t ht => by rw [mul_comm]; exact mul_le_mul_of_nonneg_left (hb t ht).1 (hf t),
        sum_le_sum fun t ht => by rw [mul_comm h]; exact mul_le_mul_of_nonneg_left (hb t ht).2 (hf t)⟩
    exact ⟨av 0 _ _ fun t ht => (pts t ht).1, av 1 _ _ fun t ht => (pts t ht).2.1, av 2 _ _ fun t ht => (pts t ht).2.2⟩

/-! ### Cells -/

/-- The smallest lattice point of a cell. -/
def cellLo (n p i j : ℕ) : ℕ × ℕ × ℕ :=
  match p with
  | 0 => (j, i, 0)
  | 1 => (0, i, n - j - 1)
  | 2 => (n, i, j)
  | 3 => (j, n, i)
  | 4 => (j, 0, n - i - 1)
  | _ => (j, n - i - 1, n)

/-- The largest lattice point of a cell. -/
def cellHi (n p i j : ℕ) : ℕ × ℕ × ℕ :=
  match p with
  | 0 => (j + 1, i + 1, 0)
  | 1 => (0, i + 1, n - j)
  | 2 => (n, i + 1, j + 1)
  | 3 => (j + 1, n, i + 1)
  | 4 => (j + 1, 0, n - i)
  | _ => (j + 1, n - i, n)

theorem cell_dims (n p i j : ℕ) (hp : p < 6) (hi : i < n) (hj : j < n) :
    ((cellLo n p i j).1 ≤ (cellHi n p i j).1 ∧ (cellHi n p i j).1 ≤ (cellLo n p i j).1 + 1) ∧
    ((cellLo n p i j).2.1 ≤ (cellHi n p i j).2.1 ∧ (cellHi n p i j).2.1 ≤ (cellLo n p i j).2.1 + 1) ∧
    (cellLo n p i j).2.2 ≤ (cellHi n p i j).2.2 ∧ (cellHi n p i j).2.2 ≤ (cellLo n p i j).2.2 + 1 := by
  interval_cases p <;> simp only [cellLo, cellHi] <;> omega

theorem cell_box (n p i j : ℕ) (hp : p < 6) (hi : i < n) (hj : j < n) (t : ℕ × ℕ × ℕ) :
    t ∈ box (cellLo n p i j) (cellHi n p i j) ↔ ∃ e < 4, t = cellPoint n p i j e := by
  obtain ⟨a, b, c⟩ := t
  rw [mem_box]
  constructor
  · intro h
    suffices h' : (a, b, c) = cellPoint n p i j 0 ∨ (a, b, c) = cellPoint n p i j 1 ∨ (a, b, c) = cellPoint n p i j 2 ∨
        (a, b, c) = cellPoint n p i j 3 by
      rcases h' with h' | h' | h' | h'
      exacts [⟨0, by omega, h'⟩, ⟨1, by omega, h'⟩, ⟨2, by omega, h'⟩, ⟨3, by omega, h'⟩]
    interval_cases p <;> simp only [cellLo, cellHi] at h <;> simp only [cellPoint, panelPoint, Prod.mk.injEq] <;> omega
  · rintro ⟨e, he, h⟩
    interval_cases e <;> simp only [cellPoint] at h <;> interval_cases p <;>
      simp only [panelPoint, Prod.mk.injEq] at h <;> simp only [cellLo, cellHi] <;> omega

theorem cell_onCube (n p i j : ℕ) (hp : p < 6) (hi : i < n) (hj : j < n) (t : ℕ × ℕ × ℕ)
    (h : t ∈ box (cellLo n p i j) (cellHi n p i j)) : OnCube n t := by
  obtain ⟨e, he, rfl⟩ := (cell_box n p i j hp hi hj t).1 h
  exact cellPoint_onCube n p i j e hp hi hj

theorem corners_box (n p i j : ℕ) (hp : p < 6) (hi : i < n) (hj : j < n) :
    corners (cell n p i j) = (box (cellLo n p i j) (cellHi n p i j)).image (code n) := by
  ext v
  rw [corners_cell, mem_image]
  constructor
  · rintro ⟨e, he, rfl⟩; exact ⟨_, (cell_box n p i j hp hi hj _).2 ⟨e, he, rfl⟩, rfl⟩
  · rintro ⟨t, ht, rfl⟩
    obtain ⟨e, he, rfl⟩ := (cell_box n p i j hp hi hj _).1 ht
    exact ⟨e, he, rfl⟩

/-- The points of a cell are on the surface of the cube. -/
theorem cell_sup3 (radius : ℝ) (hr : 0 < radius) (n p i j : ℕ) (hp : p < 6) (hi : i < n) (hj : j < n) (z : E3)
    (hz : InBox radius n (cellLo n p i j) (cellHi n p i j) z) : sup3 z = halfSide radius := by
  have hn : 0 < n := by omega
  have ha := halfSide_pos radius hr
  obtain ⟨⟨z1, z2⟩, ⟨z3, z4⟩, z5, z6⟩ := hz
  have g : ∀ k, k ≤ n → -halfSide radius ≤ gridX radius n k ∧ gridX radius n k ≤ halfSide radius := fun k hk =>
    abs_le.1 (gridX_abs radius hr n k hn hk)
  have h0 := gridX_zero radius n hn
  have h1 := gridX_last radius n hn
  have lo := cell_onCube n p i j hp hi hj (cellLo n p i j) (by
    have := cell_dims n p i j hp hi hj
    rw [mem_box]; exact ⟨⟨le_rfl, this.1.1⟩, ⟨le_rfl, this.2.1.1⟩, le_rfl, this.2.2.1⟩)
  have hi' := cell_onCube n p i j hp hi hj (cellHi n p i j) (by
    have := cell_dims n p i j hp hi hj
    rw [mem_box]; exact ⟨⟨this.1.1, le_rfl⟩, ⟨this.2.1.1, le_rfl⟩, this.2.2.1, le_rfl⟩)
  refine sup3_cube radius hr n hn z ⟨?_, ?_, ?_⟩ ?_
  · exact abs_le.2 ⟨(g _ lo.1).1.trans z1, z2.trans (g _ hi'.1).2⟩
  · exact abs_le.2 ⟨(g _ lo.2.1).1.trans z3, z4.trans (g _ hi'.2.1).2⟩
  · exact abs_le.2 ⟨(g _ lo.2.2.1).1.trans z5, z6.trans (g _ hi'.2.2.1).2⟩
  · interval_cases p <;> simp only [cellLo, cellHi, h0, h1] at z1 z2 z3 z4 z5 z6
    · exact ⟨2, by rw [le_antisymm z6 z5, abs_neg, abs_of_pos ha]⟩
    · exact ⟨0, by rw [le_antisymm z2 z1, abs_neg, abs_of_pos ha]⟩
    · exact ⟨0, by rw [le_antisymm z2 z1, abs_of_pos ha]⟩
    · exact ⟨1, by rw [le_antisymm z4 z3, abs_of_pos ha]⟩
    · exact ⟨1, by rw [le_antisymm z4 z3, abs_neg, abs_of_pos ha]⟩
    · exact ⟨2, by rw [le_antisymm z6 z5, abs_of_pos ha]⟩

theorem between (f : ℕ → ℝ) (n : ℕ) (hn : 0 < n) (y : ℝ) (h0 : f 0 ≤ y) (h1 : y ≤ f n) : ∃ k < n, f k ≤ y ∧ y ≤ f (k + 1) := by
  induction n with
  | zero => omega
  | succ m ih =>
    by_cases h : f m ≤ y
    · exact ⟨m, by omega, h, h1⟩
    · have hm : 0 < m := by
        rcases Nat.eq_zero_or_pos m with rfl | hm
        · exact absurd h0 h
        · exact hm
      obtain ⟨k, hk, h2⟩ := ih hm (not_le.1 h).le
      exact ⟨k, by omega, h2⟩

theorem grid_between (radius : ℝ) (n : ℕ) (hn : 0 < n) (y : ℝ) (h : |y| ≤ halfSide radius) :
    ∃ k < n, gridX radius n k ≤ y ∧ y ≤ gridX radius n (k + 1) := by
  rw [abs_le] at h
  exact between (gridX radius n) n hn y (by rw [gridX_zero radius n hn]; exact h.1) (by rw [gridX_last radius n hn]; exact h.2)

theorem cover (radius : ℝ) (hr : 0 < radius) (n : ℕ) (hn : 0 < n) (x : E3) :
    ∃ p < 6, ∃ i < n, ∃ j < n, ∃ s : ℝ, 0 ≤ s ∧ ∃ z : E3, InBox radius n (cellLo n p i j) (cellHi n p i j) z ∧ x = s • z := by
  have ha := halfSide_pos radius hr
  by_cases hx : sup3 x = 0
  · have h0 : x = 0 := by
      unfold sup3 at hx
      have h0 : |x 0| ≤ 0 := hx ▸ le_max_of_le_left (le_max_left _ _)
      have h1 : |x 1| ≤ 0 := hx ▸ le_max_of_le_left (le_max_right _ _)
      have h2 : |x 2| ≤ 0 := hx ▸ le_max_right _ _
      ext k
      fin_cases k
      · simpa using h0
      · simpa using h1
      · simpa using h2
    refine ⟨0, by omega, 0, hn, 0, hn, 0, le_rfl, !₂[gridX radius n 0, gridX radius n 0, gridX radius n 0], ?_, by rw [h0, zero_smul]⟩
    have := gridX_le radius hr n 0 1 hn (by omega)
    simp [InBox, cellLo, cellHi, this]
  · have hpos : 0 < sup3 x := lt_of_le_of_ne (by unfold sup3; positivity) (Ne.symm hx)
    set z : E3 := (halfSide radius / sup3 x) • x with hz
    have hxz : x = (sup3 x / halfSide radius) • z := by
      rw [hz, smul_smul]
      have : sup3 x / halfSide radius * (halfSide radius / sup3 x) = 1 := by field_simp
      rw [this, one_smul]
    have hs : sup3 z = halfSide radius := by
      rw [hz, sup3_smul _ (by positivity)]; field_simp
    have b0 : |z 0| ≤ halfSide radius := hs ▸ le_max_of_le_left (le_max_left _ _)
    have b1 : |z 1| ≤ halfSide radius := hs ▸ le_max_of_le_left (le_max_right _ _)
    have b2 : |z 2| ≤ halfSide radius := hs ▸ le_max_right _ _
    obtain ⟨k0, hk0, l0, u0⟩ := grid_between radius n hn (z 0) b0
    obtain ⟨k1, hk1, l1, u1⟩ := grid_between radius n hn (z 1) b1
    obtain ⟨k2, hk2, l2, u2⟩ := grid_between radius n hn (z 2) b2
    have g0 := gridX_zero radius n hn
    have g1 := gridX_last radius n hn
    suffices h : ∃ p < 6, ∃ i < n, ∃ j < n, InBox radius n (cellLo n p i j) (cellHi n p i j) z by
      obtain ⟨p, hp, i, hi, j, hj, h⟩ := h
      exact ⟨p, hp, i, hi, j, hj, _, by positivity, z, h, hxz⟩
    have hex : z 0 = halfSide radius ∨ z 0 = -halfSide radius ∨ z 1 = halfSide radius ∨ z 1 = -halfSide radius ∨
        z 2 = halfSide radius ∨ z 2 = -halfSide radius := by
      unfold sup3 at hs
      have e : ∀ y : ℝ, |y| = halfSide radius → y = halfSide radius ∨ y = -halfSide radius := fun y hy => by
        rcases abs_choice y with h | h
        · left; rw [← hy, h]
        · right; rw [← hy, h, neg_neg]
      rcases max_choice (max |z 0| |z 1|) |z 2| with h | h
      · rw [h] at hs
        rcases max_choice |z 0| |z 1| with h' | h'
        · rw [h'] at hs; have := e _ hs; tauto
        · rw [h'] at hs; have := e _ hs; tauto
      · rw [h] at hs; have := e _ hs; tauto
    have s1 : n - (n - 1 - k2) - 1 = k2 := by omega
    have s2 : n - (n - 1 - k2) = k2 + 1 := by omega
    have s3 : n - (n - 1 - k1) - 1 = k1 := by omega
    have s4 : n - (n - 1 - k1) = k1 + 1 := by omega
    rcases hex with h | h | h | h | h | h
    · exact ⟨2, by omega, k1, hk1, k2, hk2, ⟨by simp only [cellLo, g1]; exact h.ge, by simp only [cellHi, g1]; exact h.le⟩, ⟨l1, u1⟩, l2, u2⟩
    · refine ⟨1, by omega, k1, hk1, n - 1 - k2, by omega, ⟨by simp only [cellLo, g0]; exact h.ge, by simp only [cellHi, g0]; exact h.le⟩,
        ⟨l1, u1⟩, by simp only [cellLo, s1]; exact l2, by simp only [cellHi, s2]; exact u2⟩
    · exact ⟨3, by omega, k2, hk2, k0, hk0, ⟨l0, u0⟩, ⟨by simp only [cellLo, g1]; exact h.ge, by simp only [cellHi, g1]; exact h.le⟩, l2, u2⟩
    · exact ⟨4, by omega, n - 1 - k2, by omega, k0, hk0, ⟨l0, u0⟩, ⟨by simp only [cellLo, g0]; exact h.ge, by simp only [cellHi, g0]; exact h.le⟩,
        by simp only [cellLo, s1]; exact l2, by simp only [cellHi, s2]; exact u2⟩
    · exact ⟨5, by omega, n - 1 - k1, by omega, k0, hk0, ⟨l0, u0⟩, ⟨by simp only [cellLo, s3]; exact l1, by simp only [cellHi, s4]; exact u1⟩,
        by simp only [cellLo, g1]; exact h.ge, by simp only [cellHi, g1]; exact h.le⟩
    · exact ⟨0, by omega, k1, hk1, k0, hk0, ⟨l0, u0⟩, ⟨l1, u1⟩, by simp only [cellLo, g0]; exact h.ge, by simp only [cellHi, g0]; exact h.le⟩

theorem zero_mem_cone (P : List E3) (S : Finset ℕ) : (0 : E3) ∈ cone P S := ⟨fun _ => 0, fun _ => le_rfl, by simp⟩

theorem grid_inter (radius : ℝ) (hr : 0 < radius) (n a b c d : ℕ) (ha : a ≤ n) (hc : c ≤ n) (hb : b ≤ n) (hd : d ≤ n)
    (hab : b ≤ a + 1) (y : ℝ) (h1 : gridX radius n a ≤ y ∧ y ≤ gridX radius n b) (h2 : gridX radius n c ≤ y ∧ y ≤ gridX radius n d) :
    (max a c ≤ min b d ∧ min b d ≤ max a c + 1) ∧ gridX radius n (max a c) ≤ y ∧ y ≤ gridX radius n (min b d) := by
  have hlo : gridX radius n (max a c) ≤ y := by
    rcases max_choice a c with h | h <;> rw [h]
    exacts [h1.1, h2.1]
  have hhi : y ≤ gridX radius n (min b d) := by
    rcases min_choice b d with h | h <;> rw [h]
    exacts [h1.2, h2.2]
  refine ⟨⟨?_, by omega⟩, hlo, hhi⟩
  by_contra hlt
  have := gridX_lt radius hr n (min b d) (max a c) (by omega) (by omega)
  linarith

theorem box_inter (lo hi lo' hi' : ℕ × ℕ × ℕ) : box lo hi ∩ box lo' hi' =
    box (max lo.1 lo'.1, max lo.2.1 lo'.2.1, max lo.2.2 lo'.2.2) (min hi.1 hi'.1, min hi.2.1 hi'.2.1, min hi.2.2 hi'.2.2) := by
  ext t
  simp only [mem_inter, mem_box, max_le_iff, le_min_iff]
  tauto

theorem overlap (radius : ℝ) (hr : 0 < radius) (n p i j p' i' j' : ℕ) (hp : p < 6) (hi : i < n) (hj : j < n) (hp' : p' < 6)
    (hi' : i' < n) (hj' : j' < n) (x : E3) (hx : x ∈ cone (coords radius n) (corners (cell n p i j)))
    (hx' : x ∈ cone (coords radius n) (corners (cell n p' i' j'))) :
    x ∈ cone (coords radius n) (corners (cell n p i j) ∩ corners (cell n p' i' j')) := by
  have hn : 0 < n := by omega
  have ha := halfSide_pos radius hr
  rw [corners_box n p i j hp hi hj, corners_box n p' i' j' hp' hi' hj'] at *
  have D := cell_dims n p i j hp hi hj
  have D' := cell_dims n p' i' j' hp' hi' hj'
  obtain ⟨s, z, hs, hz, rfl⟩ := box_of_cone radius hr n hn _ _ D.1.1 D.2.1.1 D.2.2.1
    (fun t ht => cell_onCube n p i j hp hi hj t ht) x hx
  obtain ⟨s', z', hs', hz', e⟩ := box_of_cone radius hr n hn _ _ D'.1.1 D'.2.1.1 D'.2.2.1
    (fun t ht => cell_onCube n p' i' j' hp' hi' hj' t ht) _ hx'
  have e2 := congrArg sup3 e
  rw [sup3_smul s hs, sup3_smul s' hs', cell_sup3 radius hr n p i j hp hi hj z hz,
    cell_sup3 radius hr n p' i' j' hp' hi' hj' z' hz'] at e2
  have e3 : s = s' := mul_right_cancel₀ ha.ne' e2
  subst e3
  rcases hs.eq_or_lt with rfl | hpos
  · rw [zero_smul]; exact zero_mem_cone _ _
  have e4 : z = z' := smul_right_injective _ hpos.ne' e
  subst e4
  have lo := cell_onCube n p i j hp hi hj (cellLo n p i j) (by
    rw [mem_box]; exact ⟨⟨le_rfl, D.1.1⟩, ⟨le_rfl, D.2.1.1⟩, le_rfl, D.2.2.1⟩)
  have up := cell_onCube n p i j hp hi hj (cellHi n p i j) (by
    rw [mem_box]; exact ⟨⟨D.1.1, le_rfl⟩, ⟨D.2.1.1, le_rfl⟩, D.2.2.1, le_rfl⟩)
  have lo' := cell_onCube n p' i' j' hp' hi' hj' (cellLo n p' i' j') (by
    rw [mem_box]; exact ⟨⟨le_rfl, D'.1.1⟩, ⟨le_rfl, D'.2.1.1⟩, le_rfl, D'.2.2.1⟩)
  have up' := cell_onCube n p' i' j' hp' hi' hj' (cellHi n p' i' j') (by
    rw [mem_box]; exact ⟨⟨D'.1.1, le_rfl⟩, ⟨D'.2.1.1, le_rfl⟩, D'.2.2.1, le_rfl⟩)
  have I1 := grid_inter radius hr n _ _ _ _ lo.1 lo'.1 up.1 up'.1 D.1.2 _ hz.1 hz'.1
  have I2 := grid_inter radius hr n _ _ _ _ lo.2.1 lo'.2.1 up.2.1 up'.2.1 D.2.1.2 _ hz.2.1 hz'.2.1
  have I3 := grid_inter radius hr n _ _ _ _ lo.2.2.1 lo'.2.2.1 up.2.2.1 up'.2.2.1 D.2.2.2 _ hz.2.2 hz'.2.2
  have hinj : (box (cellLo n p i j) (cellHi n p i j)).image (code n) ∩ (box (cellLo n p' i' j') (cellHi n p' i' j')).image (code n) =
      (box (cellLo n p i j) (cellHi n p i j) ∩ box (cellLo n p' i' j') (cellHi n p' i' j')).image (code n) := by
    ext v
    simp only [mem_inter, mem_image]
    constructor
    · rintro ⟨⟨t, ht, rfl⟩, t', ht', e⟩
      have := code_inj n hn t' t (cell_onCube n p' i' j' hp' hi' hj' _ ht') (cell_onCube n p i j hp hi hj _ ht) e
      subst this
      exact ⟨t', ⟨ht, ht'⟩, rfl⟩
    · rintro ⟨t, ⟨ht, ht'⟩, rfl⟩
      exact ⟨⟨t, ht, rfl⟩, t, ht', rfl⟩
  rw [hinj, box_inter]
  refine cone_of_box radius hr n hn _ _ I1.1 I2.1 I3.1 (fun t ht => ?_) s hs z ⟨I1.2, I2.2, I3.2⟩
  rw [← box_inter, mem_inter] at ht
  exact cell_onCube n p i j hp hi hj t ht.1

theorem det_smul (a b c : ℝ) (u v w : E3) : det (a • u) (b • v) (c • w) = a * b * c * det u v w := by
  simp only [det, PiLp.smul_apply, smul_eq_mul]; ring

theorem det_cube (radius : ℝ) (n : ℕ) (t u v : ℕ × ℕ × ℕ) : det (cubePoint radius n t) (cubePoint radius n u) (cubePoint radius n v) =
    gridX radius n t.1 * (gridX radius n u.2.1 * gridX radius n v.2.2 - gridX radius n u.2.2 * gridX radius n v.2.1) -
    gridX radius n t.2.1 * (gridX radius n u.1 * gridX radius n v.2.2 - gridX radius n u.2.2 * gridX radius n v.1) +
    gridX radius n t.2.2 * (gridX radius n u.1 * gridX radius n v.2.1 - gridX radius n u.2.1 * gridX radius n v.1) := by
  simp only [det, cubePoint_apply]

theorem det_cell (radius : ℝ) (hr : 0 < radius) (n p i j e : ℕ) (hp : p < 6) (hi : i < n) (hj : j < n) (he : e < 4) :
    0 < det (cubePoint radius n (cellPoint n p i j e)) (cubePoint radius n (cellPoint n p i j ((e + 1) % 4)))
      (cubePoint radius n (cellPoint n p i j ((e + 2) % 4))) := by
  have hn : 0 < n := by omega
  have ha := halfSide_pos radius hr
  have di := sub_pos.2 (gridX_lt radius hr n i (i + 1) hi (by omega))
  have dj := sub_pos.2 (gridX_lt radius hr n j (j + 1) hj (by omega))
  have key := mul_pos (mul_pos ha di) dj
  suffices h : det (cubePoint radius n (cellPoint n p i j e)) (cubePoint radius n (cellPoint n p i j ((e + 1) % 4)))
      (cubePoint radius n (cellPoint n p i j ((e + 2) % 4))) =
      halfSide radius * (gridX radius n (i + 1) - gridX radius n i) * (gridX radius n (j + 1) - gridX radius n j) by rw [h]; exact key
  rw [det_cube]
  interval_cases e <;> simp only [cellPoint, Nat.reduceAdd, Nat.reduceMod] <;> interval_cases p <;>
    simp only [panelPoint, gridX_zero radius n hn, gridX_last radius n hn, gridX_symm radius n i hn hi.le,
      gridX_symm radius n (i + 1) hn hi, gridX_symm radius n j hn hj.le, gridX_symm radius n (j + 1) hn hj] <;> ring

theorem cubePoint_ne (radius : ℝ) (hr : 0 < radius) (n : ℕ) (hn : 0 < n) (t : ℕ × ℕ × ℕ) (h : OnCube n t) : cubePoint radius n t ≠ 0 := by
  have ha := halfSide_pos radius hr
  intro h0
  have hc := cubePoint_apply radius n t
  rw [h0] at hc
  simp only [PiLp.zero_apply] at hc
  have g0 := gridX_zero radius n hn
  have g1 := gridX_last radius n hn
  rcases h.2.2.2 with h | h | h | h | h | h <;> rw [h, ] at hc <;> simp only [g0, g1] at hc
  · linarith [hc.1]
  · linarith [hc.1]
  · linarith [hc.2.1]
  · linarith [hc.2.1]
  · linarith [hc.2.2]
  · linarith [hc.2.2]

/-- C108: for every positive radius and number of cells the mesh is built, with six `n²` quadrilaterals and `6 n² + 2` points that
make up the sphere. -/
theorem C108_sphere (radius : ℝ) (hr : 0 < radius) (num : ℚ) (degree : ℤ) (hn : 1 ≤ num) (hint : Int.fract num = 0)
    (hd : 1 ≤ degree) :
    ∃ F P, cubedSphere radius num degree = .ok (F, P) ∧ QuadSphere radius F P ∧ (F.length : ℚ) = 6 * num ^ 2 ∧
      (P.length : ℚ) = 6 * num ^ 2 + 2 := by
  have hfl : (⌊num⌋ : ℚ) = num := by have := Int.self_sub_floor num; linarith
  obtain ⟨n, hnum⟩ : ∃ n : ℕ, ⌊num⌋ = n := Int.eq_ofNat_of_zero_le (by
    have : (0 : ℚ) ≤ (⌊num⌋ : ℚ) := by linarith
    exact_mod_cast this)
  have hcast : num = n := by rw [← hfl, hnum]; simp
  have hn0 : 0 < n := by
    have : (1 : ℚ) ≤ n := hcast ▸ hn
    exact_mod_cast this
  refine ⟨cells n, coords radius n, ?_, ?_, ?_, ?_⟩
  · unfold cubedSphere
    rw [if_neg (by rw [not_or, not_not]; exact ⟨not_lt.2 hn, hint⟩), if_neg (by omega), hnum]
    rfl
  · have getC : ∀ v < numPoints (n + 1), ∃ t, OnCube n t ∧ v = code n t := by
      intro v hv
      obtain ⟨p, hp, i, hi, j, hj, rfl⟩ := number_surj n v hn0 hv
      exact ⟨_, panelPoint_onCube n hn0 p i j hp hi hj, rfl⟩
    have getE : ∀ v (hv : v < (coords radius n).length), (coords radius n)[v] = (coords radius n).getD v 0 := by
      intro v hv
      rw [List.getD_eq_getElem?_getD, List.getElem?_eq_getElem hv, Option.getD_some]
    have scale : ∀ t, OnCube n t → 0 < radius / ‖cubePoint radius n t‖ := fun t ht =>
      div_pos hr (norm_pos_iff.2 (cubePoint_ne radius hr n hn0 t ht))
    refine ⟨by rw [coords_length]; exact C108_closed n hn0, fun x hx => ?_, ?_, fun x => ?_, fun q hq q' hq' x hx hx' => ?_,
      fun q hq t ht => ?_⟩
    · obtain ⟨v, hv, rfl⟩ := List.mem_iff_getElem.1 hx
      obtain ⟨t, ht, hvt⟩ := getC v (by rwa [coords_length] at hv)
      rw [getE v hv, hvt, coords_code radius n hn0 t ht, norm_smul, Real.norm_of_nonneg (scale t ht).le]
      exact div_mul_cancel₀ _ (norm_pos_iff.2 (cubePoint_ne radius hr n hn0 t ht)).ne'
    · rw [List.nodup_iff_injective_get]
      intro ⟨u, hu⟩ ⟨w, hw⟩ h
      obtain ⟨t, ht, e1⟩ := getC u (by rwa [coords_length] at hu)
      obtain ⟨t', ht', e2⟩ := getC w (by rwa [coords_length] at hw)
      simp only [List.get_eq_getElem] at h
      rw [getE u hu, getE w hw, e1, e2, coords_code radius n hn0 t ht, coords_code radius n hn0 t' ht'] at h
      have hs : ∀ t, OnCube n t → sup3 (cubePoint radius n t) = halfSide radius := by
        intro t ht
        have hc := cubePoint_apply radius n t
        refine sup3_cube radius hr n hn0 _ ⟨?_, ?_, ?_⟩ ?_
        · rw [hc.1]; exact gridX_abs radius hr n _ hn0 ht.1
        · rw [hc.2.1]; exact gridX_abs radius hr n _ hn0 ht.2.1
        · rw [hc.2.2]; exact gridX_abs radius hr n _ hn0 ht.2.2.1
        · have ha := halfSide_pos radius hr
          have g0 := gridX_zero radius n hn0
          have g1 := gridX_last radius n hn0
          rcases ht.2.2.2 with h | h | h | h | h | h
          · exact ⟨0, by rw [hc.1, h, g0, abs_neg, abs_of_pos ha]⟩
          · exact ⟨0, by rw [hc.1, h, g1, abs_of_pos ha]⟩
          · exact ⟨1, by rw [hc.2.1, h, g0, abs_neg, abs_of_pos ha]⟩
          · exact ⟨1, by rw [hc.2.1, h, g1, abs_of_pos ha]⟩
          · exact ⟨2, by rw [hc.2.2, h, g0, abs_neg, abs_of_pos ha]⟩
          · exact ⟨2, by rw [hc.2.2, h, g1, abs_of_pos ha]⟩
      have h2 := congrArg sup3 h
      rw [sup3_smul _ (scale t ht).le, sup3_smul _ (scale t' ht').le, hs t ht, hs t' ht'] at h2
      have h3 := mul_right_cancel₀ (halfSide_pos radius hr).ne' h2
      rw [← h3] at h
      have h4 : cubePoint radius n t = cubePoint radius n t' := smul_right_injective _ (scale t ht).ne' h
      have inj : ∀ k l, k ≤ n → l ≤ n → gridX radius n k = gridX radius n l → k = l := by
        intro k l hk hl e
        rcases lt_trichotomy k l with h | h | h
        · exact absurd e (gridX_lt radius hr n k l hl h).ne
        · exact h
        · exact absurd e (gridX_lt radius hr n l k hk h).ne'
      have c := cubePoint_apply radius n t
      have c' := cubePoint_apply radius n t'
      rw [h4] at c
      have : t = t' := Prod.ext (inj _ _ ht.1 ht'.1 (by rw [← c.1, c'.1])) (Prod.ext (inj _ _ ht.2.1 ht'.2.1 (by rw [← c.2.1, c'.2.1]))
        (inj _ _ ht.2.2.1 ht'.2.2.1 (by rw [← c.2.2, c'.2.2])))
      apply Fin.ext
      simp only [e1, e2, this]
    · obtain ⟨p, hp, i, hi, j, hj, s, hs, z, hz, rfl⟩ := cover radius hr n hn0 x
      refine ⟨cell n p i j, (mem_cells n hn0 _).2 ⟨p, hp, i, hi, j, hj, rfl⟩, ?_⟩
      have D := cell_dims n p i j hp hi hj
      rw [corners_box n p i j hp hi hj]
      exact cone_of_box radius hr n hn0 _ _ D.1 D.2.1 D.2.2 (fun t ht => cell_onCube n p i j hp hi hj t ht) s hs z hz
    · obtain ⟨p, hp, i, hi, j, hj, rfl⟩ := (mem_cells n hn0 q).1 hq
      obtain ⟨p', hp', i', hi', j', hj', rfl⟩ := (mem_cells n hn0 q').1 hq'
      exact overlap radius hr n p i j p' i' j' hp hi hj hp' hi' hj' x hx hx'
    · obtain ⟨p, hp, i, hi, j, hj, rfl⟩ := (mem_cells n hn0 q).1 hq
      obtain ⟨e, he, rfl⟩ : ∃ e < 4, t = (code n (cellPoint n p i j e), code n (cellPoint n p i j ((e + 1) % 4)),
          code n (cellPoint n p i j ((e + 2) % 4))) := by
        simp only [turns, cell, List.mem_cons, List.not_mem_nil, or_false] at ht
        rcases ht with h | h | h | h
        exacts [⟨0, by omega, h⟩, ⟨1, by omega, h⟩, ⟨2, by omega, h⟩, ⟨3, by omega, h⟩]
      have o := fun e => cellPoint_onCube n p i j e hp hi hj
      simp only [coords_code radius n hn0 _ (o _)]
      rw [det_smul]
      exact mul_pos (mul_pos (mul_pos (scale _ (o _)) (scale _ (o _))) (scale _ (o _))) (det_cell radius hr n p i j e hp hi hj he)
  · rw [(C108_counts n hn0).1, hcast]; push_cast; ring
  · rw [coords_length, (C108_counts n hn0).2, hcast]; push_cast; ring

/-- C108: a number of cells that is not a positive integer, or a degree below one, is rejected. -/
theorem C108_errors (radius : ℝ) (num : ℚ) (degree : ℤ) :
    ((num < 1 ∨ ∀ k : ℤ, num ≠ k) → cubedSphere radius num degree = .error .runtimeError) ∧
    (1 ≤ num → (∃ k : ℤ, num = k) → degree < 1 → cubedSphere radius num degree = .error .valueError) := by
  refine ⟨fun h => ?_, fun h ⟨k, hk⟩ h' => ?_⟩
  · unfold cubedSphere
    rw [if_pos]
    rcases h with h | h
    · exact .inl h
    · right
      intro h0
      have := Int.self_sub_floor num
      exact h ⌊num⌋ (by linarith)
  · unfold cubedSphere
    rw [if_neg, if_pos h']
    rw [not_or, not_not]
    exact ⟨not_lt.2 h, by rw [hk, Int.fract_intCast]⟩

/-- The outward normal, the direction of the rows and the direction of the columns of a panel (specification). -/
noncomputable def frame : ℕ → E3 × E3 × E3
  | 0 => (!₂[0, 0, -1], !₂[0, 1, 0], !₂[1, 0, 0])
  | 1 => (!₂[-1, 0, 0], !₂[0, 1, 0], !₂[0, 0, -1])
  | 2 => (!₂[1, 0, 0], !₂[0, 1, 0], !₂[0, 0, 1])
  | 3 => (!₂[0, 1, 0], !₂[0, 0, 1], !₂[1, 0, 0])
  | 4 => (!₂[0, -1, 0], !₂[0, 0, -1], !₂[1, 0, 0])
  | _ => (!₂[0, 0, 1], !₂[0, -1, 0], !₂[1, 0, 0])

/-- C108: the grid is equiangular: the rows and columns of a panel are seen from the centre at the angles
`-π/4, -π/4 + π/(2n), ..., π/4` from its normal. -/
theorem C108_equiangular (radius : ℝ) (hr : 0 < radius) (n p i j : ℕ) (hn : 0 < n) (hp : p < 6) (hi : i ≤ n) (hj : j ≤ n) :
    ∃ s : ℝ, 0 < s ∧ (coords radius n).getD (panelNumbering (n + 1) p i j) 0 =
      s • ((frame p).1 + Real.tan (-(Real.pi / 4) + i * (Real.pi / (2 * n))) • (frame p).2.1 +
        Real.tan (-(Real.pi / 4) + j * (Real.pi / (2 * n))) • (frame p).2.2) := by
  have ho := panelPoint_onCube n hn p i j hp hi hj
  have ha := halfSide_pos radius hr
  refine ⟨radius / ‖cubePoint radius n (panelPoint n p i j)‖ * halfSide radius,
    mul_pos (div_pos hr (norm_pos_iff.2 (cubePoint_ne radius hr n hn _ ho))) ha, ?_⟩
  rw [panelNumbering_eq n hn p i j hp hi hj, coords_code radius n hn _ ho, ← smul_smul]
  congr 1
  rw [← panelXYZ_eq radius n p i j hn hp hi hj, gridX_eq radius n i hn, gridX_eq radius n j hn]
  ext k
  interval_cases p <;> fin_cases k <;> simp [panelXYZ, frame]

/-- C108: the nodes of the coordinate field of higher degree are on the sphere. -/
theorem C108_degree (radius : ℝ) (hr : 0 < radius) (nodes : List E3) (h : ∀ x ∈ nodes, x ≠ 0) :
    ∀ p ∈ higherDegree radius nodes, ‖p‖ = radius := by
  intro p hp
  obtain ⟨x, hx, rfl⟩ := List.mem_map.1 hp
  rw [norm_smul, Real.norm_of_nonneg (div_nonneg hr.le (norm_nonneg _))]
  exact div_mul_cancel₀ _ (norm_pos_iff.2 (h x hx)).ne'

/-- Five cells per edge: 150 quadrilaterals, 152 vertices. -/
example : ∃ F P, cubedSphere 6371220 5 2 = .ok (F, P) ∧ QuadSphere 6371220 F P ∧ (F.length : ℚ) = 150 ∧ (P.length : ℚ) = 152 := by
  obtain ⟨F, P, h1, h2, h3, h4⟩ := C108_sphere 6371220 (by norm_num) 5 2 (by norm_num) (by
    rw [show (5 : ℚ) = ((5 : ℤ) : ℚ) by norm_num, Int.fract_intCast]) (by norm_num)
  exact ⟨F, P, h1, h2, by rw [h3]; norm_num, by rw [h4]; norm_num⟩
example : cubedSphere 1 (5 / 2) 1 = .error .runtimeError :=
  (C108_errors 1 (5 / 2) 1).1 (.inr fun k h => by
    have h2 : ((5 : ℤ) : ℚ) = ((2 * k : ℤ) : ℚ) := by push_cast; linarith
    have := Int.cast_injective h2
    omega)

end Gusto.Props.CubedSphereGeomProps
