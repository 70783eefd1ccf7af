import Mathlib.LinearAlgebra.Dimension.Finrank
import Mathlib.Analysis.InnerProductSpace.PiL2
import Mathlib.Tactic.IntervalCases
import Verif.Props.Icosphere

set_option autoImplicit false
set_option linter.unusedSectionVars false
set_option linter.unusedSimpArgs false

/-!
# C107: the icosahedral mesh is a triangulated sphere (points)

Model: `Verif.Model.Icosphere`.
-/

namespace Gusto.Props.IcosphereGeomProps
open Gusto.Icosphere Gusto.Props.IcosphereProps Finset

local notation "E3" => EuclideanSpace ℝ (Fin 3)

/-! ### Specification -/

/-- The combination of the corners of a triangle with the weights `α`. -/
noncomputable def comb (P : List E3) (f : Face) (α : ℕ → ℝ) : E3 :=
  α f.1 • P.getD f.1 0 + α f.2.1 • P.getD f.2.1 0 + α f.2.2 • P.getD f.2.2 0

/-- Triangles `F` with the points `P` triangulate the sphere with the given radius about the origin: they form a closed
surface, all points are on the sphere, every direction is in the cone over a triangle, and if it is in the cones
over two triangles, then with the same weights at the same vertices (the triangles overlap in common edges and corners
only). -/
structure Triangulates (radius : ℝ) (F : List Face) (P : List E3) : Prop where
  closed : ClosedSurface F P.length
  onSphere : ∀ p ∈ P, ‖p‖ = radius
  distinct : P.Nodup
  cover : ∀ x : E3, ∃ f ∈ F, ∃ α : ℕ → ℝ, (∀ v, 0 ≤ α v) ∧ x = comb P f α
  overlap : ∀ f ∈ F, ∀ g ∈ F, ∀ α β : ℕ → ℝ, (∀ v, 0 ≤ α v) → (∀ v, 0 ≤ β v) → (∀ v, v ∉ corners f → α v = 0) →
    (∀ v, v ∉ corners g → β v = 0) → comb P f α = comb P g β → α = β

/-! ### The base icosahedron -/

theorem phi_sq : phi * phi = phi + 1 := by
  unfold phi
  have := Real.mul_self_sqrt (show (0 : ℝ) ≤ 5 by norm_num)
  nlinarith

theorem phi_pos : 0 < phi := by unfold phi; positivity

/-- The coordinates of the base vertices in the integers with `phi` adjoined. -/
def zv (v : ℕ) (c : ℕ) : ℤ × ℤ :=
  (([[(-1, 0), (0, 1), (0, 0)], [(1, 0), (0, 1), (0, 0)], [(-1, 0), (0, -1), (0, 0)], [(1, 0), (0, -1), (0, 0)],
    [(0, 0), (-1, 0), (0, 1)], [(0, 0), (1, 0), (0, 1)], [(0, 0), (-1, 0), (0, -1)], [(0, 0), (1, 0), (0, -1)],
    [(0, 1), (0, 0), (-1, 0)], [(0, 1), (0, 0), (1, 0)], [(0, -1), (0, 0), (-1, 0)], [(0, -1), (0, 0), (1, 0)]] :
    List (List (ℤ × ℤ))).getD v []).getD c (0, 0)

theorem base_coord (v : ℕ) (hv : v < 12) (c : Fin 3) :
    (baseVertices v) c = ((zv v c).1 : ℝ) + ((zv v c).2 : ℝ) * phi := by
  interval_cases v <;> fin_cases c <;> simp [baseVertices, zv]

/-- Products in the integers with `phi` adjoined. -/
def zmul (a b : ℤ × ℤ) : ℤ × ℤ := (a.1 * b.1 + a.2 * b.2, a.1 * b.2 + a.2 * b.1 + a.2 * b.2)

/-- The inner products of the base vertices. -/
def zdot (v w : ℕ) : ℤ × ℤ := zmul (zv v 0) (zv w 0) + zmul (zv v 1) (zv w 1) + zmul (zv v 2) (zv w 2)

theorem gram (v w : ℕ) (hv : v < 12) (hw : w < 12) :
    inner ℝ (baseVertices v) (baseVertices w) = ((zdot v w).1 : ℝ) + ((zdot v w).2 : ℝ) * phi := by
  rw [PiLp.inner_apply, Fin.sum_univ_three]
  simp only [base_coord v hv, base_coord w hw, RCLike.inner_apply, conj_trivial]
  simp only [zdot, zmul, Prod.fst_add, Prod.snd_add, Fin.isValue, Fin.val_zero, Fin.val_one, Fin.val_two]
  push_cast
  linear_combination (((zv v 0).2 : ℝ) * (zv w 0).2 + (zv v 1).2 * (zv w 1).2 + (zv v 2).2 * (zv w 2).2) * phi_sq

theorem zdot_self : ∀ v < 12, zdot v v = (2, 1) := by decide
theorem zdot_ne : ∀ v < 12, ∀ w < 12, v ≠ w → zdot v w = (0, 1) ∨ zdot v w = (0, -1) ∨ zdot v w = (-2, -1) := by decide
theorem zdot_panel : ∀ i < 20, zdot (panel i).1 (panel i).2.1 = (0, 1) ∧ zdot (panel i).1 (panel i).2.2 = (0, 1) ∧
    zdot (panel i).2.1 (panel i).2.2 = (0, 1) := by decide

theorem dot_self (v : ℕ) (hv : v < 12) : inner ℝ (baseVertices v) (baseVertices v) = phi + 2 := by
  rw [gram v v hv hv, zdot_self v hv]; norm_num; ring

theorem dot_le (v w : ℕ) (hv : v < 12) (hw : w < 12) (h : v ≠ w) : inner ℝ (baseVertices v) (baseVertices w) ≤ phi := by
  have := phi_pos
  rw [gram v w hv hw]
  rcases zdot_ne v hv w hw h with h | h | h <;> rw [h] <;> norm_num <;> linarith

theorem dot_panel (i : ℕ) (hi : i < 20) : inner ℝ (baseVertices (panel i).1) (baseVertices (panel i).2.1) = phi ∧
    inner ℝ (baseVertices (panel i).1) (baseVertices (panel i).2.2) = phi ∧
    inner ℝ (baseVertices (panel i).2.1) (baseVertices (panel i).2.2) = phi := by
  have b := panel_lt i hi
  obtain ⟨h1, h2, h3⟩ := zdot_panel i hi
  rw [gram _ _ (by omega) (by omega), gram _ _ (by omega) (by omega), gram _ _ (by omega) (by omega), h1, h2, h3]
  norm_num

/-- The normal of a panel. -/
noncomputable def normal (i : ℕ) : E3 :=
  baseVertices (panel i).1 + baseVertices (panel i).2.1 + baseVertices (panel i).2.2

theorem normal_in (i v : ℕ) (hi : i < 20) (h : v = (panel i).1 ∨ v = (panel i).2.1 ∨ v = (panel i).2.2) :
    inner ℝ (normal i) (baseVertices v) = 3 * phi + 2 := by
  have b := panel_lt i hi
  obtain ⟨h1, h2, h3⟩ := dot_panel i hi
  unfold normal
  rw [inner_add_left, inner_add_left]
  rcases h with rfl | rfl | rfl
  · rw [dot_self _ (by omega), real_inner_comm, h1, real_inner_comm, h2]; ring
  · rw [dot_self _ (by omega), h1, real_inner_comm, h3]; ring
  · rw [dot_self _ (by omega), h2, h3]; ring

theorem normal_out (i v : ℕ) (hi : i < 20) (hv : v < 12) (h : ¬(v = (panel i).1 ∨ v = (panel i).2.1 ∨ v = (panel i).2.2)) :
    inner ℝ (normal i) (baseVertices v) ≤ 3 * phi := by
  have b := panel_lt i hi
  push Not at h
  unfold normal
  rw [inner_add_left, inner_add_left]
  have h1 := dot_le (panel i).1 v (by omega) hv h.1.symm
  have h2 := dot_le (panel i).2.1 v (by omega) hv h.2.1.symm
  have h3 := dot_le (panel i).2.2 v (by omega) hv h.2.2.symm
  linarith

theorem normal_le (i v : ℕ) (hi : i < 20) (hv : v < 12) : inner ℝ (normal i) (baseVertices v) ≤ 3 * phi + 2 := by
  by_cases h : v = (panel i).1 ∨ v = (panel i).2.1 ∨ v = (panel i).2.2
  · exact (normal_in i v hi h).le
  · have := normal_out i v hi hv h; linarith

/-- A combination of the corners of a panel. -/
noncomputable def cone (i : ℕ) (x y z : ℝ) : E3 :=
  x • baseVertices (panel i).1 + y • baseVertices (panel i).2.1 + z • baseVertices (panel i).2.2

/-- Its weights. -/
noncomputable def weight (i : ℕ) (x y z : ℝ) : ℕ → ℝ := fun v =>
  (if v = (panel i).1 then x else 0) + (if v = (panel i).2.1 then y else 0) + (if v = (panel i).2.2 then z else 0)

theorem normal_cone (i i' : ℕ) (x y z : ℝ) : inner ℝ (normal i) (cone i' x y z) =
    x * inner ℝ (normal i) (baseVertices (panel i').1) + y * inner ℝ (normal i) (baseVertices (panel i').2.1) +
      z * inner ℝ (normal i) (baseVertices (panel i').2.2) := by
  unfold cone
  rw [inner_add_right, inner_add_right, real_inner_smul_right, real_inner_smul_right, real_inner_smul_right]

theorem normal_own (i : ℕ) (hi : i < 20) (x y z : ℝ) : inner ℝ (normal i) (cone i x y z) = (3 * phi + 2) * (x + y + z) := by
  rw [normal_cone, normal_in i _ hi (.inl rfl), normal_in i _ hi (.inr (.inl rfl)), normal_in i _ hi (.inr (.inr rfl))]; ring

theorem normal_other (i i' : ℕ) (hi : i < 20) (hi' : i' < 20) (x y z : ℝ) (hx : 0 ≤ x) (hy : 0 ≤ y) (hz : 0 ≤ z) :
    inner ℝ (normal i) (cone i' x y z) ≤ (3 * phi + 2) * (x + y + z) := by
  have b := panel_lt i' hi'
  rw [normal_cone]
  have h1 := mul_le_mul_of_nonneg_left (normal_le i (panel i').1 hi (by omega)) hx
  have h2 := mul_le_mul_of_nonneg_left (normal_le i (panel i').2.1 hi (by omega)) hy
  have h3 := mul_le_mul_of_nonneg_left (normal_le i (panel i').2.2 hi (by omega)) hz
  linarith

/-- The corners of a panel are independent. -/
theorem cone_inj (i : ℕ) (hi : i < 20) (x y z x' y' z' : ℝ) (h : cone i x y z = cone i x' y' z') :
    x = x' ∧ y = y' ∧ z = z' := by
  have b := panel_lt i hi
  obtain ⟨h1, h2, h3⟩ := dot_panel i hi
  have hp := phi_pos
  have e : ∀ v : E3, inner ℝ v (cone i x y z) = inner ℝ v (cone i x' y' z') := fun v => by rw [h]
  have e1 := e (baseVertices (panel i).1)
  have e2 := e (baseVertices (panel i).2.1)
  have e3 := e (baseVertices (panel i).2.2)
  simp only [cone, inner_add_right, real_inner_smul_right] at e1 e2 e3
  rw [dot_self _ (by omega), h1, h2] at e1
  rw [dot_self _ (by omega), real_inner_comm, h1, h3] at e2
  rw [dot_self _ (by omega), real_inner_comm, h2, real_inner_comm, h3] at e3
  have hs : x + y + z = x' + y' + z' := by
    have : (3 * phi + 2) * (x + y + z) = (3 * phi + 2) * (x' + y' + z') := by linarith
    exact mul_left_cancel₀ (by positivity) this
  have f : ∀ a a' : ℝ, 2 * a + phi * (x + y + z) = 2 * a' + phi * (x' + y' + z') → a = a' := by
    intro a a' ha; rw [hs] at ha; linarith
  exact ⟨f x x' (by linarith), f y y' (by linarith), f z z' (by linarith)⟩

/-- Cones over panels meet in common faces. -/
theorem fan (i i' : ℕ) (hi : i < 20) (hi' : i' < 20) (x y z x' y' z' : ℝ) (hx : 0 ≤ x) (hy : 0 ≤ y) (hz : 0 ≤ z)
    (hx' : 0 ≤ x') (hy' : 0 ≤ y') (hz' : 0 ≤ z') (h : cone i x y z = cone i' x' y' z') :
    weight i x y z = weight i' x' y' z' := by
  have b := panel_lt i hi
  have b' := panel_lt i' hi'
  have hp := phi_pos
  have hpos : 0 < 3 * phi + 2 := by positivity
  have s1 : (3 * phi + 2) * (x + y + z) ≤ (3 * phi + 2) * (x' + y' + z') := by
    rw [← normal_own i hi, h]; exact normal_other i i' hi hi' x' y' z' hx' hy' hz'
  have s2 : (3 * phi + 2) * (x' + y' + z') ≤ (3 * phi + 2) * (x + y + z) := by
    rw [← normal_own i' hi', ← h]; exact normal_other i' i hi' hi x y z hx hy hz
  have hs : x + y + z = x' + y' + z' := le_antisymm (le_of_mul_le_mul_left s1 hpos) (le_of_mul_le_mul_left s2 hpos)
  have key : x' * (3 * phi + 2 - inner ℝ (normal i) (baseVertices (panel i').1)) +
      y' * (3 * phi + 2 - inner ℝ (normal i) (baseVertices (panel i').2.1)) +
      z' * (3 * phi + 2 - inner ℝ (normal i) (baseVertices (panel i').2.2)) = 0 := by
    have := normal_own i hi x y z
    rw [h, normal_cone, hs] at this
    linarith
  have n1 := sub_nonneg.2 (normal_le i (panel i').1 hi (by omega))
  have n2 := sub_nonneg.2 (normal_le i (panel i').2.1 hi (by omega))
  have n3 := sub_nonneg.2 (normal_le i (panel i').2.2 hi (by omega))
  have z1 : x' * (3 * phi + 2 - inner ℝ (normal i) (baseVertices (panel i').1)) = 0 := by
    have := mul_nonneg hx' n1; have := mul_nonneg hy' n2; have := mul_nonneg hz' n3; linarith
  have z2 : y' * (3 * phi + 2 - inner ℝ (normal i) (baseVertices (panel i').2.1)) = 0 := by
    have := mul_nonneg hx' n1; have := mul_nonneg hy' n2; have := mul_nonneg hz' n3; linarith
  have z3 : z' * (3 * phi + 2 - inner ℝ (normal i) (baseVertices (panel i').2.2)) = 0 := by
    have := mul_nonneg hx' n1; have := mul_nonneg hy' n2; have := mul_nonneg hz' n3; linarith
  have supp : ∀ (v : ℕ) (c : ℝ), v < 12 → c * (3 * phi + 2 - inner ℝ (normal i) (baseVertices v)) = 0 →
      c ≠ 0 → v = (panel i).1 ∨ v = (panel i).2.1 ∨ v = (panel i).2.2 := by
    intro v c hv hc hne
    by_contra hout
    have := normal_out i v hi hv hout
    rcases mul_eq_zero.1 hc with h | h
    · exact hne h
    · linarith
  -- write the second combination in the first panel
  have move : ∀ (v : ℕ) (c : ℝ), v < 12 → c * (3 * phi + 2 - inner ℝ (normal i) (baseVertices v)) = 0 →
      ∃ p q r : ℝ, c • baseVertices v = cone i p q r ∧ weight i p q r = fun u => if u = v then c else 0 := by
    intro v c hv hc
    by_cases hne : c = 0
    · subst hne
      exact ⟨0, 0, 0, by simp [cone], by funext u; simp [weight]⟩
    · rcases supp v c hv hc hne with h | h | h
      · exact ⟨c, 0, 0, by simp [cone, h], by funext u; simp [weight, h]⟩
      · exact ⟨0, c, 0, by simp [cone, h], by funext u; simp [weight, h]⟩
      · exact ⟨0, 0, c, by simp [cone, h], by funext u; simp [weight, h]⟩
  obtain ⟨p1, q1, r1, c1, w1⟩ := move (panel i').1 x' (by omega) z1
  obtain ⟨p2, q2, r2, c2, w2⟩ := move (panel i').2.1 y' (by omega) z2
  obtain ⟨p3, q3, r3, c3, w3⟩ := move (panel i').2.2 z' (by omega) z3
  have hc : cone i x y z = cone i (p1 + p2 + p3) (q1 + q2 + q3) (r1 + r2 + r3) := by
    rw [h]
    have e0 : cone i' x' y' z' = cone i p1 q1 r1 + cone i p2 q2 r2 + cone i p3 q3 r3 := by rw [← c1, ← c2, ← c3]; rfl
    rw [e0]
    unfold cone
    module
  obtain ⟨rfl, rfl, rfl⟩ := cone_inj i hi _ _ _ _ _ _ hc
  funext u
  have e1 := congrFun w1 u
  have e2 := congrFun w2 u
  have e3 := congrFun w3 u
  have : weight i (p1 + p2 + p3) (q1 + q2 + q3) (r1 + r2 + r3) u = weight i p1 q1 r1 u + weight i p2 q2 r2 u + weight i p3 q3 r3 u := by
    unfold weight; split_ifs <;> ring
  rw [this, e1, e2, e3]
  rfl

/-! ### Every direction is in the cone over a panel -/

theorem cone_span (i : ℕ) (hi : i < 20) (x : E3) : ∃ p q r : ℝ, x = cone i p q r := by
  let L : (Fin 3 → ℝ) →ₗ[ℝ] E3 :=
    { toFun := fun c => cone i (c 0) (c 1) (c 2)
      map_add' := fun c d => by simp only [cone, Pi.add_apply]; module
      map_smul' := fun t c => by simp only [cone, Pi.smul_apply, smul_eq_mul, RingHom.id_apply]; module }
  have hinj : Function.Injective L := by
    intro c d h
    obtain ⟨h0, h1, h2⟩ := cone_inj i hi _ _ _ _ _ _ h
    funext k; fin_cases k
    · exact h0
    · exact h1
    · exact h2
  have hsurj := (LinearMap.injective_iff_surjective_of_finrank_eq_finrank (f := L) (by simp)).1 hinj
  obtain ⟨c, hc⟩ := hsurj x
  exact ⟨c 0, c 1, c 2, hc.symm⟩

theorem nbr2 : ∀ i < 20, ∃ i' < 20, ∃ c < 12, c ≠ (panel i).1 ∧ c ≠ (panel i).2.1 ∧ c ≠ (panel i).2.2 ∧
    (panel i' = ((panel i).1, (panel i).2.1, c) ∨ panel i' = ((panel i).1, c, (panel i).2.1) ∨
      panel i' = (c, (panel i).1, (panel i).2.1)) := by decide
theorem nbr1 : ∀ i < 20, ∃ i' < 20, ∃ c < 12, c ≠ (panel i).1 ∧ c ≠ (panel i).2.1 ∧ c ≠ (panel i).2.2 ∧
    (panel i' = ((panel i).1, (panel i).2.2, c) ∨ panel i' = ((panel i).1, c, (panel i).2.2) ∨
      panel i' = (c, (panel i).1, (panel i).2.2)) := by decide
theorem nbr0 : ∀ i < 20, ∃ i' < 20, ∃ c < 12, c ≠ (panel i).1 ∧ c ≠ (panel i).2.1 ∧ c ≠ (panel i).2.2 ∧
    (panel i' = ((panel i).2.1, (panel i).2.2, c) ∨ panel i' = ((panel i).2.1, c, (panel i).2.2) ∨
      panel i' = (c, (panel i).2.1, (panel i).2.2)) := by decide

theorem across (i' a b c : ℕ) (hi' : i' < 20) (h : panel i' = (a, b, c) ∨ panel i' = (a, c, b) ∨ panel i' = (c, a, b)) :
    normal i' = baseVertices a + baseVertices b + baseVertices c ∧ inner ℝ (baseVertices c) (baseVertices a) = phi ∧
      inner ℝ (baseVertices c) (baseVertices b) = phi := by
  obtain ⟨h1, h2, h3⟩ := dot_panel i' hi'
  unfold normal
  rcases h with h | h | h <;> rw [h] at h1 h2 h3 ⊢ <;> dsimp only at h1 h2 h3 ⊢
  · exact ⟨rfl, by rw [real_inner_comm]; exact h2, by rw [real_inner_comm]; exact h3⟩
  · exact ⟨by abel, by rw [real_inner_comm]; exact h1, h3⟩
  · exact ⟨by abel, h1, h2⟩

/-- A direction in which a normal is not smaller than that of a neighbour has a non-negative weight. -/
theorem weight_nonneg (a b d c : ℕ) (hd : d < 12) (hc : c < 12) (hcd : c ≠ d) (x : E3) (p q r : ℝ) (n n' : E3)
    (hx : x = p • baseVertices a + q • baseVertices b + r • baseVertices d)
    (hda : inner ℝ (baseVertices d) (baseVertices a) = phi) (hdb : inner ℝ (baseVertices d) (baseVertices b) = phi)
    (hca : inner ℝ (baseVertices c) (baseVertices a) = phi) (hcb : inner ℝ (baseVertices c) (baseVertices b) = phi)
    (hn : n = baseVertices a + baseVertices b + baseVertices d) (hn' : n' = baseVertices a + baseVertices b + baseVertices c)
    (hle : inner ℝ n' x ≤ inner ℝ n x) : 0 ≤ r := by
  have h1 : 0 ≤ inner ℝ (baseVertices d - baseVertices c) x := by
    rw [hn, hn', inner_add_left _ _ x, inner_add_left _ (baseVertices d) x] at hle
    rw [inner_sub_left]; linarith
  rw [hx, inner_sub_left, inner_add_right, inner_add_right, inner_add_right, inner_add_right] at h1
  simp only [real_inner_smul_right] at h1
  rw [hda, hdb, hca, hcb, dot_self d hd] at h1
  have h2 := dot_le c d hc hd hcd
  have : 0 ≤ r * (phi + 2 - inner ℝ (baseVertices c) (baseVertices d)) := by linarith
  by_contra hr
  have : r * (phi + 2 - inner ℝ (baseVertices c) (baseVertices d)) < 0 := mul_neg_of_neg_of_pos (by linarith) (by linarith)
  linarith

theorem panel_cover (x : E3) : ∃ i < 20, ∃ p q r : ℝ, 0 ≤ p ∧ 0 ≤ q ∧ 0 ≤ r ∧ x = cone i p q r := by
  obtain ⟨i, hi, hmax⟩ := exists_max_image (range 20) (fun i => inner ℝ (normal i) x) ⟨0, by simp⟩
  have hi' := mem_range.1 hi
  have b := panel_lt i hi'
  obtain ⟨d1, d2, d3⟩ := dot_panel i hi'
  obtain ⟨p, q, r, hx⟩ := cone_span i hi' x
  have hx' := hx
  unfold cone at hx'
  refine ⟨i, hi', p, q, r, ?_, ?_, ?_, hx⟩
  · obtain ⟨k, hk, c, hc, n1, n2, n3, ht⟩ := nbr0 i hi'
    obtain ⟨e, m1, m2⟩ := across k _ _ c hk ht
    exact weight_nonneg (panel i).2.1 (panel i).2.2 (panel i).1 c (by omega) hc n1 x q r p (normal i) (normal k)
      (by rw [hx']; module) d1 d2 m1 m2 (by unfold normal; abel) e (hmax k (mem_range.2 hk))
  · obtain ⟨k, hk, c, hc, n1, n2, n3, ht⟩ := nbr1 i hi'
    obtain ⟨e, m1, m2⟩ := across k _ _ c hk ht
    exact weight_nonneg (panel i).1 (panel i).2.2 (panel i).2.1 c (by omega) hc n2 x p r q (normal i) (normal k)
      (by rw [hx']; module) (by rw [real_inner_comm]; exact d1) d3 m1 m2 (by unfold normal; abel) e (hmax k (mem_range.2 hk))
  · obtain ⟨k, hk, c, hc, n1, n2, n3, ht⟩ := nbr2 i hi'
    obtain ⟨e, m1, m2⟩ := across k _ _ c hk ht
    exact weight_nonneg (panel i).1 (panel i).2.1 (panel i).2.2 c (by omega) hc n3 x p q r (normal i) (normal k)
      hx' (by rw [real_inner_comm]; exact d2) (by rw [real_inner_comm]; exact d3) m1 m2 (by unfold normal; abel) e
      (hmax k (mem_range.2 hk))

/-! ### The triangles of a panel -/

/-- The points before they are pushed out. -/
noncomputable def raw (N v : ℕ) : E3 := (allVertices baseVertices N).getD v 0

theorem raw_node (N i j k : ℕ) (hN : 0 < N) (hi : i < 20) (h : j + k ≤ N) :
    raw N (node N i j k) = cone i (((N : ℝ) - j - k) / N) ((k : ℝ) / N) ((j : ℝ) / N) := by
  unfold raw
  rw [List.getD_eq_getElem?_getD, vertex_node baseVertices N i j k hN hi h]
  simp only [Option.getD_some, pt, cone]
  rw [smul_add, smul_add, smul_smul, smul_smul, smul_smul]
  congr 1
  · congr 1
    · congr 1; ring
    · congr 1; ring
  · congr 1; ring

/-- The weights of a vertex. -/
noncomputable def vw (N n v : ℕ) : ℝ := N * (allVertices (fun v => (Pi.single v 1 : ℕ → ℝ)) N).getD n 0 v

theorem vw_node (N i j k : ℕ) (hN : 0 < N) (hi : i < 20) (h : j + k ≤ N) (v : ℕ) :
    vw N (node N i j k) v = wt N i j k v := by
  unfold vw
  rw [List.getD_eq_getElem?_getD, vertex_node _ N i j k hN hi h, Option.getD_some, wt_pt N i j k h]
  have : (N : ℝ) ≠ 0 := by exact_mod_cast hN.ne'
  field_simp

theorem wt_real (N i j k : ℕ) (h : j + k ≤ N) (v : ℕ) : (wt N i j k v : ℝ) = weight i ((N : ℝ) - j - k) k j v := by
  unfold wt weight
  rw [Nat.sub_sub]
  push_cast [h]
  split_ifs <;> simp <;> ring

theorem weight_lin (i : ℕ) (c d x y z x' y' z' : ℝ) (v : ℕ) :
    c * weight i x y z v + d * weight i x' y' z' v = weight i (c * x + d * x') (c * y + d * y') (c * z + d * z') v := by
  unfold weight; split_ifs <;> ring

theorem weight_bound (i : ℕ) (hi : i < 20) (c x y z : ℝ) (hx : |x| ≤ c) (hy : |y| ≤ c) (hz : |z| ≤ c) (v : ℕ) :
    |weight i x y z v| ≤ c := by
  have b := panel_lt i hi
  have hc : 0 ≤ c := le_trans (abs_nonneg x) hx
  unfold weight
  by_cases h1 : v = (panel i).1
  · rw [if_pos h1, if_neg (by omega), if_neg (by omega)]; simpa using hx
  · by_cases h2 : v = (panel i).2.1
    · rw [if_neg h1, if_pos h2, if_neg (by omega)]; simpa using hy
    · by_cases h3 : v = (panel i).2.2
      · rw [if_neg h1, if_neg h2, if_pos h3]; simpa using hz
      · rw [if_neg h1, if_neg h2, if_neg h3]; simpa using hc

theorem weight_at (i : ℕ) (hi : i < 20) (x y z : ℝ) : weight i x y z (panel i).1 = x ∧ weight i x y z (panel i).2.1 = y ∧
    weight i x y z (panel i).2.2 = z := by
  have b := panel_lt i hi
  unfold weight
  refine ⟨?_, ?_, ?_⟩
  · rw [if_pos rfl, if_neg (by omega), if_neg (by omega)]; ring
  · rw [if_neg (by omega), if_pos rfl, if_neg (by omega)]; ring
  · rw [if_neg (by omega), if_neg (by omega), if_pos rfl]; ring

theorem weight_out (i : ℕ) (x y z : ℝ) (v : ℕ) (h : ¬(v = (panel i).1 ∨ v = (panel i).2.1 ∨ v = (panel i).2.2)) :
    weight i x y z v = 0 := by
  push Not at h
  simp [weight, h.1, h.2.1, h.2.2]

/-- The weights of a combination of the corners of a triangle. -/
noncomputable def omega' (N : ℕ) (f : Face) (α : ℕ → ℝ) (v : ℕ) : ℝ :=
  α f.1 * vw N f.1 v + α f.2.1 * vw N f.2.1 v + α f.2.2 * vw N f.2.2 v

theorem omega_up (N i j k : ℕ) (hN : 0 < N) (hi : i < 20) (h : j + k < N) (α : ℕ → ℝ) (v : ℕ) :
    omega' N (upTri N i j k) α v = weight i
      (α (node N i j k) * (N - j - k) + α (node N i j (k + 1)) * (N - j - k - 1) + α (node N i (j + 1) k) * (N - j - k - 1))
      (α (node N i j k) * k + α (node N i j (k + 1)) * (k + 1) + α (node N i (j + 1) k) * k)
      (α (node N i j k) * j + α (node N i j (k + 1)) * j + α (node N i (j + 1) k) * (j + 1)) v := by
  simp only [omega', upTri]
  rw [vw_node N i j k hN hi (by omega), vw_node N i j (k + 1) hN hi (by omega), vw_node N i (j + 1) k hN hi (by omega),
    wt_real N i j k (by omega), wt_real N i j (k + 1) (by omega), wt_real N i (j + 1) k (by omega)]
  unfold weight
  push_cast
  split_ifs <;> ring

theorem omega_down (N i j k : ℕ) (hN : 0 < N) (hi : i < 20) (h : j + k + 1 < N) (α : ℕ → ℝ) (v : ℕ) :
    omega' N (downTri N i j k) α v = weight i
      (α (node N i j (k + 1)) * (N - j - k - 1) + α (node N i (j + 1) (k + 1)) * (N - j - k - 2) +
        α (node N i (j + 1) k) * (N - j - k - 1))
      (α (node N i j (k + 1)) * (k + 1) + α (node N i (j + 1) (k + 1)) * (k + 1) + α (node N i (j + 1) k) * k)
      (α (node N i j (k + 1)) * j + α (node N i (j + 1) (k + 1)) * (j + 1) + α (node N i (j + 1) k) * (j + 1)) v := by
  simp only [omega', downTri]
  rw [vw_node N i j (k + 1) hN hi (by omega), vw_node N i (j + 1) (k + 1) hN hi (by omega),
    vw_node N i (j + 1) k hN hi (by omega), wt_real N i j (k + 1) (by omega), wt_real N i (j + 1) (k + 1) (by omega),
    wt_real N i (j + 1) k (by omega)]
  unfold weight
  push_cast
  split_ifs <;> ring

/-- The distance to a corner is at most one minus its weight. -/
theorem upper (N : ℕ) (hN : 0 < N) (f : Face) (hf : f ∈ allFaces N) (α : ℕ → ℝ) (h0 : ∀ v, 0 ≤ α v)
    (hs : α f.1 + α f.2.1 + α f.2.2 = 1) (n : ℕ) (hn : n ∈ corners f) (v : ℕ) :
    |omega' N f α v - vw N n v| ≤ 1 - α n := by
  obtain ⟨i, hi, j, k, ⟨h, rfl⟩ | ⟨h, rfl⟩⟩ := (mem_allFaces N hN f).1 hf
  · simp only [corners, upTri, List.mem_cons, List.not_mem_nil, or_false] at hn hs
    rw [omega_up N i j k hN hi h]
    have a0 := h0 (node N i j k)
    have a1 := h0 (node N i j (k + 1))
    have a2 := h0 (node N i (j + 1) k)
    rcases hn with rfl | rfl | rfl
    · rw [vw_node N i _ _ hN hi (by omega), wt_real N i _ _ (by omega)]
      generalize α (node N i j k) = A at *
      generalize α (node N i j (k + 1)) = B at *
      generalize α (node N i (j + 1) k) = D at *
      have hA : A = 1 - B - D := by linarith
      subst hA
      have := weight_lin i 1 (-1) ((1 - B - D) * ((N : ℝ) - j - k) + B * (N - j - k - 1) + D * (N - j - k - 1))
        ((1 - B - D) * k + B * (k + 1) + D * k) ((1 - B - D) * j + B * j + D * (j + 1)) ((N : ℝ) - j - k) k j v
      rw [one_mul, neg_one_mul, ← sub_eq_add_neg] at this
      rw [this]
      refine weight_bound i hi _ _ _ _ ?_ ?_ ?_ v <;> rw [abs_le] <;> constructor <;> linarith
    · rw [vw_node N i _ _ hN hi (by omega), wt_real N i _ _ (by omega)]
      generalize α (node N i j k) = A at *
      generalize α (node N i j (k + 1)) = B at *
      generalize α (node N i (j + 1) k) = D at *
      have hA : A = 1 - B - D := by linarith
      subst hA
      have := weight_lin i 1 (-1) ((1 - B - D) * ((N : ℝ) - j - k) + B * (N - j - k - 1) + D * (N - j - k - 1))
        ((1 - B - D) * k + B * (k + 1) + D * k) ((1 - B - D) * j + B * j + D * (j + 1)) ((N : ℝ) - j - (k + 1 : ℕ)) (k + 1 : ℕ) j v
      rw [one_mul, neg_one_mul, ← sub_eq_add_neg] at this
      rw [this]
      push_cast
      refine weight_bound i hi _ _ _ _ ?_ ?_ ?_ v <;> rw [abs_le] <;> constructor <;> linarith
    · rw [vw_node N i _ _ hN hi (by omega), wt_real N i _ _ (by omega)]
      generalize α (node N i j k) = A at *
      generalize α (node N i j (k + 1)) = B at *
      generalize α (node N i (j + 1) k) = D at *
      have hA : A = 1 - B - D := by linarith
      subst hA
      have := weight_lin i 1 (-1) ((1 - B - D) * ((N : ℝ) - j - k) + B * (N - j - k - 1) + D * (N - j - k - 1))
        ((1 - B - D) * k + B * (k + 1) + D * k) ((1 - B - D) * j + B * j + D * (j + 1)) ((N : ℝ) - (j + 1 : ℕ) - k) k (j + 1 : ℕ) v
      rw [one_mul, neg_one_mul, ← sub_eq_add_neg] at this
      rw [this]
      push_cast
      refine weight_bound i hi _ _ _ _ ?_ ?_ ?_ v <;> rw [abs_le] <;> constructor <;> linarith
  · simp only [corners, downTri, List.mem_cons, List.not_mem_nil, or_false] at hn hs
    rw [omega_down N i j k hN hi h]
    have a0 := h0 (node N i j (k + 1))
    have a1 := h0 (node N i (j + 1) (k + 1))
    have a2 := h0 (node N i (j + 1) k)
    rcases hn with rfl | rfl | rfl
    · rw [vw_node N i _ _ hN hi (by omega), wt_real N i _ _ (by omega)]
      generalize α (node N i j (k + 1)) = A at *
      generalize α (node N i (j + 1) (k + 1)) = B at *
      generalize α (node N i (j + 1) k) = D at *
      have hA : A = 1 - B - D := by linarith
      subst hA
      have := weight_lin i 1 (-1) ((1 - B - D) * ((N : ℝ) - j - k - 1) + B * (N - j - k - 2) + D * (N - j - k - 1))
        ((1 - B - D) * (k + 1) + B * (k + 1) + D * k) ((1 - B - D) * j + B * (j + 1) + D * (j + 1))
        ((N : ℝ) - j - (k + 1 : ℕ)) (k + 1 : ℕ) j v
      rw [one_mul, neg_one_mul, ← sub_eq_add_neg] at this
      rw [this]
      push_cast
      refine weight_bound i hi _ _ _ _ ?_ ?_ ?_ v <;> rw [abs_le] <;> constructor <;> linarith
    · rw [vw_node N i _ _ hN hi (by omega), wt_real N i _ _ (by omega)]
      generalize α (node N i j (k + 1)) = A at *
      generalize α (node N i (j + 1) (k + 1)) = B at *
      generalize α (node N i (j + 1) k) = D at *
      have hA : A = 1 - B - D := by linarith
      subst hA
      have := weight_lin i 1 (-1) ((1 - B - D) * ((N : ℝ) - j - k - 1) + B * (N - j - k - 2) + D * (N - j - k - 1))
        ((1 - B - D) * (k + 1) + B * (k + 1) + D * k) ((1 - B - D) * j + B * (j + 1) + D * (j + 1))
        ((N : ℝ) - (j + 1 : ℕ) - (k + 1 : ℕ)) (k + 1 : ℕ) (j + 1 : ℕ) v
      rw [one_mul, neg_one_mul, ← sub_eq_add_neg] at this
      rw [this]
      push_cast
      refine weight_bound i hi _ _ _ _ ?_ ?_ ?_ v <;> rw [abs_le] <;> constructor <;> linarith
    · rw [vw_node N i _ _ hN hi (by omega), wt_real N i _ _ (by omega)]
      generalize α (node N i j (k + 1)) = A at *
      generalize α (node N i (j + 1) (k + 1)) = B at *
      generalize α (node N i (j + 1) k) = D at *
      have hA : A = 1 - B - D := by linarith
      subst hA
      have := weight_lin i 1 (-1) ((1 - B - D) * ((N : ℝ) - j - k - 1) + B * (N - j - k - 2) + D * (N - j - k - 1))
        ((1 - B - D) * (k + 1) + B * (k + 1) + D * k) ((1 - B - D) * j + B * (j + 1) + D * (j + 1))
        ((N : ℝ) - (j + 1 : ℕ) - k) k (j + 1 : ℕ) v
      rw [one_mul, neg_one_mul, ← sub_eq_add_neg] at this
      rw [this]
      push_cast
      refine weight_bound i hi _ _ _ _ ?_ ?_ ?_ v <;> rw [abs_le] <;> constructor <;> linarith

theorem sum_wt (N i j k : ℕ) (hi : i < 20) (h : j + k ≤ N) : ∑ v ∈ range 12, wt N i j k v = N := by
  have b := panel_lt i hi
  unfold wt
  simp only [sum_add_distrib, sum_ite_eq', mem_range]
  rw [if_pos (by omega), if_pos (by omega), if_pos (by omega)]; omega

theorem sum_supp (i : ℕ) (hi : i < 20) (g : ℕ → ℕ)
    (h : ∀ v, ¬(v = (panel i).1 ∨ v = (panel i).2.1 ∨ v = (panel i).2.2) → g v = 0) :
    ∑ v ∈ range 12, g v = g (panel i).1 + g (panel i).2.1 + g (panel i).2.2 := by
  have b := panel_lt i hi
  have : ∀ v, g v = (if v = (panel i).1 then g (panel i).1 else 0) + (if v = (panel i).2.1 then g (panel i).2.1 else 0) +
      (if v = (panel i).2.2 then g (panel i).2.2 else 0) := by
    intro v
    by_cases h1 : v = (panel i).1
    · rw [if_pos h1, if_neg (by omega), if_neg (by omega), h1]; omega
    · by_cases h2 : v = (panel i).2.1
      · rw [if_neg h1, if_pos h2, if_neg (by omega), h2]; omega
      · by_cases h3 : v = (panel i).2.2
        · rw [if_neg h1, if_neg h2, if_pos h3, h3]; omega
        · rw [if_neg h1, if_neg h2, if_neg h3, h v (by tauto)]
  rw [sum_congr rfl fun v _ => this v]
  simp only [sum_add_distrib, sum_ite_eq', mem_range]
  rw [if_pos (by omega), if_pos (by omega), if_pos (by omega)]

/-- Integer weights close to a point of a panel. -/
theorem close_node (N i : ℕ) (hN : 0 < N) (hi : i < 20) (x y z : ℝ) (i' j' k' : ℕ) (hi' : i' < 20) (h' : j' + k' ≤ N)
    (hc : ∀ v, |weight i x y z v - wt N i' j' k' v| < 1) :
    ∃ a b c : ℕ, a + b + c = N ∧ |x - a| < 1 ∧ |y - b| < 1 ∧ |z - c| < 1 ∧ node N i' j' k' = node N i c b := by
  have hz : ∀ v, ¬(v = (panel i).1 ∨ v = (panel i).2.1 ∨ v = (panel i).2.2) → wt N i' j' k' v = 0 := by
    intro v hv
    have := hc v
    rw [weight_out i x y z v hv, zero_sub, abs_neg, Nat.abs_cast] at this
    have h1 : wt N i' j' k' v < 1 := by exact_mod_cast this
    omega
  obtain ⟨w1, w2, w3⟩ := weight_at i hi x y z
  have hsum := sum_supp i hi _ hz
  rw [sum_wt N i' j' k' hi' h'] at hsum
  refine ⟨wt N i' j' k' (panel i).1, wt N i' j' k' (panel i).2.1, wt N i' j' k' (panel i).2.2, by omega, ?_, ?_, ?_, ?_⟩
  · have := hc (panel i).1; rwa [w1] at this
  · have := hc (panel i).2.1; rwa [w2] at this
  · have := hc (panel i).2.2; rwa [w3] at this
  · refine wt_node N hN hi' hi h' (by omega) ?_
    funext v
    obtain ⟨q1, q2, q3⟩ := wt_at N i (wt N i' j' k' (panel i).2.2) (wt N i' j' k' (panel i).2.1) hi
    by_cases hv : v = (panel i).1 ∨ v = (panel i).2.1 ∨ v = (panel i).2.2
    · rcases hv with rfl | rfl | rfl
      · rw [q1]; omega
      · rw [q2]
      · rw [q3]
    · rw [hz v hv]
      push Not at hv
      simp [wt, hv.1, hv.2.1, hv.2.2]

theorem int_close (a : ℝ) (h0 : 0 ≤ a) (h1 : a ≤ 1) (q : ℤ) (p : ℕ) (h : |((q : ℝ) + a) - p| < 1) :
    (p : ℤ) = q ∨ (p : ℤ) = q + 1 := by
  rw [abs_lt] at h
  have l1 : ((q - 1 : ℤ) : ℝ) < ((p : ℤ) : ℝ) := by push_cast; linarith
  have l2 : ((p : ℤ) : ℝ) < ((q + 2 : ℤ) : ℝ) := by push_cast; linarith
  have l1' := Int.cast_lt.1 l1
  have l2' := Int.cast_lt.1 l2
  omega

/-- The distance to every vertex is at least one minus its weight. -/
theorem lower (N : ℕ) (hN : 0 < N) (f : Face) (hf : f ∈ allFaces N) (α : ℕ → ℝ) (h0 : ∀ v, 0 ≤ α v)
    (hz : ∀ v, v ∉ corners f → α v = 0) (hs : α f.1 + α f.2.1 + α f.2.2 = 1) (n : ℕ) (hn : n < totalNumVertices N) :
    ∃ v, 1 - α n ≤ |omega' N f α v - vw N n v| := by
  obtain ⟨i, hi, j, k, ⟨h, rfl⟩ | ⟨h, rfl⟩⟩ := (mem_allFaces N hN f).1 hf
  · have a0 := h0 (node N i j k)
    have a1 := h0 (node N i j (k + 1))
    have a2 := h0 (node N i (j + 1) k)
    obtain ⟨w1, w2, w3⟩ := weight_at i hi
      (α (node N i j k) * (N - j - k) + α (node N i j (k + 1)) * (N - j - k - 1) + α (node N i (j + 1) k) * (N - j - k - 1))
      (α (node N i j k) * k + α (node N i j (k + 1)) * (k + 1) + α (node N i (j + 1) k) * k)
      (α (node N i j k) * j + α (node N i j (k + 1)) * j + α (node N i (j + 1) k) * (j + 1))
    by_cases hc : n ∈ corners (upTri N i j k)
    · simp only [corners, upTri, List.mem_cons, List.not_mem_nil, or_false] at hc hs
      rcases hc with rfl | rfl | rfl
      · refine ⟨(panel i).1, ?_⟩
        rw [omega_up N i j k hN hi h, w1, vw_node N i _ _ hN hi (by omega), wt_real N i _ _ (by omega), (weight_at i hi _ _ _).1]
        generalize α (node N i j k) = A at *
        generalize α (node N i j (k + 1)) = B at *
        generalize α (node N i (j + 1) k) = D at *
        obtain rfl : A = 1 - B - D := by linarith
        refine le_trans ?_ (neg_le_abs _)
        linarith
      · refine ⟨(panel i).2.1, ?_⟩
        rw [omega_up N i j k hN hi h, w2, vw_node N i _ _ hN hi (by omega), wt_real N i _ _ (by omega), (weight_at i hi _ _ _).2.1]
        generalize α (node N i j k) = A at *
        generalize α (node N i j (k + 1)) = B at *
        generalize α (node N i (j + 1) k) = D at *
        obtain rfl : A = 1 - B - D := by linarith
        refine le_trans ?_ (neg_le_abs _)
        push_cast
        linarith
      · refine ⟨(panel i).2.2, ?_⟩
        rw [omega_up N i j k hN hi h, w3, vw_node N i _ _ hN hi (by omega), wt_real N i _ _ (by omega), (weight_at i hi _ _ _).2.2]
        generalize α (node N i j k) = A at *
        generalize α (node N i j (k + 1)) = B at *
        generalize α (node N i (j + 1) k) = D at *
        obtain rfl : A = 1 - B - D := by linarith
        refine le_trans ?_ (neg_le_abs _)
        push_cast
        linarith
    · rw [hz n hc]
      by_contra hall
      push Not at hall
      obtain ⟨i', hi', j', k', h', rfl⟩ := exists_node N n hN hn
      have hall' : ∀ v, |weight i
          (α (node N i j k) * (N - j - k) + α (node N i j (k + 1)) * (N - j - k - 1) + α (node N i (j + 1) k) * (N - j - k - 1))
          (α (node N i j k) * k + α (node N i j (k + 1)) * (k + 1) + α (node N i (j + 1) k) * k)
          (α (node N i j k) * j + α (node N i j (k + 1)) * j + α (node N i (j + 1) k) * (j + 1)) v - wt N i' j' k' v| < 1 := by
        intro v
        have := hall v
        rw [omega_up N i j k hN hi h, vw_node N i' j' k' hN hi' h', sub_zero] at this
        exact this
      obtain ⟨a, b, c, habc, ha, hb, hcc, hnode⟩ := close_node N i hN hi _ _ _ i' j' k' hi' h' hall'
      simp only [upTri] at hs
      have A1 : α (node N i j k) = 1 - α (node N i j (k + 1)) - α (node N i (j + 1) k) := by linarith
      have ea := int_close (α (node N i j k)) a0 (by linarith) ((N : ℤ) - j - k - 1) a (by
        rw [A1] at ha ⊢; push_cast; convert ha using 2; ring)
      have eb := int_close (α (node N i j (k + 1))) a1 (by linarith) (k : ℤ) b (by
        rw [A1] at hb; push_cast; convert hb using 2; ring)
      have ec := int_close (α (node N i (j + 1) k)) a2 (by linarith) (j : ℤ) c (by
        rw [A1] at hcc; push_cast; convert hcc using 2; ring)
      have : (c = j ∧ b = k) ∨ (c = j ∧ b = k + 1) ∨ (c = j + 1 ∧ b = k) := by omega
      apply hc
      rw [hnode]
      simp only [corners, upTri, List.mem_cons, List.not_mem_nil, or_false]
      rcases this with ⟨rfl, rfl⟩ | ⟨rfl, rfl⟩ | ⟨rfl, rfl⟩
      · exact .inl rfl
      · exact .inr (.inl rfl)
      · exact .inr (.inr rfl)
  · have a0 := h0 (node N i j (k + 1))
    have a1 := h0 (node N i (j + 1) (k + 1))
    have a2 := h0 (node N i (j + 1) k)
    obtain ⟨w1, w2, w3⟩ := weight_at i hi
      (α (node N i j (k + 1)) * (N - j - k - 1) + α (node N i (j + 1) (k + 1)) * (N - j - k - 2) +
        α (node N i (j + 1) k) * (N - j - k - 1))
      (α (node N i j (k + 1)) * (k + 1) + α (node N i (j + 1) (k + 1)) * (k + 1) + α (node N i (j + 1) k) * k)
      (α (node N i j (k + 1)) * j + α (node N i (j + 1) (k + 1)) * (j + 1) + α (node N i (j + 1) k) * (j + 1))
    by_cases hc : n ∈ corners (downTri N i j k)
    · simp only [corners, downTri, List.mem_cons, List.not_mem_nil, or_false] at hc hs
      rcases hc with rfl | rfl | rfl
      · refine ⟨(panel i).2.2, ?_⟩
        rw [omega_down N i j k hN hi h, w3, vw_node N i _ _ hN hi (by omega), wt_real N i _ _ (by omega), (weight_at i hi _ _ _).2.2]
        generalize α (node N i j (k + 1)) = A at *
        generalize α (node N i (j + 1) (k + 1)) = B at *
        generalize α (node N i (j + 1) k) = D at *
        obtain rfl : A = 1 - B - D := by linarith
        refine le_trans ?_ (le_abs_self _)
        linarith
      · refine ⟨(panel i).1, ?_⟩
        rw [omega_down N i j k hN hi h, w1, vw_node N i _ _ hN hi (by omega), wt_real N i _ _ (by omega), (weight_at i hi _ _ _).1]
        generalize α (node N i j (k + 1)) = A at *
        generalize α (node N i (j + 1) (k + 1)) = B at *
        generalize α (node N i (j + 1) k) = D at *
        obtain rfl : A = 1 - B - D := by linarith
        refine le_trans ?_ (le_abs_self _)
        push_cast
        linarith
      · refine ⟨(panel i).2.1, ?_⟩
        rw [omega_down N i j k hN hi h, w2, vw_node N i _ _ hN hi (by omega), wt_real N i _ _ (by omega), (weight_at i hi _ _ _).2.1]
        generalize α (node N i j (k + 1)) = A at *
        generalize α (node N i (j + 1) (k + 1)) = B at *
        generalize α (node N i (j + 1) k) = D at *
        obtain rfl : A = 1 - B - D := by linarith
        refine le_trans ?_ (le_abs_self _)
        linarith
    · rw [hz n hc]
      by_contra hall
      push Not at hall
      obtain ⟨i', hi', j', k', h', rfl⟩ := exists_node N n hN hn
      have hall' : ∀ v, |weight i
          (α (node N i j (k + 1)) * (N - j - k - 1) + α (node N i (j + 1) (k + 1)) * (N - j - k - 2) +
            α (node N i (j + 1) k) * (N - j - k - 1))
          (α (node N i j (k + 1)) * (k + 1) + α (node N i (j + 1) (k + 1)) * (k + 1) + α (node N i (j + 1) k) * k)
          (α (node N i j (k + 1)) * j + α (node N i (j + 1) (k + 1)) * (j + 1) + α (node N i (j + 1) k) * (j + 1)) v -
            wt N i' j' k' v| < 1 := by
        intro v
        have := hall v
        rw [omega_down N i j k hN hi h, vw_node N i' j' k' hN hi' h', sub_zero] at this
        exact this
      obtain ⟨a, b, c, habc, ha, hb, hcc, hnode⟩ := close_node N i hN hi _ _ _ i' j' k' hi' h' hall'
      simp only [downTri] at hs
      have A1 : α (node N i j (k + 1)) = 1 - α (node N i (j + 1) (k + 1)) - α (node N i (j + 1) k) := by linarith
      have ea := int_close (1 - α (node N i (j + 1) (k + 1))) (by linarith) (by linarith) ((N : ℤ) - j - k - 2) a (by
        rw [A1] at ha; push_cast; convert ha using 2; ring)
      have eb := int_close (1 - α (node N i (j + 1) k)) (by linarith) (by linarith) (k : ℤ) b (by
        rw [A1] at hb; push_cast; convert hb using 2; ring)
      have ec := int_close (1 - α (node N i j (k + 1))) (by linarith) (by linarith) (j : ℤ) c (by
        rw [A1] at hcc ⊢; push_cast; convert hcc using 2; ring)
      have : (c = j ∧ b = k + 1) ∨ (c = j + 1 ∧ b = k + 1) ∨ (c = j + 1 ∧ b = k) := by omega
      apply hc
      rw [hnode]
      simp only [corners, downTri, List.mem_cons, List.not_mem_nil, or_false]
      rcases this with ⟨rfl, rfl⟩ | ⟨rfl, rfl⟩ | ⟨rfl, rfl⟩
      · exact .inl rfl
      · exact .inr (.inl rfl)
      · exact .inr (.inr rfl)

theorem le_of_omega (N : ℕ) (hN : 0 < N) (f g : Face) (hf : f ∈ allFaces N) (hg : g ∈ allFaces N) (α β : ℕ → ℝ)
    (ha : ∀ v, 0 ≤ α v) (hb : ∀ v, 0 ≤ β v) (hfz : ∀ v, v ∉ corners f → α v = 0) (hgz : ∀ v, v ∉ corners g → β v = 0)
    (hsa : α f.1 + α f.2.1 + α f.2.2 = 1) (hsb : β g.1 + β g.2.1 + β g.2.2 = 1)
    (h : ∀ v, omega' N f α v = omega' N g β v) (n : ℕ) : α n ≤ β n := by
  by_cases hn : n ∈ corners f
  · obtain ⟨v, hv⟩ := lower N hN g hg β hb hgz hsb n (((C107_closed N hN).corners f hf).2 n hn)
    have hu := upper N hN f hf α ha hsa n hn v
    rw [h v] at hu
    linarith
  · rw [hfz n hn]; exact hb n

/-- A combination of the corners of a triangle in its panel. -/
theorem raw_comb (N : ℕ) (hN : 0 < N) (f : Face) (hf : f ∈ allFaces N) (α : ℕ → ℝ) (ha : ∀ v, 0 ≤ α v) :
    ∃ i < 20, ∃ x y z : ℝ, 0 ≤ x ∧ 0 ≤ y ∧ 0 ≤ z ∧
      α f.1 • raw N f.1 + α f.2.1 • raw N f.2.1 + α f.2.2 • raw N f.2.2 = cone i x y z ∧
      (∀ v, weight i x y z v = omega' N f α v / N) ∧ x + y + z = α f.1 + α f.2.1 + α f.2.2 := by
  have hN' : (0 : ℝ) < N := by exact_mod_cast hN
  obtain ⟨i, hi, j, k, ⟨h, rfl⟩ | ⟨h, rfl⟩⟩ := (mem_allFaces N hN f).1 hf
  · have c1 : (j : ℝ) + k + 1 ≤ N := by exact_mod_cast h
    have a0 := ha (node N i j k)
    have a1 := ha (node N i j (k + 1))
    have a2 := ha (node N i (j + 1) k)
    refine ⟨i, hi,
      (α (node N i j k) * (N - j - k) + α (node N i j (k + 1)) * (N - j - k - 1) + α (node N i (j + 1) k) * (N - j - k - 1)) / N,
      (α (node N i j k) * k + α (node N i j (k + 1)) * (k + 1) + α (node N i (j + 1) k) * k) / N,
      (α (node N i j k) * j + α (node N i j (k + 1)) * j + α (node N i (j + 1) k) * (j + 1)) / N, ?_, ?_, ?_, ?_, ?_, ?_⟩
    · have q1 : (0 : ℝ) ≤ N - j - k := by linarith
      have q2 : (0 : ℝ) ≤ N - j - k - 1 := by linarith
      positivity
    · positivity
    · positivity
    · simp only [upTri]
      rw [raw_node N i j k hN hi (by omega), raw_node N i j (k + 1) hN hi (by omega), raw_node N i (j + 1) k hN hi (by omega)]
      unfold cone
      push_cast
      match_scalars <;> field_simp <;> ring
    · intro v
      rw [omega_up N i j k hN hi h]
      unfold weight; split_ifs <;> ring
    · simp only [upTri]; field_simp; ring
  · have c1 : (j : ℝ) + k + 1 + 1 ≤ N := by exact_mod_cast h
    have a0 := ha (node N i j (k + 1))
    have a1 := ha (node N i (j + 1) (k + 1))
    have a2 := ha (node N i (j + 1) k)
    refine ⟨i, hi,
      (α (node N i j (k + 1)) * (N - j - k - 1) + α (node N i (j + 1) (k + 1)) * (N - j - k - 2) +
        α (node N i (j + 1) k) * (N - j - k - 1)) / N,
      (α (node N i j (k + 1)) * (k + 1) + α (node N i (j + 1) (k + 1)) * (k + 1) + α (node N i (j + 1) k) * k) / N,
      (α (node N i j (k + 1)) * j + α (node N i (j + 1) (k + 1)) * (j + 1) + α (node N i (j + 1) k) * (j + 1)) / N,
      ?_, ?_, ?_, ?_, ?_, ?_⟩
    · have q1 : (0 : ℝ) ≤ N - j - k - 1 := by linarith
      have q2 : (0 : ℝ) ≤ N - j - k - 2 := by linarith
      positivity
    · positivity
    · positivity
    · simp only [downTri]
      rw [raw_node N i j (k + 1) hN hi (by omega), raw_node N i (j + 1) (k + 1) hN hi (by omega),
        raw_node N i (j + 1) k hN hi (by omega)]
      unfold cone
      push_cast
      match_scalars <;> field_simp <;> ring
    · intro v
      rw [omega_down N i j k hN hi h]
      unfold weight; split_ifs <;> ring
    · simp only [downTri]; field_simp; ring

theorem raw_overlap (N : ℕ) (hN : 0 < N) (f g : Face) (hf : f ∈ allFaces N) (hg : g ∈ allFaces N) (α β : ℕ → ℝ)
    (ha : ∀ v, 0 ≤ α v) (hb : ∀ v, 0 ≤ β v) (hfz : ∀ v, v ∉ corners f → α v = 0) (hgz : ∀ v, v ∉ corners g → β v = 0)
    (h : α f.1 • raw N f.1 + α f.2.1 • raw N f.2.1 + α f.2.2 • raw N f.2.2 =
      β g.1 • raw N g.1 + β g.2.1 • raw N g.2.1 + β g.2.2 • raw N g.2.2) : α = β := by
  have hN' : (0 : ℝ) < N := by exact_mod_cast hN
  obtain ⟨i, hi, x, y, z, hx, hy, hz, hc, hw, hs⟩ := raw_comb N hN f hf α ha
  obtain ⟨i', hi', x', y', z', hx', hy', hz', hc', hw', hs'⟩ := raw_comb N hN g hg β hb
  have hcc : cone i x y z = cone i' x' y' z' := by rw [← hc, ← hc', h]
  have hfan := fan i i' hi hi' x y z x' y' z' hx hy hz hx' hy' hz' hcc
  have homega : ∀ v, omega' N f α v = omega' N g β v := by
    intro v
    have := congrFun hfan v
    rw [hw, hw'] at this
    field_simp at this
    exact this
  have hS : α f.1 + α f.2.1 + α f.2.2 = β g.1 + β g.2.1 + β g.2.2 := by
    rw [← hs, ← hs']
    have h1 : ∀ (i : ℕ) (_ : i < 20) (x y z : ℝ), ∑ v ∈ range 12, weight i x y z v = x + y + z := by
      intro i hi x y z
      have b := panel_lt i hi
      unfold weight
      simp only [sum_add_distrib, sum_ite_eq', mem_range]
      rw [if_pos (by omega), if_pos (by omega), if_pos (by omega)]
    rw [← h1 i hi, ← h1 i' hi', hfan]
  rcases eq_or_lt_of_le (show 0 ≤ α f.1 + α f.2.1 + α f.2.2 from add_nonneg (add_nonneg (ha _) (ha _)) (ha _)) with h0 | h0
  · have z1 : ∀ n, α n = 0 := by
      intro n
      by_cases hn : n ∈ corners f
      · have := ha f.1; have := ha f.2.1; have := ha f.2.2
        simp only [corners, List.mem_cons, List.not_mem_nil, or_false] at hn
        rcases hn with rfl | rfl | rfl <;> linarith
      · exact hfz n hn
    have z2 : ∀ n, β n = 0 := by
      intro n
      rw [hS] at h0
      by_cases hn : n ∈ corners g
      · have := hb g.1; have := hb g.2.1; have := hb g.2.2
        simp only [corners, List.mem_cons, List.not_mem_nil, or_false] at hn
        rcases hn with rfl | rfl | rfl <;> linarith
      · exact hgz n hn
    funext n; rw [z1, z2]
  · set S := α f.1 + α f.2.1 + α f.2.2 with hSd
    have sc : ∀ (f : Face) (γ : ℕ → ℝ) (v : ℕ), omega' N f (fun n => γ n / S) v = omega' N f γ v / S := by
      intro f γ v; unfold omega'; ring
    have e1 := le_of_omega N hN f g hf hg (fun n => α n / S) (fun n => β n / S) (fun v => div_nonneg (ha v) h0.le)
      (fun v => div_nonneg (hb v) h0.le) (fun v hv => by simp [hfz v hv]) (fun v hv => by simp [hgz v hv])
      (by rw [← add_div, ← add_div, ← hSd]; exact div_self h0.ne') (by rw [← add_div, ← add_div, ← hS]; exact div_self h0.ne')
      (fun v => by rw [sc, sc, homega])
    have e2 := le_of_omega N hN g f hg hf (fun n => β n / S) (fun n => α n / S) (fun v => div_nonneg (hb v) h0.le)
      (fun v => div_nonneg (ha v) h0.le) (fun v hv => by simp [hgz v hv]) (fun v hv => by simp [hfz v hv])
      (by rw [← add_div, ← add_div, ← hS]; exact div_self h0.ne') (by rw [← add_div, ← add_div, ← hSd]; exact div_self h0.ne')
      (fun v => by rw [sc, sc, homega])
    funext n
    exact le_antisymm ((div_le_div_iff_of_pos_right h0).1 (e1 n)) ((div_le_div_iff_of_pos_right h0).1 (e2 n))

/-- Weights at three different vertices. -/
theorem weights_exist (n0 n1 n2 : ℕ) (h01 : n0 ≠ n1) (h02 : n0 ≠ n2) (h12 : n1 ≠ n2) (a b c : ℝ) (ha : 0 ≤ a) (hb : 0 ≤ b)
    (hc : 0 ≤ c) : ∃ α : ℕ → ℝ, (∀ v, 0 ≤ α v) ∧ α n0 = a ∧ α n1 = b ∧ α n2 = c := by
  refine ⟨fun v => if v = n0 then a else if v = n1 then b else if v = n2 then c else 0, fun v => ?_, ?_, ?_, ?_⟩
  · dsimp only; split_ifs <;> first | assumption | exact le_rfl
  · simp
  · simp [h01.symm]
  · simp [h02.symm, h12.symm]

theorem raw_cover (N : ℕ) (hN : 0 < N) (x : E3) : ∃ f ∈ allFaces N, ∃ α : ℕ → ℝ, (∀ v, 0 ≤ α v) ∧
    x = α f.1 • raw N f.1 + α f.2.1 • raw N f.2.1 + α f.2.2 • raw N f.2.2 := by
  have hN' : (0 : ℝ) < N := by exact_mod_cast hN
  obtain ⟨i, hi, p, q, r, hp, hq, hr, rfl⟩ := panel_cover x
  rcases eq_or_lt_of_le (show 0 ≤ p + q + r by positivity) with h0 | h0
  · refine ⟨upTri N i 0 0, (mem_allFaces N hN _).2 ⟨i, hi, 0, 0, .inl ⟨by omega, rfl⟩⟩, fun _ => 0, fun _ => le_rfl, ?_⟩
    have e1 : p = 0 := by linarith
    have e2 : q = 0 := by linarith
    have e3 : r = 0 := by linarith
    simp [cone, e1, e2, e3]
  · set S := p + q + r with hS
    set Y := N * q / S with hY
    set Z := N * r / S with hZ
    have hX : (N : ℝ) * p / S = N - Z - Y := by rw [hY, hZ, hS]; rw [hS] at h0; field_simp; ring
    have hYn : 0 ≤ Y := by positivity
    have hZn : 0 ≤ Z := by positivity
    have hXn : 0 ≤ N - Z - Y := by rw [← hX]; positivity
    obtain ⟨j, u, hu0, hu1, hj⟩ : ∃ (j : ℕ) (u : ℝ), 0 ≤ u ∧ u < 1 ∧ Z = j + u :=
      ⟨⌊Z⌋₊, Z - ⌊Z⌋₊, sub_nonneg.2 (Nat.floor_le hZn), by have := Nat.lt_floor_add_one Z; linarith, by ring⟩
    obtain ⟨k, w, hw0, hw1, hk⟩ : ∃ (k : ℕ) (w : ℝ), 0 ≤ w ∧ w < 1 ∧ Y = k + w :=
      ⟨⌊Y⌋₊, Y - ⌊Y⌋₊, sub_nonneg.2 (Nat.floor_le hYn), by have := Nat.lt_floor_add_one Y; linarith, by ring⟩
    have hjk : j + k ≤ N := by
      have : (j : ℝ) + k ≤ N := by linarith
      exact_mod_cast this
    -- the weights of `x` in the panel
    have back : cone i p q r = cone i (S * ((N - Z - Y) / N)) (S * (Y / N)) (S * (Z / N)) := by
      have e1 : S * ((N - Z - Y) / N) = p := by rw [← hX]; field_simp
      have e2 : S * (Y / N) = q := by rw [hY]; field_simp
      have e3 : S * (Z / N) = r := by rw [hZ]; field_simp
      rw [e1, e2, e3]
    rw [back]
    have useUp : ∀ (j k : ℕ) (A B D : ℝ), j + k < N → 0 ≤ A → 0 ≤ B → 0 ≤ D → A + B + D = 1 → Z = j + D → Y = k + B →
        ∃ f ∈ allFaces N, ∃ α : ℕ → ℝ, (∀ v, 0 ≤ α v) ∧ cone i (S * ((N - Z - Y) / N)) (S * (Y / N)) (S * (Z / N)) =
          α f.1 • raw N f.1 + α f.2.1 • raw N f.2.1 + α f.2.2 • raw N f.2.2 := by
      intro j k A B D hlt hA hB hD hsum hz hy
      obtain ⟨c1, c2, c3⟩ := up_corners hN hi j k hlt
      obtain ⟨α, hα, e0, e1, e2⟩ := weights_exist _ _ _ c1 c2 c3 (S * A) (S * B) (S * D) (by positivity) (by positivity) (by positivity)
      refine ⟨upTri N i j k, (mem_allFaces N hN _).2 ⟨i, hi, j, k, .inl ⟨hlt, rfl⟩⟩, α, hα, ?_⟩
      simp only [upTri]
      rw [e0, e1, e2, raw_node N i j k hN hi (by omega), raw_node N i j (k + 1) hN hi (by omega),
        raw_node N i (j + 1) k hN hi (by omega), hz, hy]
      obtain rfl : A = 1 - B - D := by linarith
      unfold cone
      push_cast
      match_scalars <;> field_simp <;> ring
    by_cases hlt : j + k < N
    · by_cases huw : u + w ≤ 1
      · exact useUp j k (1 - w - u) w u hlt (by linarith) hw0 hu0 (by ring) hj hk
      · push Not at huw
        have hlt2 : j + k + 1 < N := by
          have : (j : ℝ) + k + 1 < N := by linarith
          exact_mod_cast this
        obtain ⟨c1, c2, c3⟩ := down_corners hN hi j k hlt2
        obtain ⟨α, hα, e0, e1, e2⟩ := weights_exist _ _ _ c1 c2 c3 (S * (1 - u)) (S * (u + w - 1)) (S * (1 - w))
          (mul_nonneg h0.le (by linarith)) (mul_nonneg h0.le (by linarith)) (mul_nonneg h0.le (by linarith))
        refine ⟨downTri N i j k, (mem_allFaces N hN _).2 ⟨i, hi, j, k, .inr ⟨hlt2, rfl⟩⟩, α, hα, ?_⟩
        simp only [downTri]
        rw [e0, e1, e2, raw_node N i j (k + 1) hN hi (by omega), raw_node N i (j + 1) (k + 1) hN hi (by omega),
          raw_node N i (j + 1) k hN hi (by omega), hj, hk]
        unfold cone
        push_cast
        match_scalars <;> field_simp <;> ring
    · have hE : (j : ℝ) + k = N := by exact_mod_cast (show j + k = N by omega)
      have hu : u = 0 := by linarith
      have hw : w = 0 := by linarith
      subst hu; subst hw
      by_cases hj0 : j = 0
      · subst hj0
        refine useUp 0 (k - 1) 0 1 0 (by omega) le_rfl zero_le_one le_rfl (by ring) hj ?_
        rw [hk, Nat.cast_sub (by omega)]; push_cast; ring
      · refine useUp (j - 1) k 0 0 1 (by omega) le_rfl le_rfl zero_le_one (by ring) ?_ hk
        rw [hj, Nat.cast_sub (by omega)]; push_cast; ring

theorem raw_ne (N : ℕ) (hN : 0 < N) (v : ℕ) (hv : v < totalNumVertices N) : raw N v ≠ 0 := by
  obtain ⟨i, hi, j, k, h, rfl⟩ := exists_node N v hN hv
  rw [raw_node N i j k hN hi h]
  intro h0
  have := normal_own i hi (((N : ℝ) - j - k) / N) ((k : ℝ) / N) ((j : ℝ) / N)
  rw [h0, inner_zero_right] at this
  have hN' : (N : ℝ) ≠ 0 := by exact_mod_cast hN.ne'
  have e : ((N : ℝ) - j - k) / N + (k : ℝ) / N + (j : ℝ) / N = 1 := by field_simp; ring
  rw [e] at this
  have := phi_pos
  linarith

theorem pushOut_norm (radius : ℝ) (hr : 0 < radius) (x : E3) (hx : x ≠ 0) : ‖pushOut radius x‖ = radius := by
  unfold pushOut
  have : 0 < ‖x‖ := norm_pos_iff.2 hx
  rw [norm_smul, Real.norm_of_nonneg (by positivity)]
  field_simp

/-! ### The mesh -/

theorem getD_points (radius : ℝ) (N v : ℕ) :
    ((allVertices baseVertices N).map (pushOut radius)).getD v 0 = (radius / ‖raw N v‖) • raw N v := by
  unfold raw
  rw [List.getD_eq_getElem?_getD, List.getD_eq_getElem?_getD, List.getElem?_map]
  cases (allVertices baseVertices N)[v]? <;> simp [pushOut]

theorem getD_of_lt {α : Type*} (l : List α) (d : α) (n : ℕ) (h : n < l.length) : l.getD n d = l[n] := by
  rw [List.getD_eq_getElem?_getD, List.getElem?_eq_getElem h, Option.getD_some]

theorem triangulates (radius : ℝ) (hr : 0 < radius) (N : ℕ) (hN : 0 < N) :
    Triangulates radius (allFaces N) ((allVertices baseVertices N).map (pushOut radius)) := by
  have hlen : ((allVertices baseVertices N).map (pushOut radius)).length = totalNumVertices N := by
    rw [List.length_map, allVertices_length]
  have hscale : ∀ v < totalNumVertices N, 0 < radius / ‖raw N v‖ := fun v hv =>
    div_pos hr (norm_pos_iff.2 (raw_ne N hN v hv))
  have hcl := C107_closed N hN
  have overlap : ∀ f ∈ allFaces N, ∀ g ∈ allFaces N, ∀ α β : ℕ → ℝ, (∀ v, 0 ≤ α v) → (∀ v, 0 ≤ β v) →
      (∀ v, v ∉ corners f → α v = 0) → (∀ v, v ∉ corners g → β v = 0) →
      comb ((allVertices baseVertices N).map (pushOut radius)) f α =
        comb ((allVertices baseVertices N).map (pushOut radius)) g β → α = β := by
    intro f hf g hg α β ha hb hfz hgz h
    unfold comb at h
    simp only [getD_points, smul_smul] at h
    have nn : ∀ v, 0 ≤ radius / ‖raw N v‖ := fun v => div_nonneg hr.le (norm_nonneg _)
    have := raw_overlap N hN f g hf hg (fun v => α v * (radius / ‖raw N v‖)) (fun v => β v * (radius / ‖raw N v‖))
      (fun v => mul_nonneg (ha v) (nn v)) (fun v => mul_nonneg (hb v) (nn v)) (fun v hv => by simp [hfz v hv])
      (fun v hv => by simp [hgz v hv]) h
    funext v
    by_cases hv : v < totalNumVertices N
    · exact mul_right_cancel₀ (hscale v hv).ne' (congrFun this v)
    · rw [hfz v fun hc => hv ((hcl.corners f hf).2 v hc), hgz v fun hc => hv ((hcl.corners g hg).2 v hc)]
  refine ⟨by rw [hlen]; exact hcl, fun p hp => ?_, ?_, fun x => ?_, overlap⟩
  · obtain ⟨x, hx, rfl⟩ := List.mem_map.1 hp
    obtain ⟨v, hv, rfl⟩ := List.mem_iff_getElem.1 hx
    have := raw_ne N hN v (by rwa [allVertices_length] at hv)
    unfold raw at this
    rw [getD_of_lt _ _ _ hv] at this
    exact pushOut_norm radius hr _ this
  · rw [List.nodup_iff_injective_get]
    intro ⟨u, hu⟩ ⟨w, hw⟩ h
    rw [hlen] at hu hw
    obtain ⟨f, hf, huf⟩ := hcl.used u hu
    obtain ⟨g, hg, hwg⟩ := hcl.used w hw
    have hc : ∀ (f : Face) (u : ℕ), (corners f).Nodup → u ∈ corners f →
        comb ((allVertices baseVertices N).map (pushOut radius)) f (fun v => if v = u then 1 else 0) =
          ((allVertices baseVertices N).map (pushOut radius)).getD u 0 := by
      intro f u hnd hu
      simp only [corners, List.nodup_cons, List.mem_cons, List.not_mem_nil, or_false, not_or, List.mem_singleton,
        not_false_eq_true, List.nodup_nil, and_true] at hnd hu
      unfold comb
      rcases hu with rfl | rfl | rfl
      · simp [Ne.symm hnd.1.1, Ne.symm hnd.1.2]
      · simp [hnd.1.1, Ne.symm hnd.2]
      · simp [hnd.1.2, hnd.2]
    have := overlap f hf g hg (fun v => if v = u then 1 else 0) (fun v => if v = w then 1 else 0)
      (fun v => by split_ifs <;> norm_num) (fun v => by split_ifs <;> norm_num)
      (fun v hv => if_neg (fun h : v = u => hv (h ▸ huf))) (fun v hv => if_neg (fun h : v = w => hv (h ▸ hwg)))
      (by
        rw [hc f u (hcl.corners f hf).1 huf, hc g w (hcl.corners g hg).1 hwg,
          getD_of_lt _ _ _ (by rwa [hlen]), getD_of_lt _ _ _ (by rwa [hlen])]
        simpa using h)
    have h2 := congrFun this u
    simp only [if_true] at h2
    have : u = w := by
      by_contra hne
      rw [if_neg hne] at h2
      exact one_ne_zero h2
    exact Fin.ext this
  · obtain ⟨f, hf, α, ha, hx⟩ := raw_cover N hN x
    refine ⟨f, hf, fun v => α v * (‖raw N v‖ / radius), fun v => mul_nonneg (ha v) (div_nonneg (norm_nonneg _) hr.le), ?_⟩
    unfold comb
    simp only [getD_points, smul_smul]
    have e : ∀ v ∈ corners f, α v * (‖raw N v‖ / radius) * (radius / ‖raw N v‖) = α v := by
      intro v hv
      have := norm_pos_iff.2 (raw_ne N hN v ((hcl.corners f hf).2 v hv))
      field_simp
    rw [e f.1 (by simp [corners]), e f.2.1 (by simp [corners]), e f.2.2 (by simp [corners])]
    exact hx

/-- C107: with a positive radius, at least one cell per edge and degree at least one, the mesh is built without an
error and triangulates the sphere, with `20 n²` triangles and `10 n² + 2` vertices. -/
theorem C107_sphere (radius : ℝ) (hr : 0 < radius) (num degree : ℤ) (hn : 1 ≤ num) (hd : 1 ≤ degree) :
    ∃ F P, icosphere radius num degree = .ok (F, P) ∧ Triangulates radius F P ∧ (F.length : ℤ) = 20 * num ^ 2 ∧
      (P.length : ℤ) = 10 * num ^ 2 + 2 := by
  have hN : 0 < num.toNat := by omega
  have ho : occurrencesOk num.toNat = true := by
    unfold occurrencesOk
    rw [List.all_eq_true]
    intro v hv
    have := C107_valence num.toNat v hN (List.mem_range.1 hv)
    rw [this]; split_ifs <;> rfl
  obtain ⟨c1, c2, c3⟩ := C107_counts num.toNat hN baseVertices
  have hcast : ((num.toNat : ℕ) : ℤ) = num := Int.toNat_of_nonneg (by omega)
  refine ⟨allFaces num.toNat, (allVertices baseVertices num.toNat).map (pushOut radius), ?_, triangulates radius hr _ hN, ?_, ?_⟩
  · unfold icosphere
    rw [if_neg (by omega), if_neg (by omega), tables, ho]; simp
  · rw [c1]; push_cast; rw [hcast]
  · rw [List.length_map, c3, c2]; push_cast; rw [hcast]

/-- C107: other arguments are rejected. -/
theorem C107_errors (radius : ℝ) (num degree : ℤ) : (num < 1 → icosphere radius num degree = .error .runtimeError) ∧
    (1 ≤ num → degree < 1 → icosphere radius num degree = .error .valueError) := by
  refine ⟨fun h => by unfold icosphere; rw [if_pos h], fun h h' => ?_⟩
  unfold icosphere; rw [if_neg (by omega), if_pos h']

theorem base_dist (a b : ℕ) (ha : a < 12) (hb : b < 12) (h : inner ℝ (baseVertices a) (baseVertices b) = phi) :
    ‖baseVertices a - baseVertices b‖ = 2 := by
  have : ‖baseVertices a - baseVertices b‖ ^ 2 = 4 := by
    rw [@norm_sub_sq ℝ, ← real_inner_self_eq_norm_sq, ← real_inner_self_eq_norm_sq, dot_self a ha, dot_self b hb]
    simp only [h, RCLike.re_to_real]; ring
  have h2 : ‖baseVertices a - baseVertices b‖ ^ 2 = 2 ^ 2 := by rw [this]; norm_num
  exact (sq_eq_sq₀ (norm_nonneg _) (by norm_num)).1 h2

/-- C107: before the points are pushed out to the sphere all triangles are equilateral with the same side length. -/
theorem C107_equilateral (N : ℕ) (hN : 0 < N) (f : Face) (hf : f ∈ allFaces N) (u w : ℕ) (hu : u ∈ corners f)
    (hw : w ∈ corners f) (huw : u ≠ w) :
    ‖(allVertices baseVertices N).getD u 0 - (allVertices baseVertices N).getD w 0‖ = 2 / N := by
  have hN' : (0 : ℝ) < N := by exact_mod_cast hN
  have sc : ∀ (x : E3), ‖x‖ = 2 → ‖(1 / (N : ℝ)) • x‖ = 2 / N := by
    intro x hx; rw [norm_smul, hx, Real.norm_of_nonneg (by positivity)]; ring
  change ‖raw N u - raw N w‖ = 2 / N
  have main : ∀ i j k, i < 20 → j + k < N → ‖raw N (node N i j k) - raw N (node N i j (k + 1))‖ = 2 / N ∧
      ‖raw N (node N i j k) - raw N (node N i (j + 1) k)‖ = 2 / N ∧
      ‖raw N (node N i j (k + 1)) - raw N (node N i (j + 1) k)‖ = 2 / N := by
    intro i j k hi h
    have b := panel_lt i hi
    obtain ⟨d1, d2, d3⟩ := dot_panel i hi
    rw [raw_node N i j k hN hi (by omega), raw_node N i j (k + 1) hN hi (by omega), raw_node N i (j + 1) k hN hi (by omega)]
    refine ⟨?_, ?_, ?_⟩
    · rw [← sc _ (base_dist _ _ (by omega) (by omega) d1)]
      congr 1; unfold cone; push_cast; match_scalars <;> field_simp <;> ring
    · rw [← sc _ (base_dist _ _ (by omega) (by omega) d2)]
      congr 1; unfold cone; push_cast; match_scalars <;> field_simp <;> ring
    · rw [← sc _ (base_dist _ _ (by omega) (by omega) d3)]
      congr 1; unfold cone; push_cast; match_scalars <;> field_simp <;> ring
  have sym : ∀ (A B D : ℕ) (c : ℝ), ‖raw N A - raw N B‖ = c → ‖raw N A - raw N D‖ = c → ‖raw N B - raw N D‖ = c →
      (u = A ∨ u = B ∨ u = D) → (w = A ∨ w = B ∨ w = D) → ‖raw N u - raw N w‖ = c := by
    intro A B D c h1 h2 h3 hu hw
    rcases hu with hu | hu | hu <;> rcases hw with hw | hw | hw <;> rw [hu, hw]
    · exact absurd (hu.trans hw.symm) huw
    · exact h1
    · exact h2
    · rw [norm_sub_rev]; exact h1
    · exact absurd (hu.trans hw.symm) huw
    · exact h3
    · rw [norm_sub_rev]; exact h2
    · rw [norm_sub_rev]; exact h3
    · exact absurd (hu.trans hw.symm) huw
  obtain ⟨i, hi, j, k, ⟨h, rfl⟩ | ⟨h, rfl⟩⟩ := (mem_allFaces N hN f).1 hf
  · obtain ⟨m1, m2, m3⟩ := main i j k hi h
    simp only [corners, upTri, List.mem_cons, List.not_mem_nil, or_false] at hu hw
    exact sym _ _ _ _ m1 m2 m3 hu hw
  · obtain ⟨-, -, m3⟩ := main i j k hi (by omega)
    obtain ⟨m1, -, -⟩ := main i (j + 1) k hi (by omega)
    obtain ⟨-, m2, -⟩ := main i j (k + 1) hi (by omega)
    simp only [corners, downTri, List.mem_cons, List.not_mem_nil, or_false] at hu hw
    exact sym _ _ _ _ m2 m3 (by rw [norm_sub_rev]; exact m1) hu hw

/-- C107: all nodes of a coordinate field of higher degree are on the sphere. -/
theorem C107_degree (radius : ℝ) (hr : 0 < radius) (nodes : List E3) (h : ∀ x ∈ nodes, x ≠ 0) :
    ∀ p ∈ higherDegree radius nodes, ‖p‖ = radius := by
  intro p hp
  obtain ⟨x, hx, rfl⟩ := List.mem_map.1 hp
  exact pushOut_norm radius hr x (h x hx)

/-- Three cells per edge: 180 triangles, 92 vertices. -/
example : ∃ F P, icosphere 6371220 3 1 = .ok (F, P) ∧ Triangulates 6371220 F P ∧ (F.length : ℤ) = 180 ∧ (P.length : ℤ) = 92 := by
  obtain ⟨F, P, h1, h2, h3, h4⟩ := C107_sphere 6371220 (by norm_num) 3 1 (by norm_num) (by norm_num)
  exact ⟨F, P, h1, h2, by rw [h3]; norm_num, by rw [h4]; norm_num⟩
example : upTri 3 0 1 1 ∈ allFaces 3 := (mem_allFaces 3 (by norm_num) _).2 ⟨0, by norm_num, 1, 1, .inl ⟨by norm_num, rfl⟩⟩

end Gusto.Props.IcosphereGeomProps
