import Verif.Model.DomainGeometry
import Verif.Props.Columns
import Mathlib.Analysis.InnerProductSpace.Calculus
import Mathlib.Analysis.InnerProductSpace.Dual
import Mathlib.Analysis.Calculus.Deriv.Mul
import Mathlib.Analysis.Calculus.Deriv.Add

set_option autoImplicit false
set_option linter.unusedSectionVars false
set_option linter.unusedSimpArgs false

/-!
# C110: the geometry of a domain

Model: `Verif.Model.DomainGeometry`.
-/

namespace Gusto.Props.DomainGeometryProps
open Gusto.Columns Gusto.DomainGeometry

/-! ### Specification -/

/-- Shapes a user can build with Firedrake. -/
inductive Shape where
  | interval | circle | plane | sphere | torusSurface | solid
  | extrudedInterval | extrudedPlane | thickSphere | annulus | thickTorus

/-- Their dimensions: extrusion adds a topological dimension; it adds a geometric dimension unless it is radial. -/
def Shape.mesh : Shape → Mesh
  | .interval => ⟨false, 1, 1, none⟩
  | .circle => ⟨false, 2, 1, none⟩
  | .plane => ⟨false, 2, 2, none⟩
  | .sphere => ⟨false, 3, 2, none⟩
  | .torusSurface => ⟨false, 3, 2, none⟩
  | .solid => ⟨false, 3, 3, none⟩
  | .extrudedInterval => ⟨true, 2, 2, some (1, 1)⟩
  | .extrudedPlane => ⟨true, 3, 3, some (2, 2)⟩
  | .thickSphere => ⟨true, 3, 3, some (3, 2)⟩
  | .annulus => ⟨true, 2, 2, some (2, 1)⟩
  | .thickTorus => ⟨true, 3, 3, some (3, 2)⟩

/-- `a` is the difference of the largest and the smallest member of `s`. -/
def IsExtent {K : Type} [LinearOrder K] [Sub K] (s : List K) (a : K) : Prop :=
  ∃ lo ∈ s, ∃ hi ∈ s, (∀ x ∈ s, lo ≤ x ∧ x ≤ hi) ∧ a = hi - lo

/-! ### Shapes -/

/-- C110: the six supported shapes. -/
theorem C110_shapes_partial :
    geometry Shape.interval.mesh = .ok ⟨["x"], none, "interval"⟩ ∧
    geometry Shape.plane.mesh = .ok ⟨["x", "y"], none, "plane"⟩ ∧
    geometry Shape.sphere.mesh = .ok ⟨["lon", "lat"], none, "spherical_shell"⟩ ∧
    geometry Shape.extrudedInterval.mesh = .ok ⟨["x", "z"], some [0, 1], "vertical_slice"⟩ ∧
    geometry Shape.extrudedPlane.mesh = .ok ⟨["x", "y", "z"], some [0, 0, 1], "extruded_plane"⟩ ∧
    geometry Shape.thickSphere.mesh = .ok ⟨["lon", "lat", "h"], none, "extruded_spherical_shell"⟩ := by
  refine ⟨?_, ?_, ?_, ?_, ?_, ?_⟩ <;>
    simp [geometry, coordsName, domainType, flatVertical, onSphere, Shape.mesh, bind, Except.bind, pure, Except.pure, Except.map]

/-- C110: a circle and a solid that is not extruded are rejected. -/
theorem C110_rejected : geometry Shape.circle.mesh = .error "ValueError" ∧ geometry Shape.solid.mesh = .error "ValueError" := by
  constructor <;>
    simp [geometry, coordsName, domainType, flatVertical, onSphere, Shape.mesh, bind, Except.bind, pure, Except.pure, Except.map]

/-- C110, refuted: an annulus passes for a vertical slice, with the second Cartesian coordinate as height; tori pass for spheres. -/
theorem C110_shapes_refuted :
    geometry Shape.annulus.mesh = .ok ⟨["x", "z"], some [0, 1], "vertical_slice"⟩ ∧
    geometry Shape.torusSurface.mesh = .ok ⟨["lon", "lat"], none, "spherical_shell"⟩ ∧
    geometry Shape.thickTorus.mesh = .ok ⟨["lon", "lat", "h"], none, "extruded_spherical_shell"⟩ := by
  refine ⟨?_, ?_, ?_⟩ <;>
    simp [geometry, coordsName, domainType, flatVertical, onSphere, Shape.mesh, bind, Except.bind, pure, Except.pure, Except.map]

/-- C110: whatever the mesh (an extruded one with a base of dimension one or more), an accepted one has one of six types, a name for every topological dimension, its coordinates end with a
vertical one iff the mesh is extruded, and off the sphere there are as many coordinates as geometric dimensions. -/
theorem C110_accepted (m : Mesh) (hbase : m.extruded = true → ∃ g t, m.base = some (g, t) ∧ m.tdim = t + 1 ∧ 1 ≤ t ∧ t ≤ g ∧
      (m.gdim = g + 1 ∨ m.gdim = g)) (G : Geometry) (h : geometry m = .ok G) :
    G.type ∈ ["interval", "plane", "vertical_slice", "extruded_plane", "spherical_shell", "extruded_spherical_shell"] ∧
    G.names.length = m.tdim ∧ (G.names.getLast? ∈ [some "z", some "h"] ↔ m.extruded = true) ∧
    ((G.type = "spherical_shell" ∨ G.type = "extruded_spherical_shell") ∨ m.gdim = m.tdim) := by
  obtain ⟨e, g, t, b⟩ := m
  cases e with
  | false =>
    simp only [geometry, coordsName, domainType, flatVertical, onSphere, bind, Except.bind, pure, Except.pure] at h
    simp at h
    by_cases h1 : g = 3 ∧ t = 2
    · simp [h1] at h; subst h; simp [h1]
    · by_cases g1 : g = 1 <;> by_cases g2 : g = 2 <;> by_cases g3 : g = 3 <;> by_cases t1 : t = 1 <;> by_cases t2 : t = 2 <;>
        simp_all <;> subst h <;> simp
  | true =>
    obtain ⟨bg, bt, rfl, e1, e0, e2, e3⟩ := hbase rfl
    simp only at e1 e3
    subst e1
    simp only [geometry, coordsName, domainType, flatVertical, onSphere, bind, Except.bind, pure, Except.pure] at h
    simp at h
    by_cases h1 : bg = 3 ∧ bt = 2
    · simp [h1] at h; subst h; simp [h1]
    · by_cases g1 : g = 1 <;> by_cases g2 : g = 2 <;> by_cases g3 : g = 3 <;> by_cases t1 : bt = 1 <;> by_cases t2 : bt = 2 <;>
        by_cases t0 : bt = 0 <;> by_cases ht : bt + 1 = g <;>
        simp_all [Except.map] <;> (first | (subst h; simp) | omega | skip)

/-! ### Heights -/

/-- C110: on a sphere the height is the distance from the centre. -/
theorem C110_sphere_height {n : ℕ} (x : EuclideanSpace ℝ (Fin n)) (hx : x ≠ 0) : sphereHeight x = ‖x‖ := by
  unfold sphereHeight sphereVertical
  have e : (fun y : EuclideanSpace ℝ (Fin n) => √(inner ℝ y y)) = fun y => ‖y‖ := by
    funext y; rw [real_inner_self_eq_norm_sq, Real.sqrt_sq (norm_nonneg _)]
  rw [e]
  have hd : DifferentiableAt ℝ (fun y : EuclideanSpace ℝ (Fin n) => ‖y‖) x := (contDiffAt_norm ℝ hx (n := 1)).differentiableAt (by simp)
  have h1 := hd.hasGradientAt
  rw [hasGradientAt_iff_hasFDerivAt] at h1
  have h2 : (InnerProductSpace.toDual ℝ (EuclideanSpace ℝ (Fin n)) (gradient (fun y : EuclideanSpace ℝ (Fin n) => ‖y‖) x)) x =
      inner ℝ (gradient (fun y : EuclideanSpace ℝ (Fin n) => ‖y‖) x) x := by simp
  rw [← h2, ← h1.fderiv]
  -- along the ray
  have hray : HasDerivAt (fun t : ℝ => (1 + t) • x) x 0 := by
    have h : HasDerivAt (fun t : ℝ => 1 + t) 1 0 := by simpa using (hasDerivAt_id (0 : ℝ)).const_add 1
    simpa using HasDerivAt.smul_const h x
  have h3 : HasDerivAt ((fun y : EuclideanSpace ℝ (Fin n) => ‖y‖) ∘ fun t : ℝ => (1 + t) • x)
      ((fderiv ℝ (fun y : EuclideanSpace ℝ (Fin n) => ‖y‖) x) x) 0 := by
    refine HasFDerivAt.comp_hasDerivAt (x := (0 : ℝ)) ?_ hray
    simpa using hd.hasFDerivAt
  have h4 : HasDerivAt (fun t : ℝ => (1 + t) * ‖x‖) ‖x‖ 0 := by
    have h : HasDerivAt (fun t : ℝ => 1 + t) 1 0 := by simpa using (hasDerivAt_id (0 : ℝ)).const_add 1
    simpa using HasDerivAt.mul_const h ‖x‖
  have h5 : ((fun y : EuclideanSpace ℝ (Fin n) => ‖y‖) ∘ fun t : ℝ => (1 + t) • x) =ᶠ[nhds 0] fun t : ℝ => (1 + t) * ‖x‖ := by
    filter_upwards [Ioi_mem_nhds (show (-1 : ℝ) < 0 by norm_num)] with t ht
    simp only [Function.comp, norm_smul, Real.norm_eq_abs]
    rw [abs_of_pos (by linarith [Set.mem_Ioi.1 ht])]
  exact h3.unique (h4.congr_of_eventuallyEq h5)

/-- C110: off the sphere the height is the last coordinate. -/
theorem C110_flat_height (m : Mesh) (k : List ℝ) (hk : flatVertical m = .ok k) (x : List ℝ) (hx : x.length = m.gdim) (hne : x ≠ []) :
    flatHeight k x = x.getLast hne := by
  unfold flatVertical at hk
  dsimp only at hk
  split_ifs at hk with hlen
  obtain rfl := Except.ok.inj hk
  simp only [List.length_set, List.length_replicate] at hlen
  rw [← hlen] at hx
  obtain ⟨l, a, rfl⟩ : ∃ l a, x = l ++ [a] := ⟨x.dropLast, x.getLast hne, (List.dropLast_append_getLast hne).symm⟩
  simp only [List.length_append, List.length_singleton] at hx
  rw [List.getLast_append_singleton, ← hx]
  have : (List.replicate (l.length + 1) (0 : ℝ)).set (l.length + 1 - 1) 1 = List.replicate l.length 0 ++ [1] := by
    rw [List.replicate_succ', Nat.add_sub_cancel, List.set_append_right _ _ (by simp)]
    simp
  rw [this]
  unfold flatHeight
  rw [List.zipWith_append (by simp)]
  have hz : List.zipWith (fun a b : ℝ => a * b) (List.replicate l.length 0) l = List.replicate l.length 0 := by
    clear hx hne this hlen
    induction l with
    | nil => rfl
    | cons b l ih => rw [List.length_cons, List.replicate_succ, List.zipWith_cons_cons, ih]; simp
  rw [hz]; simp

section Columns
variable {K : Type} {H : Type*} [AddCommGroup K] [LinearOrder K] [IsOrderedAddMonoid K] [LinearOrder H]

theorem foldl_min (f : ℕ → K) (l : List ℕ) (a : K) :
    let m := l.foldl (fun m i => min m (f i)) a
    m ≤ a ∧ (∀ i ∈ l, m ≤ f i) ∧ (m = a ∨ ∃ i ∈ l, m = f i) := by
  induction l generalizing a with
  | nil => simp
  | cons b l ih =>
    obtain ⟨h1, h2, h3⟩ := ih (min a (f b))
    simp only [List.foldl_cons]
    refine ⟨h1.trans (min_le_left _ _), ?_, ?_⟩
    · intro i hi
      rcases List.mem_cons.1 hi with rfl | hi
      · exact h1.trans (min_le_right _ _)
      · exact h2 i hi
    · rcases h3 with h3 | ⟨i, hi, h3⟩
      · rcases min_choice a (f b) with e | e
        · left; rw [h3, e]
        · right; exact ⟨b, by simp, by rw [h3, e]⟩
      · exact .inr ⟨i, by simp [hi], h3⟩

theorem rowMin_spec (n : ℕ) (hn : 0 < n) (row : ℕ → K) : (∀ l < n, rowMin n row ≤ row l) ∧ ∃ l < n, rowMin n row = row l := by
  obtain ⟨-, h2, h3⟩ := foldl_min row (List.range n) (row 0)
  refine ⟨fun l hl => h2 l (List.mem_range.2 hl), ?_⟩
  rcases h3 with h3 | ⟨i, hi, h3⟩
  · exact ⟨0, hn, h3⟩
  · exact ⟨i, List.mem_range.1 hi, h3⟩

/-- C110: suppose every (rounded) horizontal position of a node occurs equally often, and only equal positions are close.  Then the
height above the surface is defined; it is not negative; within a column it differs from the height by a constant; and every column
has a node where it is zero, at the lowest height of the column. -/
theorem C110_height_above_surface (round : H → H) (close : H → H → Bool) (heights : List K) (coords : List (H × K))
    (hl : heights.length = coords.length) (L : ℕ) (hne : coords ≠ [])
    (hcount : ∀ a ∈ coords, (coords.map fun c => round c.1).count (round a.1) = L)
    (hclose : ∀ a ∈ coords, ∀ b ∈ coords, close (round a.1) (round b.1) = true ↔ round a.1 = round b.1) :
    ∃ out, heightAboveSurface round close true heights coords = .ok out ∧
      ∀ p x z, coords[p]? = some (x, z) → 0 ≤ out p ∧
        (∀ q x' z', coords[q]? = some (x', z') → round x' = round x →
          out q - out p = heights.getD q 0 - heights.getD p 0) ∧
        ∃ q x' z', coords[q]? = some (x', z') ∧ round x' = round x ∧ out q = 0 := by
  obtain ⟨cd, hget, hL, hmul, pos, hinc, hcol, -⟩ := Gusto.Props.ColumnProps.C33_columns round close heights coords hl L hne hcount hclose
  obtain ⟨hlt, hcov, hinj⟩ := Gusto.Props.ColumnProps.index_bij hl hget
  have hfi := Gusto.Props.ColumnProps.field_index hl hget
  obtain ⟨hpos, -⟩ := Gusto.Props.ColumnProps.get_ok hl hget
  have hposinj : ∀ a < cd.numHori, ∀ a' < cd.numHori, pos a = pos a' → a = a' := by
    intro a ha a' ha' e
    rcases Nat.lt_trichotomy a a' with h | h | h
    · exact absurd e (hinc a a' h ha').ne
    · exact h
    · exact absurd e.symm (hinc a' a h ha).ne
  set out := setField cd.numHori cd.numLevels (fun h lev => cd.field h lev - rowMin cd.numLevels (cd.field h)) cd.index (fun _ => 0)
    with hout
  refine ⟨out, ?_, ?_⟩
  · unfold heightAboveSurface
    rw [hget]
    rfl
  -- the value at a place of the arrays
  classical
  have hval : ∀ a < cd.numHori, ∀ l < cd.numLevels, out (cd.index a l) = cd.field a l - rowMin cd.numLevels (cd.field a) := by
    let V : ℕ → K := fun p => if hp : p < heights.length then
        cd.field (Classical.choose (hcov p hp)) (Classical.choose (Classical.choose_spec (hcov p hp)).2) -
          rowMin cd.numLevels (cd.field (Classical.choose (hcov p hp))) else 0
    have hV : ∀ a < cd.numHori, ∀ l < cd.numLevels, cd.field a l - rowMin cd.numLevels (cd.field a) = V (cd.index a l) := by
      intro a ha l hl'
      have hp := hlt a ha l hl'
      simp only [V, dif_pos hp]
      have s1 := Classical.choose_spec (hcov _ hp)
      have s2 := Classical.choose_spec s1.2
      obtain ⟨e1, e2⟩ := hinj _ s1.1 _ s2.1 a ha l hl' s2.2
      rw [e2, e1]
    intro a ha l hl'
    rw [hout, (Gusto.Props.ColumnProps.setField_apply cd.numHori cd.numLevels _ cd.index V hV _ _).1 ⟨a, ha, l, hl', rfl⟩, ← hV a ha l hl']
  intro p x z hp
  have hpl : p < heights.length := by rw [hl]; exact (List.getElem?_eq_some_iff.1 hp).1
  obtain ⟨a, ha, l, hl', rfl⟩ := hcov p hpl
  obtain ⟨h1, h2⟩ := rowMin_spec cd.numLevels hpos (cd.field a)
  have hxa : round x = pos a := by
    obtain ⟨x', z', e, e'⟩ := hcol a ha l (hL ▸ hl')
    rw [hp] at e
    rw [← e', (Prod.mk.inj (Option.some.inj e)).1]
  refine ⟨?_, ?_, ?_⟩
  · rw [hval a ha l hl', sub_nonneg]; exact h1 l hl'
  · intro q x' z' hq e
    have hql : q < heights.length := by rw [hl]; exact (List.getElem?_eq_some_iff.1 hq).1
    obtain ⟨a', ha', l', hl'', rfl⟩ := hcov q hql
    have : pos a' = pos a := by
      obtain ⟨y, w, e1, e2⟩ := hcol a' ha' l' (hL ▸ hl'')
      rw [hq] at e1
      rw [← e2, ← (Prod.mk.inj (Option.some.inj e1)).1, e, hxa]
    obtain rfl := hposinj a' ha' a ha this
    rw [hval _ ha _ hl', hval _ ha _ hl'', hfi _ ha _ hl', hfi _ ha _ hl'']
    abel
  · obtain ⟨l', hl'', e⟩ := h2
    obtain ⟨y, w, e1, e2⟩ := hcol a ha l' (hL ▸ hl'')
    exact ⟨cd.index a l', y, w, e1, by rw [e2, hxa], by rw [hval a ha l' hl'', e, sub_self]⟩

end Columns

/-! ### Extents -/

section Extents
variable {K : Type} [LinearOrder K]

theorem npMin_spec (l : List K) (m : K) (h : npMin l = .ok m) : m ∈ l ∧ ∀ x ∈ l, m ≤ x := by
  match l with
  | [] => simp [npMin] at h
  | a :: l =>
    simp only [npMin, Except.ok.injEq] at h
    subst h
    induction l generalizing a with
    | nil => simp
    | cons b l ih =>
      obtain ⟨h1, h2⟩ := ih (min a b)
      rw [List.foldl_cons]
      constructor
      · rcases List.mem_cons.1 h1 with h | h
        · rw [h]
          rcases min_choice a b with e | e <;> rw [e] <;> simp
        · exact List.mem_cons_of_mem _ (List.mem_cons_of_mem _ h)
      · intro x hx
        have hm := h2 (min a b) List.mem_cons_self
        rcases List.mem_cons.1 hx with rfl | hx
        · exact hm.trans (min_le_left _ _)
        rcases List.mem_cons.1 hx with rfl | hx
        · exact hm.trans (min_le_right _ _)
        · exact h2 x (List.mem_cons_of_mem _ hx)

theorem npMax_spec (l : List K) (m : K) (h : npMax l = .ok m) : m ∈ l ∧ ∀ x ∈ l, x ≤ m :=
  npMin_spec (K := Kᵒᵈ) l m h

theorem npMin_ok (l : List K) (h : l ≠ []) : ∃ m, npMin l = .ok m := by
  match l with
  | [] => exact absurd rfl h
  | a :: l => exact ⟨_, rfl⟩

theorem npMax_ok (l : List K) (h : l ≠ []) : ∃ m, npMax l = .ok m := npMin_ok (K := Kᵒᵈ) l h

theorem mapM_ok {α β : Type} (f : α → Except String β) (l : List α) (h : ∀ a ∈ l, ∃ b, f a = .ok b) :
    ∃ bs, l.mapM f = .ok bs ∧ List.Forall₂ (fun a b => f a = .ok b) l bs := by
  induction l with
  | nil => exact ⟨[], rfl, .nil⟩
  | cons a l ih =>
    obtain ⟨b, hb⟩ := h a List.mem_cons_self
    obtain ⟨bs, h1, h2⟩ := ih fun a ha => h a (List.mem_cons_of_mem _ ha)
    refine ⟨b :: bs, ?_, .cons hb h2⟩
    rw [List.mapM_cons, hb, h1]; rfl

theorem mapM_error {α β : Type} (f : α → Except String β) (e : String) (hf : ∀ a, (∃ b, f a = .ok b) ∨ f a = .error e)
    (l : List α) (h : ∃ a ∈ l, f a = .error e) : l.mapM f = .error e := by
  induction l with
  | nil => simp at h
  | cons a l ih =>
    rw [List.mapM_cons]
    rcases hf a with ⟨b, hb⟩ | hb
    · obtain ⟨a', ha', he⟩ := h
      rcases List.mem_cons.1 ha' with rfl | ha'
      · rw [hb] at he; simp at he
      · rw [hb, ih ⟨a', ha', he⟩]; rfl
    · rw [hb]; rfl

variable [Sub K]

/-- C110: if every rank has a node the extent is that of the nodes of all ranks, however they are distributed; if a rank has none, it
raises an error. -/
theorem C110_extent (ranks : List (List K)) (hr : ranks ≠ []) :
    ((∀ r ∈ ranks, r ≠ []) → ∃ a, extent ranks = .ok a ∧ IsExtent ranks.flatten a) ∧
    ([] ∈ ranks → extent ranks = .error "ValueError") := by
  constructor
  · intro hne
    obtain ⟨mins, e1, h1⟩ := mapM_ok npMin ranks fun r h => npMin_ok r (hne r h)
    obtain ⟨maxs, e2, h2⟩ := mapM_ok npMax ranks fun r h => npMax_ok r (hne r h)
    have l1 := h1.length_eq
    have l2 := h2.length_eq
    have hpos := List.length_pos_iff.2 hr
    obtain ⟨lo, e3⟩ := npMin_ok mins (List.length_pos_iff.1 (by omega))
    obtain ⟨hi, e4⟩ := npMax_ok maxs (List.length_pos_iff.1 (by omega))
    obtain ⟨a1, a2⟩ := npMin_spec mins lo e3
    obtain ⟨b1, b2⟩ := npMax_spec maxs hi e4
    rw [List.forall₂_iff_get] at h1 h2
    refine ⟨hi - lo, ?_, lo, ?_, hi, ?_, ?_, rfl⟩
    · unfold extent; rw [e1, e2]; simp only [bind, Except.bind, e3, e4]; rfl
    · obtain ⟨i, hi, rfl⟩ := List.mem_iff_getElem.1 a1
      exact List.mem_flatten.2 ⟨_, List.getElem_mem _, (npMin_spec _ _ (h1.2 i (by omega) hi)).1⟩
    · obtain ⟨i, hi, rfl⟩ := List.mem_iff_getElem.1 b1
      exact List.mem_flatten.2 ⟨_, List.getElem_mem _, (npMax_spec _ _ (h2.2 i (by omega) hi)).1⟩
    · intro x hx
      obtain ⟨r, hr, hx⟩ := List.mem_flatten.1 hx
      obtain ⟨i, hi, rfl⟩ := List.mem_iff_getElem.1 hr
      constructor
      · exact (a2 _ (List.getElem_mem (by omega : i < mins.length))).trans ((npMin_spec _ _ (h1.2 i hi (by omega))).2 x hx)
      · exact ((npMax_spec _ _ (h2.2 i hi (by omega))).2 x hx).trans (b2 _ (List.getElem_mem (by omega : i < maxs.length)))
  · intro h
    unfold extent
    rw [mapM_error npMin "ValueError" _ ranks ⟨[], h, rfl⟩]
    · rfl
    · intro a
      match a with
      | [] => exact .inr rfl
      | a :: l => exact .inl ⟨_, rfl⟩

/-- C110: which extents are among the metadata of a supported shape, and of which coordinate. -/
theorem C110_extents (X Y Z : List (List K)) (hX : X ≠ []) (hY : Y ≠ []) (hZ : Z ≠ []) (hX' : ∀ r ∈ X, r ≠ []) (hY' : ∀ r ∈ Y, r ≠ [])
    (hZ' : ∀ r ∈ Z, r ≠ []) : ∃ x y z, IsExtent X.flatten x ∧ IsExtent Y.flatten y ∧ IsExtent Z.flatten z ∧
    extents Shape.interval.mesh [X] = .ok ⟨some x, none, none⟩ ∧
    extents Shape.plane.mesh [X, Y] = .ok ⟨some x, some y, none⟩ ∧
    extents Shape.extrudedInterval.mesh [X, Z] = .ok ⟨some x, none, some z⟩ ∧
    extents Shape.extrudedPlane.mesh [X, Y, Z] = .ok ⟨some x, some y, some z⟩ ∧
    extents Shape.sphere.mesh [X, Y] = .ok ⟨none, none, none⟩ ∧
    extents Shape.thickSphere.mesh [X, Y, Z] = .ok ⟨none, none, some z⟩ := by
  obtain ⟨x, ex, hx⟩ := (C110_extent X hX).1 hX'
  obtain ⟨y, ey, hy⟩ := (C110_extent Y hY).1 hY'
  obtain ⟨z, ez, hz⟩ := (C110_extent Z hZ).1 hZ'
  refine ⟨x, y, z, hx, hy, hz, ?_, ?_, ?_, ?_, ?_, ?_⟩ <;>
    simp [extents, domainType, onSphere, Shape.mesh, bind, Except.bind, pure, Except.pure, Except.map, ex, ey, ez]

end Extents

/-! ### The radius -/

/-- C110: if all vertices of the sphere are at the distance `R`, every rank with a vertex has the radius `R`, and the extent in the
vertical is that of the distances. -/
theorem C110_radius_partial (R : ℝ) (ranks : List (List ℝ × List ℝ)) (hr : ranks ≠ []) (hb : ∀ r ∈ ranks, r.1 ≠ [] ∧ r.2 ≠ [])
    (hR : ∀ r ∈ ranks, ∀ x ∈ r.1, x = R) :
    (∀ r ∈ ranks, radius r.1 = .ok R) ∧ ∃ a, shellExtent ranks = .ok a ∧ IsExtent (ranks.map Prod.snd).flatten a := by
  have h1 : ∀ r ∈ ranks, radius r.1 = .ok R := by
    intro r hr
    obtain ⟨m, hm⟩ := npMin_ok r.1 (hb r hr).1
    unfold radius
    rw [hm, hR r hr m (npMin_spec _ _ hm).1]
  refine ⟨h1, ?_⟩
  have h2 : (ranks.mapM fun x : List ℝ × List ℝ => (radius x.1).map fun R => x.2.map fun r => r - R) =
      .ok (ranks.map fun x => x.2.map fun r => r - R) := by
    clear hr hb hR
    induction ranks with
    | nil => rfl
    | cons a l ih =>
      rw [List.mapM_cons, ih fun r hr => h1 r (List.mem_cons_of_mem _ hr), h1 a List.mem_cons_self]; rfl
  obtain ⟨a, e, lo, hlo, hi, hhi, hall, ea⟩ := (C110_extent (ranks.map fun x => x.2.map fun r => r - R) (by simpa using hr)).1 (by
    intro l hl
    obtain ⟨r, hr, rfl⟩ := List.mem_map.1 hl
    simpa using (hb r hr).2)
  have hmem : ∀ x, x ∈ (ranks.map fun x => x.2.map fun r => r - R).flatten ↔ x + R ∈ (ranks.map Prod.snd).flatten := by
    intro x
    simp only [List.mem_flatten, List.mem_map]
    constructor
    · rintro ⟨_, ⟨r, hr, rfl⟩, hx⟩
      obtain ⟨y, hy, rfl⟩ := List.mem_map.1 hx
      exact ⟨_, ⟨r, hr, rfl⟩, by simpa using hy⟩
    · rintro ⟨_, ⟨r, hr, rfl⟩, hx⟩
      exact ⟨_, ⟨r, hr, rfl⟩, List.mem_map.2 ⟨_, hx, by ring⟩⟩
  refine ⟨a, ?_, lo + R, (hmem _).1 hlo, hi + R, (hmem _).1 hhi, ?_, by rw [ea]; ring⟩
  · unfold shellExtent
    change (ranks.mapM fun x : List ℝ × List ℝ => (radius x.1).map fun R => x.2.map fun r => r - R).bind extent = _
    rw [h2]
    exact e
  · intro x hx
    have := hall (x - R) ((hmem _).2 (by simpa using hx))
    constructor <;> linarith [this.1, this.2]

/-- C110, refuted: if the vertices of the sphere are at different distances, the extent in the vertical depends on the distribution
over ranks. -/
theorem C110_radius_refuted :
    shellExtent [([1, 2], [1, 2, 2, 3])] = (.ok 2 : Except String ℝ) ∧ shellExtent [([1], [1, 2]), ([2], [2, 3])] = (.ok 1 : Except String ℝ) := by
  constructor <;>
    simp [shellExtent, radius, npMin, npMax, extent, bind, Except.bind, pure, Except.pure, Except.map, List.mapM_cons] <;> norm_num

/-! ### Cases that meet the hypotheses -/

example : ∃ G, geometry Shape.thickSphere.mesh = .ok G ∧ G.names.length = 3 := ⟨_, C110_shapes_partial.2.2.2.2.2, rfl⟩

/-- Two columns with two levels, over a hill. -/
example : ∃ out, heightAboveSurface (K := ℚ) (H := ℚ) id isclose true [5, 3, 2, 4] [(1, 5), (0, 3), (1, 2), (0, 4)] = .ok out ∧
    0 ≤ out 1 := by
  obtain ⟨out, h, h'⟩ := C110_height_above_surface (K := ℚ) (H := ℚ) id isclose [5, 3, 2, 4] [(1, 5), (0, 3), (1, 2), (0, 4)] rfl 2 (by simp)
    (by decide +kernel) (by decide +kernel)
  exact ⟨out, h, (h' 1 0 3 rfl).1⟩

example : ∃ a, extent [[(1 : ℚ), 2], [0, 5]] = .ok a ∧ IsExtent [1, 2, 0, 5] a :=
  (C110_extent [[(1 : ℚ), 2], [0, 5]] (by simp)).1 (by simp)

example : ∃ a, shellExtent [([1], [1, 2]), ([1], [1, 3])] = .ok a ∧ IsExtent [(1 : ℝ), 2, 1, 3] a :=
  (C110_radius_partial 1 [([1], [1, 2]), ([1], [1, 3])] (by simp) (by simp) (by simp)).2

end Gusto.Props.DomainGeometryProps
