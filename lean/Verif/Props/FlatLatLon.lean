import Verif.Model.FlatLatLon
import Mathlib.Analysis.SpecialFunctions.Complex.Arg
import Mathlib.Data.List.Forall2

set_option autoImplicit false
set_option linter.unusedSectionVars false
set_option linter.unusedSimpArgs false

/-!
# C109: the flat longitude-latitude mesh

Model: `Verif.Model.FlatLatLon`.
-/

namespace Gusto.Props.FlatLatLonProps
open Gusto.Coord Gusto.FlatLatLon Real

/-! ### Specification -/

/-- The node `q` of the flat mesh stands for the point `p`, with heights measured from the sphere with radius `R`. -/
def StandsFor (R : ℝ) (p : V3) (q : LL) : Prop :=
  p = ⟨(q.height + R) * cos q.lon * cos q.lat, (q.height + R) * sin q.lon * cos q.lat, (q.height + R) * sin q.lat⟩ ∧
    0 ≤ q.height + R ∧ -(π / 2) ≤ q.lat ∧ q.lat ≤ π / 2

/-- The nodes of a cell are in the wedge between the meridians at longitudes `c` and `c + A`, none of them on the axis. -/
def InWedge (A : ℝ) (cell : List V3) : Prop :=
  ∃ c, ∀ p ∈ cell, ∃ ρ θ, 0 < ρ ∧ c ≤ θ ∧ θ ≤ c + A ∧ p.x = ρ * cos θ ∧ p.y = ρ * sin θ

/-! ### Proofs -/

theorem npMin_spec (l : List ℝ) (m : ℝ) (h : npMin l = .ok m) : m ∈ l ∧ ∀ x ∈ l, m ≤ x := by
  match l with
  | [] => simp [npMin] at h
  | a :: l =>
    simp only [npMin, Except.ok.injEq] at h
    subst h
    induction l generalizing a with
    | nil => simp
    | cons b l ih =>
      obtain ⟨h1, h2⟩ := ih (min a b)
      rw [List.foldl_cons]
      constructor
      · rcases List.mem_cons.1 h1 with h | h
        · rw [h]
          rcases min_choice a b with e | e <;> rw [e] <;> simp
        · exact List.mem_cons_of_mem _ (List.mem_cons_of_mem _ h)
      · intro x hx
        have hm := h2 (min a b) List.mem_cons_self
        rcases List.mem_cons.1 hx with rfl | hx
        · exact hm.trans (min_le_left _ _)
        rcases List.mem_cons.1 hx with rfl | hx
        · exact hm.trans (min_le_right _ _)
        · exact h2 x (List.mem_cons_of_mem _ hx)

theorem fold_reach (l : List ℝ) (D m : ℝ) (hm : m ≤ D) (hb : ∀ d ∈ l, |d| ≤ D) :
    l.foldl (fun m diff => if |diff| > m then diff else m) m ≤ D ∧
    ((D ∈ l ∨ m = D) → l.foldl (fun m diff => if |diff| > m then diff else m) m = D) := by
  induction l generalizing m with
  | nil => simpa using hm
  | cons d l ih =>
    rw [List.foldl_cons]
    have hd := hb d List.mem_cons_self
    have hnew : (if |d| > m then d else m) ≤ D := by split_ifs; exacts [(le_abs_self d).trans hd, hm]
    obtain ⟨h1, h2⟩ := ih _ hnew fun x hx => hb x (List.mem_cons_of_mem _ hx)
    refine ⟨h1, fun h => h2 ?_⟩
    rcases h with h | h
    · rcases List.mem_cons.1 h with rfl | h
      · right
        split_ifs with hlt
        · rfl
        · exact le_antisymm hm ((le_abs_self D).trans (not_lt.1 hlt))
      · exact .inl h
    · right; subst h; rw [if_neg (not_lt.2 hd)]

/-- The signed assignment is harmless: in the end `max_diff` is the largest difference. -/
theorem maxDiff_eq (lons : List ℝ) (a b : ℝ) (ha : a ∈ lons) (hb : b ∈ lons) (hmax : ∀ x ∈ lons, x ≤ a) (hmin : ∀ x ∈ lons, b ≤ x) :
    maxDiff lons = a - b := by
  unfold maxDiff
  refine (fold_reach _ (a - b) 0 (by linarith [hmax b hb]) ?_).2 (.inl ?_)
  · intro d hd
    obtain ⟨x, hx, hd⟩ := List.mem_flatMap.1 hd
    obtain ⟨y, hy, rfl⟩ := List.mem_map.1 hd
    rw [abs_le]
    constructor <;> linarith [hmax x hx, hmin x hx, hmax y hy, hmin y hy]
  · exact List.mem_flatMap.2 ⟨a, ha, List.mem_map.2 ⟨b, hb, rfl⟩⟩

theorem extrema (l : List ℝ) (h : l ≠ []) : ∃ a ∈ l, ∃ b ∈ l, (∀ x ∈ l, x ≤ a) ∧ ∀ x ∈ l, b ≤ x := by
  obtain ⟨a, ha, ha'⟩ := l.toFinset.exists_max_image id (by simpa using h)
  obtain ⟨b, hb, hb'⟩ := l.toFinset.exists_min_image id (by simpa using h)
  exact ⟨a, by simpa using ha, b, by simpa using hb, fun x hx => ha' x (by simpa using hx), fun x hx => hb' x (by simpa using hx)⟩

/-- An integer multiple of a full circle between minus one and one circle is zero. -/
theorem int_zero (k : ℤ) (h1 : -(2 * π) < 2 * π * k) (h2 : 2 * π * k < 2 * π) : k = 0 := by
  have hpi := pi_pos
  have a : (-1 : ℝ) < k := by nlinarith
  have b : (k : ℝ) < 1 := by nlinarith
  have a' : (-1 : ℤ) < k := by exact_mod_cast a
  have b' : k < 1 := by exact_mod_cast b
  omega

/-- Two numbers with representatives in an arc, that differ by `0` up to `π`: the representatives differ by the same. -/
theorem rep_diff (A c x y : ℝ) (hA : A < π) (k m : ℤ) (hx : c ≤ x + 2 * π * k ∧ x + 2 * π * k ≤ c + A)
    (hy : c ≤ y + 2 * π * m ∧ y + 2 * π * m ≤ c + A) (h0 : y ≤ x) (h1 : x ≤ y + π) : k = m := by
  have hpi := pi_pos
  have : k - m = 0 := int_zero (k - m) (by push_cast; linarith) (by push_cast; linarith)
  omega

theorem splat_lon (cell : List LL) (A c : ℝ) (hA : A < π) (hr : ∀ q ∈ cell, -π < q.lon ∧ q.lon ≤ π)
    (harc : ∀ q ∈ cell, ∃ k : ℤ, c ≤ q.lon + 2 * π * k ∧ q.lon + 2 * π * k ≤ c + A) :
    ∀ q ∈ splat cell, ∀ q' ∈ splat cell, |q.lon - q'.lon| ≤ A := by
  have hpi := pi_pos
  by_cases hne : cell = []
  · subst hne; simp [splat]
  obtain ⟨M, hM, μ, hμ, hmax, hmin⟩ := extrema (cell.map LL.lon) (by simpa using hne)
  have hD := maxDiff_eq _ M μ hM hμ hmax hmin
  obtain ⟨qM, hqM, rfl⟩ := List.mem_map.1 hM
  obtain ⟨qμ, hqμ, rfl⟩ := List.mem_map.1 hμ
  have hmax' : ∀ q ∈ cell, q.lon ≤ qM.lon := fun q hq => hmax _ (List.mem_map_of_mem hq)
  have hmin' : ∀ q ∈ cell, qμ.lon ≤ q.lon := fun q hq => hmin _ (List.mem_map_of_mem hq)
  unfold splat
  rw [hD]
  split_ifs with hgt
  · -- all representatives of negative longitudes are moved
    have main : ∀ q ∈ cell, ∀ q' ∈ cell, (if q'.lon < 0 then q'.lon + 2 * π else q'.lon) ≤ (if q.lon < 0 then q.lon + 2 * π else q.lon) →
        (if q.lon < 0 then q.lon + 2 * π else q.lon) - (if q'.lon < 0 then q'.lon + 2 * π else q'.lon) ≤ A := by
      intro q hq q' hq' hle
      obtain ⟨k, hk⟩ := harc q hq
      obtain ⟨k', hk'⟩ := harc q' hq'
      obtain ⟨kM, hkM⟩ := harc qM hqM
      obtain ⟨kμ, hkμ⟩ := harc qμ hqμ
      have r1 := hr q hq; have r2 := hr q' hq'; have r3 := hr qM hqM; have r4 := hr qμ hqμ
      have a1 := hmax' q hq; have a2 := hmin' q hq; have a3 := hmax' q' hq'; have a4 := hmin' q' hq'
      -- the smallest longitude, moved, follows the largest one
      have e1 : kμ - 1 = kM := rep_diff A c (qμ.lon + 2 * π) qM.lon hA _ _ (by push_cast; constructor <;> linarith) hkM (by linarith) (by linarith)
      split_ifs at hle ⊢ with h1 h2 h2
      · rcases le_total q'.lon q.lon with h | h
        · have := rep_diff A c q.lon q'.lon hA k k' hk hk' h (by linarith)
          subst this; linarith
        · linarith
      · have e2 : k = kμ := rep_diff A c q.lon qμ.lon hA k kμ hk hkμ a2 (by linarith)
        have e3 : kM = k' := rep_diff A c qM.lon q'.lon hA kM k' hkM hk' a3 (by linarith)
        have : (k : ℝ) = k' + 1 := by
          have : k = k' + 1 := by omega
          rw [this]; push_cast; ring
        rw [this] at hk
        linarith
      · linarith
      · have := rep_diff A c q.lon q'.lon hA k k' hk hk' hle (by linarith)
        subst this; linarith
    have lonIf : ∀ q : LL, (if q.lon < 0 then { q with lon := q.lon + 2 * π } else q : LL).lon =
        if q.lon < 0 then q.lon + 2 * π else q.lon := fun q => by split_ifs <;> rfl
    intro q hq q' hq'
    obtain ⟨r, hr1, rfl⟩ := List.mem_map.1 hq
    obtain ⟨r', hr2, rfl⟩ := List.mem_map.1 hq'
    rw [lonIf, lonIf, abs_le]
    rcases le_total (if r'.lon < 0 then r'.lon + 2 * π else r'.lon) (if r.lon < 0 then r.lon + 2 * π else r.lon) with h | h
    · have := main r hr1 r' hr2 h
      constructor <;> linarith
    · have := main r' hr2 r hr1 h
      constructor <;> linarith
  · intro q hq q' hq'
    have main : ∀ q ∈ cell, ∀ q' ∈ cell, q'.lon ≤ q.lon → q.lon - q'.lon ≤ A := by
      intro q hq q' hq' hle
      obtain ⟨k, hk⟩ := harc q hq
      obtain ⟨k', hk'⟩ := harc q' hq'
      have := rep_diff A c q.lon q'.lon hA k k' hk hk' hle (by linarith [hmax' q hq, hmin' q' hq'])
      subst this; linarith
    rw [abs_le]
    rcases le_total q'.lon q.lon with h | h
    · have := main q hq q' hq' h
      constructor <;> linarith
    · have := main q' hq' q hq h
      constructor <;> linarith

theorem flatMesh_ok (cells : List (List V3)) (out : List (List LL)) (h : flatMesh cells = .ok out) :
    ∃ R, npMin (cells.flatten.map norm3) = .ok R ∧ out = cells.map fun c => splat (c.map (latlonNode R)) := by
  unfold flatMesh at h
  match hR : npMin (cells.flatten.map norm3) with
  | .error e => rw [hR] at h; simp [bind, Except.bind] at h
  | .ok R =>
    rw [hR] at h
    simp only [bind, Except.bind, pure, Except.pure, Except.ok.injEq] at h
    exact ⟨R, rfl, h.symm⟩

theorem lon_mod (ρ θ : ℝ) (h : 0 < ρ) : ∃ k : ℤ, atan2 (ρ * sin θ) (ρ * cos θ) + 2 * π * k = θ := by
  have e : (⟨ρ * cos θ, ρ * sin θ⟩ : ℂ) = ρ * (Complex.cos θ + Complex.sin θ * Complex.I) := by
    apply Complex.ext <;> simp [← Complex.ofReal_cos, ← Complex.ofReal_sin]
  refine ⟨toIocDiv two_pi_pos (-π) θ, ?_⟩
  unfold atan2
  rw [e, Complex.arg_mul_cos_add_sin_mul_I_eq_toIocMod h, toIocMod, zsmul_eq_mul]
  ring

/-- C109: the nodes of a cell that does not reach the axis and lies within a wedge of less than half a turn stay together: their
longitudes in the flat mesh differ by no more than the angle of the wedge. -/
theorem C109_together_partial (cells : List (List V3)) (out : List (List LL)) (h : flatMesh cells = .ok out) :
    List.Forall₂ (fun c o => ∀ A < π, InWedge A c → ∀ q ∈ o, ∀ q' ∈ o, |q.lon - q'.lon| ≤ A) cells out := by
  obtain ⟨R, -, rfl⟩ := flatMesh_ok cells out h
  rw [List.forall₂_map_right_iff, List.forall₂_same]
  intro cell _ A hA ⟨c, hc⟩
  refine splat_lon _ A c hA ?_ ?_
  · intro q hq
    obtain ⟨p, -, rfl⟩ := List.mem_map.1 hq
    exact ⟨Complex.neg_pi_lt_arg _, Complex.arg_le_pi _⟩
  · intro q hq
    obtain ⟨p, hp, rfl⟩ := List.mem_map.1 hq
    obtain ⟨ρ, θ, hρ, h1, h2, h3, h4⟩ := hc p hp
    obtain ⟨k, hk⟩ := lon_mod ρ θ hρ
    refine ⟨k, ?_⟩
    simp only [latlonNode]
    rw [h3, h4, hk]
    exact ⟨h1, h2⟩

theorem stands_node (R : ℝ) (p : V3) : StandsFor R p (latlonNode R p) := by
  have hn : norm3 p ^ 2 = p.x ^ 2 + p.y ^ 2 + p.z ^ 2 := sq_sqrt (by positivity)
  have h0 : 0 ≤ norm3 p := sqrt_nonneg _
  refine ⟨?_, by simp [latlonNode, h0], neg_pi_div_two_le_arcsin _, arcsin_le_pi_div_two _⟩
  simp only [latlonNode, sub_add_cancel]
  by_cases hz : norm3 p = 0
  · rw [hz] at hn
    have : p.x = 0 ∧ p.y = 0 ∧ p.z = 0 := by
      refine ⟨?_, ?_, ?_⟩ <;> nlinarith [sq_nonneg p.x, sq_nonneg p.y, sq_nonneg p.z]
    ext <;> simp [hz, this]
  · have hpos : 0 < norm3 p := lt_of_le_of_ne h0 (Ne.symm hz)
    have hs : -1 ≤ p.z / norm3 p ∧ p.z / norm3 p ≤ 1 := by
      rw [← abs_le, abs_div, abs_of_pos hpos, div_le_one hpos]
      exact abs_le_of_sq_le_sq (by rw [hn]; nlinarith [sq_nonneg p.x, sq_nonneg p.y]) h0
    have hl : norm3 p * cos (arcsin (p.z / norm3 p)) = ‖(⟨p.x, p.y⟩ : ℂ)‖ := by
      rw [cos_arcsin, Complex.norm_def, Complex.normSq_mk]
      have : norm3 p = √(norm3 p ^ 2) := (sqrt_sq h0).symm
      rw [this, ← sqrt_mul (sq_nonneg _), ← this]
      congr 1
      field_simp
      rw [hn]; ring
    have hc := Complex.norm_mul_cos_arg (⟨p.x, p.y⟩ : ℂ)
    have hsn := Complex.norm_mul_sin_arg (⟨p.x, p.y⟩ : ℂ)
    ext
    · simp only; unfold atan2; rw [mul_assoc, mul_comm (cos _), ← mul_assoc, hl, hc]
    · simp only; unfold atan2; rw [mul_assoc, mul_comm (sin _), ← mul_assoc, hl, hsn]
    · simp only; rw [sin_arcsin hs.1 hs.2]; field_simp

theorem stands_shift (R : ℝ) (p : V3) (q : LL) (h : StandsFor R p q) : StandsFor R p { q with lon := q.lon + 2 * π } := by
  unfold StandsFor at *
  simpa [cos_add_two_pi, sin_add_two_pi] using h

/-- C109: every node of the flat mesh stands for the node of the original mesh in the same place of the same cell, with heights
above the lowest node of the rank. -/
theorem C109_nodes (cells : List (List V3)) (out : List (List LL)) (h : flatMesh cells = .ok out) :
    ∃ R, (∃ p ∈ cells.flatten, √(p.x ^ 2 + p.y ^ 2 + p.z ^ 2) = R) ∧ (∀ p ∈ cells.flatten, R ≤ √(p.x ^ 2 + p.y ^ 2 + p.z ^ 2)) ∧
      List.Forall₂ (List.Forall₂ (StandsFor R)) cells out := by
  obtain ⟨R, hR, rfl⟩ := flatMesh_ok cells out h
  obtain ⟨h1, h2⟩ := npMin_spec _ R hR
  obtain ⟨p, hp, e⟩ := List.mem_map.1 h1
  refine ⟨R, ⟨p, hp, e⟩, fun p hp => h2 _ (List.mem_map_of_mem hp), ?_⟩
  rw [List.forall₂_map_right_iff, List.forall₂_same]
  intro c _
  unfold splat
  split_ifs
  · rw [List.map_map, List.forall₂_map_right_iff, List.forall₂_same]
    intro p _
    simp only [Function.comp]
    split_ifs
    · exact stands_shift R p _ (stands_node R p)
    · exact stands_node R p
  · rw [List.forall₂_map_right_iff, List.forall₂_same]
    exact fun p _ => stands_node R p

/-- The height of a node follows from the point it stands for. -/
theorem stands_height (R : ℝ) (p : V3) (q : LL) (h : StandsFor R p q) : q.height = √(p.x ^ 2 + p.y ^ 2 + p.z ^ 2) - R := by
  obtain ⟨h1, h2, -⟩ := h
  have : p.x ^ 2 + p.y ^ 2 + p.z ^ 2 = (q.height + R) ^ 2 := by
    rw [h1]
    have a := cos_sq_add_sin_sq q.lon
    have b := cos_sq_add_sin_sq q.lat
    calc _ = (q.height + R) ^ 2 * ((cos q.lon ^ 2 + sin q.lon ^ 2) * cos q.lat ^ 2 + sin q.lat ^ 2) := by ring
      _ = (q.height + R) ^ 2 := by rw [a, one_mul, b, mul_one]
  rw [this, sqrt_sq h2]; ring

/-- C109: on one rank the heights are not negative and zero at the lowest node. -/
theorem C109_heights (cells : List (List V3)) (out : List (List LL)) (h : flatMesh cells = .ok out) :
    (∀ o ∈ out, ∀ q ∈ o, 0 ≤ q.height) ∧ ∃ o ∈ out, ∃ q ∈ o, q.height = 0 := by
  obtain ⟨R, ⟨p, hp, e⟩, hmin, hF⟩ := C109_nodes cells out h
  rw [List.forall₂_iff_get] at hF
  obtain ⟨hl, hF⟩ := hF
  constructor
  · intro o ho q hq
    obtain ⟨i, hi, rfl⟩ := List.mem_iff_getElem.1 ho
    have h2 := hF i (by omega) hi
    rw [List.forall₂_iff_get] at h2
    obtain ⟨hl2, h2⟩ := h2
    obtain ⟨j, hj, rfl⟩ := List.mem_iff_getElem.1 hq
    have hj' : j < (cells.get ⟨i, by omega⟩).length := by rw [hl2]; exact hj
    have h3 := stands_height R _ _ (h2 j hj' hj)
    simp only [List.get_eq_getElem] at h3
    rw [h3, sub_nonneg]
    exact hmin _ (List.mem_flatten.2 ⟨_, List.getElem_mem _, List.getElem_mem _⟩)
  · obtain ⟨c, hc, hpc⟩ := List.mem_flatten.1 hp
    obtain ⟨i, hi, rfl⟩ := List.mem_iff_getElem.1 hc
    obtain ⟨j, hj, rfl⟩ := List.mem_iff_getElem.1 hpc
    have h2 := hF i hi (by omega)
    rw [List.forall₂_iff_get] at h2
    obtain ⟨hl2, h2⟩ := h2
    have hj' : j < (out.get ⟨i, by omega⟩).length := by rw [← hl2]; exact hj
    refine ⟨_, List.getElem_mem (show i < out.length by omega), _, List.getElem_mem hj', ?_⟩
    have h3 := stands_height R _ _ (h2 j hj hj')
    simp only [List.get_eq_getElem] at h3
    rw [e, sub_self] at h3
    exact h3

/-- C109: a rank gives a mesh iff it has a node. -/
theorem C109_error (cells : List (List V3)) : (∃ out, flatMesh cells = .ok out) ↔ cells.flatten ≠ [] := by
  unfold flatMesh
  cases hc : cells.flatten with
  | nil => simp [npMin, bind, Except.bind]
  | cons a l => simp [npMin, bind, Except.bind, pure, Except.pure]

/-- C109, several ranks: if every rank has a node at the global minimum of the radius, all ranks measure heights from there. -/
theorem C109_ranks_partial (ranks : List (List (List V3))) (R : ℝ) (hall : ∀ cells ∈ ranks, ∀ p ∈ cells.flatten,
    R ≤ √(p.x ^ 2 + p.y ^ 2 + p.z ^ 2)) (hex : ∀ cells ∈ ranks, ∃ p ∈ cells.flatten, √(p.x ^ 2 + p.y ^ 2 + p.z ^ 2) = R) :
    ∀ cells ∈ ranks, ∃ out, flatMesh cells = .ok out ∧ List.Forall₂ (List.Forall₂ (StandsFor R)) cells out := by
  intro cells hc
  obtain ⟨p, hp, e⟩ := hex cells hc
  obtain ⟨out, ho⟩ := (C109_error cells).2 (List.ne_nil_of_mem hp)
  obtain ⟨R', ⟨p', hp', e'⟩, hmin, hF⟩ := C109_nodes cells out ho
  have : R' = R := le_antisymm (e ▸ hmin p hp) (e' ▸ hall cells hc p' hp')
  subst this
  exact ⟨out, ho, hF⟩

theorem norm3_eq (x y z r : ℝ) (hr : 0 ≤ r) (h : x ^ 2 + y ^ 2 + z ^ 2 = r ^ 2) : norm3 ⟨x, y, z⟩ = r := by
  unfold norm3; rw [h, sqrt_sq hr]

/-- C109, refuted in parallel: two ranks that share a point give it different heights, if their lowest nodes are at different
radii (orography). -/
theorem C109_ranks_refuted : ∃ (rank0 rank1 : List (List V3)) (out0 out1 : List (List LL)) (p : V3) (q0 q1 : LL),
    flatMesh rank0 = .ok out0 ∧ flatMesh rank1 = .ok out1 ∧ rank0 = [[⟨1, 0, 0⟩, p]] ∧ rank1 = [[p, ⟨3, 0, 0⟩]] ∧
    (∃ a, out0 = [[a, q0]]) ∧ (∃ b, out1 = [[q1, b]]) ∧ q0.lon = q1.lon ∧ q0.lat = q1.lat ∧ q0.height = 1 ∧ q1.height = 0 := by
  have n1 : norm3 ⟨1, 0, 0⟩ = 1 := norm3_eq _ _ _ 1 (by norm_num) (by norm_num)
  have n2 : norm3 ⟨2, 0, 0⟩ = 2 := norm3_eq _ _ _ 2 (by norm_num) (by norm_num)
  have n3 : norm3 ⟨3, 0, 0⟩ = 3 := norm3_eq _ _ _ 3 (by norm_num) (by norm_num)
  have hl : ∀ x : ℝ, 0 < x → atan2 0 x = 0 := fun x hx => by
    unfold atan2
    have : (⟨x, 0⟩ : ℂ) = (x : ℂ) := rfl
    rw [this, Complex.arg_ofReal_of_nonneg hx.le]
  have s : ∀ a b : LL, a.lon = 0 → b.lon = 0 → splat [a, b] = [a, b] := by
    intro a b ha hb
    unfold splat
    rw [maxDiff_eq _ 0 0 (by simp [ha]) (by simp [ha]) (by simp [ha, hb]) (by simp [ha, hb]), if_neg (by simpa using pi_pos.le)]
  refine ⟨[[⟨1, 0, 0⟩, ⟨2, 0, 0⟩]], [[⟨2, 0, 0⟩, ⟨3, 0, 0⟩]], _, _, ⟨2, 0, 0⟩, latlonNode 1 ⟨2, 0, 0⟩, latlonNode 2 ⟨2, 0, 0⟩, rfl, rfl,
    rfl, rfl, ⟨latlonNode 1 ⟨1, 0, 0⟩, ?_⟩, ⟨latlonNode 2 ⟨3, 0, 0⟩, ?_⟩, rfl, rfl, ?_, ?_⟩
  · change [splat [latlonNode (min (norm3 ⟨1, 0, 0⟩) (norm3 ⟨2, 0, 0⟩)) ⟨1, 0, 0⟩,
      latlonNode (min (norm3 ⟨1, 0, 0⟩) (norm3 ⟨2, 0, 0⟩)) ⟨2, 0, 0⟩]] = _
    rw [n1, n2]
    rw [min_eq_left (by norm_num), s _ _ (hl 1 (by norm_num)) (hl 2 (by norm_num))]
  · change [splat [latlonNode (min (norm3 ⟨2, 0, 0⟩) (norm3 ⟨3, 0, 0⟩)) ⟨2, 0, 0⟩,
      latlonNode (min (norm3 ⟨2, 0, 0⟩) (norm3 ⟨3, 0, 0⟩)) ⟨3, 0, 0⟩]] = _
    rw [n2, n3]
    rw [min_eq_left (by norm_num), s _ _ (hl 2 (by norm_num)) (hl 3 (by norm_num))]
  · simp only [latlonNode, n2]; norm_num
  · simp only [latlonNode, n2]; norm_num

/-- C109, refuted at the pole: a node on the axis has longitude zero, so a triangle at the pole, away from the axis within a quarter
turn, is spread over more than half a turn. -/
theorem C109_pole_refuted : ∃ (out : List LL) (a b : LL), flatMesh [[⟨0, 0, 1⟩, ⟨-1, 1, 1⟩, ⟨-1, -1, 1⟩]] = .ok [out] ∧
    InWedge (π / 2) [⟨-1, 1, 1⟩, ⟨-1, -1, 1⟩] ∧ a ∈ out ∧ b ∈ out ∧ b.lon - a.lon = 5 * π / 4 := by
  have hpi := pi_pos
  have ho : flatMesh [[⟨0, 0, 1⟩, ⟨-1, 1, 1⟩, ⟨-1, -1, 1⟩]] = .ok [splat ([⟨0, 0, 1⟩, ⟨-1, 1, 1⟩, ⟨-1, -1, 1⟩].map (latlonNode
      (([⟨-1, 1, 1⟩, ⟨-1, -1, 1⟩].map norm3).foldl min (norm3 ⟨0, 0, 1⟩))))] := rfl
  set R := ([⟨-1, 1, 1⟩, ⟨-1, -1, 1⟩].map norm3).foldl min (norm3 ⟨0, 0, 1⟩)
  have c3 : cos (3 * π / 4) = -(√2 / 2) := by
    rw [show 3 * π / 4 = π - π / 4 by ring, cos_pi_sub, cos_pi_div_four]
  have s3 : sin (3 * π / 4) = √2 / 2 := by
    rw [show 3 * π / 4 = π - π / 4 by ring, sin_pi_sub, sin_pi_div_four]
  have h2 : √2 * √2 = 2 := mul_self_sqrt (by norm_num)
  have arg3 : ∀ t : ℝ, -π < t → t ≤ π → ∀ x y : ℝ, x = √2 * cos t → y = √2 * sin t → atan2 y x = t := by
    intro t t1 t2 x y hx hy
    have e : (⟨x, y⟩ : ℂ) = (√2 : ℝ) * (Complex.cos t + Complex.sin t * Complex.I) := by
      apply Complex.ext <;> simp [← Complex.ofReal_cos, ← Complex.ofReal_sin, hx, hy]
    unfold atan2
    rw [e, Complex.arg_mul_cos_add_sin_mul_I (by positivity) ⟨t1, t2⟩]
  have l0 : atan2 0 0 = 0 := by
    unfold atan2
    have : (⟨0, 0⟩ : ℂ) = 0 := rfl
    rw [this, Complex.arg_zero]
  have l1 : atan2 1 (-1) = 3 * π / 4 := arg3 _ (by linarith) (by linarith) _ _ (by rw [c3]; linarith) (by rw [s3]; linarith)
  have l2 : atan2 (-1) (-1) = -(3 * π / 4) :=
    arg3 _ (by linarith) (by linarith) _ _ (by rw [cos_neg, c3]; linarith) (by rw [sin_neg, s3]; linarith)
  have hD : maxDiff (([⟨0, 0, 1⟩, ⟨-1, 1, 1⟩, ⟨-1, -1, 1⟩].map (latlonNode R)).map LL.lon) = 3 * π / 4 - -(3 * π / 4) := by
    refine maxDiff_eq _ _ _ ?_ ?_ ?_ ?_ <;> simp [latlonNode, l0, l1, l2] <;> linarith
  refine ⟨_, latlonNode R ⟨0, 0, 1⟩, { latlonNode R ⟨-1, -1, 1⟩ with lon := 5 * π / 4 }, ho, ⟨3 * π / 4, ?_⟩, ?_, ?_, ?_⟩
  · intro p hp
    simp only [List.mem_cons, List.not_mem_nil, or_false] at hp
    rcases hp with rfl | rfl
    · exact ⟨√2, 3 * π / 4, by positivity, le_rfl, by linarith, by rw [c3]; linarith, by rw [s3]; linarith⟩
    · refine ⟨√2, 3 * π / 4 + π / 2, by positivity, by linarith, le_rfl, ?_, ?_⟩
      · rw [cos_add_pi_div_two, s3]; linarith
      · rw [sin_add_pi_div_two, c3]; linarith
  · unfold splat
    rw [hD, if_pos (by linarith)]
    refine List.mem_map.2 ⟨latlonNode R ⟨0, 0, 1⟩, by simp, ?_⟩
    rw [if_neg (by simp [latlonNode, l0])]
  · unfold splat
    rw [hD, if_pos (by linarith)]
    refine List.mem_map.2 ⟨latlonNode R ⟨-1, -1, 1⟩, by simp, ?_⟩
    rw [if_pos (by simp only [latlonNode, l2]; linarith)]
    simp only [latlonNode, l2]
    congr 1
    ring
  · simp only [latlonNode, l0]; ring

theorem wedge_example : InWedge (π / 2) [⟨-1, 1, 1⟩, ⟨-1, -1, 1⟩, ⟨-1, 0, 1⟩] := by
  have hpi := pi_pos
  have c3 : cos (3 * π / 4) = -(√2 / 2) := by
    rw [show 3 * π / 4 = π - π / 4 by ring, cos_pi_sub, cos_pi_div_four]
  have s3 : sin (3 * π / 4) = √2 / 2 := by
    rw [show 3 * π / 4 = π - π / 4 by ring, sin_pi_sub, sin_pi_div_four]
  have h2 : √2 * √2 = 2 := mul_self_sqrt (by norm_num)
  refine ⟨3 * π / 4, fun p hp => ?_⟩
  simp only [List.mem_cons, List.not_mem_nil, or_false] at hp
  rcases hp with rfl | rfl | rfl
  · exact ⟨√2, 3 * π / 4, by positivity, le_rfl, by linarith, by rw [c3]; linarith, by rw [s3]; linarith⟩
  · refine ⟨√2, 3 * π / 4 + π / 2, by positivity, by linarith, le_rfl, ?_, ?_⟩
    · rw [cos_add_pi_div_two, s3]; linarith
    · rw [sin_add_pi_div_two, c3]; linarith
  · exact ⟨1, π, by norm_num, by linarith, by linarith, by simp, by simp⟩

/-- A triangle across the branch cut. -/
example : ∃ out, flatMesh [[⟨-1, 1, 1⟩, ⟨-1, -1, 1⟩, ⟨-1, 0, 1⟩]] = .ok [out] ∧ ∀ q ∈ out, ∀ q' ∈ out, |q.lon - q'.lon| ≤ π / 2 := by
  obtain ⟨out, ho⟩ := (C109_error [[⟨-1, 1, 1⟩, ⟨-1, -1, 1⟩, ⟨-1, 0, 1⟩]]).2 (by simp)
  have := C109_together_partial _ _ ho
  cases this with
  | cons h t =>
    cases t
    exact ⟨_, ho, h _ (by linarith [pi_pos]) wedge_example⟩

end Gusto.Props.FlatLatLonProps
