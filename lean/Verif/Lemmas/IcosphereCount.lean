import Verif.Lemmas.IcospherePoints

set_option autoImplicit false
set_option linter.unusedSectionVars false
set_option linter.unusedSimpArgs false

/-! Lemmas that count the triangles of the icosahedral mesh at a vertex and at an edge. -/

namespace Gusto.Icosphere
open Finset

/-- The sum of a function over the triangles of a panel. -/
def panelSum (N i : ℕ) (g : Face → ℕ) : ℕ :=
  ∑ j ∈ range N, (∑ k ∈ range (N - j), g (upTri N i j k) + ∑ k ∈ range (N - j - 1), g (downTri N i j k))

theorem sum_allFaces (N : ℕ) (hN : 0 < N) (g : Face → ℕ) : ((allFaces N).map g).sum = ∑ i ∈ range 20, panelSum N i g := by
  rw [allFaces_eq N hN, sum_flatMap_range]
  refine sum_congr rfl fun i hi => ?_
  rw [panelFaces_eq N i (mem_range.1 hi), sum_flatMap_range]
  refine sum_congr rfl fun j _ => ?_
  rw [List.map_append, List.sum_append, List.map_map, List.map_map, sum_map_range, sum_map_range]
  rfl

theorem panelSum_congr (N i : ℕ) (g h : Face → ℕ) (hu : ∀ j k, j + k < N → g (upTri N i j k) = h (upTri N i j k))
    (hd : ∀ j k, j + k + 1 < N → g (downTri N i j k) = h (downTri N i j k)) : panelSum N i g = panelSum N i h := by
  refine sum_congr rfl fun j hj => ?_
  have hj' := mem_range.1 hj
  congr 1
  · exact sum_congr rfl fun k hk => hu j k (by have := mem_range.1 hk; omega)
  · exact sum_congr rfl fun k hk => hd j k (by have := mem_range.1 hk; omega)

theorem delta (A : ℕ) (F : ℕ → ℕ) (s t J K : ℕ) (g : ℕ → ℕ → ℕ) :
    (∑ j ∈ range A, ∑ k ∈ range (F j), if j + s = J ∧ k + t = K then g j k else 0) =
      if s ≤ J ∧ t ≤ K ∧ J - s < A ∧ K - t < F (J - s) then g (J - s) (K - t) else 0 := by
  split_ifs with h
  · obtain ⟨h1, h2, h3, h4⟩ := h
    rw [sum_eq_single (J - s), sum_eq_single (K - t)]
    · rw [if_pos (by omega)]
    · intro k _ hk; rw [if_neg (by omega)]
    · intro hk; exact absurd (mem_range.2 h4) hk
    · intro j _ hj
      exact sum_eq_zero fun k _ => by rw [if_neg (by omega)]
    · intro hj; exact absurd (mem_range.2 h3) hj
  · refine sum_eq_zero fun j hj => sum_eq_zero fun k hk => ?_
    rw [if_neg]
    rintro ⟨rfl, rfl⟩
    apply h
    have hj' := mem_range.1 hj
    have hk' := mem_range.1 hk
    simp only [Nat.add_sub_cancel]
    exact ⟨by omega, by omega, hj', hk'⟩

/-- `0` or `1`. -/
def ind (p : Prop) [Decidable p] : ℕ := if p then 1 else 0

section Panel
variable {N i : ℕ} (hN : 0 < N) (hi : i < 20)
include hN hi

/-- The sum over the triangles at a node. -/
theorem panelSum_node (J K : ℕ) (h : J + K ≤ N) (q : Face → ℕ) :
    panelSum N i (fun f => occ f (node N i J K) * q f) =
      (if J + K < N then q (upTri N i J K) else 0) + (if 0 < K then q (upTri N i J (K - 1)) else 0) +
      (if 0 < J then q (upTri N i (J - 1) K) else 0) + (if 0 < K ∧ J + K < N then q (downTri N i J (K - 1)) else 0) +
      (if 0 < J ∧ 0 < K then q (downTri N i (J - 1) (K - 1)) else 0) +
      (if 0 < J ∧ J + K < N then q (downTri N i (J - 1) K) else 0) := by
  have split : panelSum N i (fun f => occ f (node N i J K) * q f) =
      (∑ j ∈ range N, ∑ k ∈ range (N - j), if j + 0 = J ∧ k + 0 = K then q (upTri N i j k) else 0) +
      (∑ j ∈ range N, ∑ k ∈ range (N - j), if j + 0 = J ∧ k + 1 = K then q (upTri N i j k) else 0) +
      (∑ j ∈ range N, ∑ k ∈ range (N - j), if j + 1 = J ∧ k + 0 = K then q (upTri N i j k) else 0) +
      (∑ j ∈ range N, ∑ k ∈ range (N - j - 1), if j + 0 = J ∧ k + 1 = K then q (downTri N i j k) else 0) +
      (∑ j ∈ range N, ∑ k ∈ range (N - j - 1), if j + 1 = J ∧ k + 1 = K then q (downTri N i j k) else 0) +
      (∑ j ∈ range N, ∑ k ∈ range (N - j - 1), if j + 1 = J ∧ k + 0 = K then q (downTri N i j k) else 0) := by
    unfold panelSum
    rw [show ∀ a b c d e f : ℕ, a + b + c + d + e + f = (a + b + c) + (d + e + f) by intros; ring]
    simp only [← sum_add_distrib]
    refine sum_congr rfl fun j hj => ?_
    have hj' := mem_range.1 hj
    congr 1
    · refine sum_congr rfl fun k hk => ?_
      have hk' := mem_range.1 hk
      simp only [occ, upTri, node_inj N hN hi (show j + k ≤ N by omega) h,
        node_inj N hN hi (show j + (k + 1) ≤ N by omega) h, node_inj N hN hi (show j + 1 + k ≤ N by omega) h, add_zero,
        add_mul, ite_mul, one_mul, zero_mul]
    · refine sum_congr rfl fun k hk => ?_
      have hk' := mem_range.1 hk
      simp only [occ, downTri, node_inj N hN hi (show j + 1 + k ≤ N by omega) h,
        node_inj N hN hi (show j + (k + 1) ≤ N by omega) h, node_inj N hN hi (show j + 1 + (k + 1) ≤ N by omega) h, add_zero,
        add_mul, ite_mul, one_mul, zero_mul]
  rw [split, delta N (fun j => N - j), delta N (fun j => N - j), delta N (fun j => N - j), delta N (fun j => N - j - 1),
    delta N (fun j => N - j - 1), delta N (fun j => N - j - 1)]
  simp only [Nat.sub_zero]
  congr 1
  · congr 1
    · congr 1
      · congr 1
        · congr 1
          · exact if_congr (by omega) rfl rfl
          · exact if_congr (by omega) rfl rfl
        · exact if_congr (by omega) rfl rfl
      · exact if_congr (by omega) rfl rfl
    · exact if_congr (by omega) rfl rfl
  · exact if_congr (by omega) rfl rfl

/-- The corners of a triangle are different. -/
theorem up_corners (j k : ℕ) (h : j + k < N) : node N i j k ≠ node N i j (k + 1) ∧ node N i j k ≠ node N i (j + 1) k ∧
    node N i j (k + 1) ≠ node N i (j + 1) k := by
  refine ⟨?_, ?_, ?_⟩ <;> rw [Ne, node_inj N hN hi (by omega) (by omega)] <;> omega

theorem down_corners (j k : ℕ) (h : j + k + 1 < N) : node N i j (k + 1) ≠ node N i (j + 1) (k + 1) ∧
    node N i j (k + 1) ≠ node N i (j + 1) k ∧ node N i (j + 1) (k + 1) ≠ node N i (j + 1) k := by
  refine ⟨?_, ?_, ?_⟩ <;> rw [Ne, node_inj N hN hi (by omega) (by omega)] <;> omega

/-- The degree of a node in its panel. -/
theorem panel_degree (J K : ℕ) (h : J + K ≤ N) : panelSum N i (fun f => occ f (node N i J K)) =
      (if J + K < N then 1 else 0) + (if 0 < K then 1 else 0) + (if 0 < J then 1 else 0) +
      (if 0 < K ∧ J + K < N then 1 else 0) + (if 0 < J ∧ 0 < K then 1 else 0) + (if 0 < J ∧ J + K < N then 1 else 0) := by
  have := panelSum_node hN hi J K h (fun _ => 1)
  simpa only [mul_one] using this

/-- The number of triangles of a panel with two given corners. -/
theorem panel_pair (J K J' K' : ℕ) (h : J + K ≤ N) (h' : J' + K' ≤ N) :
    panelSum N i (fun f => if inFace (node N i J K) f && inFace (node N i J' K') f then 1 else 0) =
      (if J + K < N then ind ((J' = J ∧ K' = K) ∨ (J' = J ∧ K' = K + 1) ∨ (J' = J + 1 ∧ K' = K)) else 0) +
      (if 0 < K then ind ((J' = J ∧ K' + 1 = K) ∨ (J' = J ∧ K' = K) ∨ (J' = J + 1 ∧ K' + 1 = K)) else 0) +
      (if 0 < J then ind ((J' + 1 = J ∧ K' = K) ∨ (J' + 1 = J ∧ K' = K + 1) ∨ (J' = J ∧ K' = K)) else 0) +
      (if 0 < K ∧ J + K < N then ind ((J' = J ∧ K' = K) ∨ (J' = J + 1 ∧ K' = K) ∨ (J' = J + 1 ∧ K' + 1 = K)) else 0) +
      (if 0 < J ∧ 0 < K then ind ((J' + 1 = J ∧ K' = K) ∨ (J' = J ∧ K' = K) ∨ (J' = J ∧ K' + 1 = K)) else 0) +
      (if 0 < J ∧ J + K < N then ind ((J' + 1 = J ∧ K' = K + 1) ∨ (J' = J ∧ K' = K + 1) ∨ (J' = J ∧ K' = K)) else 0) := by
  have e : panelSum N i (fun f => if inFace (node N i J K) f && inFace (node N i J' K') f then 1 else 0) =
      panelSum N i (fun f => occ f (node N i J K) * ind (inFace (node N i J' K') f = true)) := by
    refine panelSum_congr N i _ _ (fun j k hjk => ?_) fun j k hjk => ?_
    · obtain ⟨c1, c2, c3⟩ := up_corners hN hi j k hjk
      simp only [occ, ind, inFace, upTri, Bool.and_eq_true, Bool.or_eq_true, beq_iff_eq]
      by_cases q1 : node N i j k = node N i J K
      · rw [← q1]; simp [c1.symm, c2.symm]
      · by_cases q2 : node N i j (k + 1) = node N i J K
        · rw [← q2]; simp [c1, c3.symm]
        · by_cases q3 : node N i (j + 1) k = node N i J K
          · rw [← q3]; simp [c2, c3]
          · simp [q1, q2, q3, Ne.symm q1, Ne.symm q2, Ne.symm q3]
    · obtain ⟨c1, c2, c3⟩ := down_corners hN hi j k hjk
      simp only [occ, ind, inFace, downTri, Bool.and_eq_true, Bool.or_eq_true, beq_iff_eq]
      by_cases q1 : node N i j (k + 1) = node N i J K
      · rw [← q1]; simp [c1.symm, c2.symm]
      · by_cases q2 : node N i (j + 1) (k + 1) = node N i J K
        · rw [← q2]; simp [c1, c3.symm]
        · by_cases q3 : node N i (j + 1) k = node N i J K
          · rw [← q3]; simp [c2, c3]
          · simp [q1, q2, q3, Ne.symm q1, Ne.symm q2, Ne.symm q3]
  rw [e, panelSum_node hN hi J K h]
  have tri_up : ∀ j k, j + k < N → (inFace (node N i J' K') (upTri N i j k) = true ↔
      (J' = j ∧ K' = k) ∨ (J' = j ∧ K' = k + 1) ∨ (J' = j + 1 ∧ K' = k)) := by
    intro j k hjk
    simp only [inFace, upTri, Bool.or_eq_true, beq_iff_eq, node_inj N hN hi h' (show j + k ≤ N by omega),
      node_inj N hN hi h' (show j + (k + 1) ≤ N by omega), node_inj N hN hi h' (show j + 1 + k ≤ N by omega), or_assoc]
  have tri_down : ∀ j k, j + k + 1 < N → (inFace (node N i J' K') (downTri N i j k) = true ↔
      (J' = j ∧ K' = k + 1) ∨ (J' = j + 1 ∧ K' = k + 1) ∨ (J' = j + 1 ∧ K' = k)) := by
    intro j k hjk
    simp only [inFace, downTri, Bool.or_eq_true, beq_iff_eq, node_inj N hN hi h' (show j + (k + 1) ≤ N by omega),
      node_inj N hN hi h' (show j + 1 + (k + 1) ≤ N by omega), node_inj N hN hi h' (show j + 1 + k ≤ N by omega), or_assoc]
  have cong : ∀ (p : Prop) [Decidable p] (a b : Prop) [Decidable a] [Decidable b], (p → (a ↔ b)) →
      (if p then ind a else 0) = if p then ind b else 0 := by
    intro p _ a b _ _ hab
    by_cases hp : p
    · rw [if_pos hp, if_pos hp]; unfold ind; exact if_congr (hab hp) rfl rfl
    · rw [if_neg hp, if_neg hp]
  congr 1
  · congr 1
    · congr 1
      · congr 1
        · congr 1
          · exact cong _ _ _ fun hp => by rw [tri_up J K hp]
          · exact cong _ _ _ fun hp => by rw [tri_up J (K - 1) (by omega)]; omega
        · exact cong _ _ _ fun hp => by rw [tri_up (J - 1) K (by omega)]; omega
      · exact cong _ _ _ fun hp => by rw [tri_down J (K - 1) (by omega)]; omega
    · exact cong _ _ _ fun hp => by rw [tri_down (J - 1) (K - 1) (by omega)]; omega
  · exact cong _ _ _ fun hp => by rw [tri_down (J - 1) K (by omega)]; omega

end Panel

theorem pair_row {N i J K : ℕ} (hN : 0 < N) (hi : i < 20) (h : J + K + 1 ≤ N) :
    panelSum N i (fun f => if inFace (node N i J K) f && inFace (node N i J (K + 1)) f then 1 else 0) =
      if J = 0 then 1 else 2 := by
  rw [panel_pair hN hi J K J (K + 1) (by omega) (by omega)]
  rw [show ∀ a b c d e f : ℕ, a + b + c + d + e + f = a + (b + (c + (d + (e + f)))) by intros; ring]
  have n1 : ∀ n : ℕ, n + 1 ≠ n := fun n => by omega
  have n2 : ∀ n : ℕ, n ≠ n + 1 := fun n => by omega
  have n3 : ∀ n : ℕ, n + 1 + 1 ≠ n := fun n => by omega
  have n4 : ∀ n : ℕ, n ≠ n + 1 + 1 := fun n => by omega
  simp only [ind, n1, n2, n3, n4, true_and, and_true, false_and, and_false, or_false, false_or, or_true, true_or, if_true, if_false,
    ite_self, add_zero, zero_add]
  split_ifs <;> omega

theorem pair_col {N i J K : ℕ} (hN : 0 < N) (hi : i < 20) (h : J + K + 1 ≤ N) :
    panelSum N i (fun f => if inFace (node N i J K) f && inFace (node N i (J + 1) K) f then 1 else 0) =
      if K = 0 then 1 else 2 := by
  rw [panel_pair hN hi J K (J + 1) K (by omega) (by omega)]
  rw [show ∀ a b c d e f : ℕ, a + b + c + d + e + f = a + (b + (c + (d + (e + f)))) by intros; ring]
  have n1 : ∀ n : ℕ, n + 1 ≠ n := fun n => by omega
  have n2 : ∀ n : ℕ, n ≠ n + 1 := fun n => by omega
  have n3 : ∀ n : ℕ, n + 1 + 1 ≠ n := fun n => by omega
  have n4 : ∀ n : ℕ, n ≠ n + 1 + 1 := fun n => by omega
  simp only [ind, n1, n2, n3, n4, true_and, and_true, false_and, and_false, or_false, false_or, or_true, true_or, if_true, if_false,
    ite_self, add_zero, zero_add]
  split_ifs <;> omega

theorem pair_diag {N i J K : ℕ} (hN : 0 < N) (hi : i < 20) (h : J + K + 1 ≤ N) :
    panelSum N i (fun f => if inFace (node N i J (K + 1)) f && inFace (node N i (J + 1) K) f then 1 else 0) =
      if J + K + 1 = N then 1 else 2 := by
  rw [panel_pair hN hi J (K + 1) (J + 1) K (by omega) (by omega)]
  rw [show ∀ a b c d e f : ℕ, a + b + c + d + e + f = a + (b + (c + (d + (e + f)))) by intros; ring]
  have n1 : ∀ n : ℕ, n + 1 ≠ n := fun n => by omega
  have n2 : ∀ n : ℕ, n ≠ n + 1 := fun n => by omega
  have n3 : ∀ n : ℕ, n + 1 + 1 ≠ n := fun n => by omega
  have n4 : ∀ n : ℕ, n ≠ n + 1 + 1 := fun n => by omega
  simp only [ind, n1, n2, n3, n4, true_and, and_true, false_and, and_false, or_false, false_or, or_true, true_or, if_true, if_false,
    ite_self, add_zero, zero_add]
  split_ifs <;> omega

/-- Nodes which are not in a panel are in none of its triangles. -/
theorem not_in_panel {N i v : ℕ} (h : ∀ j k, j + k ≤ N → node N i j k ≠ v) (q : Face → ℕ) :
    panelSum N i (fun f => if inFace v f then q f else 0) = 0 := by
  refine sum_eq_zero fun j hj => ?_
  have hj' := mem_range.1 hj
  have e1 : ∀ k ∈ range (N - j), (if inFace v (upTri N i j k) then q (upTri N i j k) else 0) = 0 := by
    intro k hk
    have hk' := mem_range.1 hk
    rw [if_neg]
    simp only [inFace, upTri, Bool.or_eq_true, beq_iff_eq, not_or]
    exact ⟨⟨(h _ _ (by omega)).symm, (h _ _ (by omega)).symm⟩, (h _ _ (by omega)).symm⟩
  have e2 : ∀ k ∈ range (N - j - 1), (if inFace v (downTri N i j k) then q (downTri N i j k) else 0) = 0 := by
    intro k hk
    have hk' := mem_range.1 hk
    rw [if_neg]
    simp only [inFace, downTri, Bool.or_eq_true, beq_iff_eq, not_or]
    exact ⟨⟨(h _ _ (by omega)).symm, (h _ _ (by omega)).symm⟩, (h _ _ (by omega)).symm⟩
  rw [sum_eq_zero e1, sum_eq_zero e2]; rfl

theorem pair_not_in_panel {N i u w : ℕ} (h : (∀ j k, j + k ≤ N → node N i j k ≠ u) ∨ ∀ j k, j + k ≤ N → node N i j k ≠ w) :
    panelSum N i (fun f => if inFace u f && inFace w f then 1 else 0) = 0 := by
  rcases h with h | h
  · refine Eq.trans ?_ (not_in_panel h (fun f => if inFace w f then 1 else 0))
    congr 1; funext f; by_cases a : inFace u f = true <;> simp [a]
  · refine Eq.trans ?_ (not_in_panel h (fun f => if inFace u f then 1 else 0))
    congr 1; funext f; by_cases a : inFace w f = true <;> simp [a]

theorem occ_not_in_panel {N i v : ℕ} (h : ∀ j k, j + k ≤ N → node N i j k ≠ v) : panelSum N i (fun f => occ f v) = 0 := by
  refine Eq.trans ?_ (not_in_panel h (fun f => occ f v))
  congr 1; funext f
  by_cases a : inFace v f = true
  · simp [a]
  · have ha : ¬(v = f.1 ∨ v = f.2.1 ∨ v = f.2.2) := by simpa [inFace, or_assoc] using a
    push Not at ha
    simp [a, occ, ha.1.symm, ha.2.1.symm, ha.2.2.symm]

end Gusto.Icosphere
