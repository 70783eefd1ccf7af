import Verif.Lemmas.IcosphereCount

set_option autoImplicit false
set_option linter.unusedSectionVars false
set_option linter.unusedSimpArgs false

/-!
# C107: the icosahedral mesh is a triangulated sphere

Model: `Verif.Model.Icosphere`.
-/

namespace Gusto.Props.IcosphereProps
open Gusto.Icosphere Finset

/-! ### Specification -/

/-- The corners of a triangle. -/
def corners (f : Face) : List ℕ := [f.1, f.2.1, f.2.2]

/-- A list of triangles is a closed surface with the vertices `0, ..., n - 1`: the corners of the triangles are different
vertices, every vertex is used, and every two corners of a triangle are corners of exactly two triangles of the list. -/
structure ClosedSurface (F : List Face) (n : ℕ) : Prop where
  corners : ∀ f ∈ F, (corners f).Nodup ∧ ∀ v ∈ corners f, v < n
  used : ∀ v < n, ∃ f ∈ F, v ∈ IcosphereProps.corners f
  edges : ∀ f ∈ F, ∀ u ∈ IcosphereProps.corners f, ∀ w ∈ IcosphereProps.corners f, u ≠ w →
    (F.countP fun g => u ∈ IcosphereProps.corners g ∧ w ∈ IcosphereProps.corners g) = 2

/-! ### Proofs -/

theorem mem_corners (v : ℕ) (f : Face) : v ∈ corners f ↔ inFace v f = true := by
  simp [corners, inFace, or_assoc]

theorem base_in_panel : ∀ v < 12, ∃ i < 20, v = (panel i).1 ∨ v = (panel i).2.1 ∨ v = (panel i).2.2 := by decide
theorem edge_in_panel : ∀ e < 30, ∃ i < 20, e = (panelToEdges i).1 ∨ e = (panelToEdges i).2.1 ∨ e = (panelToEdges i).2.2 := by
  decide
theorem base_count : ∀ v < 12,
    (∑ i ∈ range 20, if v = (panel i).1 ∨ v = (panel i).2.1 ∨ v = (panel i).2.2 then 1 else 0) = 5 := by decide
theorem edge_count : ∀ e < 30,
    (∑ i ∈ range 20, if e = (panelToEdges i).1 ∨ e = (panelToEdges i).2.1 ∨ e = (panelToEdges i).2.2 then 1 else 0) = 2 := by
  decide
theorem edge_table' : ∀ i < 20, ∀ e < 30, (inFace (panelEdge e).1 (panel i) && inFace (panelEdge e).2 (panel i)) = true →
    e = (panelToEdges i).1 ∨ e = (panelToEdges i).2.1 ∨ e = (panelToEdges i).2.2 := by decide
theorem edge_table (i : ℕ) (hi : i < 20) (e : ℕ) (he : e < 30)
    (h1 : (panelEdge e).1 = (panel i).1 ∨ (panelEdge e).1 = (panel i).2.1 ∨ (panelEdge e).1 = (panel i).2.2)
    (h2 : (panelEdge e).2 = (panel i).1 ∨ (panelEdge e).2 = (panel i).2.1 ∨ (panelEdge e).2 = (panel i).2.2) :
    e = (panelToEdges i).1 ∨ e = (panelToEdges i).2.1 ∨ e = (panelToEdges i).2.2 := by
  refine edge_table' i hi e he ?_
  simp only [inFace, Bool.and_eq_true, Bool.or_eq_true, beq_iff_eq, or_assoc]
  exact ⟨h1, h2⟩

theorem find_row (N r n : ℕ) (h : r < rowStart N n) : ∃ j < n, rowStart N j ≤ r ∧ r < rowStart N (j + 1) := by
  induction n with
  | zero => simp [rowStart] at h
  | succ n ih =>
    by_cases hr : r < rowStart N n
    · obtain ⟨j, hj, h1, h2⟩ := ih hr; exact ⟨j, by omega, h1, h2⟩
    · exact ⟨n, by omega, by omega, h⟩

/-- The nodes of the edges of a panel. -/
theorem side_node (N i e t : ℕ) (hN : 0 < N) (hi : i < 20) (ht : t ≤ N)
    (h : e = (panelToEdges i).1 ∨ e = (panelToEdges i).2.1 ∨ e = (panelToEdges i).2.2) :
    ∃ j k, j + k ≤ N ∧ node N i j k = edgeNode N e t ∧ wt N i j k = ewt N e t ∧
      ((j = 0 ∧ k = t) ∨ (j = t ∧ k = 0) ∨ (j = t ∧ j + k = N)) := by
  rcases h with rfl | rfl | rfl
  · exact ⟨0, t, by omega, by simp [node], wt_bottom N i t hi, by omega⟩
  · by_cases h0 : t = 0
    · subst h0
      refine ⟨0, 0, by omega, ?_, wt_left N i 0 hi, by omega⟩
      rw [node_00 hi]; simp [edgeNode, (panel_edges i hi).2.1]
    · exact ⟨t, 0, by omega, by simp [node, h0], wt_left N i t hi, by omega⟩
  · by_cases h0 : t = 0
    · subst h0
      refine ⟨0, N, by omega, ?_, wt_right N i 0 N hi (by omega), by omega⟩
      rw [node_0N hi hN]; simp [edgeNode, (panel_edges i hi).2.2]
    · exact ⟨t, N - t, by omega, node_right hi (by omega) (by omega), wt_right N i t (N - t) hi (by omega), by omega⟩

/-- Every number is the number of a node of a panel. -/
theorem exists_node (N v : ℕ) (hN : 0 < N) (hv : v < totalNumVertices N) : ∃ i < 20, ∃ j k, j + k ≤ N ∧ node N i j k = v := by
  unfold totalNumVertices at hv
  rw [nfv_eq] at hv
  unfold numEdgeVertices at hv
  by_cases h1 : v < 12
  · obtain ⟨i, hi, h | h | h⟩ := base_in_panel v h1
    · exact ⟨i, hi, 0, 0, by omega, by rw [node_00 hi, h]⟩
    · exact ⟨i, hi, 0, N, by omega, by rw [node_0N hi hN, h]⟩
    · exact ⟨i, hi, N, 0, by omega, by rw [node_N0 hi hN, h]⟩
  · by_cases h2 : v < 12 + 30 * (N - 1)
    · have hpos : 0 < N - 1 := by
        by_contra hc
        have : N - 1 = 0 := by omega
        rw [this] at h2; omega
      have he : (v - 12) / (N - 1) < 30 := Nat.div_lt_of_lt_mul (by rw [mul_comm]; omega)
      have ht := Nat.mod_lt (v - 12) hpos
      obtain ⟨i, hi, hs⟩ := edge_in_panel _ he
      obtain ⟨j, k, hjk, hn, -, -⟩ := side_node N i _ ((v - 12) % (N - 1) + 1) hN hi (by omega) hs
      refine ⟨i, hi, j, k, hjk, ?_⟩
      rw [hn]
      unfold edgeNode
      rw [if_neg (by omega), if_neg (by omega)]
      have := Nat.div_add_mod (v - 12) (N - 1)
      rw [mul_comm] at this
      omega
    · have hpos : 0 < verticesPerFace N := by
        by_contra hc
        have : verticesPerFace N = 0 := by omega
        rw [this] at hv; omega
      have hN2 : 2 ≤ N := by
        by_contra hc
        have h3 := two_vpf N
        rw [show N - 1 = 0 by omega, zero_mul] at h3; omega
      have hi : (v - (12 + 30 * (N - 1))) / verticesPerFace N < 20 := Nat.div_lt_of_lt_mul (by rw [mul_comm]; omega)
      have hr := Nat.mod_lt (v - (12 + 30 * (N - 1))) hpos
      have hr' : (v - (12 + 30 * (N - 1))) % verticesPerFace N < rowStart N (N - 2) := by rw [row_end N hN2]; exact hr
      obtain ⟨j, hj, r1, r2⟩ := find_row N _ _ hr'
      rw [row_succ] at r2
      have hd := Nat.div_add_mod (v - (12 + 30 * (N - 1))) (verticesPerFace N)
      rw [mul_comm] at hd
      refine ⟨_, hi, j + 1, (v - (12 + 30 * (N - 1))) % verticesPerFace N - rowStart N j + 1, by omega, ?_⟩
      unfold node
      rw [if_neg (by omega), if_neg (by omega), if_neg (by omega)]
      simp only [Nat.add_sub_cancel]
      omega

theorem base_of_node (N i j k v : ℕ) (hN : 0 < N) (hi : i < 20) (h : j + k ≤ N) (hv : v < 12) (hn : node N i j k = v) :
    v = (panel i).1 ∨ v = (panel i).2.1 ∨ v = (panel i).2.2 := by
  rcases kind N i j k hi h with ⟨v', hv', hn', hw⟩ | ⟨e, t, hee, h0, ht, hn', hw⟩ | ⟨h1, h2, h3, hn'⟩
  · have : v' = v := by omega
    subst this
    exact wt_supp N i j k v' (by rw [hw]; simpa using hN)
  · omega
  · omega

theorem valence_base (N v : ℕ) (hN : 0 < N) (hv : v < 12) : numOccurrences N v = 5 := by
  unfold numOccurrences
  rw [sum_allFaces N hN, ← base_count v hv]
  refine sum_congr rfl fun i hi => ?_
  have hi' := mem_range.1 hi
  by_cases h : v = (panel i).1 ∨ v = (panel i).2.1 ∨ v = (panel i).2.2
  · rw [if_pos h]
    rcases h with h | h | h
    · rw [h, ← node_00 (N := N) hi', panel_degree hN hi' 0 0 (by omega)]; simp [hN]
    · rw [h, ← node_0N hi' hN, panel_degree hN hi' 0 N (by omega)]; simp [hN]
    · rw [h, ← node_N0 hi' hN, panel_degree hN hi' N 0 (by omega)]; simp [hN]
  · rw [if_neg h]
    exact occ_not_in_panel fun j k hjk hn => h (base_of_node N i j k v hN hi' hjk hv hn)

/-- A panel that contains the nodes of an edge has the edge as a side. -/
theorem side_of_wt (N i j k e t : ℕ) (hi : i < 20) (he : e < 30) (h0 : 0 < t) (ht : t < N) (hw : wt N i j k = ewt N e t) :
    e = (panelToEdges i).1 ∨ e = (panelToEdges i).2.1 ∨ e = (panelToEdges i).2.2 := by
  obtain ⟨a1, a2⟩ := ewt_at N e t he
  exact edge_table i hi e he (wt_supp N i j k _ (by rw [hw, a1]; omega)) (wt_supp N i j k _ (by rw [hw, a2]; omega))

theorem valence_edge (N e t : ℕ) (he : e < 30) (h0 : 0 < t) (ht : t < N) : numOccurrences N (edgeNode N e t) = 6 := by
  have hN : 0 < N := by omega
  obtain ⟨i0, hi0, hs0⟩ := edge_in_panel e he
  obtain ⟨j0, k0, hjk0, hn0, hw0, -⟩ := side_node N i0 e t hN hi0 (by omega) hs0
  unfold numOccurrences
  rw [sum_allFaces N hN, show 6 = 3 * 2 by norm_num, ← edge_count e he, mul_sum]
  refine sum_congr rfl fun i hi => ?_
  have hi' := mem_range.1 hi
  by_cases h : e = (panelToEdges i).1 ∨ e = (panelToEdges i).2.1 ∨ e = (panelToEdges i).2.2
  · rw [if_pos h]
    obtain ⟨j, k, hjk, hn, hw, hc⟩ := side_node N i e t hN hi' (by omega) h
    rw [← hn, panel_degree hN hi' j k hjk]
    split_ifs <;> omega
  · rw [if_neg h, mul_zero]
    refine occ_not_in_panel fun j k hjk hn => h ?_
    have hww := node_wt N hN hi' hi0 hjk hjk0 (hn.trans hn0.symm)
    exact side_of_wt N i j k e t hi' he h0 ht (hww.trans hw0)

theorem valence_face (N i0 j0 k0 : ℕ) (hi0 : i0 < 20) (h1 : 0 < j0) (h2 : 0 < k0) (h3 : j0 + k0 < N) :
    numOccurrences N (node N i0 j0 k0) = 6 := by
  have hN : 0 < N := by omega
  unfold numOccurrences
  rw [sum_allFaces N hN, sum_eq_single i0]
  · rw [panel_degree hN hi0 j0 k0 (by omega)]
    split_ifs <;> omega
  · intro i hi hne
    refine occ_not_in_panel fun j k hjk hn => hne ?_
    have hi' := mem_range.1 hi
    exact (face_inj N i0 i j0 k0 j k hi0 hi' h1 h2 h3 (node_wt N hN hi0 hi' (by omega) hjk hn.symm)).1.symm
  · intro h; exact absurd (mem_range.2 hi0) h

/-- C107, valence: the twelve vertices of the icosahedron are corners of five triangles, all other vertices of six. -/
theorem C107_valence (N v : ℕ) (hN : 0 < N) (hv : v < totalNumVertices N) :
    numOccurrences N v = if v < 12 then 5 else 6 := by
  split_ifs with h
  · exact valence_base N v hN h
  · obtain ⟨i, hi, j, k, hjk, rfl⟩ := exists_node N v hN hv
    rcases kind N i j k hi hjk with ⟨v', hv', hn', hw⟩ | ⟨e, t, hee, h0, ht, hn', hw⟩ | ⟨h1, h2, h3, hn'⟩
    · omega
    · have : node N i j k = edgeNode N e t := by
        rw [hn']; unfold edgeNode; rw [if_neg (by omega), if_neg (by omega)]
      rw [this]; exact valence_edge N e t hee h0 ht
    · exact valence_face N i j k hi h1 h2 h3

/-! ### Edges -/

/-- The number of triangles with two given corners. -/
def pairs (N u w : ℕ) : ℕ := ∑ i ∈ range 20, panelSum N i fun f => if inFace u f && inFace w f then 1 else 0

theorem pairs_symm (N u w : ℕ) : pairs N u w = pairs N w u := by
  unfold pairs; simp only [Bool.and_comm]

theorem countP_sum (F : List Face) (p : Face → Bool) : F.countP p = (F.map fun f => if p f then 1 else 0).sum := by
  induction F with
  | nil => rfl
  | cons a F ih => rw [List.countP_cons, ih, List.map_cons, List.sum_cons, Nat.add_comm]

theorem count_pairs (N u w : ℕ) (hN : 0 < N) :
    ((allFaces N).countP fun g => u ∈ corners g ∧ w ∈ corners g) = pairs N u w := by
  rw [countP_sum, sum_allFaces N hN]
  unfold pairs
  congr 1; funext i; congr 1; funext f
  simp only [mem_corners, Bool.decide_and, Bool.decide_eq_true]

/-- An edge inside of a panel. -/
theorem pairs_inner (N i0 j0 k0 j1 k1 : ℕ) (hN : 0 < N) (hi0 : i0 < 20) (h0 : j0 + k0 ≤ N) (h1 : j1 + k1 ≤ N)
    (ha : j0 + k0 < N ∨ j1 + k1 < N) (hb : 0 < k0 ∨ 0 < k1) (hc : 0 < j0 ∨ 0 < j1)
    (h2 : panelSum N i0 (fun f => if inFace (node N i0 j0 k0) f && inFace (node N i0 j1 k1) f then 1 else 0) = 2) :
    pairs N (node N i0 j0 k0) (node N i0 j1 k1) = 2 := by
  unfold pairs
  rw [sum_eq_single i0, h2]
  · intro i hi hne
    have hi' := mem_range.1 hi
    by_contra hz
    have hin := mt pair_not_in_panel hz
    push Not at hin
    obtain ⟨⟨j, k, hjk, hn⟩, j', k', hjk', hn'⟩ := hin
    have w1 := node_wt N hN hi' hi0 hjk h0 hn
    have w2 := node_wt N hN hi' hi0 hjk' h1 hn'
    obtain ⟨p1, p2, p3⟩ := wt_at N i0 j0 k0 hi0
    obtain ⟨q1, q2, q3⟩ := wt_at N i0 j1 k1 hi0
    rw [← w1] at p1 p2 p3
    rw [← w2] at q1 q2 q3
    have f1 : (panel i0).1 = (panel i).1 ∨ (panel i0).1 = (panel i).2.1 ∨ (panel i0).1 = (panel i).2.2 := by
      rcases ha with h | h
      · exact wt_supp N i j k _ (by omega)
      · exact wt_supp N i j' k' _ (by omega)
    have f2 : (panel i0).2.1 = (panel i).1 ∨ (panel i0).2.1 = (panel i).2.1 ∨ (panel i0).2.1 = (panel i).2.2 := by
      rcases hb with h | h
      · exact wt_supp N i j k _ (by omega)
      · exact wt_supp N i j' k' _ (by omega)
    have f3 : (panel i0).2.2 = (panel i).1 ∨ (panel i0).2.2 = (panel i).2.1 ∨ (panel i0).2.2 = (panel i).2.2 := by
      rcases hc with h | h
      · exact wt_supp N i j k _ (by omega)
      · exact wt_supp N i j' k' _ (by omega)
    have b := panel_lt i hi'
    have b0 := panel_lt i0 hi0
    have key : (panel i).1 = (panel i0).1 ∧ (panel i).2.1 = (panel i0).2.1 ∧ (panel i).2.2 = (panel i0).2.2 := by omega
    exact hne (panel_inj i hi' i0 hi0 (Prod.ext key.1 (Prod.ext key.2.1 key.2.2)))
  · intro h; exact absurd (mem_range.2 hi0) h

/-- An edge on the boundary of a panel. -/
theorem pairs_side (N e t : ℕ) (he : e < 30) (ht : t < N) : pairs N (edgeNode N e t) (edgeNode N e (t + 1)) = 2 := by
  have hN : 0 < N := by omega
  unfold pairs
  rw [← edge_count e he]
  refine sum_congr rfl fun i hi => ?_
  have hi' := mem_range.1 hi
  obtain ⟨i0, hi0, hs0⟩ := edge_in_panel e he
  by_cases h : e = (panelToEdges i).1 ∨ e = (panelToEdges i).2.1 ∨ e = (panelToEdges i).2.2
  · rw [if_pos h]
    rcases h with h | h | h
    · have e1 : edgeNode N e t = node N i 0 t := by simp [node, h]
      have e2 : edgeNode N e (t + 1) = node N i 0 (t + 1) := by simp [node, h]
      rw [e1, e2, pair_row hN hi' (by omega)]; rfl
    · have e1 : edgeNode N e t = node N i t 0 := by
        by_cases h0 : t = 0
        · subst h0; rw [node_00 hi', h]; simp [edgeNode, (panel_edges i hi').2.1]
        · simp [node, h, h0]
      have e2 : edgeNode N e (t + 1) = node N i (t + 1) 0 := by simp [node, h]
      rw [e1, e2, pair_col hN hi' (by omega)]; rfl
    · have e1 : edgeNode N e t = node N i t (N - t - 1 + 1) := by
        by_cases h0 : t = 0
        · subst h0
          rw [show N - 0 - 1 + 1 = N by omega, node_0N hi' hN, h]; simp [edgeNode, (panel_edges i hi').2.2]
        · rw [node_right hi' (by omega) (by omega), h]
      have e2 : edgeNode N e (t + 1) = node N i (t + 1) (N - t - 1) := by rw [node_right hi' (by omega) (by omega), h]
      rw [e1, e2, pair_diag hN hi' (by omega), if_pos (by omega)]
  · rw [if_neg h]
    by_contra hz
    have hin := mt pair_not_in_panel hz
    push Not at hin
    obtain ⟨⟨j, k, hjk, hn⟩, j', k', hjk', hn'⟩ := hin
    obtain ⟨J, K, hJK, hN1, hW1, -⟩ := side_node N i0 e t hN hi0 (by omega) hs0
    obtain ⟨J', K', hJK', hN2, hW2, -⟩ := side_node N i0 e (t + 1) hN hi0 (by omega) hs0
    have w1 := (node_wt N hN hi' hi0 hjk hJK (hn.trans hN1.symm)).trans hW1
    have w2 := (node_wt N hN hi' hi0 hjk' hJK' (hn'.trans hN2.symm)).trans hW2
    refine h (edge_table i hi' e he (wt_supp N i j k _ ?_) (wt_supp N i j' k' _ ?_))
    · rw [w1, (ewt_at N e t he).1]; omega
    · rw [w2, (ewt_at N e (t + 1) he).2]; omega

theorem pairs_row (N i j k : ℕ) (hi : i < 20) (h : j + k < N) : pairs N (node N i j k) (node N i j (k + 1)) = 2 := by
  have hN : 0 < N := by omega
  by_cases h0 : j = 0
  · subst h0
    have := pairs_side N (panelToEdges i).1 k (panel_edges_lt i hi).1 (by omega)
    simpa [node] using this
  · refine pairs_inner N i j k j (k + 1) hN hi (by omega) (by omega) (by omega) (by omega) (by omega) ?_
    rw [pair_row hN hi (by omega), if_neg h0]

theorem pairs_col (N i j k : ℕ) (hi : i < 20) (h : j + k < N) : pairs N (node N i j k) (node N i (j + 1) k) = 2 := by
  have hN : 0 < N := by omega
  by_cases h0 : k = 0
  · subst h0
    have := pairs_side N (panelToEdges i).2.1 j (panel_edges_lt i hi).2.1 (by omega)
    have e1 : edgeNode N (panelToEdges i).2.1 j = node N i j 0 := by
      by_cases h0 : j = 0
      · subst h0; rw [node_00 hi]; simp [edgeNode, (panel_edges i hi).2.1]
      · simp [node, h0]
    have e2 : edgeNode N (panelToEdges i).2.1 (j + 1) = node N i (j + 1) 0 := by simp [node]
    rw [← e1, ← e2]; exact this
  · refine pairs_inner N i j k (j + 1) k hN hi (by omega) (by omega) (by omega) (by omega) (by omega) ?_
    rw [pair_col hN hi (by omega), if_neg h0]

theorem pairs_diag (N i j k : ℕ) (hi : i < 20) (h : j + k < N) : pairs N (node N i j (k + 1)) (node N i (j + 1) k) = 2 := by
  have hN : 0 < N := by omega
  by_cases h0 : j + k + 1 = N
  · have := pairs_side N (panelToEdges i).2.2 j (panel_edges_lt i hi).2.2 (by omega)
    have e1 : edgeNode N (panelToEdges i).2.2 j = node N i j (k + 1) := by
      by_cases h1 : j = 0
      · subst h1
        rw [show k + 1 = N by omega, node_0N hi hN]; simp [edgeNode, (panel_edges i hi).2.2]
      · rw [node_right hi (by omega) (by omega)]
    have e2 : edgeNode N (panelToEdges i).2.2 (j + 1) = node N i (j + 1) k := by rw [node_right hi (by omega) (by omega)]
    rw [← e1, ← e2]; exact this
  · refine pairs_inner N i j (k + 1) (j + 1) k hN hi (by omega) (by omega) (by omega) (by omega) (by omega) ?_
    rw [pair_diag hN hi (by omega), if_neg h0]

theorem three (p : ℕ → ℕ → ℕ) (sym : ∀ a b, p a b = p b a) (A B D : ℕ) (r : p A B = 2) (c : p A D = 2) (d : p B D = 2)
    (u w : ℕ) (hu : u = A ∨ u = B ∨ u = D) (hw : w = A ∨ w = B ∨ w = D) (huw : u ≠ w) : p u w = 2 := by
  rcases hu with hu | hu | hu <;> rcases hw with hw | hw | hw <;> rw [hu, hw]
  · exact absurd (hu.trans hw.symm) huw
  · exact r
  · exact c
  · rw [sym]; exact r
  · exact absurd (hu.trans hw.symm) huw
  · exact d
  · rw [sym]; exact c
  · rw [sym]; exact d
  · exact absurd (hu.trans hw.symm) huw

/-- C107: for every number of cells per edge the triangles form a closed surface on the vertices. -/
theorem C107_closed (N : ℕ) (hN : 0 < N) : ClosedSurface (allFaces N) (totalNumVertices N) := by
  refine ⟨fun f hf => ?_, fun v hv => ?_, fun f hf u hu w hw huw => ?_⟩
  · obtain ⟨i, hi, j, k, ⟨h, rfl⟩ | ⟨h, rfl⟩⟩ := (mem_allFaces N hN f).1 hf
    · obtain ⟨c1, c2, c3⟩ := up_corners hN hi j k h
      refine ⟨by simp [corners, upTri, c1, c2, c3], fun v hv => ?_⟩
      simp only [corners, upTri, List.mem_cons, List.not_mem_nil, or_false] at hv
      rcases hv with rfl | rfl | rfl <;> exact node_lt N i _ _ hN hi (by omega)
    · obtain ⟨c1, c2, c3⟩ := down_corners hN hi j k h
      refine ⟨by simp [corners, downTri, c1, c2, c3], fun v hv => ?_⟩
      simp only [corners, downTri, List.mem_cons, List.not_mem_nil, or_false] at hv
      rcases hv with rfl | rfl | rfl <;> exact node_lt N i _ _ hN hi (by omega)
  · have h := C107_valence N v hN hv
    by_contra hc
    push Not at hc
    have hz : numOccurrences N v = 0 := by
      unfold numOccurrences
      refine List.sum_eq_zero fun x hx => ?_
      obtain ⟨f, hf, rfl⟩ := List.mem_map.1 hx
      have := hc f hf
      simp only [corners, List.mem_cons, List.not_mem_nil, or_false, not_or] at this
      simp [occ, Ne.symm this.1, Ne.symm this.2.1, Ne.symm this.2.2]
    rw [hz] at h
    split_ifs at h
  · rw [count_pairs N u w hN]
    obtain ⟨i, hi, j, k, ⟨h, rfl⟩ | ⟨h, rfl⟩⟩ := (mem_allFaces N hN f).1 hf
    · simp only [corners, upTri, List.mem_cons, List.not_mem_nil, or_false] at hu hw
      have r := pairs_row N i j k hi h
      have c := pairs_col N i j k hi h
      have d := pairs_diag N i j k hi h
      exact three (pairs N) (pairs_symm N) _ _ _ r c d u w hu hw huw
    · simp only [corners, downTri, List.mem_cons, List.not_mem_nil, or_false] at hu hw
      have r := pairs_row N i (j + 1) k hi (by omega)
      have c := pairs_col N i j (k + 1) hi (by omega)
      have d := pairs_diag N i j k hi (by omega)
      exact three (pairs N) (pairs_symm N) _ _ _ c d ((pairs_symm N _ _).trans r) u w hu hw huw

/-! ### Counts -/

theorem row_faces (N i j : ℕ) (hj : j < N) :
    (((List.range (N - j)).map (upTri N i j)) ++ ((List.range (N - j - 1)).map (downTri N i j))).length = 2 * (N - j) - 1 := by
  simp; omega

theorem sum_odd (N n : ℕ) (h : n ≤ N) : ∑ j ∈ range n, (2 * (N - j) - 1) = N ^ 2 - (N - n) ^ 2 := by
  induction n with
  | zero => simp
  | succ n ih =>
    rw [sum_range_succ, ih (by omega)]
    obtain ⟨m, rfl⟩ : ∃ m, N = n + 1 + m := ⟨N - (n + 1), by omega⟩
    have e1 : n + 1 + m - n = m + 1 := by omega
    have e2 : n + 1 + m - (n + 1) = m := by omega
    rw [e1, e2]
    have : (m + 1) ^ 2 ≤ (n + 1 + m) ^ 2 := Nat.pow_le_pow_left (by omega) 2
    have h3 : (m + 1) ^ 2 = m ^ 2 + 2 * m + 1 := by ring
    omega

/-- C107, counts: `20 N²` triangles, `10 N² + 2` vertices and as many points. -/
theorem C107_counts (N : ℕ) (hN : 0 < N) {V : Type*} [AddCommGroup V] [Module ℝ V] (base : ℕ → V) :
    (allFaces N).length = 20 * N ^ 2 ∧ totalNumVertices N = 10 * N ^ 2 + 2 ∧
      (allVertices base N).length = totalNumVertices N := by
  refine ⟨?_, ?_, allVertices_length base N⟩
  · rw [allFaces_eq N hN, flatMap_range_length]
    have : ∀ i ∈ range 20, (panelFaces N i).length = N ^ 2 := by
      intro i hi
      rw [panelFaces_eq N i (mem_range.1 hi), flatMap_range_length,
        sum_congr rfl fun j hj => row_faces N i j (mem_range.1 hj), sum_odd N N le_rfl]
      simp
    rw [sum_congr rfl this]; simp
  · unfold totalNumVertices
    rw [nfv_eq]
    unfold numEdgeVertices
    have h := two_vpf N
    obtain ⟨m, rfl⟩ : ∃ m, N = m + 1 := ⟨N - 1, by omega⟩
    rcases m with _ | m
    · simp at h ⊢; omega
    · rw [show m + 1 + 1 - 1 = m + 1 by omega, show m + 1 + 1 - 2 = m by omega] at h
      rw [show m + 1 + 1 - 1 = m + 1 by omega]
      nlinarith

end Gusto.Props.IcosphereProps
