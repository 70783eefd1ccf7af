import Verif.Lemmas.Icosphere

set_option autoImplicit false
set_option linter.unusedSectionVars false
set_option linter.unusedSimpArgs false

/-! Lemmas about the points of the icosahedral mesh. -/

namespace Gusto.Icosphere
open Finset

variable {V : Type*} [AddCommGroup V] [Module ℝ V]

theorem panelEdges_get (e : ℕ) (he : e < 30) : panelEdges[e]? = some (panelEdge e) := by
  unfold panelEdge
  have h : e < panelEdges.length := he
  rw [List.getD_eq_getElem?_getD, List.getElem?_eq_getElem h]; rfl

theorem panelsToEdges_get (i : ℕ) (hi : i < 20) : panelsToEdges[i]? = some (panelToEdges i) := by
  unfold panelToEdges
  have h : i < panelsToEdges.length := hi
  rw [List.getD_eq_getElem?_getD, List.getElem?_eq_getElem h]; rfl

theorem edgeVertices_length (base : ℕ → V) (N : ℕ) : (edgeVertices base N).length = 30 * (N - 1) := by
  unfold edgeVertices
  rw [flatMap_length (N - 1) _ _ fun _ _ => by simp]; rfl

theorem faceBlock_length (base : ℕ → V) (N : ℕ) (es : ℕ × ℕ × ℕ) :
    ((List.range (N - 2)).flatMap fun j =>
      let x0 := (edgeVertices base N).getD (es.2.1 * (N - 1) + j) 0
      let x1 := (edgeVertices base N).getD (es.2.2 * (N - 1) + j) 0
      (List.range (N - j - 2)).map fun k => x0 + linspace01 (N - j) (k + 1) • (x1 - x0)).length = verticesPerFace N := by
  rw [flatMap_range_length]
  simp only [List.length_map, List.length_range]
  by_cases h : 2 ≤ N
  · exact row_end N h
  · have := two_vpf N
    rw [show N - 2 = 0 by omega] at this ⊢
    simp at this ⊢; exact this.symm

theorem faceVertices_length (base : ℕ → V) (N : ℕ) : (faceVertices base N).length = 20 * verticesPerFace N := by
  unfold faceVertices
  rw [flatMap_length (verticesPerFace N) _ _ fun es _ => faceBlock_length base N es]; rfl

theorem allVertices_length (base : ℕ → V) (N : ℕ) : (allVertices base N).length = totalNumVertices N := by
  unfold allVertices totalNumVertices
  rw [List.length_append, List.length_append, edgeVertices_length, faceVertices_length, nfv_eq]
  simp [numEdgeVertices]

theorem edgeVertices_get (base : ℕ → V) (N e s : ℕ) (he : e < 30) (hs : s < N - 1) :
    (edgeVertices base N)[e * (N - 1) + s]? =
      some (base (panelEdge e).1 + (((s : ℝ) + 1) / N) • (base (panelEdge e).2 - base (panelEdge e).1)) := by
  unfold edgeVertices
  rw [flatMap_getElem (N - 1) _ _ (fun _ _ => by simp) e s hs, panelEdges_get e he]
  simp [hs, linspace01]

theorem all_base (base : ℕ → V) (N v : ℕ) (hv : v < 12) : (allVertices base N)[v]? = some (base v) := by
  unfold allVertices
  rw [List.append_assoc, List.getElem?_append_left (by simpa using hv)]
  simp [hv]

theorem all_edge (base : ℕ → V) (N s : ℕ) (hs : s < 30 * (N - 1)) :
    (allVertices base N)[12 + s]? = (edgeVertices base N)[s]? := by
  unfold allVertices
  rw [List.append_assoc, List.getElem?_append_right (by simp), List.getElem?_append_left]
  · simp
  · rw [edgeVertices_length]; simpa using hs

theorem all_face (base : ℕ → V) (N s : ℕ) :
    (allVertices base N)[12 + 30 * (N - 1) + s]? = (faceVertices base N)[s]? := by
  unfold allVertices
  rw [List.getElem?_append_right (by rw [List.length_append, edgeVertices_length]; simp)]
  congr 1
  rw [List.length_append, edgeVertices_length]; simp

theorem edge_bound (N e s : ℕ) (he : e < 30) (hs : s < N - 1) : e * (N - 1) + s < 30 * (N - 1) := by
  have : (e + 1) * (N - 1) ≤ 30 * (N - 1) := Nat.mul_le_mul_right _ he
  rw [Nat.succ_mul] at this; omega

theorem vertex_edgeNode (base : ℕ → V) (N e t : ℕ) (hN : 0 < N) (he : e < 30) (ht : t ≤ N) :
    (allVertices base N)[edgeNode N e t]? =
      some ((N : ℝ)⁻¹ • (((N : ℝ) - t) • base (panelEdge e).1 + (t : ℝ) • base (panelEdge e).2)) := by
  have hN' : (N : ℝ) ≠ 0 := by exact_mod_cast hN.ne'
  have hb := edge_lt e he
  unfold edgeNode
  split_ifs with h1 h2
  · subst h1
    rw [all_base base N _ (by omega)]
    simp [smul_smul, hN']
  · subst h2
    rw [all_base base _ _ (by omega)]
    simp [smul_smul, hN']
  · rw [add_assoc, all_edge base N _ (edge_bound N e _ he (by omega)), edgeVertices_get base N e _ he (by omega)]
    congr 1
    rw [Nat.cast_sub (by omega)]
    push_cast
    rw [smul_add, smul_smul, smul_smul, smul_sub]
    have : (N : ℝ)⁻¹ * ((N : ℝ) - t) = 1 - t / N := by field_simp
    rw [this, show (t : ℝ) - 1 + 1 = t by ring, sub_smul, one_smul, show (N : ℝ)⁻¹ * t = t / N by ring]
    abel

/-- The point with given weights of the corners of a panel. -/
noncomputable def pt (base : ℕ → V) (N i j k : ℕ) : V :=
  (N : ℝ)⁻¹ • (((N : ℝ) - j - k) • base (panel i).1 + (k : ℝ) • base (panel i).2.1 + (j : ℝ) • base (panel i).2.2)

theorem faceVertices_get (base : ℕ → V) (N i j k : ℕ) (hi : i < 20) (hj : 0 < j) (hk : 0 < k) (h : j + k < N) :
    (faceVertices base N)[i * verticesPerFace N + (rowStart N (j - 1) + (k - 1))]? = some (pt base N i j k) := by
  have hN' : (N : ℝ) ≠ 0 := by exact_mod_cast (show N ≠ 0 by omega)
  obtain ⟨-, p1, p2⟩ := panel_edges i hi
  obtain ⟨-, l1, l2⟩ := panel_edges_lt i hi
  unfold faceVertices
  rw [flatMap_getElem (verticesPerFace N) _ _ (fun es _ => faceBlock_length base N es) i _
    (row_lt N (j - 1) (k - 1) (by omega) (by omega)), panelsToEdges_get i hi]
  simp only [Option.bind_some]
  have := flatMap_range_getElem (fun j =>
      (List.range (N - j - 2)).map fun k => (edgeVertices base N).getD ((panelToEdges i).2.1 * (N - 1) + j) 0 +
        linspace01 (N - j) (k + 1) • ((edgeVertices base N).getD ((panelToEdges i).2.2 * (N - 1) + j) 0 -
        (edgeVertices base N).getD ((panelToEdges i).2.1 * (N - 1) + j) 0)) (N - 2) (j - 1) (k - 1) (by omega) (by simp; omega)
  simp only [List.length_map, List.length_range] at this
  rw [show (∑ m ∈ range (j - 1), (N - m - 2)) = rowStart N (j - 1) from rfl] at this
  rw [this, List.getElem?_map, List.getElem?_range (by omega)]
  simp only [Option.map_some, List.getD_eq_getElem?_getD]
  rw [edgeVertices_get base N _ (j - 1) l1 (by omega), edgeVertices_get base N _ (j - 1) l2 (by omega), p1, p2]
  simp only [Option.getD_some, linspace01, pt]
  congr 1
  have hd : ((N - (j - 1) : ℕ) : ℝ) - 1 = (N : ℝ) - j := by
    rw [Nat.cast_sub (by omega), Nat.cast_sub (by omega)]; push_cast; ring
  have hd0 : (N : ℝ) - j ≠ 0 := by
    have : (j : ℝ) < N := by exact_mod_cast (show j < N by omega)
    linarith
  rw [hd, show ((j - 1 : ℕ) : ℝ) + 1 = j by rw [Nat.cast_sub (by omega)]; push_cast; ring,
    show ((k - 1 + 1 : ℕ) : ℝ) = k by rw [Nat.sub_add_cancel (by omega)]]
  generalize base (panel i).1 = A
  generalize base (panel i).2.1 = B
  generalize base (panel i).2.2 = C
  have e1 : (j : ℝ) / N = (N : ℝ)⁻¹ * j := by ring
  match_scalars <;> field_simp <;> ring

theorem vertex_node (base : ℕ → V) (N i j k : ℕ) (hN : 0 < N) (hi : i < 20) (h : j + k ≤ N) :
    (allVertices base N)[node N i j k]? = some (pt base N i j k) := by
  obtain ⟨p0, p1, p2⟩ := panel_edges i hi
  obtain ⟨l0, l1, l2⟩ := panel_edges_lt i hi
  unfold node
  split_ifs with h1 h2 h3
  · subst h1
    rw [vertex_edgeNode base N _ k hN l0 (by omega), p0]
    simp [pt]
  · subst h2
    rw [vertex_edgeNode base N _ j hN l1 (by omega), p1]
    simp [pt]
  · rw [vertex_edgeNode base N _ j hN l2 (by omega), p2]
    have : (N : ℝ) - j - k = 0 := by rw [← h3]; push_cast; ring
    have hk : (N : ℝ) - j = k := by rw [← h3]; push_cast; ring
    simp [pt, this, hk]
  · rw [add_assoc (12 + 30 * (N - 1)), all_face, faceVertices_get base N i j k hi (by omega) (by omega) (by omega)]

/-! ### Numbers and weights -/

/-- The weights of a node. -/
def wt (N i j k : ℕ) : ℕ → ℕ := fun v =>
  (if v = (panel i).1 then N - j - k else 0) + (if v = (panel i).2.1 then k else 0) + (if v = (panel i).2.2 then j else 0)

/-- The weights of a node of an edge. -/
def ewt (N e t : ℕ) : ℕ → ℕ := fun v =>
  (if v = (panelEdge e).1 then N - t else 0) + (if v = (panelEdge e).2 then t else 0)

theorem wt_pt (N i j k : ℕ) (h : j + k ≤ N) (v : ℕ) :
    pt (fun v => (Pi.single v 1 : ℕ → ℝ)) N i j k v = (N : ℝ)⁻¹ * wt N i j k v := by
  unfold pt wt
  simp only [Pi.smul_apply, Pi.add_apply, Pi.single_apply, smul_eq_mul, mul_ite, mul_one, mul_zero]
  rw [Nat.sub_sub]
  push_cast [h]
  congr 1
  by_cases h1 : v = (panel i).1 <;> by_cases h2 : v = (panel i).2.1 <;> by_cases h3 : v = (panel i).2.2 <;>
    simp [h1, h2, h3, Nat.cast_sub h] <;> push_cast <;> ring

theorem node_wt (N : ℕ) (hN : 0 < N) {i j k i' j' k' : ℕ} (hi : i < 20) (hi' : i' < 20) (h : j + k ≤ N) (h' : j' + k' ≤ N)
    (he : node N i j k = node N i' j' k') : wt N i j k = wt N i' j' k' := by
  have h1 := vertex_node (fun v => (Pi.single v 1 : ℕ → ℝ)) N i j k hN hi h
  have h2 := vertex_node (fun v => (Pi.single v 1 : ℕ → ℝ)) N i' j' k' hN hi' h'
  rw [he, h2] at h1
  have h3 := Option.some.inj h1
  funext v
  have h4 := congrFun h3 v
  rw [wt_pt N i j k h, wt_pt N i' j' k' h'] at h4
  have hN' : (N : ℝ)⁻¹ ≠ 0 := inv_ne_zero (by exact_mod_cast hN.ne')
  exact_mod_cast (mul_left_cancel₀ hN' h4).symm

/-- The kinds of nodes. -/
inductive Kind (N i j k : ℕ) : Prop
  | base (v : ℕ) (hv : v < 12) (hn : node N i j k = v) (hw : wt N i j k = fun u => if u = v then N else 0)
  | edge (e t : ℕ) (he : e < 30) (h0 : 0 < t) (ht : t < N) (hn : node N i j k = 12 + e * (N - 1) + (t - 1))
      (hw : wt N i j k = ewt N e t)
  | face (h1 : 0 < j) (h2 : 0 < k) (h3 : j + k < N)
      (hn : node N i j k = 12 + 30 * (N - 1) + i * verticesPerFace N + (rowStart N (j - 1) + (k - 1)))

theorem ewt_zero (N e : ℕ) : ewt N e 0 = fun u => if u = (panelEdge e).1 then N else 0 := by
  funext v; simp [ewt]
theorem ewt_N (N e : ℕ) : ewt N e N = fun u => if u = (panelEdge e).2 then N else 0 := by
  funext v; simp [ewt]

theorem kind_edge (N i j k e t : ℕ) (he : e < 30) (ht : t ≤ N) (hn : node N i j k = edgeNode N e t)
    (hw : wt N i j k = ewt N e t) : Kind N i j k := by
  have hb := edge_lt e he
  unfold edgeNode at hn
  split_ifs at hn with h1 h2
  · subst h1; exact .base _ (by omega) hn (by rw [hw, ewt_zero])
  · subst h2; exact .base _ (by omega) hn (by rw [hw, ewt_N])
  · exact .edge e t he (by omega) (by omega) hn hw

theorem wt_bottom (N i k : ℕ) (hi : i < 20) : wt N i 0 k = ewt N (panelToEdges i).1 k := by
  funext v; simp [wt, ewt, (panel_edges i hi).1]
theorem wt_left (N i j : ℕ) (hi : i < 20) : wt N i j 0 = ewt N (panelToEdges i).2.1 j := by
  funext v; simp [wt, ewt, (panel_edges i hi).2.1]
theorem wt_right (N i j k : ℕ) (hi : i < 20) (h : j + k = N) : wt N i j k = ewt N (panelToEdges i).2.2 j := by
  funext v
  simp [wt, ewt, (panel_edges i hi).2.2, show N - j - k = 0 by omega, show N - j = k by omega]

theorem kind (N i j k : ℕ) (hi : i < 20) (h : j + k ≤ N) : Kind N i j k := by
  obtain ⟨l0, l1, l2⟩ := panel_edges_lt i hi
  by_cases h1 : j = 0
  · subst h1; exact kind_edge N i 0 k _ k l0 (by omega) (by simp [node]) (wt_bottom N i k hi)
  · by_cases h2 : k = 0
    · subst h2; exact kind_edge N i j 0 _ j l1 (by omega) (by simp [node, h1]) (wt_left N i j hi)
    · by_cases h3 : j + k = N
      · exact kind_edge N i j k _ j l2 (by omega) (by simp [node, h1, h2, h3]) (wt_right N i j k hi h3)
      · exact .face (by omega) (by omega) (by omega) (by simp [node, h1, h2, h3])

theorem wt_at (N i j k : ℕ) (hi : i < 20) :
    wt N i j k (panel i).1 = N - j - k ∧ wt N i j k (panel i).2.1 = k ∧ wt N i j k (panel i).2.2 = j := by
  have b := panel_lt i hi
  refine ⟨?_, ?_, ?_⟩ <;> simp only [wt]
  · rw [if_pos trivial, if_neg (by omega), if_neg (by omega)]; omega
  · rw [if_neg (by omega), if_pos trivial, if_neg (by omega)]; omega
  · rw [if_neg (by omega), if_neg (by omega), if_pos trivial]; omega

theorem wt_supp (N i j k v : ℕ) (h : 0 < wt N i j k v) : v = (panel i).1 ∨ v = (panel i).2.1 ∨ v = (panel i).2.2 := by
  by_contra hc
  push Not at hc
  simp [wt, hc.1, hc.2.1, hc.2.2] at h

theorem ewt_at (N e t : ℕ) (he : e < 30) : ewt N e t (panelEdge e).1 = N - t ∧ ewt N e t (panelEdge e).2 = t := by
  have b := edge_lt e he
  refine ⟨?_, ?_⟩ <;> simp only [ewt]
  · rw [if_pos trivial, if_neg (by omega)]; omega
  · rw [if_neg (by omega), if_pos trivial]; omega

theorem ewt_supp (N e t v : ℕ) (h : 0 < ewt N e t v) : v = (panelEdge e).1 ∨ v = (panelEdge e).2 := by
  by_contra hc
  push Not at hc
  simp [ewt, hc.1, hc.2] at h

theorem ewt_inj (N e e' t t' : ℕ) (he : e < 30) (he' : e' < 30) (h0 : 0 < t) (ht : t < N)
    (h : ewt N e t = ewt N e' t') : e = e' ∧ t = t' := by
  have b := edge_lt e he
  have b' := edge_lt e' he'
  have f1 := ewt_supp N e' t' (panelEdge e).1 (by rw [← h, (ewt_at N e t he).1]; omega)
  have f2 := ewt_supp N e' t' (panelEdge e).2 (by rw [← h, (ewt_at N e t he).2]; omega)
  have key : (panelEdge e).1 = (panelEdge e').1 ∧ (panelEdge e).2 = (panelEdge e').2 := by omega
  have := edge_inj e he e' he' (Prod.ext key.1 key.2)
  subst this
  exact ⟨rfl, by rw [← (ewt_at N e t he).2, h, (ewt_at N e t' he).2]⟩

theorem face_inj (N i i' j k j' k' : ℕ) (hi : i < 20) (hi' : i' < 20) (h1 : 0 < j) (h2 : 0 < k) (h3 : j + k < N)
    (h : wt N i j k = wt N i' j' k') : i = i' ∧ j = j' ∧ k = k' := by
  have b := panel_lt i hi
  have b' := panel_lt i' hi'
  obtain ⟨q1, q2, q3⟩ := wt_at N i j k hi
  have f1 := wt_supp N i' j' k' (panel i).1 (by rw [← h, q1]; omega)
  have f2 := wt_supp N i' j' k' (panel i).2.1 (by rw [← h, q2]; omega)
  have f3 := wt_supp N i' j' k' (panel i).2.2 (by rw [← h, q3]; omega)
  have key : (panel i).1 = (panel i').1 ∧ (panel i).2.1 = (panel i').2.1 ∧ (panel i).2.2 = (panel i').2.2 := by omega
  have := panel_inj i hi i' hi' (Prod.ext key.1 (Prod.ext key.2.1 key.2.2))
  subst this
  obtain ⟨q1', q2', q3'⟩ := wt_at N i j' k' hi
  rw [h] at q2 q3
  exact ⟨rfl, by omega, by omega⟩

theorem base_edge (N e t v : ℕ) (he : e < 30) (h0 : 0 < t) (ht : t < N) (h : (fun u => if u = v then N else 0) = ewt N e t) :
    False := by
  have b := edge_lt e he
  have f1 := congrFun h (panelEdge e).1
  have f2 := congrFun h (panelEdge e).2
  rw [(ewt_at N e t he).1] at f1
  rw [(ewt_at N e t he).2] at f2
  split_ifs at f1 f2 <;> omega

theorem base_face (N i j k v : ℕ) (hi : i < 20) (h1 : 0 < j) (h2 : 0 < k)
    (h : (fun u => if u = v then N else 0) = wt N i j k) : False := by
  have b := panel_lt i hi
  have f1 := congrFun h (panel i).2.1
  have f2 := congrFun h (panel i).2.2
  rw [(wt_at N i j k hi).2.1] at f1
  rw [(wt_at N i j k hi).2.2] at f2
  split_ifs at f1 f2 <;> omega

theorem edge_face (N e t i j k : ℕ) (hi : i < 20) (h1 : 0 < j) (h2 : 0 < k) (h3 : j + k < N)
    (h : ewt N e t = wt N i j k) : False := by
  have b := panel_lt i hi
  obtain ⟨q1, q2, q3⟩ := wt_at N i j k hi
  have f1 := ewt_supp N e t (panel i).1 (by rw [h, q1]; omega)
  have f2 := ewt_supp N e t (panel i).2.1 (by rw [h, q2]; omega)
  have f3 := ewt_supp N e t (panel i).2.2 (by rw [h, q3]; omega)
  omega

/-- Equal weights have equal numbers. -/
theorem wt_node (N : ℕ) (hN : 0 < N) {i j k i' j' k' : ℕ} (hi : i < 20) (hi' : i' < 20) (h : j + k ≤ N) (h' : j' + k' ≤ N)
    (he : wt N i j k = wt N i' j' k') : node N i j k = node N i' j' k' := by
  rcases kind N i j k hi h with ⟨v, hv, hn, hw⟩ | ⟨e, t, hee, h0, ht, hn, hw⟩ | ⟨h1, h2, h3, hn⟩ <;>
  rcases kind N i' j' k' hi' h' with ⟨v', hv', hn', hw'⟩ | ⟨e', t', hee', h0', ht', hn', hw'⟩ | ⟨h1', h2', h3', hn'⟩
  · rw [hw, hw'] at he
    have := congrFun he v
    simp only [if_true] at this
    split_ifs at this with hc
    · rw [hn, hn', hc]
    · omega
  · rw [hw, hw'] at he; exact (base_edge N e' t' v hee' h0' ht' he).elim
  · rw [hw] at he; exact (base_face N i' j' k' v hi' h1' h2' he).elim
  · rw [hw, hw'] at he; exact (base_edge N e t v' hee h0 ht he.symm).elim
  · rw [hw, hw'] at he
    obtain ⟨rfl, rfl⟩ := ewt_inj N e e' t t' hee hee' h0 ht he
    rw [hn, hn']
  · rw [hw] at he; exact (edge_face N e t i' j' k' hi' h1' h2' h3' he).elim
  · rw [hw'] at he; exact (base_face N i j k v' hi h1 h2 he.symm).elim
  · rw [hw'] at he; exact (edge_face N e' t' i j k hi h1 h2 h3 he.symm).elim
  · obtain ⟨rfl, rfl, rfl⟩ := face_inj N i i' j k j' k' hi hi' h1 h2 h3 he
    rfl

/-- Nodes of one panel have different numbers. -/
theorem node_inj (N : ℕ) (hN : 0 < N) {i j k j' k' : ℕ} (hi : i < 20) (h : j + k ≤ N) (h' : j' + k' ≤ N) :
    node N i j k = node N i j' k' ↔ j = j' ∧ k = k' := by
  refine ⟨fun he => ?_, by rintro ⟨rfl, rfl⟩; rfl⟩
  have hw := node_wt N hN hi hi h h' he
  obtain ⟨-, q2, q3⟩ := wt_at N i j k hi
  obtain ⟨-, q2', q3'⟩ := wt_at N i j' k' hi
  rw [hw] at q2 q3
  omega

theorem node_lt (N i j k : ℕ) (hN : 0 < N) (hi : i < 20) (h : j + k ≤ N) : node N i j k < totalNumVertices N := by
  have := vertex_node (fun _ => (0 : ℝ)) N i j k hN hi h
  have h2 := (List.getElem?_eq_some_iff.1 this).1
  rwa [allVertices_length] at h2

end Gusto.Icosphere
