import Mathlib.Tactic.Linarith
import Mathlib.Tactic.Ring
import Mathlib.Tactic.Module
import Mathlib.Tactic.FieldSimp
import Mathlib.Algebra.BigOperators.Fin
import Mathlib.Algebra.BigOperators.Intervals
import Verif.Model.Icosphere

set_option autoImplicit false
set_option linter.unusedSectionVars false
set_option linter.unusedSimpArgs false

/-! Lemmas about the numbering of the icosahedral mesh. -/

namespace Gusto.Icosphere
open Finset

/-! ### Tables -/

theorem panel_edges : ∀ i < 20, panelEdge (panelToEdges i).1 = ((panel i).1, (panel i).2.1) ∧
    panelEdge (panelToEdges i).2.1 = ((panel i).1, (panel i).2.2) ∧
    panelEdge (panelToEdges i).2.2 = ((panel i).2.1, (panel i).2.2) := by decide
theorem panel_lt : ∀ i < 20, (panel i).1 < (panel i).2.1 ∧ (panel i).2.1 < (panel i).2.2 ∧ (panel i).2.2 < 12 := by decide
theorem panel_edges_lt : ∀ i < 20, (panelToEdges i).1 < 30 ∧ (panelToEdges i).2.1 < 30 ∧ (panelToEdges i).2.2 < 30 := by
  decide
theorem edge_lt : ∀ e < 30, (panelEdge e).1 < (panelEdge e).2 ∧ (panelEdge e).2 < 12 := by decide
theorem edge_inj : ∀ e < 30, ∀ e' < 30, panelEdge e = panelEdge e' → e = e' := by decide
theorem panel_inj : ∀ i < 20, ∀ i' < 20, panel i = panel i' → i = i' := by decide
theorem tables : tablesOk = true := by decide

/-! ### Counts -/

theorem vpe_eq (N : ℕ) : verticesPerEdge N = N - 1 := by
  unfold verticesPerEdge numEdgeVertices
  have : panelEdges.length = 30 := by decide
  rw [this]; omega

theorem two_vpf (N : ℕ) : 2 * verticesPerFace N = (N - 1) * (N - 2) := by
  unfold verticesPerFace numFaceVertices
  have h : panels.length = 20 := by decide
  have he : 2 ∣ (N - 1) * (N - 2) := by
    rcases N with _ | _ | N
    · simp
    · simp
    · have : (N + 2 - 1) * (N + 2 - 2) = N * (N + 1) := by
        rw [show N + 2 - 1 = N + 1 by omega, show N + 2 - 2 = N by omega, mul_comm]
      rw [this]; exact (Nat.even_mul_succ_self N).two_dvd
  obtain ⟨t, ht⟩ := he
  rw [h, mul_assoc, ht]; omega

theorem nfv_eq (N : ℕ) : numFaceVertices N = 20 * verticesPerFace N := by
  have h2 := two_vpf N
  unfold numFaceVertices
  rw [mul_assoc, ← h2]; omega

/-- The start of a row of inner nodes of a panel. -/
def rowStart (N j : ℕ) : ℕ := ∑ m ∈ range j, (N - m - 2)

theorem rowStart_two (N j : ℕ) (h : j + 2 ≤ N) :
    2 * (rowStart N j : ℤ) = ((N : ℤ) - 1) * (N - 2) - ((N : ℤ) - j - 2) * (N - j - 1) := by
  induction j with
  | zero => simp [rowStart]; ring
  | succ j ih =>
    have := ih (by omega)
    have e : (rowStart N (j + 1) : ℤ) = rowStart N j + ((N : ℤ) - j - 2) := by
      unfold rowStart; rw [sum_range_succ]; push_cast [show j + 2 ≤ N by omega]
      rw [Nat.cast_sub (by omega), Nat.cast_sub (by omega)]; push_cast; ring
    rw [e]; push_cast; linarith

theorem two_vpf_int (N : ℕ) (h : 2 ≤ N) : 2 * (verticesPerFace N : ℤ) = ((N : ℤ) - 1) * (N - 2) := by
  have := two_vpf N
  have h' : ((2 * verticesPerFace N : ℕ) : ℤ) = (((N - 1) * (N - 2) : ℕ) : ℤ) := by rw [this]
  push_cast at h'
  rw [Nat.cast_sub (by omega), Nat.cast_sub (by omega)] at h'
  push_cast at h'; linarith

/-- The code's formula for the start of a row. -/
theorem row_formula (N j : ℕ) (h : j + 2 ≤ N) :
    (verticesPerFace N : ℤ) - ((N : ℤ) - j - 2) * ((N : ℤ) - j - 1) / 2 = rowStart N j := by
  have h1 := rowStart_two N j h
  have h2 := two_vpf_int N (by omega)
  have : ((N : ℤ) - j - 2) * ((N : ℤ) - j - 1) = 2 * (verticesPerFace N - rowStart N j) := by linarith
  rw [this]; omega

theorem row_end (N : ℕ) (h : 2 ≤ N) : rowStart N (N - 2) = verticesPerFace N := by
  have h1 := row_formula N (N - 2) (by omega)
  rw [Nat.cast_sub h] at h1
  push_cast at h1
  ring_nf at h1
  simp at h1
  exact_mod_cast h1.symm

theorem row_mono (N : ℕ) {a b : ℕ} (h : a ≤ b) : rowStart N a ≤ rowStart N b :=
  sum_le_sum_of_subset (fun x hx => mem_range.2 (lt_of_lt_of_le (mem_range.1 hx) h))

theorem row_succ (N j : ℕ) : rowStart N (j + 1) = rowStart N j + (N - j - 2) := by
  unfold rowStart; rw [sum_range_succ]

theorem row_lt (N j k : ℕ) (hj : j + 2 ≤ N) (hk : k < N - j - 2) : rowStart N j + k < verticesPerFace N := by
  have := row_mono N (show j + 1 ≤ N - 2 by omega)
  rw [row_end N (by omega), row_succ] at this
  omega

/-! ### Lists -/

theorem flatMap_getElem {α β : Type*} (m : ℕ) (f : α → List β) (L : List α) (h : ∀ x ∈ L, (f x).length = m) (i j : ℕ)
    (hj : j < m) : (L.flatMap f)[i * m + j]? = (L[i]?).bind fun x => (f x)[j]? := by
  induction L generalizing i with
  | nil => simp
  | cons a L ih =>
    rw [List.flatMap_cons]
    have ha : (f a).length = m := h a (by simp)
    rcases i with _ | i
    · rw [zero_mul, zero_add, List.getElem?_append_left (by omega)]; simp
    · rw [List.getElem?_append_right (by rw [ha, Nat.succ_mul]; omega), ha,
        show (i + 1) * m + j - m = i * m + j by rw [Nat.succ_mul]; omega, ih fun x hx => h x (by simp [hx])]
      simp

theorem flatMap_range_getElem {β : Type*} (f : ℕ → List β) (n j k : ℕ) (hj : j < n) (hk : k < (f j).length) :
    ((List.range n).flatMap f)[(∑ m ∈ range j, (f m).length) + k]? = (f j)[k]? := by
  induction n with
  | zero => omega
  | succ n ih =>
    rw [List.range_succ, List.flatMap_append]
    have hlen : ∀ n, ((List.range n).flatMap f).length = ∑ m ∈ range n, (f m).length := by
      intro n
      induction n with
      | zero => simp
      | succ n ih => rw [List.range_succ, List.flatMap_append, List.length_append, ih, sum_range_succ]; simp
    by_cases h : j < n
    · rw [List.getElem?_append_left, ih h]
      rw [hlen]
      have : ∑ m ∈ range (j + 1), (f m).length ≤ ∑ m ∈ range n, (f m).length :=
        sum_le_sum_of_subset (fun x hx => mem_range.2 (lt_of_lt_of_le (mem_range.1 hx) h))
      rw [sum_range_succ] at this
      omega
    · have : j = n := by omega
      subst this
      rw [List.getElem?_append_right (by rw [hlen]; omega), hlen]
      simp

theorem flatMap_range_length {β : Type*} (f : ℕ → List β) (n : ℕ) :
    ((List.range n).flatMap f).length = ∑ m ∈ range n, (f m).length := by
  induction n with
  | zero => simp
  | succ n ih => rw [List.range_succ, List.flatMap_append, List.length_append, ih, sum_range_succ]; simp

theorem flatMap_length {α β : Type*} (m : ℕ) (f : α → List β) (L : List α) (h : ∀ x ∈ L, (f x).length = m) :
    (L.flatMap f).length = L.length * m := by
  induction L with
  | nil => simp
  | cons a L ih =>
    rw [List.flatMap_cons, List.length_append, h a (by simp), ih fun x hx => h x (by simp [hx]), List.length_cons,
      Nat.succ_mul, Nat.add_comm]

theorem sum_flatMap_range {β : Type*} (f : ℕ → List β) (g : β → ℕ) (n : ℕ) :
    (((List.range n).flatMap f).map g).sum = ∑ m ∈ range n, ((f m).map g).sum := by
  induction n with
  | zero => simp
  | succ n ih => rw [List.range_succ, List.flatMap_append, List.map_append, List.sum_append, ih, sum_range_succ]; simp

theorem sum_map_range (g : ℕ → ℕ) (n : ℕ) : ((List.range n).map g).sum = ∑ m ∈ range n, g m := by
  induction n with
  | zero => simp
  | succ n ih => rw [List.range_succ, List.map_append, List.sum_append, ih, sum_range_succ]; simp

/-! ### The nodes of a panel

Row `j`, column `k`, `j + k ≤ N`: the weights of the three corners are `N - j - k`, `k`, `j`. -/

/-- The number of a node of an edge. -/
def edgeNode (N e t : ℕ) : ℕ :=
  if t = 0 then (panelEdge e).1 else if t = N then (panelEdge e).2 else 12 + e * (N - 1) + (t - 1)

/-- The number of a node of a panel. -/
def node (N i j k : ℕ) : ℕ :=
  if j = 0 then edgeNode N (panelToEdges i).1 k
  else if k = 0 then edgeNode N (panelToEdges i).2.1 j
  else if j + k = N then edgeNode N (panelToEdges i).2.2 j
  else 12 + 30 * (N - 1) + i * verticesPerFace N + (rowStart N (j - 1) + (k - 1))

theorem edgeIndex_eq (N e t : ℕ) (ht : t + 1 < N) : edgeIndex N e t = edgeNode N e (t + 1) := by
  unfold edgeIndex pyRange edgeNode
  rw [vpe_eq, if_pos (by omega), if_neg (by omega), if_neg (by omega)]
  simp

theorem edgeIndex_eq' (N e t : ℕ) (h : 0 < t) (ht : t < N) : edgeIndex N e ((t : ℤ) - 1) = edgeNode N e t := by
  have := edgeIndex_eq N e (t - 1) (by omega)
  rw [Nat.cast_sub (by omega)] at this
  push_cast at this
  rw [this, show t - 1 + 1 = t by omega]

theorem faceIndex_eq (N i j k : ℕ) (hj : 0 < j) (hk : 0 < k) (h : j + k < N) :
    faceIndex N i ((verticesPerFace N : ℤ) - ((N : ℤ) - j - 1) * ((N : ℤ) - j) / 2 + k - 1) = node N i j k := by
  have hr := row_formula N (j - 1) (by omega)
  have hlt := row_lt N (j - 1) (k - 1) (by omega) (by omega)
  rw [Nat.cast_sub (by omega)] at hr
  push_cast at hr
  rw [show (N : ℤ) - (j - 1) - 2 = N - j - 1 by ring, show (N : ℤ) - (j - 1) - 1 = N - j by ring] at hr
  rw [hr]
  unfold faceIndex pyRange node
  rw [if_pos (by omega), if_neg (by omega), if_neg (by omega), if_neg (by omega)]
  unfold numEdgeVertices
  omega

theorem faceIndex_eq1 (N i j k : ℕ) (hj : 0 < j) (h : j + (k + 1) < N) :
    faceIndex N i ((verticesPerFace N : ℤ) - ((N : ℤ) - j - 1) * ((N : ℤ) - j) / 2 + k) = node N i j (k + 1) := by
  rw [← faceIndex_eq N i j (k + 1) hj (by omega) h]; push_cast; ring_nf

theorem faceIndex_eq2 (N i j k : ℕ) (hk : 0 < k) (h : j + 1 + k < N) :
    faceIndex N i ((verticesPerFace N : ℤ) - ((N : ℤ) - j - 2) * ((N : ℤ) - j - 1) / 2 + k - 1) = node N i (j + 1) k := by
  rw [← faceIndex_eq N i (j + 1) k (by omega) hk h]; push_cast; ring_nf

theorem faceIndex_eq3 (N i j k : ℕ) (h : j + 1 + (k + 1) < N) :
    faceIndex N i ((verticesPerFace N : ℤ) - ((N : ℤ) - j - 2) * ((N : ℤ) - j - 1) / 2 + k) = node N i (j + 1) (k + 1) := by
  rw [← faceIndex_eq N i (j + 1) (k + 1) (by omega) (by omega) h]; push_cast; ring_nf

section Corners
variable {N i j k : ℕ} (hi : i < 20)
include hi

theorem node_00 : node N i 0 0 = (panel i).1 := by
  simp [node, edgeNode, (panel_edges i hi).1]
theorem node_0N (hN : 0 < N) : node N i 0 N = (panel i).2.1 := by
  simp [node, edgeNode, (panel_edges i hi).1, hN.ne']
theorem node_N0 (hN : 0 < N) : node N i N 0 = (panel i).2.2 := by
  simp [node, edgeNode, (panel_edges i hi).2.1, hN.ne']

theorem node_right (h : j + k = N) (hj : 0 < j) : node N i j k = edgeNode N (panelToEdges i).2.2 j := by
  by_cases hk : k = 0
  · subst hk
    have : j = N := by omega
    subst this
    rw [node_N0 hi hj]; simp [edgeNode, (panel_edges i hi).2.2, hj.ne']
  · simp [node, hj.ne', hk, h]

theorem up0 (h : j + k < N) : upVertex0 N i j k = node N i j k := by
  unfold upVertex0
  split_ifs with h1 h2 h2
  · subst h1; subst h2; exact (node_00 hi).symm
  · subst h1; rw [edgeIndex_eq' N _ k (by omega) (by omega)]; simp [node]
  · subst h2; rw [edgeIndex_eq' N _ j (by omega) (by omega)]; simp [node, h1]
  · exact faceIndex_eq N i j k (by omega) (by omega) h

theorem up1 (h : j + k < N) : upVertex1 N i j k = node N i j (k + 1) := by
  unfold upVertex1
  split_ifs with h1 h2 h2
  · subst h1
    have : k + 1 = N := by omega
    rw [this, node_0N hi (by omega)]
  · subst h1; rw [edgeIndex_eq N _ k (by push_cast at h2; omega)]; simp [node]
  · rw [edgeIndex_eq' N _ j (by omega) (by omega), node_right hi (by omega) (by omega)]
  · exact faceIndex_eq1 N i j k (by omega) (by omega)

theorem up2 (h : j + k < N) : upVertex2 N i j k = node N i (j + 1) k := by
  unfold upVertex2
  split_ifs with h1 h2 h3
  · have e : j + 1 = N := by omega
    have : k = 0 := by omega
    subst this
    rw [e, node_N0 hi (by omega)]
  · subst h2; rw [edgeIndex_eq N _ j (by omega)]; simp [node]
  · rw [edgeIndex_eq N _ j (by omega), node_right hi (by omega) (by omega)]
  · exact faceIndex_eq2 N i j k (by omega) (by omega)

theorem down0 (h : j + k + 1 < N) : downVertex0 N i j k = node N i j (k + 1) := by
  unfold downVertex0
  split_ifs with h1
  · subst h1; rw [edgeIndex_eq N _ k (by omega)]; simp [node]
  · exact faceIndex_eq1 N i j k (by omega) (by omega)

theorem down1 (h : j + k + 1 < N) : downVertex1 N i j k = node N i (j + 1) (k + 1) := by
  unfold downVertex1
  split_ifs with h1
  · rw [edgeIndex_eq N _ j (by omega), node_right hi (by omega) (by omega)]
  · exact faceIndex_eq3 N i j k (by omega)

theorem down2 (h : j + k + 1 < N) : downVertex2 N i j k = node N i (j + 1) k := by
  unfold downVertex2
  split_ifs with h1
  · subst h1; rw [edgeIndex_eq N _ j (by omega)]; simp [node]
  · exact faceIndex_eq2 N i j k (by omega) (by omega)

end Corners

/-- The triangles of a panel in terms of its nodes. -/
def upTri (N i j k : ℕ) : Face := (node N i j k, node N i j (k + 1), node N i (j + 1) k)
/-- The triangles of a panel in terms of its nodes. -/
def downTri (N i j k : ℕ) : Face := (node N i j (k + 1), node N i (j + 1) (k + 1), node N i (j + 1) k)

theorem panelFaces_eq (N i : ℕ) (hi : i < 20) : panelFaces N i = (List.range N).flatMap fun j =>
    ((List.range (N - j)).map (upTri N i j)) ++ ((List.range (N - j - 1)).map (downTri N i j)) := by
  unfold panelFaces
  refine List.flatMap_congr fun j hj => ?_
  have hj' := List.mem_range.1 hj
  have e1 : ((List.range (N - j)).map fun k => (upVertex0 N i j k, upVertex1 N i j k, upVertex2 N i j k)) =
      (List.range (N - j)).map (upTri N i j) := by
    refine List.map_congr_left fun k hk => ?_
    have hk' := List.mem_range.1 hk
    rw [up0 hi (by omega), up1 hi (by omega), up2 hi (by omega)]; rfl
  have e2 : (if j < N - 1 then (List.range (N - j - 1)).map fun k => (downVertex0 N i j k, downVertex1 N i j k, downVertex2 N i j k)
      else []) = (List.range (N - j - 1)).map (downTri N i j) := by
    split_ifs with h
    · refine List.map_congr_left fun k hk => ?_
      have hk' := List.mem_range.1 hk
      rw [down0 hi (by omega), down1 hi (by omega), down2 hi (by omega)]; rfl
    · rw [show N - j - 1 = 0 by omega]; rfl
  rw [e1, e2]

theorem allFaces_eq (N : ℕ) (hN : 0 < N) : allFaces N = (List.range 20).flatMap (panelFaces N) := by
  unfold allFaces
  split_ifs with h
  · rfl
  · have : N = 1 := by omega
    subst this; decide

/-! ### Membership -/

theorem mem_allFaces (N : ℕ) (hN : 0 < N) (f : Face) : f ∈ allFaces N ↔
    ∃ i < 20, ∃ j k, (j + k < N ∧ f = upTri N i j k) ∨ (j + k + 1 < N ∧ f = downTri N i j k) := by
  rw [allFaces_eq N hN]
  simp only [List.mem_flatMap, List.mem_range]
  constructor
  · rintro ⟨i, hi, hf⟩
    rw [panelFaces_eq N i hi] at hf
    simp only [List.mem_flatMap, List.mem_range, List.mem_append, List.mem_map] at hf
    obtain ⟨j, hj, ⟨k, hk, rfl⟩ | ⟨k, hk, rfl⟩⟩ := hf
    · exact ⟨i, hi, j, k, .inl ⟨by omega, rfl⟩⟩
    · exact ⟨i, hi, j, k, .inr ⟨by omega, rfl⟩⟩
  · rintro ⟨i, hi, j, k, h⟩
    refine ⟨i, hi, ?_⟩
    rw [panelFaces_eq N i hi]
    simp only [List.mem_flatMap, List.mem_range, List.mem_append, List.mem_map]
    rcases h with ⟨h, rfl⟩ | ⟨h, rfl⟩
    · exact ⟨j, by omega, .inl ⟨k, by omega, rfl⟩⟩
    · exact ⟨j, by omega, .inr ⟨k, by omega, rfl⟩⟩

end Gusto.Icosphere
