import Verif.Lemmas.CubedSphere

set_option autoImplicit false
set_option linter.unusedSectionVars false
set_option linter.unusedSimpArgs false

/-!
# C108: the cubed-sphere mesh is a sphere made of quadrilaterals (connectivity)

Model: `Verif.Model.CubedSphere`.
-/

namespace Gusto.Props.CubedSphereProps
open Gusto.CubedSphere Finset

/-! ### Specification -/

/-- The corners of a quadrilateral. -/
def corners (q : Cell) : Finset ℕ := {q.1, q.2.1, q.2.2.1, q.2.2.2}

/-- The sides of a quadrilateral, directed around it. -/
def sides (q : Cell) : List (ℕ × ℕ) := [(q.1, q.2.1), (q.2.1, q.2.2.1), (q.2.2.1, q.2.2.2), (q.2.2.2, q.1)]

/-- A list of quadrilaterals is a closed oriented surface with the vertices `0, ..., n - 1`: no quadrilateral is repeated, each has
four different corners, all vertices are used, no two quadrilaterals have a directed side in common, and every side is a side
of another quadrilateral in the opposite direction. -/
structure ClosedOriented (F : List Cell) (n : ℕ) : Prop where
  nodup : F.Nodup
  corners : ∀ q ∈ F, (corners q).card = 4 ∧ ∀ v ∈ corners q, v < n
  used : ∀ v < n, ∃ q ∈ F, v ∈ CubedSphereProps.corners q
  unique : ∀ q ∈ F, ∀ q' ∈ F, ∀ s ∈ sides q, s ∈ sides q' → q = q'
  neighbour : ∀ q ∈ F, ∀ s ∈ sides q, ∃ q' ∈ F, q' ≠ q ∧ s.swap ∈ sides q'

/-! ### Proofs -/

variable (n : ℕ) (hn : 0 < n)

/-- The lattice points of a cell. -/
def cellPoint (p i j e : ℕ) : ℕ × ℕ × ℕ :=
  match e with
  | 0 => panelPoint n p i j
  | 1 => panelPoint n p (i + 1) j
  | 2 => panelPoint n p (i + 1) (j + 1)
  | _ => panelPoint n p i (j + 1)

/-- A cell. -/
def cell (p i j : ℕ) : Cell :=
  (code n (cellPoint n p i j 0), code n (cellPoint n p i j 1), code n (cellPoint n p i j 2), code n (cellPoint n p i j 3))

theorem mem_grid (m i j : ℕ) : (i, j) ∈ grid m ↔ i < m ∧ j < m := by
  simp [grid]

include hn in
theorem cells_eq : cells n = (List.range 6).flatMap fun p => (grid n).map fun t => cell n p t.1 t.2 := by
  unfold cells
  apply List.flatMap_congr
  intro p hp
  apply List.map_congr_left
  intro ⟨i, j⟩ hij
  rw [List.mem_range] at hp
  rw [mem_grid] at hij
  simp only [cell, cellPoint]
  rw [panelNumbering_eq n hn p _ _ hp (by omega) (by omega), panelNumbering_eq n hn p _ _ hp (by omega) (by omega),
    panelNumbering_eq n hn p _ _ hp (by omega) (by omega), panelNumbering_eq n hn p _ _ hp (by omega) (by omega)]

include hn in
theorem mem_cells (q : Cell) : q ∈ cells n ↔ ∃ p < 6, ∃ i < n, ∃ j < n, q = cell n p i j := by
  rw [cells_eq n hn]
  simp only [List.mem_flatMap, List.mem_range, List.mem_map, Prod.exists, mem_grid]
  constructor
  · rintro ⟨p, hp, i, j, ⟨hi, hj⟩, rfl⟩; exact ⟨p, hp, i, hi, j, hj, rfl⟩
  · rintro ⟨p, hp, i, hi, j, hj, rfl⟩; exact ⟨p, hp, i, j, ⟨hi, hj⟩, rfl⟩

theorem sides_cell (p i j : ℕ) (s : ℕ × ℕ) : s ∈ sides (cell n p i j) ↔
    ∃ e < 4, s = (code n (cellPoint n p i j e), code n (cellPoint n p i j ((e + 1) % 4))) := by
  simp only [sides, cell, List.mem_cons, List.not_mem_nil, or_false]
  constructor
  · rintro (h | h | h | h)
    exacts [⟨0, by omega, h⟩, ⟨1, by omega, h⟩, ⟨2, by omega, h⟩, ⟨3, by omega, h⟩]
  · rintro ⟨e, he, rfl⟩
    interval_cases e <;> simp

theorem cellPoint_onCube (p i j e : ℕ) (hp : p < 6) (hi : i < n) (hj : j < n) : OnCube n (cellPoint n p i j e) := by
  unfold cellPoint
  split <;> exact panelPoint_onCube n (by omega) p _ _ hp (by omega) (by omega)

theorem side_inj (p i j e p' i' j' e' : ℕ) (hp : p < 6) (hi : i < n) (hj : j < n) (he : e < 4) (hp' : p' < 6) (hi' : i' < n)
    (hj' : j' < n) (he' : e' < 4) (h1 : cellPoint n p i j e = cellPoint n p' i' j' e')
    (h2 : cellPoint n p i j ((e + 1) % 4) = cellPoint n p' i' j' ((e' + 1) % 4)) : p = p' ∧ i = i' ∧ j = j' := by
  interval_cases e <;> interval_cases e' <;> simp only [cellPoint, Nat.reduceAdd, Nat.reduceMod] at h1 h2 <;>
    interval_cases p <;> interval_cases p' <;> simp only [panelPoint, Prod.mk.injEq] at h1 h2 <;> omega

theorem side_unique (p i j p' i' j' : ℕ) (hp : p < 6) (hi : i < n) (hj : j < n) (hp' : p' < 6) (hi' : i' < n)
    (hj' : j' < n) (s : ℕ × ℕ) (h : s ∈ sides (cell n p i j)) (h' : s ∈ sides (cell n p' i' j')) :
    p = p' ∧ i = i' ∧ j = j' := by
  obtain ⟨e, he, rfl⟩ := (sides_cell n p i j s).1 h
  obtain ⟨e', he', h2⟩ := (sides_cell n p' i' j' _).1 h'
  rw [Prod.mk.injEq] at h2
  exact side_inj n p i j e p' i' j' e' hp hi hj he hp' hi' hj' he'
    (code_inj n (by omega) _ _ (cellPoint_onCube n p i j e hp hi hj) (cellPoint_onCube n p' i' j' e' hp' hi' hj') h2.1)
    (code_inj n (by omega) _ _ (cellPoint_onCube n p i j _ hp hi hj) (cellPoint_onCube n p' i' j' _ hp' hi' hj') h2.2)

/-- The cell on the other side of side `e`, and the number of the side there. -/
def across (p i j e : ℕ) : ℕ × ℕ × ℕ × ℕ :=
  match e with
  | 0 => if j = 0 then
      (match p with
        | 0 => (1, i, n - 1, 2) | 1 => (5, n - 1 - i, 0, 0) | 2 => (0, i, n - 1, 2) | 3 => (1, n - 1, n - 1 - i, 1)
        | 4 => (1, 0, i, 3) | _ => (1, n - 1 - i, 0, 0)) else (p, i, j - 1, 2)
  | 1 => if i + 1 = n then
      (match p with
        | 0 => (3, 0, j, 3) | 1 => (3, n - 1 - j, 0, 0) | 2 => (3, j, n - 1, 2) | 3 => (5, 0, j, 3)
        | 4 => (0, 0, j, 3) | _ => (4, 0, j, 3)) else (p, i + 1, j, 3)
  | 2 => if j + 1 = n then
      (match p with
        | 0 => (2, i, 0, 0) | 1 => (0, i, 0, 0) | 2 => (5, n - 1 - i, n - 1, 2) | 3 => (2, n - 1, i, 1)
        | 4 => (2, 0, n - 1 - i, 3) | _ => (2, n - 1 - i, n - 1, 2)) else (p, i, j + 1, 0)
  | _ => if i = 0 then
      (match p with
        | 0 => (4, n - 1, j, 1) | 1 => (4, j, 0, 0) | 2 => (4, n - 1 - j, n - 1, 2) | 3 => (0, n - 1, j, 1)
        | 4 => (5, n - 1, j, 1) | _ => (3, n - 1, j, 1)) else (p, i - 1, j, 1)

theorem across_range (p i j e : ℕ) (hp : p < 6) (hi : i < n) (hj : j < n) (he : e < 4) :
    (across n p i j e).1 < 6 ∧ (across n p i j e).2.1 < n ∧ (across n p i j e).2.2.1 < n ∧ (across n p i j e).2.2.2 < 4 := by
  interval_cases e <;> simp only [across] <;> split_ifs <;> interval_cases p <;> simp only [] <;> omega

theorem across_ne (p i j e : ℕ) (hp : p < 6) (hi : i < n) (hj : j < n) (he : e < 4) :
    ¬ ((across n p i j e).1 = p ∧ (across n p i j e).2.1 = i ∧ (across n p i j e).2.2.1 = j) := by
  interval_cases e <;> simp only [across] <;> split_ifs <;> interval_cases p <;> simp only [] <;> omega

theorem across_points (p i j e : ℕ) (hp : p < 6) (hi : i < n) (hj : j < n) (he : e < 4) :
    cellPoint n (across n p i j e).1 (across n p i j e).2.1 (across n p i j e).2.2.1 (across n p i j e).2.2.2 =
      cellPoint n p i j ((e + 1) % 4) ∧
    cellPoint n (across n p i j e).1 (across n p i j e).2.1 (across n p i j e).2.2.1 (((across n p i j e).2.2.2 + 1) % 4) =
      cellPoint n p i j e := by
  interval_cases e <;> simp only [across] <;> split_ifs <;> interval_cases p <;>
    simp only [cellPoint, panelPoint, Nat.reduceAdd, Nat.reduceMod, Prod.mk.injEq, true_and, and_true] <;> omega

theorem corners_cell (p i j v : ℕ) : v ∈ corners (cell n p i j) ↔ ∃ e < 4, v = code n (cellPoint n p i j e) := by
  simp only [corners, cell, mem_insert, mem_singleton]
  constructor
  · rintro (h | h | h | h)
    exacts [⟨0, by omega, h⟩, ⟨1, by omega, h⟩, ⟨2, by omega, h⟩, ⟨3, by omega, h⟩]
  · rintro ⟨e, he, rfl⟩
    interval_cases e <;> simp

theorem cellPoint_inj (p i j e e' : ℕ) (hp : p < 6) (hi : i < n) (hj : j < n) (he : e < 4) (he' : e' < 4)
    (h : cellPoint n p i j e = cellPoint n p i j e') : e = e' := by
  interval_cases e <;> interval_cases e' <;> first
    | rfl
    | (simp only [cellPoint] at h; interval_cases p <;> simp only [panelPoint, Prod.mk.injEq] at h <;> omega)

/-- Every number is the number of a position of a panel. -/
theorem number_surj (v : ℕ) (hn : 0 < n) (hv : v < numPoints (n + 1)) : ∃ p < 6, ∃ i ≤ n, ∃ j ≤ n, v = code n (panelPoint n p i j) := by
  rw [numPoints_eq n hn] at hv
  have dm : ∀ w k m, 0 < k → w < m * k → ∃ r s, r < m ∧ s < k ∧ r * k + s = w := fun w k m hk h =>
    ⟨w / k, w % k, by rwa [Nat.div_lt_iff_lt_mul hk], Nat.mod_lt _ hk, Nat.div_add_mod' w k⟩
  by_cases h0 : v < (n + 1) * (n + 1)
  · obtain ⟨r, s, a, b, c⟩ := dm v (n + 1) (n + 1) (by omega) h0
    exact ⟨0, by omega, r, by omega, s, by omega, by simp [panelPoint, code, c]⟩
  by_cases h5 : v < 2 * ((n + 1) * (n + 1))
  · obtain ⟨r, s, a, b, c⟩ := dm (v - (n + 1) * (n + 1)) (n + 1) (n + 1) (by omega) (by omega)
    refine ⟨5, by omega, r, by omega, s, by omega, ?_⟩
    simp only [panelPoint, code]
    rw [if_neg (by omega), if_pos trivial, Nat.sub_sub_self (by omega), c]
    omega
  by_cases h4 : v < 2 * ((n + 1) * (n + 1)) + (n - 1) * (n + 1)
  · obtain ⟨r, s, a, b, c⟩ := dm (v - 2 * ((n + 1) * (n + 1))) (n + 1) (n - 1) (by omega) (by omega)
    refine ⟨4, by omega, r + 1, by omega, s, by omega, ?_⟩
    simp only [panelPoint, code]
    rw [if_neg (by omega), if_neg (by omega), if_pos trivial, Nat.sub_sub_self (by omega), Nat.add_sub_cancel, c]
    omega
  by_cases h3 : v < 2 * ((n + 1) * (n + 1)) + 2 * ((n - 1) * (n + 1))
  · obtain ⟨r, s, a, b, c⟩ := dm (v - (2 * ((n + 1) * (n + 1)) + (n - 1) * (n + 1))) (n + 1) (n - 1) (by omega) (by omega)
    refine ⟨3, by omega, r + 1, by omega, s, by omega, ?_⟩
    simp only [panelPoint, code]
    rw [if_neg (by omega), if_neg (by omega), if_neg (by omega), if_pos trivial, Nat.add_sub_cancel, c]
    omega
  have hn1 : 0 < n - 1 := by
    rcases Nat.eq_zero_or_pos (n - 1) with h | h
    · rw [h] at hv h3; omega
    · exact h
  by_cases h1 : v < 2 * ((n + 1) * (n + 1)) + 2 * ((n - 1) * (n + 1)) + (n - 1) * (n - 1)
  · obtain ⟨r, s, a, b, c⟩ := dm (v - (2 * ((n + 1) * (n + 1)) + 2 * ((n - 1) * (n + 1)))) (n - 1) (n - 1) hn1 (by omega)
    refine ⟨1, by omega, r + 1, by omega, s + 1, by omega, ?_⟩
    simp only [panelPoint, code]
    rw [if_neg (by omega), if_neg (by omega), if_neg (by omega), if_neg (by omega), if_pos trivial, Nat.sub_sub_self (by omega),
      Nat.add_sub_cancel, Nat.add_sub_cancel, c]
    omega
  · obtain ⟨r, s, a, b, c⟩ := dm (v - (2 * ((n + 1) * (n + 1)) + 2 * ((n - 1) * (n + 1)) + (n - 1) * (n - 1))) (n - 1) (n - 1) hn1
      (by omega)
    refine ⟨2, by omega, r + 1, by omega, s + 1, by omega, ?_⟩
    simp only [panelPoint, code]
    rw [if_neg (by omega), if_neg (by omega), if_neg (by omega), if_neg (by omega), if_neg (by omega),
      Nat.add_sub_cancel, Nat.add_sub_cancel, c]
    omega

/-- Every position is a corner of a cell of its panel. -/
theorem position_in_cell (p i j : ℕ) (hn : 0 < n) (hi : i ≤ n) (hj : j ≤ n) :
    ∃ i' < n, ∃ j' < n, ∃ e < 4, panelPoint n p i j = cellPoint n p i' j' e := by
  by_cases h1 : i < n <;> by_cases h2 : j < n
  · exact ⟨i, h1, j, h2, 0, by omega, rfl⟩
  · exact ⟨i, h1, j - 1, by omega, 3, by omega, by simp only [cellPoint]; rw [Nat.sub_add_cancel (by omega)]⟩
  · exact ⟨i - 1, by omega, j, by omega, 1, by omega, by simp only [cellPoint]; rw [Nat.sub_add_cancel (by omega)]⟩
  · exact ⟨i - 1, by omega, j - 1, by omega, 2, by omega, by
      simp only [cellPoint]; rw [Nat.sub_add_cancel (by omega), Nat.sub_add_cancel (by omega)]⟩

theorem cell_inj (p i j p' i' j' : ℕ) (hp : p < 6) (hi : i < n) (hj : j < n) (hp' : p' < 6) (hi' : i' < n) (hj' : j' < n)
    (h : cell n p i j = cell n p' i' j') : p = p' ∧ i = i' ∧ j = j' :=
  side_unique n p i j p' i' j' hp hi hj hp' hi' hj' _ (List.mem_cons_self) (by rw [← h]; exact List.mem_cons_self)

theorem grid_nodup (m : ℕ) : (grid m).Nodup := by
  have : grid m = List.range m ×ˢ List.range m := rfl
  rw [this]
  exact List.Nodup.product List.nodup_range List.nodup_range

theorem grid_length (m : ℕ) : (grid m).length = m ^ 2 := by
  have : grid m = List.range m ×ˢ List.range m := rfl
  rw [this, List.length_product, List.length_range, sq]

/-- C108: the cells are a closed, consistently oriented surface: every side belongs to exactly two cells, which run through it in
opposite directions. -/
theorem C108_closed (hn : 0 < n) : ClosedOriented (cells n) (numPoints (n + 1)) := by
  refine ⟨?_, fun q hq => ?_, fun v hv => ?_, fun q hq q' hq' s hs hs' => ?_, fun q hq s hs => ?_⟩
  · rw [cells_eq n hn, List.nodup_flatMap]
    refine ⟨fun p hp => ?_, ?_⟩
    · refine List.Nodup.map_on ?_ (grid_nodup n)
      rintro ⟨i, j⟩ h ⟨i', j'⟩ h' e
      rw [mem_grid] at h h'
      rw [List.mem_range] at hp
      obtain ⟨-, e1, e2⟩ := cell_inj n p i j p i' j' hp h.1 h.2 hp h'.1 h'.2 e
      rw [e1, e2]
    · rw [List.pairwise_iff_getElem]
      intro a b ha hb hab
      rw [List.length_range] at ha hb
      simp only [List.getElem_range, Function.onFun]
      intro q h1 h2
      obtain ⟨⟨i, j⟩, h, rfl⟩ := List.mem_map.1 h1
      obtain ⟨⟨i', j'⟩, h', e⟩ := List.mem_map.1 h2
      rw [mem_grid] at h h'
      have := cell_inj n b i' j' a i j hb h'.1 h'.2 ha h.1 h.2 e
      omega
  · obtain ⟨p, hp, i, hi, j, hj, rfl⟩ := (mem_cells n hn q).1 hq
    constructor
    · have key : ∀ e < 4, ∀ e' < 4, e ≠ e' → code n (cellPoint n p i j e) ≠ code n (cellPoint n p i j e') := by
        intro e he e' he' hne h
        exact hne (cellPoint_inj n p i j e e' hp hi hj he he' (code_inj n hn _ _ (cellPoint_onCube n p i j e hp hi hj)
          (cellPoint_onCube n p i j e' hp hi hj) h))
      simp only [corners, cell]
      rw [card_insert_of_notMem, card_insert_of_notMem, card_insert_of_notMem, card_singleton]
      · simpa using key 2 (by omega) 3 (by omega) (by omega)
      · simp only [mem_insert, mem_singleton, not_or]
        exact ⟨key 1 (by omega) 2 (by omega) (by omega), key 1 (by omega) 3 (by omega) (by omega)⟩
      · simp only [mem_insert, mem_singleton, not_or]
        exact ⟨key 0 (by omega) 1 (by omega) (by omega), key 0 (by omega) 2 (by omega) (by omega),
          key 0 (by omega) 3 (by omega) (by omega)⟩
    · intro v hv
      obtain ⟨e, he, rfl⟩ := (corners_cell n p i j v).1 hv
      rw [numPoints_eq n hn]
      exact code_lt n hn _ (cellPoint_onCube n p i j e hp hi hj)
  · obtain ⟨p, hp, i, hi, j, hj, rfl⟩ := number_surj n v hn hv
    obtain ⟨i', hi', j', hj', e, he, h⟩ := position_in_cell n p i j hn hi hj
    exact ⟨cell n p i' j', (mem_cells n hn _).2 ⟨p, hp, i', hi', j', hj', rfl⟩,
      (corners_cell n p i' j' _).2 ⟨e, he, by rw [h]⟩⟩
  · obtain ⟨p, hp, i, hi, j, hj, rfl⟩ := (mem_cells n hn q).1 hq
    obtain ⟨p', hp', i', hi', j', hj', rfl⟩ := (mem_cells n hn q').1 hq'
    obtain ⟨rfl, rfl, rfl⟩ := side_unique n p i j p' i' j' hp hi hj hp' hi' hj' s hs hs'
    rfl
  · obtain ⟨p, hp, i, hi, j, hj, rfl⟩ := (mem_cells n hn q).1 hq
    obtain ⟨e, he, rfl⟩ := (sides_cell n p i j s).1 hs
    obtain ⟨r1, r2, r3, r4⟩ := across_range n p i j e hp hi hj he
    have rp := across_points n p i j e hp hi hj he
    refine ⟨cell n (across n p i j e).1 (across n p i j e).2.1 (across n p i j e).2.2.1,
      (mem_cells n hn _).2 ⟨_, r1, _, r2, _, r3, rfl⟩, fun h => ?_, ?_⟩
    · exact across_ne n p i j e hp hi hj he (cell_inj n _ _ _ _ _ _ r1 r2 r3 hp hi hj h)
    · rw [sides_cell]
      exact ⟨_, r4, by rw [rp.1, rp.2]; rfl⟩

/-- C108: there are six panels with `n²` cells each, and two vertices more than cells. -/
theorem C108_counts (hn : 0 < n) : (cells n).length = 6 * n ^ 2 ∧ numPoints (n + 1) = 6 * n ^ 2 + 2 := by
  refine ⟨?_, numPoints_count n hn⟩
  rw [cells_eq n hn, List.length_flatMap]
  simp only [List.length_map, grid_length, List.map_const', List.length_range, List.sum_replicate, smul_eq_mul]

example : ClosedOriented (cells 3) (numPoints 4) := C108_closed 3 (by norm_num)
example : (cells 3).length = 54 ∧ numPoints 4 = 56 := C108_counts 3 (by norm_num)
example : (0, 4, 5, 1) ∈ cells 3 ∧ ((0, 4) : ℕ × ℕ) ∈ sides (0, 4, 5, 1) := by
  refine ⟨(mem_cells 3 (by norm_num) _).2 ⟨0, by norm_num, 0, by norm_num, 0, by norm_num, by decide⟩, by decide⟩

end Gusto.Props.CubedSphereProps
