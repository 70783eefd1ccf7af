import Verif.Model.CubedSphere

set_option autoImplicit false
set_option linter.unusedSectionVars false
set_option linter.unusedSimpArgs false

/-!
# The numbering of the cubed sphere

Model: `Verif.Model.CubedSphere`.
-/

namespace Gusto.CubedSphere
open Finset

/-- The lattice point of the surface of the cube `[0, n]³` at a position of a panel. -/
def panelPoint (n : ℕ) : ℕ → ℕ → ℕ → ℕ × ℕ × ℕ
  | 0, i, j => (j, i, 0)
  | 1, i, j => (0, i, n - j)
  | 2, i, j => (n, i, j)
  | 3, i, j => (j, n, i)
  | 4, i, j => (j, 0, n - i)
  | _, i, j => (j, n - i, n)

/-- The lattice points on the surface of the cube. -/
def OnCube (n : ℕ) (t : ℕ × ℕ × ℕ) : Prop :=
  t.1 ≤ n ∧ t.2.1 ≤ n ∧ t.2.2 ≤ n ∧ (t.1 = 0 ∨ t.1 = n ∨ t.2.1 = 0 ∨ t.2.1 = n ∨ t.2.2 = 0 ∨ t.2.2 = n)

/-- The number of a lattice point. -/
def code (n : ℕ) (t : ℕ × ℕ × ℕ) : ℕ :=
  if t.2.2 = 0 then t.2.1 * (n + 1) + t.1
  else if t.2.2 = n then (n + 1) * (n + 1) + ((n - t.2.1) * (n + 1) + t.1)
  else if t.2.1 = 0 then 2 * ((n + 1) * (n + 1)) + ((n - t.2.2 - 1) * (n + 1) + t.1)
  else if t.2.1 = n then 2 * ((n + 1) * (n + 1)) + (n - 1) * (n + 1) + ((t.2.2 - 1) * (n + 1) + t.1)
  else if t.1 = 0 then 2 * ((n + 1) * (n + 1)) + 2 * ((n - 1) * (n + 1)) + ((t.2.1 - 1) * (n - 1) + (n - t.2.2 - 1))
  else 2 * ((n + 1) * (n + 1)) + 2 * ((n - 1) * (n + 1)) + (n - 1) * (n - 1) + ((t.2.1 - 1) * (n - 1) + (t.2.2 - 1))

theorem row_lt (m k i j : ℕ) (hi : i < m) (hj : j < k) : i * k + j < m * k := by
  calc i * k + j < i * k + k := by omega
    _ = (i + 1) * k := by ring
    _ ≤ m * k := Nat.mul_le_mul_right _ hi

theorem maxNumber_eq (Nx M : ℕ) (P : Numbering) (h : ∀ p < 6, ∀ i < Nx, ∀ j < Nx, P p i j ≤ M)
    (h' : ∃ p < 6, ∃ i < Nx, ∃ j < Nx, P p i j = M) : maxNumber Nx P = M := by
  unfold maxNumber
  refine le_antisymm (Finset.sup_le fun t ht => ?_) ?_
  · simp only [mem_product, mem_range] at ht
    exact h _ ht.1 _ ht.2.1 _ ht.2.2
  · obtain ⟨p, hp, i, hi, j, hj, e⟩ := h'
    have hm : (p, i, j) ∈ range 6 ×ˢ range Nx ×ˢ range Nx := by simp [hp, hi, hj]
    have := Finset.le_sup (f := fun t : ℕ × ℕ × ℕ => P t.1 t.2.1 t.2.2) hm
    simpa [e] using this

variable (n : ℕ) (hn : 0 < n)
include hn

theorem max0 : maxNumber (n + 1) (number0 (n + 1)) + 1 = (n + 1) * (n + 1) := by
  have hl : n * (n + 1) + n + 1 = (n + 1) * (n + 1) := by ring
  rw [maxNumber_eq (n + 1) (n * (n + 1) + n)]
  · omega
  · intro p hp i hi j hj
    have := row_lt (n + 1) (n + 1) i j hi hj
    unfold number0; split_ifs <;> omega
  · exact ⟨0, by omega, n, by omega, n, by omega, by simp [number0]⟩

theorem numbering05_eq (p i j : ℕ) (hp : p < 6) :
    numbering05 (n + 1) p i j = if p = 0 then i * (n + 1) + j else if p = 5 then (n + 1) * (n + 1) + (i * (n + 1) + j) else 0 := by
  unfold numbering05 number5
  simp only [max0 n hn]
  unfold number0
  split_ifs <;> first | rfl | omega

theorem max05 : maxNumber (n + 1) (numbering05 (n + 1)) + 1 = 2 * ((n + 1) * (n + 1)) := by
  have hl : n * (n + 1) + n + 1 = (n + 1) * (n + 1) := by ring
  rw [maxNumber_eq (n + 1) ((n + 1) * (n + 1) + (n * (n + 1) + n))]
  · omega
  · intro p hp i hi j hj
    have := row_lt (n + 1) (n + 1) i j hi hj
    rw [numbering05_eq n hn p i j hp]; split_ifs <;> omega
  · exact ⟨5, by omega, n, by omega, n, by omega, by rw [numbering05_eq n hn _ _ _ (by omega)]; simp⟩

theorem numbering054_eq (p i j : ℕ) (hp : p < 6) (hi : i ≤ n) (hj : j ≤ n) :
    numbering054 (n + 1) p i j =
      if p = 0 ∨ p = 5 ∨ p = 4 then code n (panelPoint n p i j) else 0 := by
  unfold numbering054 number4t number4b number4
  simp only [max05 n hn, numbering05_eq n hn p _ _ hp, numbering05_eq n hn 5 _ _ (by omega), numbering05_eq n hn 0 _ _ (by omega),
    Nat.add_sub_cancel]
  interval_cases p
  · simp [panelPoint, code]
  · simp
  · simp
  · simp
  · by_cases h0 : i = 0
    · subst h0; simp [panelPoint, code, hn.ne, hn.ne']
    · by_cases h1 : i = n
      · subst h1; simp [panelPoint, code, hn.ne, hn.ne']
      · have e1 : n - i ≠ 0 := by omega
        have e2 : n - i ≠ n := by omega
        have e3 : 1 ≤ i ∧ i < n := by omega
        have e4 : n - (n - i) - 1 = i - 1 := by omega
        simp [panelPoint, code, h0, h1, e1, e2, e3, e4]
  · have e1 : n - (n - i) = i := by omega
    simp [panelPoint, code, hn.ne', e1]

theorem row_bounds (i j : ℕ) (hi : i ≤ n) (hj : j ≤ n) : i * (n + 1) + j < (n + 1) * (n + 1) :=
  row_lt (n + 1) (n + 1) i j (by omega) (by omega)

theorem code_lt_of_c (t : ℕ × ℕ × ℕ) (h : OnCube n t) (hc : t.2.2 = 0 ∨ t.2.2 = n) : code n t < 2 * ((n + 1) * (n + 1)) := by
  obtain ⟨h1, h2, h3, -⟩ := h
  have b1 := row_bounds n hn t.2.1 t.1 h2 h1
  have b2 := row_bounds n hn (n - t.2.1) t.1 (by omega) h1
  unfold code
  by_cases h0 : t.2.2 = 0
  · rw [if_pos h0]; omega
  · rw [if_neg h0, if_pos (by omega)]; omega

theorem code_lt_of_b0 (t : ℕ × ℕ × ℕ) (h : OnCube n t) (hb : t.2.1 = 0) :
    code n t < 2 * ((n + 1) * (n + 1)) + (n - 1) * (n + 1) := by
  by_cases hc : t.2.2 = 0 ∨ t.2.2 = n
  · have := code_lt_of_c n hn t h hc; omega
  · obtain ⟨h1, h2, h3, -⟩ := h
    have := row_lt (n - 1) (n + 1) (n - t.2.2 - 1) t.1 (by omega) (by omega)
    unfold code
    rw [if_neg (by tauto), if_neg (by tauto), if_pos hb]; omega

theorem code_lt_of_bn (t : ℕ × ℕ × ℕ) (h : OnCube n t) (hb : t.2.1 = 0 ∨ t.2.1 = n) :
    code n t < 2 * ((n + 1) * (n + 1)) + 2 * ((n - 1) * (n + 1)) := by
  by_cases h0 : t.2.1 = 0
  · have := code_lt_of_b0 n hn t h h0; omega
  by_cases hc : t.2.2 = 0 ∨ t.2.2 = n
  · have := code_lt_of_c n hn t h hc; omega
  · obtain ⟨h1, h2, h3, -⟩ := h
    have := row_lt (n - 1) (n + 1) (t.2.2 - 1) t.1 (by omega) (by omega)
    unfold code
    rw [if_neg (by tauto), if_neg (by tauto), if_neg h0, if_pos (by tauto)]; omega

theorem code_lt_of_a0 (t : ℕ × ℕ × ℕ) (h : OnCube n t) (ha : t.1 = 0) :
    code n t < 2 * ((n + 1) * (n + 1)) + 2 * ((n - 1) * (n + 1)) + (n - 1) * (n - 1) := by
  by_cases hb : t.2.1 = 0 ∨ t.2.1 = n
  · have := code_lt_of_bn n hn t h hb; omega
  by_cases hc : t.2.2 = 0 ∨ t.2.2 = n
  · have := code_lt_of_c n hn t h hc; omega
  · obtain ⟨h1, h2, h3, -⟩ := h
    have := row_lt (n - 1) (n - 1) (t.2.1 - 1) (n - t.2.2 - 1) (by omega) (by omega)
    unfold code
    rw [if_neg (by tauto), if_neg (by tauto), if_neg (by tauto), if_neg (by tauto), if_pos ha]; omega

theorem code_lt (t : ℕ × ℕ × ℕ) (h : OnCube n t) :
    code n t < 2 * ((n + 1) * (n + 1)) + 2 * ((n - 1) * (n + 1)) + 2 * ((n - 1) * (n - 1)) := by
  by_cases ha : t.1 = 0
  · have := code_lt_of_a0 n hn t h ha; omega
  by_cases hb : t.2.1 = 0 ∨ t.2.1 = n
  · have := code_lt_of_bn n hn t h hb; omega
  by_cases hc : t.2.2 = 0 ∨ t.2.2 = n
  · have := code_lt_of_c n hn t h hc; omega
  · obtain ⟨h1, h2, h3, -⟩ := h
    have := row_lt (n - 1) (n - 1) (t.2.1 - 1) (t.2.2 - 1) (by omega) (by omega)
    unfold code
    rw [if_neg (by tauto), if_neg (by tauto), if_neg (by tauto), if_neg (by tauto), if_neg ha]; omega

theorem panelPoint_onCube (p i j : ℕ) (hp : p < 6) (hi : i ≤ n) (hj : j ≤ n) : OnCube n (panelPoint n p i j) := by
  unfold OnCube
  interval_cases p <;> simp only [panelPoint, true_or, or_true, and_true] <;> omega

theorem max054 : maxNumber (n + 1) (numbering054 (n + 1)) + 1 = 2 * ((n + 1) * (n + 1)) + (n - 1) * (n + 1) := by
  have hpos : 0 < (n + 1) * (n + 1) := by positivity
  rw [maxNumber_eq (n + 1) (2 * ((n + 1) * (n + 1)) + (n - 1) * (n + 1) - 1)]
  · omega
  · intro p hp i hi j hj
    rw [numbering054_eq n hn p i j hp (by omega) (by omega)]
    split_ifs with h
    · have hc := panelPoint_onCube n hn p i j hp (by omega) (by omega)
      have : code n (panelPoint n p i j) < 2 * ((n + 1) * (n + 1)) + (n - 1) * (n + 1) := by
        rcases h with rfl | rfl | rfl
        · have := code_lt_of_c n hn _ hc (.inl rfl); omega
        · have := code_lt_of_c n hn _ hc (.inr rfl); omega
        · exact code_lt_of_b0 n hn _ hc rfl
      omega
    · omega
  · by_cases h1 : n = 1
    · subst h1; exact ⟨5, by omega, 1, by omega, 1, by omega, by rw [numbering054_eq 1 hn _ _ _ (by omega) (by omega) (by omega)]; decide⟩
    · refine ⟨4, by omega, n - 1, by omega, n, by omega, ?_⟩
      rw [numbering054_eq n hn _ _ _ (by omega) (by omega) (by omega), if_pos (by omega)]
      have e : (n - 1) * (n + 1) = (n - 1 - 1) * (n + 1) + (n + 1) := by
        obtain ⟨m, rfl⟩ : ∃ m, n = m + 2 := ⟨n - 2, by omega⟩
        simp only [show m + 2 - 1 = m + 1 by omega, show m + 1 - 1 = m by omega]; ring
      simp only [panelPoint, code]
      rw [if_neg (by omega), if_neg (by omega), if_pos trivial, show n - (n - (n - 1)) - 1 = n - 1 - 1 by omega]
      omega

theorem numbering0543_eq (p i j : ℕ) (hp : p < 6) (hi : i ≤ n) (hj : j ≤ n) :
    numbering0543 (n + 1) p i j =
      if p = 0 ∨ p = 5 ∨ p = 4 ∨ p = 3 then code n (panelPoint n p i j) else 0 := by
  unfold numbering0543 number3t number3b number3
  simp only [max054 n hn, Nat.add_sub_cancel]
  by_cases h3 : p = 3
  · subst h3
    simp only [true_and, true_or, or_true, if_true, Nat.reduceEqDiff, false_and, if_false]
    by_cases h1 : i = n
    · rw [if_pos h1, numbering054_eq n hn 5 0 j (by omega) (by omega) hj, if_pos (by omega)]
      subst h1; simp [panelPoint]
    · rw [if_neg h1]
      by_cases h0 : i = 0
      · rw [if_pos h0, numbering054_eq n hn 0 n j (by omega) (by omega) hj, if_pos (by omega)]
        subst h0; simp [panelPoint]
      · rw [if_neg h0, if_pos (by omega)]
        simp only [panelPoint, code]
        rw [if_neg (by omega), if_neg (by omega), if_neg (by omega), if_pos trivial]
  · have e := numbering054_eq n hn p i j hp hi hj
    simp only [h3, false_and, if_false, e, or_false]

theorem max0543 : maxNumber (n + 1) (numbering0543 (n + 1)) + 1 = 2 * ((n + 1) * (n + 1)) + 2 * ((n - 1) * (n + 1)) := by
  have hpos : 0 < (n + 1) * (n + 1) := by positivity
  rw [maxNumber_eq (n + 1) (2 * ((n + 1) * (n + 1)) + 2 * ((n - 1) * (n + 1)) - 1)]
  · omega
  · intro p hp i hi j hj
    rw [numbering0543_eq n hn p i j hp (by omega) (by omega)]
    split_ifs with h
    · have hc := panelPoint_onCube n hn p i j hp (by omega) (by omega)
      have : code n (panelPoint n p i j) < 2 * ((n + 1) * (n + 1)) + 2 * ((n - 1) * (n + 1)) := by
        rcases h with rfl | rfl | rfl | rfl
        · have := code_lt_of_c n hn _ hc (.inl rfl); omega
        · have := code_lt_of_c n hn _ hc (.inr rfl); omega
        · exact code_lt_of_bn n hn _ hc (.inl rfl)
        · exact code_lt_of_bn n hn _ hc (.inr rfl)
      omega
    · omega
  · by_cases h1 : n = 1
    · subst h1; exact ⟨5, by omega, 1, by omega, 1, by omega, by rw [numbering0543_eq 1 hn _ _ _ (by omega) (by omega) (by omega)]; decide⟩
    · refine ⟨3, by omega, n - 1, by omega, n, by omega, ?_⟩
      rw [numbering0543_eq n hn _ _ _ (by omega) (by omega) (by omega), if_pos (by omega)]
      have e : (n - 1) * (n + 1) = (n - 1 - 1) * (n + 1) + (n + 1) := by
        obtain ⟨m, rfl⟩ : ∃ m, n = m + 2 := ⟨n - 2, by omega⟩
        simp only [show m + 2 - 1 = m + 1 by omega, show m + 1 - 1 = m by omega]; ring
      simp only [panelPoint, code]
      rw [if_neg (by omega), if_neg (by omega), if_neg (by omega), if_pos trivial]
      omega

theorem numbering05431_eq (p i j : ℕ) (hp : p < 6) (hi : i ≤ n) (hj : j ≤ n) :
    numbering05431 (n + 1) p i j = if p = 2 then 0 else code n (panelPoint n p i j) := by
  unfold numbering05431 number1b number1t number1r number1l numberInterior
  simp only [max0543 n hn, Nat.add_sub_cancel]
  by_cases h1 : p = 1
  · subst h1
    simp only [true_and, Nat.reduceEqDiff, false_and, if_false, OfNat.ofNat_ne_one, OfNat.zero_ne_ofNat,
      zero_ne_one]
    by_cases hj0 : j = 0
    · rw [if_neg (by omega), if_neg (by omega), if_neg (by omega), if_pos hj0, numbering0543_eq n hn 5 _ _ (by omega) (by omega) (by omega),
        if_pos (by omega)]
      subst hj0; simp only [panelPoint, Nat.sub_zero]; rw [show n - (n - i) = i by omega]
    by_cases hjn : j = n
    · rw [if_neg (by omega), if_neg (by omega), if_pos hjn, numbering0543_eq n hn 0 _ _ (by omega) (by omega) (by omega),
        if_pos (by omega)]
      subst hjn; simp only [panelPoint, Nat.sub_self]
    by_cases hi0 : i = 0
    · rw [if_pos (by omega), numbering0543_eq n hn 4 _ _ (by omega) (by omega) (by omega), if_pos (by omega)]
      subst hi0; simp only [panelPoint]
    by_cases hin : i = n
    · rw [if_neg (by omega), if_pos (by omega), numbering0543_eq n hn 3 _ _ (by omega) (by omega) (by omega), if_pos (by omega)]
      subst hin; simp only [panelPoint]
    · rw [if_neg (by omega), if_neg (by omega), if_neg (by omega), if_neg (by omega), if_pos (by omega)]
      simp only [panelPoint, code]
      rw [if_neg (by omega), if_neg (by omega), if_neg (by omega), if_neg (by omega), if_pos trivial,
        show n - (n - j) - 1 = j - 1 by omega, show n + 1 - 2 = n - 1 by omega]
  · have e := numbering0543_eq n hn p i j hp hi hj
    simp only [h1, false_and, if_false, e]
    interval_cases p <;> simp_all

theorem max05431 : maxNumber (n + 1) (numbering05431 (n + 1)) + 1 =
    2 * ((n + 1) * (n + 1)) + 2 * ((n - 1) * (n + 1)) + (n - 1) * (n - 1) := by
  have hpos : 0 < (n + 1) * (n + 1) := by positivity
  rw [maxNumber_eq (n + 1) (2 * ((n + 1) * (n + 1)) + 2 * ((n - 1) * (n + 1)) + (n - 1) * (n - 1) - 1)]
  · omega
  · intro p hp i hi j hj
    rw [numbering05431_eq n hn p i j hp (by omega) (by omega)]
    split_ifs with h
    · omega
    · have hc := panelPoint_onCube n hn p i j hp (by omega) (by omega)
      have : code n (panelPoint n p i j) < 2 * ((n + 1) * (n + 1)) + 2 * ((n - 1) * (n + 1)) + (n - 1) * (n - 1) := by
        interval_cases p
        · have := code_lt_of_c n hn _ hc (.inl rfl); omega
        · exact code_lt_of_a0 n hn _ hc rfl
        · omega
        · have := code_lt_of_bn n hn _ hc (.inr rfl); omega
        · have := code_lt_of_bn n hn _ hc (.inl rfl); omega
        · have := code_lt_of_c n hn _ hc (.inr rfl); omega
      omega
  · by_cases h1 : n = 1
    · subst h1; exact ⟨5, by omega, 1, by omega, 1, by omega, by rw [numbering05431_eq 1 hn _ _ _ (by omega) (by omega) (by omega)]; decide⟩
    · refine ⟨1, by omega, n - 1, by omega, n - 1, by omega, ?_⟩
      rw [numbering05431_eq n hn _ _ _ (by omega) (by omega) (by omega), if_neg (by omega)]
      have e : (n - 1) * (n - 1) = (n - 1 - 1) * (n - 1) + (n - 1) := by
        obtain ⟨m, rfl⟩ : ∃ m, n = m + 2 := ⟨n - 2, by omega⟩
        simp only [show m + 2 - 1 = m + 1 by omega, show m + 1 - 1 = m by omega]; ring
      simp only [panelPoint, code]
      rw [if_neg (by omega), if_neg (by omega), if_neg (by omega), if_neg (by omega), if_pos trivial,
        show n - (n - (n - 1)) - 1 = n - 1 - 1 by omega]
      omega

/-- The number of a position is the number of its lattice point: positions on the edges of the panels that are the same point of
the cube have the same number. -/
theorem panelNumbering_eq (p i j : ℕ) (hp : p < 6) (hi : i ≤ n) (hj : j ≤ n) :
    panelNumbering (n + 1) p i j = code n (panelPoint n p i j) := by
  unfold panelNumbering number2t number2b number2r number2l numberInterior
  simp only [max05431 n hn, Nat.add_sub_cancel]
  by_cases h2 : p = 2
  · subst h2
    simp only [true_and, Nat.reduceEqDiff, false_and, if_false, OfNat.ofNat_ne_one, OfNat.zero_ne_ofNat,
      zero_ne_one]
    by_cases hj0 : j = 0
    · rw [if_neg (by omega), if_neg (by omega), if_neg (by omega), if_pos hj0, numbering05431_eq n hn 0 _ _ (by omega) (by omega) (by omega),
        if_neg (by omega)]
      subst hj0; simp only [panelPoint]
    by_cases hjn : j = n
    · rw [if_neg (by omega), if_neg (by omega), if_pos hjn, numbering05431_eq n hn 5 _ _ (by omega) (by omega) (by omega),
        if_neg (by omega)]
      subst hjn; simp only [panelPoint]; rw [show j - (j - i) = i by omega]
    by_cases hi0 : i = 0
    · rw [if_neg (by omega), if_pos (by omega), numbering05431_eq n hn 4 _ _ (by omega) (by omega) (by omega), if_neg (by omega)]
      subst hi0; simp only [panelPoint]; rw [show n - (n - j) = j by omega]
    by_cases hin : i = n
    · rw [if_pos (by omega), numbering05431_eq n hn 3 _ _ (by omega) (by omega) (by omega), if_neg (by omega)]
      subst hin; simp only [panelPoint]
    · rw [if_neg (by omega), if_neg (by omega), if_neg (by omega), if_neg (by omega), if_pos (by omega)]
      simp only [panelPoint, code]
      rw [if_neg (by omega), if_neg (by omega), if_neg (by omega), if_neg (by omega), if_neg (by omega),
        show n + 1 - 2 = n - 1 by omega]
  · have e := numbering05431_eq n hn p i j hp hi hj
    simp only [h2, false_and, if_false, e]

theorem numPoints_eq : numPoints (n + 1) = 2 * ((n + 1) * (n + 1)) + 2 * ((n - 1) * (n + 1)) + 2 * ((n - 1) * (n - 1)) := by
  have hpos : 0 < (n + 1) * (n + 1) := by positivity
  unfold numPoints
  rw [maxNumber_eq (n + 1) (2 * ((n + 1) * (n + 1)) + 2 * ((n - 1) * (n + 1)) + 2 * ((n - 1) * (n - 1)) - 1)]
  · omega
  · intro p hp i hi j hj
    rw [panelNumbering_eq n hn p i j hp (by omega) (by omega)]
    have := code_lt n hn _ (panelPoint_onCube n hn p i j hp (by omega) (by omega))
    omega
  · by_cases h1 : n = 1
    · subst h1; exact ⟨5, by omega, 1, by omega, 1, by omega, by rw [panelNumbering_eq 1 hn _ _ _ (by omega) (by omega) (by omega)]; decide⟩
    · refine ⟨2, by omega, n - 1, by omega, n - 1, by omega, ?_⟩
      rw [panelNumbering_eq n hn _ _ _ (by omega) (by omega) (by omega)]
      have e : (n - 1) * (n - 1) = (n - 1 - 1) * (n - 1) + (n - 1) := by
        obtain ⟨m, rfl⟩ : ∃ m, n = m + 2 := ⟨n - 2, by omega⟩
        simp only [show m + 2 - 1 = m + 1 by omega, show m + 1 - 1 = m by omega]; ring
      simp only [panelPoint, code]
      rw [if_neg (by omega), if_neg (by omega), if_neg (by omega), if_neg (by omega), if_neg (by omega)]
      omega

theorem numPoints_count : numPoints (n + 1) = 6 * n ^ 2 + 2 := by
  rw [numPoints_eq n hn]
  obtain ⟨m, rfl⟩ : ∃ m, n = m + 1 := ⟨n - 1, by omega⟩
  simp only [Nat.add_sub_cancel]; ring

omit hn in
theorem row_inj (k i j i' j' : ℕ) (hj : j < k) (hj' : j' < k) (h : i * k + j = i' * k + j') : i = i' ∧ j = j' := by
  have h1 : (i * k + j) / k = i := by
    rw [mul_comm, Nat.mul_add_div (by omega), Nat.div_eq_of_lt hj, Nat.add_zero]
  have h2 : (i' * k + j') / k = i' := by
    rw [mul_comm, Nat.mul_add_div (by omega), Nat.div_eq_of_lt hj', Nat.add_zero]
  have : i = i' := by rw [← h1, ← h2, h]
  subst this
  exact ⟨rfl, by omega⟩

/-- The six ranges of numbers. -/
theorem code_cases (t : ℕ × ℕ × ℕ) (h : OnCube n t) :
    (t.2.2 = 0 ∧ code n t = t.2.1 * (n + 1) + t.1 ∧ t.2.1 * (n + 1) + t.1 < (n + 1) * (n + 1)) ∨
    (t.2.2 = n ∧ code n t = (n + 1) * (n + 1) + ((n - t.2.1) * (n + 1) + t.1) ∧
      (n - t.2.1) * (n + 1) + t.1 < (n + 1) * (n + 1)) ∨
    (t.2.2 ≠ 0 ∧ t.2.2 < n ∧ t.2.1 = 0 ∧ code n t = 2 * ((n + 1) * (n + 1)) + ((n - t.2.2 - 1) * (n + 1) + t.1) ∧
      (n - t.2.2 - 1) * (n + 1) + t.1 < (n - 1) * (n + 1)) ∨
    (t.2.2 ≠ 0 ∧ t.2.2 < n ∧ t.2.1 = n ∧
      code n t = 2 * ((n + 1) * (n + 1)) + (n - 1) * (n + 1) + ((t.2.2 - 1) * (n + 1) + t.1) ∧
      (t.2.2 - 1) * (n + 1) + t.1 < (n - 1) * (n + 1)) ∨
    (t.2.2 ≠ 0 ∧ t.2.2 < n ∧ t.2.1 ≠ 0 ∧ t.2.1 < n ∧ t.1 = 0 ∧
      code n t = 2 * ((n + 1) * (n + 1)) + 2 * ((n - 1) * (n + 1)) + ((t.2.1 - 1) * (n - 1) + (n - t.2.2 - 1)) ∧
      (t.2.1 - 1) * (n - 1) + (n - t.2.2 - 1) < (n - 1) * (n - 1)) ∨
    (t.2.2 ≠ 0 ∧ t.2.2 < n ∧ t.2.1 ≠ 0 ∧ t.2.1 < n ∧ t.1 = n ∧
      code n t = 2 * ((n + 1) * (n + 1)) + 2 * ((n - 1) * (n + 1)) + (n - 1) * (n - 1) +
        ((t.2.1 - 1) * (n - 1) + (t.2.2 - 1)) ∧
      (t.2.1 - 1) * (n - 1) + (t.2.2 - 1) < (n - 1) * (n - 1)) := by
  obtain ⟨h1, h2, h3, h4⟩ := h
  by_cases c0 : t.2.2 = 0
  · exact .inl ⟨c0, by unfold code; rw [if_pos c0], row_bounds n hn _ _ h2 h1⟩
  by_cases cn : t.2.2 = n
  · exact .inr (.inl ⟨cn, by unfold code; rw [if_neg c0, if_pos cn], row_bounds n hn _ _ (by omega) h1⟩)
  by_cases b0 : t.2.1 = 0
  · exact .inr (.inr (.inl ⟨c0, by omega, b0, by unfold code; rw [if_neg c0, if_neg cn, if_pos b0],
      row_lt _ _ _ _ (by omega) (by omega)⟩))
  by_cases bn : t.2.1 = n
  · exact .inr (.inr (.inr (.inl ⟨c0, by omega, bn, by unfold code; rw [if_neg c0, if_neg cn, if_neg b0, if_pos bn],
      row_lt _ _ _ _ (by omega) (by omega)⟩)))
  by_cases a0 : t.1 = 0
  · exact .inr (.inr (.inr (.inr (.inl ⟨c0, by omega, b0, by omega, a0,
      by unfold code; rw [if_neg c0, if_neg cn, if_neg b0, if_neg bn, if_pos a0], row_lt _ _ _ _ (by omega) (by omega)⟩))))
  · exact .inr (.inr (.inr (.inr (.inr ⟨c0, by omega, b0, by omega, by omega,
      by unfold code; rw [if_neg c0, if_neg cn, if_neg b0, if_neg bn, if_neg a0], row_lt _ _ _ _ (by omega) (by omega)⟩))))

theorem code_inj (t t' : ℕ × ℕ × ℕ) (h : OnCube n t) (h' : OnCube n t') (e : code n t = code n t') : t = t' := by
  have b := h; have b' := h'
  obtain ⟨b1, b2, b3, -⟩ := b
  obtain ⟨b1', b2', b3', -⟩ := b'
  have fin : t.1 = t'.1 ∧ t.2.1 = t'.2.1 ∧ t.2.2 = t'.2.2 → t = t' := fun ⟨x, y, z⟩ => by
    obtain ⟨t1, t2, t3⟩ := t; obtain ⟨t1', t2', t3'⟩ := t'; simp_all
  apply fin
  clear fin
  rcases code_cases n hn t h with ⟨k1, k2, k3⟩ | ⟨k1, k2, k3⟩ | ⟨k1, k4, k5, k2, k3⟩ | ⟨k1, k4, k5, k2, k3⟩ |
      ⟨k1, k4, k5, k6, k7, k2, k3⟩ | ⟨k1, k4, k5, k6, k7, k2, k3⟩ <;>
    rcases code_cases n hn t' h' with ⟨q1, q2, q3⟩ | ⟨q1, q2, q3⟩ | ⟨q1, q4, q5, q2, q3⟩ | ⟨q1, q4, q5, q2, q3⟩ |
      ⟨q1, q4, q5, q6, q7, q2, q3⟩ | ⟨q1, q4, q5, q6, q7, q2, q3⟩ <;>
    rw [k2, q2] at e <;>
    first
    | (exfalso; omega)
    | (have := row_inj (n + 1) _ _ _ _ (by omega) (by omega) (show _ * (n + 1) + _ = _ * (n + 1) + _ by omega); omega)
    | (have := row_inj (n + 1) _ _ _ _ (by omega) (by omega) e; omega)
    | (have := row_inj (n + 1) _ _ _ _ (by omega) (by omega) (Nat.add_left_cancel e); omega)
    | (have := row_inj (n - 1) _ _ _ _ (by omega) (by omega) (Nat.add_left_cancel e); omega)

end Gusto.CubedSphere
