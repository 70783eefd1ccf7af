import Verif.Model.StaticAdjustment
import Verif.Props.Columns
import Mathlib.Tactic.FieldSimp
import Mathlib.Tactic.Linarith
import Mathlib.Tactic.Positivity
import Mathlib.Tactic.IntervalCases
import Mathlib.Algebra.BigOperators.Group.List.Basic

set_option autoImplicit false
set_option linter.unusedSectionVars false
set_option linter.unusedSimpArgs false

/-! # C49: static adjustment -/

namespace Gusto.Props.AdjustProps
open Gusto.Columns Gusto.StaticAdjustment Gusto.Props.ColumnProps
variable {K H : Type*} [Field K] [LinearOrder K] [IsStrictOrderedRing K] [LinearOrder H]

/-! ### Specification -/

/-- The variable that is sorted, at the degree of freedom `p`. -/
def sortVar (fac : ℕ → K) (theta : List K) (p : ℕ) : K := theta.getD p 0 / fac p

/-- The degrees of freedom of the column at the (rounded) horizontal position `c`. -/
def column (round : H → H) (coords : List (H × K)) (c : H) : List ℕ :=
  (List.range coords.length).filter fun p => (coords[p]?.map fun q => decide (round q.1 = c)).getD false

/-- A mesh of columns: at least one point, `L` points in every column, and the test for equal positions
(`isclose`) separates the columns. -/
structure ColumnMesh (round : H → H) (close : H → H → Bool) (coords : List (H × K)) (L : ℕ) : Prop where
  nonempty : coords ≠ []
  count : ∀ a ∈ coords, (coords.map fun c => round c.1).count (round a.1) = L
  close : ∀ a ∈ coords, ∀ b ∈ coords, close (round a.1) (round b.1) = true ↔ round a.1 = round b.1

/-- Theta is non-decreasing with height in every column. -/
def Stable (round : H → H) (coords : List (H × K)) (v : ℕ → K) : Prop :=
  ∀ p q x z x' z', coords[p]? = some (x, z) → coords[q]? = some (x', z') → round x = round x' → z < z' →
    v p ≤ v q

/-! ### Lemmas -/

theorem step_eq (round : H → H) (close : H → H → Bool) (others : Bool) (coords : List (H × K)) (fac : ℕ → K)
    (dt : K) (hdt : dt ≠ 0) (theta : List K) :
    step round close others coords fac dt theta = evaluate round close others coords fac theta false := by
  unfold step
  cases h : evaluate round close others coords fac theta false with
  | error e => rfl
  | ok s =>
    simp only
    congr 1
    have hs : s.length = theta.length := by
      unfold evaluate at h
      cases h2 : getColumnData round close others (thetaToSort fac theta) coords with
      | error e => rw [h2] at h; cases h
      | ok cd =>
        rw [h2] at h
        simp only [Bool.false_eq_true, if_false, Except.ok.injEq] at h
        rw [← h]; simp
    apply List.ext_getElem
    · simp [residual, hs]
    · intro i h1 h2
      simp only [residual, List.getElem_zipWith]
      field_simp
      ring

theorem setField_index {nH nL : ℕ} {index : ℕ → ℕ → ℕ}
    (hinj : ∀ a < nH, ∀ l < nL, ∀ a' < nH, ∀ l' < nL, index a l = index a' l' → a = a' ∧ l = l')
    (D : ℕ → ℕ → K) (prev : ℕ → K) (a : ℕ) (ha : a < nH) (l : ℕ) (hl : l < nL) :
    setField nH nL D index prev (index a l) = D a l := by
  classical
  let V : ℕ → K := fun p => if hp : ∃ q : ℕ × ℕ, q.1 < nH ∧ q.2 < nL ∧ index q.1 q.2 = p then
    D hp.choose.1 hp.choose.2 else 0
  have hV : ∀ a < nH, ∀ l < nL, D a l = V (index a l) := by
    intro a ha l hl
    have hp : ∃ q : ℕ × ℕ, q.1 < nH ∧ q.2 < nL ∧ index q.1 q.2 = index a l := ⟨(a, l), ha, hl, rfl⟩
    simp only [V, dif_pos hp]
    have sp := hp.choose_spec
    obtain ⟨e1, e2⟩ := hinj _ sp.1 _ sp.2.1 _ ha _ hl sp.2.2
    rw [e1, e2]
  rw [(setField_apply nH nL D index V hV _ _).1 ⟨a, ha, l, hl, rfl⟩, ← hV a ha l hl]

/-- What a successful evaluation does, in terms of the column data. -/
theorem evaluate_ok {round : H → H} {close : H → H → Bool} {others : Bool} {coords : List (H × K)}
    {fac : ℕ → K} {theta s : List K} (hl : theta.length = coords.length)
    (h : evaluate round close others coords fac theta false = .ok s) :
    ∃ cd, getColumnData round close others (thetaToSort fac theta) coords = .ok cd ∧
      s.length = theta.length ∧
      ∀ a < cd.numHori, ∀ l < cd.numLevels, s.getD (cd.index a l) 0 = sortedColumns cd a l * fac (cd.index a l) ∧
        cd.field a l = sortVar fac theta (cd.index a l) := by
  have hl' : (thetaToSort fac theta).length = coords.length := by simp [thetaToSort, hl]
  unfold evaluate at h
  cases h2 : getColumnData round close others (thetaToSort fac theta) coords with
  | error e => rw [h2] at h; cases h
  | ok cd =>
    rw [h2] at h
    simp only [Bool.false_eq_true, if_false, Except.ok.injEq] at h
    obtain ⟨hlt, hcov, hinj⟩ := index_bij hl' h2
    refine ⟨cd, rfl, by rw [← h]; simp, ?_⟩
    intro a ha l hlv
    have hidx := hlt a ha l hlv
    have hidx' : cd.index a l < theta.length := by simpa [thetaToSort] using hidx
    constructor
    · rw [← h]
      rw [List.getD_eq_getElem _ _ (by simpa using hidx')]
      simp only [List.getElem_map, List.getElem_range]
      congr 1
      exact setField_index hinj _ _ a ha l hlv
    · rw [field_index hl' h2 a ha l hlv, List.getD_eq_getElem _ _ hidx, sortVar,
        List.getD_eq_getElem _ _ hidx']
      simp [thetaToSort]

theorem sorted_row (cd : ColumnData K) (a : ℕ) :
    (∀ l l', l ≤ l' → l' < cd.numLevels → sortedColumns cd a l ≤ sortedColumns cd a l') ∧
    ((List.range cd.numLevels).map (sortedColumns cd a)).Perm ((List.range cd.numLevels).map (cd.field a)) := by
  set row := (List.range cd.numLevels).map (cd.field a) with hrow
  have hlen : (row.mergeSort fun a b => decide (a ≤ b)).length = cd.numLevels := by simp [hrow]
  have hsort : (row.mergeSort fun a b => decide (a ≤ b)).Pairwise (· ≤ ·) := by
    have := List.pairwise_mergeSort (le := fun a b : K => decide (a ≤ b))
      (fun a b c h1 h2 => by simp only [decide_eq_true_eq] at *; exact h1.trans h2)
      (fun a b => by simp only [Bool.or_eq_true, decide_eq_true_eq]; exact le_total a b) row
    exact this.imp fun h => by simpa using h
  constructor
  · intro l l' h1 h2
    unfold sortedColumns
    rw [← hrow, List.getD_eq_getElem _ _ (by rw [hlen]; omega), List.getD_eq_getElem _ _ (by rw [hlen]; omega)]
    rcases h1.eq_or_lt with rfl | h1
    · exact le_rfl
    · exact List.pairwise_iff_getElem.mp hsort l l' _ _ h1
  · have : (List.range cd.numLevels).map (sortedColumns cd a) = row.mergeSort fun a b => decide (a ≤ b) := by
      apply List.ext_getElem
      · simp [hrow]
      · intro i h1 h2
        simp only [List.getElem_map, List.getElem_range, sortedColumns]
        rw [← hrow, List.getD_eq_getElem _ _ h2]
    rw [this]
    exact List.mergeSort_perm _ _

theorem sorted_row_eq (cd : ColumnData K) (a : ℕ)
    (h : ∀ l l', l < l' → l' < cd.numLevels → cd.field a l ≤ cd.field a l') :
    ∀ l < cd.numLevels, sortedColumns cd a l = cd.field a l := by
  intro l hl
  unfold sortedColumns
  rw [List.mergeSort_of_pairwise]
  · rw [List.getD_eq_getElem _ _ (by simpa using hl)]; simp
  · rw [List.pairwise_iff_getElem]
    intro i j hi hj hij
    simp only [List.getElem_map, List.getElem_range, decide_eq_true_eq]
    exact h i j hij (by simpa using hj)

/-! ### Theorems -/

/-- The facts about the columns that the proofs use. -/
theorem columns_of_mesh {round : H → H} {close : H → H → Bool} {coords : List (H × K)} {L : ℕ}
    (M : ColumnMesh round close coords L) (v : List K) (hl : v.length = coords.length) :
    ∃ cd, getColumnData round close true v coords = .ok cd ∧ cd.numLevels = L ∧
      ∃ pos : ℕ → H, (∀ a < cd.numHori, ∀ a' < cd.numHori, pos a = pos a' → a = a') ∧
        (∀ a < cd.numHori, ∀ l < L, ∃ x z, coords[cd.index a l]? = some (x, z) ∧ round x = pos a) ∧
        (∀ a < cd.numHori, ∀ l l', l ≤ l' → l' < L → ∀ x z x' z',
          coords[cd.index a l]? = some (x, z) → coords[cd.index a l']? = some (x', z') → z ≤ z') := by
  obtain ⟨cd, h1, h2, -, pos, h4, h5, h6⟩ := C33_columns round close v coords hl L M.nonempty M.count M.close
  refine ⟨cd, h1, h2, pos, ?_, h5, h6⟩
  intro a ha a' ha' he
  rcases lt_trichotomy a a' with h | h | h
  · exact absurd he (h4 a a' h ha').ne
  · exact h
  · exact absurd he.symm (h4 a' a h ha).ne

/-- The degrees of freedom of a column are the entries of one row of the index array, or there are none. -/
theorem column_perm {round : H → H} {close : H → H → Bool} {coords : List (H × K)} {v : List K}
    (hl : v.length = coords.length) {cd : ColumnData K} {pos : ℕ → H}
    (h : getColumnData round close true v coords = .ok cd)
    (hpos : ∀ a < cd.numHori, ∀ a' < cd.numHori, pos a = pos a' → a = a')
    (hcol : ∀ a < cd.numHori, ∀ l < cd.numLevels, ∃ x z, coords[cd.index a l]? = some (x, z) ∧ round x = pos a)
    (c : H) :
    (∃ a < cd.numHori, pos a = c ∧
      (column round coords c).Perm ((List.range cd.numLevels).map (cd.index a))) ∨
    column round coords c = [] := by
  obtain ⟨hlt, hcov, hinj⟩ := index_bij hl h
  by_cases hc : ∃ a < cd.numHori, pos a = c
  · left
    obtain ⟨a, ha, rfl⟩ := hc
    refine ⟨a, ha, rfl, ?_⟩
    rw [List.perm_ext_iff_of_nodup]
    · intro p
      simp only [column, List.mem_filter, List.mem_range, List.mem_map]
      constructor
      · rintro ⟨hp, hq⟩
        obtain ⟨a', ha', l, hlv, rfl⟩ := hcov p (by omega)
        obtain ⟨x, z, e1, e2⟩ := hcol a' ha' l hlv
        rw [e1] at hq
        simp only [Option.map_some, Option.getD_some, decide_eq_true_eq] at hq
        have := hpos a' ha' a ha (e2.symm.trans hq)
        subst this
        exact ⟨l, hlv, rfl⟩
      · rintro ⟨l, hlv, rfl⟩
        obtain ⟨x, z, e1, e2⟩ := hcol a ha l hlv
        refine ⟨by have := hlt a ha l hlv; omega, ?_⟩
        rw [e1]; simp [e2]
    · exact List.nodup_range.filter _
    · refine List.Nodup.map_on ?_ List.nodup_range
      intro l hlv l' hlv' he
      exact (hinj a ha l (by simpa using hlv) a ha l' (by simpa using hlv') he).2
  · right
    rw [column, List.filter_eq_nil_iff]
    intro p hp hq
    simp only [List.mem_range] at hp
    obtain ⟨a', ha', l, hlv, rfl⟩ := hcov p (by omega)
    obtain ⟨x, z, e1, e2⟩ := hcol a' ha' l hlv
    rw [e1] at hq
    simp only [Option.map_some, Option.getD_some, decide_eq_true_eq] at hq
    exact hc ⟨a', ha', e2.symm.trans hq⟩

/-- **C49** (sorting).  On a mesh of columns a forward-Euler step with static adjustment succeeds; afterwards
the sorted variable (`theta_vd`, i.e. the prognostic theta, or `theta_vd / (1 + m_v R_v/R_d)`) is
non-decreasing with height in every column, and in every column its values are a permutation of the previous
ones. -/
theorem C49_sorts {round : H → H} {close : H → H → Bool} {coords : List (H × K)} {L : ℕ}
    (M : ColumnMesh round close coords L) (fac : ℕ → K) (hfac : ∀ p < coords.length, fac p ≠ 0)
    (dt : K) (hdt : dt ≠ 0) (theta : List K) (hl : theta.length = coords.length) :
    ∃ theta', step round close true coords fac dt theta = .ok theta' ∧ theta'.length = theta.length ∧
      Stable round coords (sortVar fac theta') ∧
      ∀ c, ((column round coords c).map (sortVar fac theta')).Perm
        ((column round coords c).map (sortVar fac theta)) := by
  have hl' : (thetaToSort fac theta).length = coords.length := by simp [thetaToSort, hl]
  obtain ⟨cd, h1, hL, pos, hpos, hcol, hz⟩ := columns_of_mesh M _ hl'
  subst hL
  obtain ⟨hlt, hcov, hinj⟩ := index_bij hl' h1
  obtain ⟨s, hs⟩ : ∃ s, evaluate round close true coords fac theta false = .ok s := by
    unfold evaluate
    rw [h1]
    exact ⟨_, rfl⟩
  obtain ⟨cd', h1', hsl, hval⟩ := evaluate_ok hl hs
  rw [h1] at h1'
  obtain rfl : cd = cd' := by injection h1'
  refine ⟨s, by rw [step_eq _ _ _ _ _ _ hdt]; exact hs, hsl, ?_, ?_⟩
  · intro p q x z x' z' hp hq hxx hzz
    have hpl : p < coords.length := (List.getElem?_eq_some_iff.mp hp).1
    have hql : q < coords.length := (List.getElem?_eq_some_iff.mp hq).1
    obtain ⟨a, ha, l, hlv, rfl⟩ := hcov p (by omega)
    obtain ⟨a', ha', l', hlv', rfl⟩ := hcov q (by omega)
    obtain ⟨y, w, e1, e2⟩ := hcol a ha l hlv
    obtain ⟨y', w', e1', e2'⟩ := hcol a' ha' l' hlv'
    rw [hp] at e1; rw [hq] at e1'
    simp only [Option.some.injEq, Prod.mk.injEq] at e1 e1'
    obtain ⟨rfl, rfl⟩ := e1
    obtain ⟨rfl, rfl⟩ := e1'
    obtain rfl := hpos a ha a' ha' (by rw [← e2, ← e2', hxx])
    have hll : l ≤ l' := by
      by_contra hc
      exact absurd (hz a ha l' l (by omega) hlv x' z' x z hq hp) (not_le.mpr hzz)
    simp only [sortVar, (hval a ha l hlv).1, (hval a ha l' hlv').1]
    rw [mul_div_cancel_right₀ _ (hfac _ hpl), mul_div_cancel_right₀ _ (hfac _ hql)]
    exact (sorted_row cd a).1 l l' hll hlv'
  · intro c
    rcases column_perm hl' h1 hpos hcol c with ⟨a, ha, -, hp⟩ | hnil
    · refine (hp.map _).trans (List.Perm.trans ?_ (hp.map _).symm)
      rw [List.map_map, List.map_map]
      have e1 : (List.range cd.numLevels).map (sortVar fac s ∘ cd.index a) =
          (List.range cd.numLevels).map (sortedColumns cd a) := by
        apply List.map_congr_left
        intro l hlv
        have hlv : l < cd.numLevels := by simpa using hlv
        have hi := hlt a ha l hlv
        simp only [Function.comp, sortVar, (hval a ha l hlv).1]
        rw [mul_div_cancel_right₀ _ (hfac _ (by omega))]
      have e2 : (List.range cd.numLevels).map (sortVar fac theta ∘ cd.index a) =
          (List.range cd.numLevels).map (cd.field a) := by
        apply List.map_congr_left
        intro l hlv
        have hlv : l < cd.numLevels := by simpa using hlv
        simp only [Function.comp, (hval a ha l hlv).2]
      rw [e1, e2]
      exact (sorted_row cd a).2
    · rw [hnil]; exact List.Perm.refl _

/-- **C49** (sum).  The sum of the sorted variable over every column is unchanged. -/
theorem C49_sum {round : H → H} {close : H → H → Bool} {coords : List (H × K)} {L : ℕ}
    (M : ColumnMesh round close coords L) (fac : ℕ → K) (hfac : ∀ p < coords.length, fac p ≠ 0)
    (dt : K) (hdt : dt ≠ 0) (theta theta' : List K) (hl : theta.length = coords.length)
    (h : step round close true coords fac dt theta = .ok theta') (c : H) :
    ((column round coords c).map (sortVar fac theta')).sum =
      ((column round coords c).map (sortVar fac theta)).sum := by
  obtain ⟨t, h1, -, -, h2⟩ := C49_sorts M fac hfac dt hdt theta hl
  rw [h] at h1
  obtain rfl : theta' = t := by injection h1
  exact (h2 c).sum_eq

/-- **C49** (stable columns).  If no column has two points at the same height and the sorted variable is
already non-decreasing with height, theta is unchanged. -/
theorem C49_stable {round : H → H} {close : H → H → Bool} {coords : List (H × K)} {L : ℕ}
    (M : ColumnMesh round close coords L) (fac : ℕ → K) (hfac : ∀ p < coords.length, fac p ≠ 0)
    (dt : K) (hdt : dt ≠ 0) (theta : List K) (hl : theta.length = coords.length)
    (hdist : ∀ (p q : ℕ) (x : H) (z : K) (x' : H) (z' : K), coords[p]? = some (x, z) → coords[q]? = some (x', z') → round x = round x' →
      z = z' → p = q)
    (hst : Stable round coords (sortVar fac theta)) :
    step round close true coords fac dt theta = .ok theta := by
  have hl' : (thetaToSort fac theta).length = coords.length := by simp [thetaToSort, hl]
  obtain ⟨cd, h1, hL, pos, hpos, hcol, hz⟩ := columns_of_mesh M _ hl'
  subst hL
  obtain ⟨hlt, hcov, hinj⟩ := index_bij hl' h1
  obtain ⟨s, hs⟩ : ∃ s, evaluate round close true coords fac theta false = .ok s := by
    unfold evaluate
    rw [h1]
    exact ⟨_, rfl⟩
  obtain ⟨cd', h1', hsl, hval⟩ := evaluate_ok hl hs
  rw [h1] at h1'
  obtain rfl : cd = cd' := by injection h1'
  rw [step_eq _ _ _ _ _ _ hdt, hs]
  congr 1
  apply List.ext_getElem hsl
  intro p hp1 hp2
  obtain ⟨a, ha, l, hlv, rfl⟩ := hcov p (by omega)
  have h3 := (hval a ha l hlv).1
  rw [List.getD_eq_getElem _ _ hp1, sorted_row_eq cd a ?_ l hlv, (hval a ha l hlv).2, sortVar,
    div_mul_cancel₀ _ (hfac _ (by omega)), List.getD_eq_getElem _ _ hp2] at h3
  · exact h3
  · intro i j hij hj
    rw [(hval a ha i (by omega)).2, (hval a ha j hj).2]
    obtain ⟨x, z, e1, e2⟩ := hcol a ha i (by omega)
    obtain ⟨x', z', e1', e2'⟩ := hcol a ha j hj
    have hle := hz a ha i j hij.le hj x z x' z' e1 e1'
    rcases hle.eq_or_lt with he | hlt'
    · have := hdist _ _ _ _ _ _ e1 e1' (by rw [e2, e2']) he
      have := (hinj a ha i (by omega) a ha j hj this).2
      omega
    · exact hst _ _ _ _ _ _ e1 e1' (by rw [e2, e2']) hlt'

/-- **C49** (idempotence).  A second step does nothing (even with several points at the same height). -/
theorem C49_idempotent {round : H → H} {close : H → H → Bool} {others : Bool}
    {coords : List (H × K)} (fac : ℕ → K) (hfac : ∀ p < coords.length, fac p ≠ 0)
    (dt dt' : K) (hdt : dt ≠ 0) (hdt' : dt' ≠ 0) (theta theta' : List K) (hl : theta.length = coords.length)
    (h : step round close others coords fac dt theta = .ok theta') :
    step round close others coords fac dt' theta' = .ok theta' := by
  rw [step_eq _ _ _ _ _ _ hdt] at h
  obtain ⟨cd, h1, hsl, hval⟩ := evaluate_ok hl h
  have hl' : (thetaToSort fac theta).length = coords.length := by simp [thetaToSort, hl]
  obtain ⟨hlt, hcov, hinj⟩ := index_bij hl' h1
  have hl2 : theta'.length = coords.length := by omega
  -- the second call sees the same columns, with the sorted data
  obtain ⟨cd', g1, g2, g3, g4, g5⟩ := C33_set_then_get round close others _ coords hl' cd h1 (sortedColumns cd)
    (fun p => (thetaToSort fac theta).getD p 0)
  have hts : (List.range (thetaToSort fac theta).length).map
      (setField cd.numHori cd.numLevels (sortedColumns cd) cd.index (fun p => (thetaToSort fac theta).getD p 0))
      = thetaToSort fac theta' := by
    apply List.ext_getElem
    · simp [hl', thetaToSort, hl2, hl]
    · intro p hp1 hp2
      obtain ⟨a, ha, l, hlv, rfl⟩ := hcov p (by simpa using hp1)
      have hi := hlt a ha l hlv
      have := (hval a ha l hlv).1
      rw [List.getD_eq_getElem _ _ (by omega)] at this
      simp only [List.getElem_map, List.getElem_range, thetaToSort, List.getElem_mapIdx]
      rw [this, mul_div_cancel_right₀ _ (hfac _ (by omega))]
      exact setField_index hinj _ _ a ha l hlv
  rw [hts] at g1
  obtain ⟨s, hs⟩ : ∃ s, evaluate round close others coords fac theta' false = .ok s := by
    unfold evaluate
    rw [g1]
    exact ⟨_, rfl⟩
  obtain ⟨cd'', k1, ksl, kval⟩ := evaluate_ok hl2 hs
  rw [g1] at k1
  obtain rfl : cd' = cd'' := by injection k1
  rw [step_eq _ _ _ _ _ _ hdt', hs]
  congr 1
  apply List.ext_getElem ksl
  intro p hp1 hp2
  obtain ⟨a, ha, l, hlv, rfl⟩ := hcov p (by omega)
  have h3 := (kval a (by omega) l (by omega)).1
  rw [g4, List.getD_eq_getElem _ _ hp1, sorted_row_eq cd' a ?_ l (by omega), g5 a ha l hlv,
    ← (hval a ha l hlv).1, List.getD_eq_getElem _ _ hp2] at h3
  · exact h3
  · intro i j hij hj
    rw [g5 a ha i (by omega), g5 a ha j (by omega)]
    exact (sorted_row cd a).1 i j hij.le (by omega)

/-- **C49** (errors).  A call that asks for the source as an output always fails, as does a mesh that is not
made of columns; the scheme can be constructed exactly for the compressible Euler equations with one of the two
documented variables. -/
theorem C49_errors (round : H → H) (close : H → H → Bool) (others : Bool) (coords : List (H × K)) (fac : ℕ → K)
    (theta : List K) :
    (∃ e, evaluate round close others coords fac theta true = .error e) ∧
    (∀ e, getColumnData round close others (thetaToSort fac theta) coords = .error e →
      ∀ b, evaluate round close others coords fac theta b = .error e) ∧
    (∀ compressible name, construct compressible name = .ok () ↔
      compressible = true ∧ (name = "theta" ∨ name = "theta_vd")) := by
  refine ⟨?_, ?_, ?_⟩
  · unfold evaluate
    cases getColumnData round close others (thetaToSort fac theta) coords with
    | error e => exact ⟨e, rfl⟩
    | ok cd => exact ⟨"NotImplementedError", rfl⟩
  · intro e he b
    unfold evaluate
    rw [he]
  · intro c name
    unfold construct
    cases c <;> by_cases h1 : name = "theta" <;> by_cases h2 : name = "theta_vd" <;> simp [h1, h2]

/-- **C49** (which variable).  By default, or without water vapour, the prognostic theta itself is sorted;
with `theta_variable = "theta"` and water vapour it is theta divided by `1 + m_v R_v / R_d`, and the division
is admissible for non-negative vapour. -/
theorem C49_variable (Rd Rv : K) (hRd : 0 < Rd) (hRv : 0 ≤ Rv) (theta v : List K) (hv : ∀ a ∈ v, 0 ≤ a) (p : ℕ) :
    sortVar (factor Rd Rv "theta_vd" (some v)) theta p = theta.getD p 0 ∧
    sortVar (factor Rd Rv "theta" none) theta p = theta.getD p 0 ∧
    sortVar (factor Rd Rv "theta" (some v)) theta p = theta.getD p 0 / (1 + v.getD p 0 * Rv / Rd) ∧
    factor Rd Rv "theta" (some v) p ≠ 0 := by
  have h0 : 0 ≤ v.getD p 0 := by
    rw [List.getD_eq_getElem?_getD]
    cases h : v[p]? with
    | none => exact le_rfl
    | some a => exact hv a (List.mem_of_getElem? h)
  refine ⟨?_, ?_, ?_, ?_⟩
  · simp [sortVar, factor]
  · simp [sortVar, factor]
  · simp [sortVar, factor]
  · have : (0:K) < 1 + v.getD p 0 * Rv / Rd := by positivity
    simpa [factor] using this.ne'

/-- The hypotheses are met: two columns of two points, unstably stratified. -/
example : ColumnMesh (K := ℚ) id isclose exCoords 2 ∧
    ¬ Stable (K := ℚ) id exCoords (sortVar (fun _ => 1) [3, 4, 2, 1]) ∧
    Stable (K := ℚ) id exCoords (sortVar (fun _ => 1) [4, 3, 2, 5]) := by
  refine ⟨⟨by simp [exCoords], by decide +kernel, by decide +kernel⟩, ?_, ?_⟩
  · intro h
    have := h 1 3 0 3 0 4 rfl rfl rfl (by norm_num)
    norm_num [sortVar] at this
  · intro p q x z x' z' hp hq hx hz
    have hp' := List.getElem?_eq_some_iff.mp hp
    have hq' := List.getElem?_eq_some_iff.mp hq
    obtain ⟨h1, h2⟩ := hp'
    obtain ⟨h3, h4⟩ := hq'
    simp only [exCoords, List.length_cons, List.length_nil] at h1 h3
    interval_cases p <;> interval_cases q <;> simp [exCoords] at h2 h4 <;> obtain ⟨rfl, rfl⟩ := h2 <;>
      obtain ⟨rfl, rfl⟩ := h4 <;> first
      | (exfalso; norm_num at hz; done) | (exfalso; norm_num at hx; done) | norm_num [sortVar]

end Gusto.Props.AdjustProps
