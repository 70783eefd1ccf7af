import Verif.Model.NumericalIntegral
import Mathlib.Analysis.Calculus.MeanValue
import Mathlib.Analysis.Convex.Deriv
import Mathlib.Analysis.Calculus.Deriv.Polynomial
import Mathlib.Analysis.SpecialFunctions.Integrals.Basic
import Mathlib.Topology.Algebra.Polynomial
import Mathlib.Tactic.Ring
import Mathlib.Tactic.Linarith
import Mathlib.Tactic.LinearCombination
import Mathlib.Tactic.FieldSimp
import Mathlib.Tactic.NormNum
import Mathlib.Tactic.Positivity

set_option autoImplicit false
set_option linter.unusedSectionVars false
set_option linter.unusedSimpArgs false

/-!
# C105: tabulated integrals
-/

namespace Gusto.Props.NumIntProps
open Gusto.NumInt

/-! ### Nodes and the search -/

section Search
variable {K : Type*} [Field K] [LinearOrder K] [IsStrictOrderedRing K]

/-- The tabulated object of the user: bounds, `num` points, integrand. -/
def tab (lower upper : K) (num : ℕ) (f : K → K) : Integral K := tabulate ⟨lower, upper, num, none⟩ f

/-- The spacing of the points. -/
def step (lower upper : K) (num : ℕ) : K := (upper - lower) / (num - 1 : ℕ)

theorem step_pos {a b : K} {n : ℕ} (hab : a < b) (hn : 2 ≤ n) : 0 < step a b n := by
  unfold step
  have : (0 : K) < ((n - 1 : ℕ) : K) := by exact_mod_cast (by omega : 0 < n - 1)
  exact div_pos (by linarith) this

theorem lin_eq (a b : K) (n i : ℕ) : linspace a b n i = a + i * step a b n := rfl

theorem lin_last {a b : K} {n : ℕ} (hn : 2 ≤ n) : linspace a b n (n - 1) = b := by
  unfold linspace
  have : ((n - 1 : ℕ) : K) ≠ 0 := by exact_mod_cast (by omega : n - 1 ≠ 0)
  rw [mul_div_cancel₀ _ this]; ring

theorem lin_first (a b : K) (n : ℕ) : linspace a b n 0 = a := by simp [linspace]

theorem lin_lt {a b : K} {n i j : ℕ} (hab : a < b) (hn : 2 ≤ n) (hij : i < j) : linspace a b n i < linspace a b n j := by
  have := step_pos hab hn
  simp only [lin_eq]
  have hc : (i : K) < j := by exact_mod_cast hij
  nlinarith

theorem lin_le {a b : K} {n i j : ℕ} (hab : a < b) (hn : 2 ≤ n) (hij : i ≤ j) : linspace a b n i ≤ linspace a b n j := by
  rcases Nat.lt_or_eq_of_le hij with h | h
  · exact (lin_lt hab hn h).le
  · rw [h]

theorem scan_spec (x : ℕ → K) (p : K) (k i : ℕ) (h : x i ≤ p) :
    i ≤ scan x p k i ∧ scan x p k i ≤ i + k ∧ x (scan x p k i) ≤ p ∧
      (scan x p k i < i + k → p < x (scan x p k i + 1)) := by
  induction k generalizing i with
  | zero => exact ⟨le_refl _, le_refl _, h, fun h => absurd h (by simp [scan])⟩
  | succ k ih =>
    unfold scan
    split_ifs with hc
    · obtain ⟨h1, h2, h3, h4⟩ := ih (i + 1) hc
      exact ⟨by omega, by omega, h3, fun h => h4 (by omega)⟩
    · exact ⟨le_refl _, by omega, h, fun _ => lt_of_not_ge hc⟩

/-- The value between two neighbouring points. -/
theorem interp_between {x y : ℕ → K} {n : ℕ} {p : K} (hn : 2 ≤ n) (hx : ∀ i j, i < j → x i < x j) {j : ℕ} (hj : j + 1 < n)
    (h1 : x j ≤ p) (h2 : p < x (j + 1)) :
    interp x y n p = y j + (y (j + 1) - y j) / (x (j + 1) - x j) * (p - x j) := by
  have hm : ∀ i j, i ≤ j → x i ≤ x j := fun i j h => by
    rcases Nat.lt_or_eq_of_le h with h | h
    · exact (hx i j h).le
    · rw [h]
  have hl : ¬x (n - 1) < p := not_lt.2 (le_trans h2.le (hm _ _ (by omega)))
  have hf : ¬p < x 0 := not_lt.2 (le_trans (hm 0 j (by omega)) h1)
  unfold interp
  rw [if_neg hl, if_neg hf]
  obtain ⟨s1, s2, s3, s4⟩ := scan_spec x p (n - 1) 0 (not_lt.1 hf)
  have hs : scan x p (n - 1) 0 = j := by
    rcases Nat.lt_trichotomy (scan x p (n - 1) 0) j with h | h | h
    · have := s4 (by omega)
      exact absurd (lt_of_lt_of_le this (hm _ j (by omega))) (not_lt.2 h1)
    · exact h
    · exact absurd (lt_of_lt_of_le h2 (hm (j + 1) _ (by omega))) (not_lt.2 s3)
  rw [hs]
  dsimp only
  rw [if_neg (by omega)]
  ring

theorem interp_last {x y : ℕ → K} {n : ℕ} {p : K} (hn : 2 ≤ n) (hx : ∀ i j, i < j → x i < x j) (h : x (n - 1) ≤ p) :
    interp x y n p = y (n - 1) := by
  have hm : ∀ i j, i ≤ j → x i ≤ x j := fun i j h => by
    rcases Nat.lt_or_eq_of_le h with h | h
    · exact (hx i j h).le
    · rw [h]
  unfold interp
  split_ifs with h1 h2
  · rfl
  · exact absurd (lt_of_lt_of_le h2 (hm 0 (n - 1) (by omega))) (not_lt.2 h)
  · obtain ⟨s1, s2, s3, s4⟩ := scan_spec x p (n - 1) 0 (not_lt.1 h2)
    have hs : scan x p (n - 1) 0 = n - 1 := by
      by_contra hne
      have := s4 (by omega)
      exact absurd (lt_of_lt_of_le this (hm _ (n - 1) (by omega))) (not_lt.2 h)
    rw [hs]; simp

/-- Every point of the range lies between two neighbouring points or is the last one. -/
theorem locate {x : ℕ → K} {n : ℕ} {p : K} (h0 : x 0 ≤ p) (hp : p ≤ x (n - 1)) :
    p = x (n - 1) ∨ ∃ j, j + 1 < n ∧ x j ≤ p ∧ p < x (j + 1) := by
  obtain ⟨s1, s2, s3, s4⟩ := scan_spec x p (n - 1) 0 h0
  by_cases h : scan x p (n - 1) 0 < 0 + (n - 1)
  · exact Or.inr ⟨_, by omega, s3, s4 h⟩
  · left
    have : scan x p (n - 1) 0 = n - 1 := by omega
    rw [this] at s3
    exact le_antisymm hp s3

/-- C105, points of tabulation: there the tabulated value is returned, the sum of Simpson's rule over the intervals to the
left, each with its end points and its midpoint. -/
theorem C105_nodes (lower upper : K) (num : ℕ) (f : K → K) (hn : 2 ≤ num) (hab : lower < upper) (i : ℕ) (hi : i < num) :
    evaluateAt (tab lower upper num f) (lower + i * step lower upper num) = .ok (∑ k ∈ Finset.range i,
      step lower upper num / 6 * (f (lower + k * step lower upper num) + 4 * f (lower + (k + 1 / 2) * step lower upper num)
        + f (lower + (k + 1) * step lower upper num))) := by
  have hx : ∀ i j, i < j → linspace lower upper num i < linspace lower upper num j := fun i j => lin_lt hab hn
  have hc : ∀ i, cumul (⟨lower, upper, num, none⟩ : Integral K) f i = ∑ k ∈ Finset.range i,
      step lower upper num / 6 * (f (lower + k * step lower upper num) + 4 * f (lower + (k + 1 / 2) * step lower upper num)
        + f (lower + (k + 1) * step lower upper num)) := by
    intro i
    induction i with
    | zero => rfl
    | succ k ih =>
      rw [Finset.sum_range_succ, ← ih, cumul]
      congr 1
      unfold area
      have hd : ∀ m : ℕ, linspace lower upper (2 * num - 1) m = lower + m / 2 * step lower upper num := by
        intro m
        unfold linspace step
        have e : ((2 * num - 1 - 1 : ℕ) : K) = 2 * ((num - 1 : ℕ) : K) := by
          rw [show 2 * num - 1 - 1 = 2 * (num - 1) by omega]; push_cast; ring
        have : ((num - 1 : ℕ) : K) ≠ 0 := by exact_mod_cast (by omega : num - 1 ≠ 0)
        rw [e]; field_simp
      simp only [hd, lin_eq]
      have e1 : ((2 * k + 2 : ℕ) : K) / 2 = k + 1 := by push_cast; ring
      have e2 : ((2 * k + 1 : ℕ) : K) / 2 = k + 1 / 2 := by push_cast; ring
      have e3 : ((2 * k : ℕ) : K) / 2 = k := by push_cast; ring
      have e4 : ((k + 1 : ℕ) : K) = k + 1 := by push_cast; ring
      rw [e1, e2, e3, e4]
      ring
  rw [← hc]
  unfold evaluateAt tab tabulate
  dsimp only
  congr 1
  rw [← lin_eq]
  by_cases hl : i = num - 1
  · rw [interp_last hn hx (by rw [hl]), hl]
  · rw [interp_between hn hx (j := i) (by omega) (le_refl _) (hx _ _ (by omega))]
    ring

/-- C105, between the points: the interpolation is linear between neighbouring points of tabulation. -/
theorem C105_between (lower upper : K) (num : ℕ) (f : K → K) (hn : 2 ≤ num) (hab : lower < upper) (i : ℕ)
    (hi : i + 1 < num) (s : K) (h0 : 0 ≤ s) (h1 : s ≤ 1) (a b : K)
    (ha : evaluateAt (tab lower upper num f) (lower + i * step lower upper num) = .ok a)
    (hb : evaluateAt (tab lower upper num f) (lower + (i + 1 : ℕ) * step lower upper num) = .ok b) :
    evaluateAt (tab lower upper num f) (lower + (i + s) * step lower upper num) = .ok ((1 - s) * a + s * b) := by
  have hx : ∀ i j, i < j → linspace lower upper num i < linspace lower upper num j := fun i j => lin_lt hab hn
  have hs := step_pos hab hn
  have val : ∀ k, k < num → evaluateAt (tab lower upper num f) (lower + k * step lower upper num) =
      .ok (cumul (⟨lower, upper, num, none⟩ : Integral K) f k) := by
    intro k hk
    unfold evaluateAt tab tabulate
    dsimp only
    congr 1
    rw [← lin_eq]
    by_cases hl : k = num - 1
    · rw [interp_last hn hx (by rw [hl]), hl]
    · rw [interp_between hn hx (j := k) (by omega) (le_refl _) (hx _ _ (by omega))]
      ring
  rw [val i (by omega)] at ha
  rw [val (i + 1) hi] at hb
  cases ha
  cases hb
  rcases eq_or_lt_of_le h1 with h | h
  · rw [h]
    have := val (i + 1) hi
    push_cast at this
    rw [this]
    congr 1; ring
  · unfold evaluateAt tab tabulate
    dsimp only
    congr 1
    rw [interp_between hn hx (j := i) hi (by rw [lin_eq]; nlinarith)
      (by rw [lin_eq]; push_cast; nlinarith)]
    simp only [lin_eq]
    push_cast
    have hne : step lower upper num ≠ 0 := hs.ne'
    have e1 : lower + ((i : K) + 1) * step lower upper num - (lower + i * step lower upper num) = step lower upper num := by
      ring
    have e2 : lower + ((i : K) + s) * step lower upper num - (lower + i * step lower upper num) =
        step lower upper num * s := by ring
    rw [e1, e2, ← mul_assoc, div_mul_cancel₀ _ hne]
    ring

/-- C105, before the tabulation: an error is raised. -/
theorem C105_untabulated (lower upper p : K) (num : ℕ) (I : Integral K) (h : init lower upper num = .ok I) :
    evaluateAt I p = .error .runtimeError := by
  unfold init at h
  split_ifs at h
  cases h; rfl

/-- C105, a second tabulation replaces the first. -/
theorem C105_again (I : Integral K) (f g : K → K) : tabulate (tabulate I f) g = tabulate I g := by
  have : ∀ i, cumul (tabulate I f) g i = cumul I g i := by
    intro i
    induction i with
    | zero => rfl
    | succ i ih => simp only [cumul, ih]; rfl
  unfold tabulate
  congr 2
  funext i
  exact this i

/-- C105, refuted: the integral from the lower bound to the point.  Outside the bounds the value at the bound is returned,
without an error. -/
theorem C105_outside_refuted (lower upper : K) (num : ℕ) (f : K → K) (hn : 2 ≤ num) (hab : lower < upper) (p : K) :
    (upper ≤ p → evaluateAt (tab lower upper num f) p = evaluateAt (tab lower upper num f) upper) ∧
    (p ≤ lower → evaluateAt (tab lower upper num f) p = .ok 0) := by
  have hx : ∀ i j, i < j → linspace lower upper num i < linspace lower upper num j := fun i j => lin_lt hab hn
  constructor
  · intro hp
    unfold evaluateAt tab tabulate
    dsimp only
    congr 1
    rw [interp_last hn hx (by rw [lin_last hn]; exact hp), interp_last hn hx (by rw [lin_last hn])]
  · intro hp
    unfold evaluateAt tab tabulate
    dsimp only
    congr 1
    rcases eq_or_lt_of_le hp with h | h
    · rw [interp_between hn hx (j := 0) (by omega) (by rw [lin_first, h])
        (by have h01 := hx 0 1 (by omega); rw [lin_first] at h01; rw [h]; exact h01)]
      rw [lin_first, h]
      simp [cumul]
    · unfold interp
      rw [if_neg (by rw [lin_last hn]; exact not_lt.2 (by linarith)), if_pos (by rw [lin_first]; exact h)]
      rfl

/-- C105, refuted: bounds in the other order.  They are accepted (the check is commented out), and every point between
them gets the integral over the whole range. -/
theorem C105_reversed_refuted (lower upper : K) (num : ℕ) (f : K → K) (hn : 2 ≤ num) (_hab : upper < lower) (p : K)
    (hp : upper < p) : ∃ I, init lower upper num = .ok I ∧
      evaluateAt (tabulate I f) p = .ok (cumul I f (num - 1)) := by
  refine ⟨⟨lower, upper, num, none⟩, ?_, ?_⟩
  · unfold init; rw [if_neg (by omega)]
  · unfold evaluateAt tabulate
    dsimp only
    congr 1
    unfold interp
    rw [if_pos (by rw [lin_last hn]; exact hp)]

/-- C105, refuted: one point.  With `num_points=1` the integral is zero everywhere. -/
theorem C105_single_refuted (lower upper p : K) (f : K → K) : evaluateAt (tab lower upper 1 f) p = .ok 0 := by
  unfold evaluateAt tab tabulate interp
  simp [scan, cumul]

theorem interp_mono {x y : ℕ → K} {n : ℕ} (hn : 2 ≤ n) (hx : ∀ i j, i < j → x i < x j)
    (hy : ∀ i, i + 1 < n → y i ≤ y (i + 1)) {p p' : K} (hp : p ≤ p') : interp x y n p ≤ interp x y n p' := by
  have hym : ∀ i j, i ≤ j → j < n → y i ≤ y j := by
    intro i j hij
    induction j with
    | zero => intro _; rw [Nat.le_zero.1 hij]
    | succ j ih =>
      intro hj
      rcases Nat.lt_or_eq_of_le hij with h | h
      · exact (ih (by omega) (by omega)).trans (hy j hj)
      · rw [h]
  have left : ∀ p, p < x 0 → interp x y n p = y 0 := by
    intro p h
    unfold interp
    rw [if_neg (not_lt.2 (h.le.trans (hx 0 (n - 1) (by omega)).le)), if_pos h]
  have mid : ∀ p j, j + 1 < n → x j ≤ p → p < x (j + 1) → y j ≤ interp x y n p ∧ interp x y n p ≤ y (j + 1) := by
    intro p j hj h1 h2
    rw [interp_between hn hx hj h1 h2]
    have hd : 0 < x (j + 1) - x j := by linarith [hx j (j + 1) (by omega)]
    have hyj := hy j hj
    rw [div_mul_eq_mul_div]
    constructor
    · have : 0 ≤ (y (j + 1) - y j) * (p - x j) / (x (j + 1) - x j) :=
        div_nonneg (mul_nonneg (by linarith) (by linarith)) hd.le
      linarith
    · have : (y (j + 1) - y j) * (p - x j) / (x (j + 1) - x j) ≤ y (j + 1) - y j := by
        rw [div_le_iff₀ hd]
        exact mul_le_mul_of_nonneg_left (by linarith) (by linarith)
      linarith
  have low : ∀ p, y 0 ≤ interp x y n p := by
    intro p
    rcases lt_or_ge p (x 0) with h | h
    · rw [left p h]
    · rcases le_or_gt p (x (n - 1)) with h' | h'
      · rcases locate (n := n) h h' with e | ⟨j, hj, h1, h2⟩
        · rw [interp_last hn hx e.ge]; exact hym 0 _ (by omega) (by omega)
        · exact (hym 0 j (by omega) (by omega)).trans (mid p j hj h1 h2).1
      · rw [interp_last hn hx h'.le]; exact hym 0 _ (by omega) (by omega)
  have high : ∀ p, interp x y n p ≤ y (n - 1) := by
    intro p
    rcases lt_or_ge p (x 0) with h | h
    · rw [left p h]; exact hym 0 _ (by omega) (by omega)
    · rcases le_or_gt p (x (n - 1)) with h' | h'
      · rcases locate (n := n) h h' with e | ⟨j, hj, h1, h2⟩
        · rw [interp_last hn hx e.ge]
        · exact (mid p j hj h1 h2).2.trans (hym (j + 1) _ (by omega) (by omega))
      · rw [interp_last hn hx h'.le]
  rcases lt_or_ge p (x 0) with h | h
  · rw [left p h]; exact low p'
  rcases le_or_gt (x (n - 1)) p' with h' | h'
  · rw [interp_last hn hx h']; exact high p
  rcases locate (n := n) h (hp.trans h'.le) with e | ⟨j, hj, h1, h2⟩
  · exact absurd (e ▸ hp) (not_le.2 h')
  rcases locate (n := n) (h.trans hp) h'.le with e | ⟨k, hk, k1, k2⟩
  · exact absurd e h'.ne
  rcases Nat.lt_trichotomy j k with hjk | hjk | hjk
  · exact (mid p j hj h1 h2).2.trans ((hym (j + 1) k (by omega) (by omega)).trans (mid p' k hk k1 k2).1)
  · subst hjk
    rw [interp_between hn hx hj h1 h2, interp_between hn hx hj k1 k2]
    have hd : 0 < x (j + 1) - x j := by linarith [hx j (j + 1) (by omega)]
    have : 0 ≤ (y (j + 1) - y j) / (x (j + 1) - x j) := div_nonneg (by linarith [hy j hj]) hd.le
    have := mul_le_mul_of_nonneg_left (by linarith : p - x j ≤ p' - x j) this
    linarith
  · have : x (k + 1) ≤ x j := by
      rcases Nat.lt_or_eq_of_le (by omega : k + 1 ≤ j) with h | h
      · exact (hx _ _ h).le
      · rw [h]
    exact absurd (lt_of_lt_of_le k2 (this.trans (h1.trans hp))) (lt_irrefl _)

theorem double_in {a b : K} {n m : ℕ} (hab : a < b) (hn : 2 ≤ n) (hm : m ≤ n - 1) :
    a ≤ linspace a b n m ∧ linspace a b n m ≤ b := by
  constructor
  · calc a = linspace a b n 0 := (lin_first a b n).symm
      _ ≤ _ := lin_le hab hn (Nat.zero_le _)
  · calc linspace a b n m ≤ linspace a b n (n - 1) := lin_le hab hn hm
      _ = b := lin_last hn

/-- C105, monotonicity: for an integrand that is not negative on the range, the values increase with the point and are not
negative. -/
theorem C105_monotone (lower upper : K) (num : ℕ) (f : K → K) (hn : 2 ≤ num) (hab : lower < upper)
    (hf : ∀ t, lower ≤ t → t ≤ upper → 0 ≤ f t) (p p' : K) (hp : p ≤ p') :
    ∃ v v', evaluateAt (tab lower upper num f) p = .ok v ∧ evaluateAt (tab lower upper num f) p' = .ok v' ∧
      0 ≤ v ∧ v ≤ v' := by
  have hx : ∀ i j, i < j → linspace lower upper num i < linspace lower upper num j := fun i j => lin_lt hab hn
  have hy : ∀ i, i + 1 < num → cumul (⟨lower, upper, num, none⟩ : Integral K) f i ≤
      cumul (⟨lower, upper, num, none⟩ : Integral K) f (i + 1) := by
    intro i hi
    have ha : 0 ≤ area (⟨lower, upper, num, none⟩ : Integral K) f i := by
      unfold area
      dsimp only
      have nn : ∀ m, m ≤ 2 * num - 1 - 1 → 0 ≤ f (linspace lower upper (2 * num - 1) m) := fun m hm =>
        hf _ (double_in hab (by omega) hm).1 (double_in hab (by omega) hm).2
      have := hx i (i + 1) (by omega)
      have a1 := nn (2 * i + 2) (by omega)
      have a2 := nn (2 * i + 1) (by omega)
      have a3 := nn (2 * i) (by omega)
      exact mul_nonneg (div_nonneg (by linarith) (by norm_num)) (by linarith)
    simp only [cumul]; linarith
  refine ⟨_, _, rfl, rfl, ?_, interp_mono hn hx hy hp⟩
  have h0 := (C105_outside_refuted lower upper num f hn hab (min p lower)).2 (min_le_right _ _)
  have := interp_mono hn hx hy (min_le_left p lower)
  have e : interp (linspace lower upper num) (cumul (⟨lower, upper, num, none⟩ : Integral K) f) num (min p lower) = 0 := by
    have h' : (Except.ok (interp (linspace lower upper num) (cumul (⟨lower, upper, num, none⟩ : Integral K) f) num
      (min p lower)) : Except Err K) = .ok 0 := h0
    injection h'
  rw [e] at this
  exact this

/-- C105, linearity: the value for `f + c g` is that for `f` plus `c` times that for `g`. -/
theorem C105_linear (lower upper : K) (num : ℕ) (f g : K → K) (c p a b : K)
    (ha : evaluateAt (tab lower upper num f) p = .ok a) (hb : evaluateAt (tab lower upper num g) p = .ok b) :
    evaluateAt (tab lower upper num fun t => f t + c * g t) p = .ok (a + c * b) := by
  have hc : ∀ i, cumul (⟨lower, upper, num, none⟩ : Integral K) (fun t => f t + c * g t) i =
      cumul (⟨lower, upper, num, none⟩ : Integral K) f i + c * cumul (⟨lower, upper, num, none⟩ : Integral K) g i := by
    intro i
    induction i with
    | zero => simp [cumul]
    | succ i ih => simp only [cumul, ih, area]; ring
  unfold evaluateAt tab tabulate at *
  dsimp only at *
  cases ha
  cases hb
  congr 1
  unfold interp
  dsimp only
  split_ifs <;> simp only [hc] <;> ring

end Search

/-- Three points on `[0, 2]`, integrand `t²`: `0`, `1/3`, `8/3`, and half-way in the first interval the mean. -/
example : evaluateAt (tab (0 : ℚ) 2 3 fun t => t ^ 2) 2 = .ok (8 / 3) := by decide +kernel
example : evaluateAt (tab (0 : ℚ) 2 3 fun t => t ^ 2) 1 = .ok (1 / 3) ∧
    evaluateAt (tab (0 : ℚ) 2 3 fun t => t ^ 2) (1 / 2) = .ok (1 / 6) := by decide +kernel
/-- The constant `1` from `2` down to `0` at the point `1`: `-2` instead of `-1`. -/
example : evaluateAt (tab (2 : ℚ) 0 3 fun _ => 1) 1 = .ok (-2) := by decide +kernel

/-! ### Accuracy -/

open Polynomial in
/-- Simpson's rule is exact for polynomials of degree three at most. -/
theorem simpson_cubic (q : ℝ[X]) (hq : q.natDegree ≤ 3) (a h : ℝ) :
    ∫ t in a..(a + h), q.eval t = h / 6 * (q.eval a + 4 * q.eval (a + h / 2) + q.eval (a + h)) := by
  have he : ∀ t, q.eval t = q.coeff 0 + q.coeff 1 * t + q.coeff 2 * t ^ 2 + q.coeff 3 * t ^ 3 := by
    intro t
    rw [eval_eq_sum_range' (n := 4) (by omega)]
    simp [Finset.sum_range_succ]
  have hd : ∀ t ∈ Set.uIcc a (a + h), HasDerivAt (fun t => q.coeff 0 * t + q.coeff 1 * (t ^ 2 / 2) + q.coeff 2 * (t ^ 3 / 3)
      + q.coeff 3 * (t ^ 4 / 4)) (q.eval t) t := by
    intro t _
    rw [he t]
    have h1 := (hasDerivAt_id' t).const_mul (q.coeff 0)
    have h2 := ((hasDerivAt_pow 2 t).div_const 2).const_mul (q.coeff 1)
    have h3 := ((hasDerivAt_pow 3 t).div_const 3).const_mul (q.coeff 2)
    have h4 := ((hasDerivAt_pow 4 t).div_const 4).const_mul (q.coeff 3)
    refine (((h1.add h2).add h3).add h4).congr_deriv ?_
    push_cast
    ring
  rw [intervalIntegral.integral_eq_sub_of_hasDerivAt hd (q.continuous.intervalIntegrable _ _)]
  simp only [he]
  ring

/-- C105, exactness: for an integrand that is a polynomial of degree three at most, the value at the points of tabulation
is the integral from the lower bound. -/
theorem C105_cubic (lower upper : ℝ) (num : ℕ) (q : Polynomial ℝ) (hq : q.natDegree ≤ 3) (hn : 2 ≤ num)
    (hab : lower < upper) (i : ℕ) (hi : i < num) :
    evaluateAt (tab lower upper num fun t => q.eval t) (lower + i * step lower upper num) =
      .ok (∫ t in lower..(lower + i * step lower upper num), q.eval t) := by
  rw [C105_nodes lower upper num _ hn hab i hi]
  congr 1
  clear hi
  induction i with
  | zero => simp
  | succ k ih =>
    rw [Finset.sum_range_succ, ih]
    have h := simpson_cubic q hq (lower + k * step lower upper num) (step lower upper num)
    have e1 : lower + (k : ℝ) * step lower upper num + step lower upper num = lower + ((k + 1 : ℕ) : ℝ) * step lower upper num := by
      push_cast; ring
    have e2 : lower + (k : ℝ) * step lower upper num + step lower upper num / 2 = lower + ((k : ℝ) + 1 / 2) * step lower upper num := by
      ring
    rw [e1, e2] at h
    rw [← intervalIntegral.integral_add_adjacent_intervals (b := lower + k * step lower upper num)
      (c := lower + ((k + 1 : ℕ) : ℝ) * step lower upper num) (q.continuous.intervalIntegrable _ _) (q.continuous.intervalIntegrable _ _), h]
    push_cast
    ring

/-- A function that starts at zero with a derivative bounded by `A s^k` is bounded by `A s^(k+1)/(k+1)`. -/
theorem bound_of_deriv {g g' : ℝ → ℝ} {A h : ℝ} (k : ℕ) (h0 : g 0 = 0) (hd : ∀ s, HasDerivAt g (g' s) s)
    (hb : ∀ s, 0 ≤ s → s ≤ h → |g' s| ≤ A * s ^ k) (s : ℝ) (hs : 0 ≤ s) (hsh : s ≤ h) :
    |g s| ≤ A * s ^ (k + 1) / (k + 1) := by
  have hB : ∀ x : ℝ, HasDerivAt (fun s : ℝ => A * s ^ (k + 1) / (k + 1)) (A * x ^ k) x := by
    intro x
    have := ((hasDerivAt_pow (k + 1) x).const_mul A).div_const ((k : ℝ) + 1)
    refine this.congr_deriv ?_
    have : (k : ℝ) + 1 ≠ 0 := by positivity
    push_cast
    field_simp
  have key := image_norm_le_of_norm_deriv_right_le_deriv_boundary (f := g) (f' := g') (a := 0) (b := h)
    (B := fun s => A * s ^ (k + 1) / (k + 1)) (B' := fun x => A * x ^ k)
    (fun x _ => (hd x).continuousAt.continuousWithinAt) (fun x _ => (hd x).hasDerivWithinAt) (by simp [h0])
    (fun x => hB x) (fun x hx => by rw [Real.norm_eq_abs]; exact hb x hx.1 hx.2.le)
  have := key (x := s) ⟨hs, hsh⟩
  rwa [Real.norm_eq_abs] at this

/-- The error of Simpson's rule on one interval, for an integrand with four derivatives. -/
theorem simpson_error {F f f1 f2 f3 f4 : ℝ → ℝ} (hF : ∀ t, HasDerivAt F (f t) t) (h0 : ∀ t, HasDerivAt f (f1 t) t)
    (h1 : ∀ t, HasDerivAt f1 (f2 t) t) (h2 : ∀ t, HasDerivAt f2 (f3 t) t) (h3 : ∀ t, HasDerivAt f3 (f4 t) t) {a b M : ℝ}
    (hab : a ≤ b) (hM : ∀ t, a ≤ t → t ≤ b → |f4 t| ≤ M) :
    |F b - F a - (b - a) / 6 * (f a + 4 * f ((a + b) / 2) + f b)| ≤ M * (b - a) ^ 5 / 2880 := by
  set c := (a + b) / 2 with hc
  set h := (b - a) / 2 with hh
  have hp : ∀ {g g' : ℝ → ℝ}, (∀ t, HasDerivAt g (g' t) t) → ∀ s, HasDerivAt (fun s => g (c + s)) (g' (c + s)) s := by
    intro g g' hg s
    exact HasDerivAt.comp_const_add c s (hg (c + s))
  have hm : ∀ {g g' : ℝ → ℝ}, (∀ t, HasDerivAt g (g' t) t) → ∀ s, HasDerivAt (fun s => g (c - s)) (-g' (c - s)) s := by
    intro g g' hg s
    exact HasDerivAt.comp_const_sub c s (hg (c - s))
  -- the error as a function of half the width, and its derivatives
  let E : ℝ → ℝ := fun s => F (c + s) - F (c - s) - s / 3 * (f (c - s) + 4 * f c + f (c + s))
  let E1 : ℝ → ℝ := fun s => 2 / 3 * (f (c + s) + f (c - s)) - 4 / 3 * f c - s / 3 * (f1 (c + s) - f1 (c - s))
  let E2 : ℝ → ℝ := fun s => 1 / 3 * (f1 (c + s) - f1 (c - s)) - s / 3 * (f2 (c + s) + f2 (c - s))
  let E3 : ℝ → ℝ := fun s => -(s / 3) * (f3 (c + s) - f3 (c - s))
  have d0 : ∀ s, HasDerivAt E (E1 s) s := fun s => by
    have := ((hp hF s).sub (hm hF s)).sub
      (((hasDerivAt_id' s).div_const 3).mul (((hm h0 s).add_const (4 * f c)).add (hp h0 s)))
    refine this.congr_deriv ?_
    simp only [E1, Pi.add_apply]; ring
  have d1 : ∀ s, HasDerivAt E1 (E2 s) s := fun s => by
    have := ((((hp h0 s).add (hm h0 s)).const_mul (2 / 3)).sub_const (4 / 3 * f c)).sub
      (((hasDerivAt_id' s).div_const 3).mul ((hp h1 s).sub (hm h1 s)))
    refine this.congr_deriv ?_
    simp only [E2, Pi.add_apply, Pi.sub_apply]; ring
  have d2 : ∀ s, HasDerivAt E2 (E3 s) s := fun s => by
    have := (((hp h1 s).sub (hm h1 s)).const_mul (1 / 3)).sub
      (((hasDerivAt_id' s).div_const 3).mul ((hp h2 s).add (hm h2 s)))
    refine this.congr_deriv ?_
    simp only [E3, Pi.add_apply, Pi.sub_apply]; ring
  have b3 : ∀ s, 0 ≤ s → s ≤ h → |E3 s| ≤ 2 / 3 * M * s ^ 2 := by
    intro s hs hsh
    have hcs : a ≤ c - s ∧ c + s ≤ b := ⟨by simp only [hc, hh] at *; linarith, by simp only [hc, hh] at *; linarith⟩
    have mvt := Convex.norm_image_sub_le_of_norm_hasDerivWithin_le (f := f3) (f' := f4) (C := M) (s := Set.Icc a b)
      (x := c - s) (y := c + s) (fun x _ => (h3 x).hasDerivWithinAt)
      (fun x hx => by rw [Real.norm_eq_abs]; exact hM x hx.1 hx.2) (convex_Icc a b)
      ⟨hcs.1, by linarith⟩ ⟨by linarith, hcs.2⟩
    rw [Real.norm_eq_abs, Real.norm_eq_abs] at mvt
    have e : |c + s - (c - s)| = 2 * s := by rw [show c + s - (c - s) = 2 * s by ring, abs_of_nonneg (by linarith)]
    rw [e] at mvt
    simp only [E3]
    rw [abs_mul, abs_neg, abs_of_nonneg (by positivity : 0 ≤ s / 3)]
    nlinarith [mul_le_mul_of_nonneg_left mvt (by positivity : 0 ≤ s / 3)]
  have b2 := bound_of_deriv (h := h) 2 (by simp [E2]) d2 b3
  have b1 := bound_of_deriv (h := h) (A := 2 / 9 * M) 3 (by simp [E1]; ring) d1 (fun s h1 h2 => by
    have := b2 s h1 h2; norm_num at this ⊢; linarith)
  have b0 := bound_of_deriv (h := h) (A := 1 / 18 * M) 4 (by simp [E]) d0 (fun s h1 h2 => by
    have := b1 s h1 h2; norm_num at this ⊢; linarith)
  have hfin := b0 h (by simp only [hh]; linarith) le_rfl
  have e1 : c + h = b := by simp only [hc, hh]; ring
  have e2 : c - h = a := by simp only [hc, hh]; ring
  simp only [E, e1, e2] at hfin
  have e3 : h / 3 * (f a + 4 * f c + f b) = (b - a) / 6 * (f a + 4 * f c + f b) := by simp only [hh]; ring
  rw [e3] at hfin
  refine hfin.trans (le_of_eq ?_)
  simp only [hh]
  push_cast
  ring

/-- The error of linear interpolation of an integral of a Lipschitz function. -/
theorem interp_error {F f : ℝ → ℝ} (hF : ∀ t, HasDerivAt F (f t) t) {a b L : ℝ} (hab : a < b)
    (hL : ∀ s t, a ≤ s → s ≤ t → t ≤ b → |f t - f s| ≤ L * (t - s)) {s : ℝ} (h0 : 0 ≤ s) (h1 : s ≤ 1) :
    |(1 - s) * F a + s * F b - F (a + s * (b - a))| ≤ L * (b - a) ^ 2 / 8 := by
  have conv : ∀ (G g : ℝ → ℝ), (∀ t, HasDerivAt G (g t) t) → (∀ s t, a ≤ s → s ≤ t → t ≤ b → g s ≤ g t) →
      G (a + s * (b - a)) ≤ (1 - s) * G a + s * G b := by
    intro G g hG hg
    have hc : ConvexOn ℝ (Set.Icc a b) G := by
      apply MonotoneOn.convexOn_of_deriv (convex_Icc a b)
      · exact fun x _ => (hG x).continuousAt.continuousWithinAt
      · exact fun x _ => (hG x).differentiableAt.differentiableWithinAt
      · intro x hx y hy hxy
        rw [interior_Icc] at hx hy
        rw [(hG x).deriv, (hG y).deriv]
        exact hg x y hx.1.le hxy hy.2.le
    have := hc.2 (x := a) (y := b) ⟨le_refl _, hab.le⟩ ⟨hab.le, le_refl _⟩ (by linarith : 0 ≤ 1 - s) h0 (by ring)
    simp only [smul_eq_mul] at this
    have e : (1 - s) * a + s * b = a + s * (b - a) := by ring
    rw [e] at this
    exact this
  have hq : ∀ k t : ℝ, HasDerivAt (fun t : ℝ => k * (t ^ 2 / 2)) (k * t) t := by
    intro k t
    refine ((((hasDerivAt_pow 2 t).div_const 2)).const_mul k).congr_deriv ?_
    push_cast; ring
  have u := conv (fun t => F t + L * (t ^ 2 / 2)) (fun t => f t + L * t) (fun t => (hF t).add (hq L t))
    (fun s t h1 h2 h3 => by have := (abs_le.1 (hL s t h1 h2 h3)).1; linarith)
  have l := conv (fun t => -F t + L * (t ^ 2 / 2)) (fun t => -f t + L * t) (fun t => (hF t).neg.add (hq L t))
    (fun s t h1 h2 h3 => by have := (abs_le.1 (hL s t h1 h2 h3)).2; linarith)
  have hLn : 0 ≤ L * (b - a) := le_trans (abs_nonneg _) (hL a b le_rfl hab.le le_rfl)
  have hLn' : 0 ≤ L := by
    by_contra hneg
    have := mul_neg_of_neg_of_pos (not_le.1 hneg) (by linarith : 0 < b - a)
    linarith
  have key : (1 - s) * (L * (a ^ 2 / 2)) + s * (L * (b ^ 2 / 2)) - L * ((a + s * (b - a)) ^ 2 / 2) ≤ L * (b - a) ^ 2 / 8 := by
    have e : (1 - s) * (L * (a ^ 2 / 2)) + s * (L * (b ^ 2 / 2)) - L * ((a + s * (b - a)) ^ 2 / 2)
        = L * (b - a) ^ 2 / 8 - L * (b - a) ^ 2 / 2 * (s - 1 / 2) ^ 2 := by ring
    have : 0 ≤ L * (b - a) ^ 2 / 2 * (s - 1 / 2) ^ 2 := by positivity
    linarith
  rw [abs_le]
  constructor <;> linarith

/-- C105, accuracy: for an integrand with four derivatives, the fourth bounded by `M`, and Lipschitz with constant `L` on
the range, the value at every point of the range differs from the integral from the lower bound by at most
`(upper - lower) M Δ⁴/2880 + L Δ²/8` with the spacing `Δ` of the points. -/
theorem C105_accuracy (lower upper : ℝ) (num : ℕ) (hn : 2 ≤ num) (hab : lower < upper) {f f1 f2 f3 f4 : ℝ → ℝ}
    (h0 : ∀ t, HasDerivAt f (f1 t) t) (h1 : ∀ t, HasDerivAt f1 (f2 t) t) (h2 : ∀ t, HasDerivAt f2 (f3 t) t)
    (h3 : ∀ t, HasDerivAt f3 (f4 t) t) {M L : ℝ} (hM : ∀ t, lower ≤ t → t ≤ upper → |f4 t| ≤ M)
    (hL : ∀ s t, lower ≤ s → s ≤ t → t ≤ upper → |f t - f s| ≤ L * (t - s)) (p : ℝ) (hp : lower ≤ p) (hp' : p ≤ upper) :
    ∃ v, evaluateAt (tab lower upper num f) p = .ok v ∧
      |v - ∫ t in lower..p, f t| ≤
        (upper - lower) * M * step lower upper num ^ 4 / 2880 + L * step lower upper num ^ 2 / 8 := by
  have hcont : Continuous f := continuous_iff_continuousAt.2 fun t => (h0 t).continuousAt
  set F : ℝ → ℝ := fun x => ∫ t in lower..x, f t with hFdef
  have hF : ∀ t, HasDerivAt F (f t) t := fun t =>
    intervalIntegral.integral_hasDerivAt_right (hcont.intervalIntegrable _ _)
      (hcont.stronglyMeasurableAtFilter _ _) hcont.continuousAt
  set d := step lower upper num with hd
  have hdp : 0 < d := step_pos hab hn
  have hx : ∀ i j, i < j → linspace lower upper num i < linspace lower upper num j := fun i j => lin_lt hab hn
  have hM0 : 0 ≤ M := le_trans (abs_nonneg _) (hM lower le_rfl hab.le)
  have hnd : ((num - 1 : ℕ) : ℝ) * d = upper - lower := by
    have : ((num - 1 : ℕ) : ℝ) ≠ 0 := by exact_mod_cast (by omega : num - 1 ≠ 0)
    rw [hd]; unfold step; rw [mul_div_cancel₀ _ this]
  have hin : ∀ i, i < num → lower + i * d ≤ upper := by
    intro i hi
    have : (i : ℝ) ≤ ((num - 1 : ℕ) : ℝ) := by exact_mod_cast (by omega : i ≤ num - 1)
    nlinarith
  -- the error at the points of tabulation
  have node : ∀ i, i < num → ∃ v, evaluateAt (tab lower upper num f) (lower + i * d) = .ok v ∧
      |v - F (lower + i * d)| ≤ i * (M * d ^ 5 / 2880) := by
    intro i hi
    refine ⟨_, C105_nodes lower upper num f hn hab i hi, ?_⟩
    rw [← hd]
    induction i with
    | zero => simp [hFdef]
    | succ k ih =>
      rw [Finset.sum_range_succ]
      have ih' := ih (by omega)
      have se := simpson_error hF h0 h1 h2 h3 (a := lower + k * d) (b := lower + (k + 1 : ℕ) * d) (M := M)
        (by push_cast; nlinarith) (fun t ht1 ht2 => hM t (by
          have : (0 : ℝ) ≤ k * d := by positivity
          linarith) (le_trans ht2 (hin (k + 1) hi)))
      have e1 : lower + ((k + 1 : ℕ) : ℝ) * d - (lower + k * d) = d := by push_cast; ring
      have e2 : (lower + (k : ℝ) * d + (lower + ((k + 1 : ℕ) : ℝ) * d)) / 2 = lower + ((k : ℝ) + 1 / 2) * d := by
        push_cast; ring
      rw [e1, e2] at se
      have e3 : ((k + 1 : ℕ) : ℝ) = (k : ℝ) + 1 := by push_cast; ring
      rw [e3] at se ⊢
      rw [abs_le] at ih' se ⊢
      constructor <;> linarith [ih'.1, ih'.2, se.1, se.2]
  have small : ∀ i, i < num → (i : ℝ) * (M * d ^ 5 / 2880) ≤ (upper - lower) * M * d ^ 4 / 2880 := by
    intro i hi
    rw [← hnd]
    have hi' : (i : ℝ) ≤ ((num - 1 : ℕ) : ℝ) := by exact_mod_cast (by omega : i ≤ num - 1)
    have : 0 ≤ M * d ^ 5 / 2880 := by positivity
    nlinarith [mul_le_mul_of_nonneg_right hi' this]
  have hL0 : 0 ≤ L := by
    have := le_trans (abs_nonneg _) (hL lower upper le_rfl hab.le le_rfl)
    by_contra hneg
    have := mul_neg_of_neg_of_pos (not_le.1 hneg) (by linarith : 0 < upper - lower)
    linarith
  rcases locate (x := linspace lower upper num) (n := num) (p := p) (by rw [lin_first]; exact hp)
    (by rw [lin_last hn]; exact hp') with h | ⟨j, hj, hj1, hj2⟩
  · obtain ⟨v, hv, hb⟩ := node (num - 1) (by omega)
    have e : lower + ((num - 1 : ℕ) : ℝ) * d = p := by rw [h, lin_eq]
    rw [e] at hv hb
    refine ⟨v, hv, ?_⟩
    have := small (num - 1) (by omega)
    have : 0 ≤ L * d ^ 2 / 8 := by positivity
    have hb' : |v - F p| ≤ _ := hb
    linarith
  · obtain ⟨a, ha, hba⟩ := node j (by omega)
    obtain ⟨b, hb, hbb⟩ := node (j + 1) hj
    rw [lin_eq] at hj1 hj2
    rw [← hd] at hj1 hj2
    push_cast at hj2
    set s := (p - (lower + j * d)) / d with hs
    have hsd : s * d = p - (lower + j * d) := by rw [hs]; field_simp
    have hs0 : 0 ≤ s := div_nonneg (by linarith) hdp.le
    have hs1 : s ≤ 1 := by rw [hs, div_le_one hdp]; linarith
    have hbt := C105_between lower upper num f hn hab j hj s hs0 hs1 a b ha hb
    have e : lower + ((j : ℝ) + s) * d = p := by rw [add_mul, hsd]; ring
    rw [← hd, e] at hbt
    refine ⟨_, hbt, ?_⟩
    have hjn : (0 : ℝ) ≤ (j : ℝ) * d := by positivity
    have hup := hin (j + 1) hj
    have ie := interp_error hF (a := lower + j * d) (b := lower + (j + 1 : ℕ) * d) (L := L) (s := s)
      (by push_cast; linarith) (fun x y h1 h2 h3 => hL x y (by linarith) h2 (by linarith)) hs0 hs1
    have e1 : lower + ((j + 1 : ℕ) : ℝ) * d - (lower + j * d) = d := by push_cast; ring
    have e2 : lower + (j : ℝ) * d + s * d = p := by rw [hsd]; ring
    rw [e1, e2] at ie
    have sa := small j (by omega)
    have sb := small (j + 1) hj
    set B := (upper - lower) * M * d ^ 4 / 2880
    have ha' : |a - F (lower + j * d)| ≤ B := hba.trans sa
    have hb' : |b - F (lower + (j + 1 : ℕ) * d)| ≤ B := hbb.trans sb
    have hF' : F p = ∫ t in lower..p, f t := rfl
    rw [← hF']
    rw [abs_le] at ha' hb' ie ⊢
    have hs1' : 0 ≤ 1 - s := by linarith
    constructor
    · nlinarith [mul_le_mul_of_nonneg_left ha'.1 hs1', mul_le_mul_of_nonneg_left hb'.1 hs0]
    · nlinarith [mul_le_mul_of_nonneg_left ha'.2 hs1', mul_le_mul_of_nonneg_left hb'.2 hs0]

/-- The hypotheses of the accuracy hold for `t⁴` on `[0, 1]` with `M = 24`, `L = 4`. -/
example (p : ℝ) (hp : 0 ≤ p) (hp' : p ≤ 1) : ∃ v, evaluateAt (tab (0 : ℝ) 1 500 fun t => t ^ 4) p = .ok v ∧
    |v - ∫ t in (0 : ℝ)..p, t ^ 4| ≤ (1 - 0) * 24 * step (0 : ℝ) 1 500 ^ 4 / 2880 + 4 * step (0 : ℝ) 1 500 ^ 2 / 8 := by
  refine C105_accuracy 0 1 500 (by norm_num) one_pos (f := fun t => t ^ 4) (f1 := fun t => 4 * t ^ 3)
    (f2 := fun t => 12 * t ^ 2) (f3 := fun t => 24 * t) (f4 := fun _ => 24) ?_ ?_ ?_ ?_ ?_ ?_ p hp hp'
  · intro t; refine (hasDerivAt_pow 4 t).congr_deriv ?_; norm_num
  · intro t; refine ((hasDerivAt_pow 3 t).const_mul 4).congr_deriv ?_; norm_num; ring
  · intro t; refine ((hasDerivAt_pow 2 t).const_mul 12).congr_deriv ?_; norm_num; ring
  · intro t; refine ((hasDerivAt_id' t).const_mul 24).congr_deriv ?_; norm_num
  · intro t _ _; norm_num
  · intro s t h0 hst h1
    rw [abs_of_nonneg (by nlinarith [pow_le_pow_left₀ h0 hst 4])]
    have e : t ^ 4 - s ^ 4 = (t - s) * (t ^ 3 + t ^ 2 * s + t * s ^ 2 + s ^ 3) := by ring
    rw [e, mul_comm 4]
    refine mul_le_mul_of_nonneg_left ?_ (by linarith)
    have ht0 : 0 ≤ t := h0.trans hst
    have hs1 : s ≤ 1 := hst.trans h1
    have a1 : t ^ 3 ≤ 1 := pow_le_one₀ ht0 h1
    have a2 : t ^ 2 * s ≤ 1 := mul_le_one₀ (pow_le_one₀ ht0 h1) h0 hs1
    have a3 : t * s ^ 2 ≤ 1 := mul_le_one₀ h1 (by positivity) (pow_le_one₀ h0 hs1)
    have a4 : s ^ 3 ≤ 1 := pow_le_one₀ h0 hs1
    linarith

end Gusto.Props.NumIntProps
