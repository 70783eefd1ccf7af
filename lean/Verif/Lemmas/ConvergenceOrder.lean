import Mathlib.Analysis.Calculus.MeanValue
import Mathlib.Analysis.Calculus.FDeriv.Comp
import Mathlib.Analysis.Calculus.ContDiff.RCLike
import Mathlib.Analysis.Normed.Operator.Basic
import Mathlib.Data.Nat.Factorial.Basic
import Verif.Lemmas.Convergence

set_option autoImplicit false
set_option linter.unusedSectionVars false
set_option linter.unusedSimpArgs false

/-!
# Convergence of one-step methods: higher order
-/

namespace Gusto.Convergence
open Gusto.Spec Finset Set

variable {E : Type*} [NormedAddCommGroup E] [NormedSpace ℝ E]

/-! ### Second order for nonlinear equations -/

/-- A differentiable right-hand side with Lipschitz-continuous derivative. -/
structure Smooth2 (f : E → E) (f' : E → E →L[ℝ] E) (L L2 : ℝ) : Prop where
  lip : Lip f L
  deriv : ∀ x, HasFDerivAt f (f' x) x
  bound : ∀ x, ‖f' x‖ ≤ L
  lip2 : 0 ≤ L2
  dlip : ∀ x z, ‖f' x - f' z‖ ≤ L2 * ‖x - z‖

theorem Smooth2.expand {f : E → E} {f' : E → E →L[ℝ] E} {L L2 : ℝ} (h : Smooth2 f f' L L2) (x d : E) :
    ‖f (x + d) - f x - f' x d‖ ≤ L2 * ‖d‖ ^ 2 := by
  have := Convex.norm_image_sub_le_of_norm_hasFDerivWithin_le (s := segment ℝ x (x + d))
    (f := fun z => f z - f' x z) (f' := fun z => f' z - f' x) (C := L2 * ‖d‖) (x := x) (y := x + d)
    (fun z _ => ((h.deriv z).sub (f' x).hasFDerivAt).hasFDerivWithinAt)
    (fun z hz => (h.dlip z x).trans (mul_le_mul_of_nonneg_left (by
      have := norm_sub_le_of_mem_segment hz
      simpa using this) h.lip2)) (convex_segment _ _) (left_mem_segment ℝ _ _) (right_mem_segment ℝ _ _)
  have e : f (x + d) - f' x (x + d) - (f x - f' x x) = f (x + d) - f x - f' x d := by
    rw [map_add]; abel
  simp only [e, add_sub_cancel_left] at this
  calc _ ≤ _ := this
    _ = _ := by ring

/-- Second-order Taylor expansion of the solution. -/
theorem Smooth2.taylor2 {f : E → E} {f' : E → E →L[ℝ] E} {L L2 : ℝ} (hf : Smooth2 f f' L L2) {y : ℝ → E} {T B : ℝ}
    (hy : IsSol f y T) (hB : ∀ t ∈ Icc 0 T, ‖f (y t)‖ ≤ B) {t k : ℝ} (ht : 0 ≤ t) (hk : 0 ≤ k) (hT : t + k ≤ T) :
    ‖f (y (t + k)) - f (y t) - k • f' (y t) (f (y t))‖ ≤ (L2 * B ^ 2 + L * (L * B)) * k ^ 2 ∧
    ‖y (t + k) - y t - k • f (y t) - (k ^ 2 / 2) • f' (y t) (f (y t))‖ ≤ (L2 * B ^ 2 + L * (L * B)) * k ^ 3 := by
  have hB0 : 0 ≤ B := (norm_nonneg _).trans (hB t ⟨ht, by linarith⟩)
  have hL := hf.lip.1
  have h1 : ∀ k, 0 ≤ k → t + k ≤ T →
      ‖f (y (t + k)) - f (y t) - k • f' (y t) (f (y t))‖ ≤ (L2 * B ^ 2 + L * (L * B)) * k ^ 2 := by
    intro k hk hT
    obtain ⟨a1, a2⟩ := hy.taylor1 hf.lip hB ht hk hT
    have a3 := hf.expand (y t) (y (t + k) - y t)
    rw [add_sub_cancel] at a3
    have e : f (y (t + k)) - f (y t) - k • f' (y t) (f (y t))
        = (f (y (t + k)) - f (y t) - f' (y t) (y (t + k) - y t))
          + f' (y t) (y (t + k) - y t - k • f (y t)) := by
      simp only [map_sub, map_smul]; abel
    rw [e]
    calc _ ≤ _ := norm_add_le _ _
      _ ≤ L2 * (B * k) ^ 2 + L * (L * B * k ^ 2) := by
        refine add_le_add (a3.trans ?_) (((f' (y t)).le_opNorm _).trans ?_)
        · have := hf.lip2
          gcongr
        · have := hf.bound (y t)
          gcongr
      _ = _ := by ring
  refine ⟨h1 k hk hT, ?_⟩
  have h2 := mean_value (g := fun s => y s - (s - t) • f (y t) - ((s - t) ^ 2 / 2) • f' (y t) (f (y t)))
    (g' := fun s => f (y s) - f (y t) - (s - t) • f' (y t) (f (y t)))
    (C := (L2 * B ^ 2 + L * (L * B)) * k ^ 2) ht hk hT (fun s hs => by
      have d1 : HasDerivWithinAt (fun s : ℝ => s - t) 1 (Icc 0 T) s := (hasDerivWithinAt_id s (Icc 0 T)).sub_const t
      have d2 : HasDerivWithinAt (fun s : ℝ => (s - t) ^ 2 / 2) (s - t) (Icc 0 T) s :=
        ((d1.pow 2).div_const 2).congr_deriv (by push_cast; ring)
      have e1 : HasDerivWithinAt (fun s => y s - (s - t) • f (y t) - ((s - t) ^ 2 / 2) • f' (y t) (f (y t)))
          (f (y s) - (1 : ℝ) • f (y t) - (s - t) • f' (y t) (f (y t))) (Icc 0 T) s :=
        ((hy s hs).sub (d1.smul_const (f (y t)))).sub (d2.smul_const _)
      simpa using e1) (fun s hs => by
      have e2 := h1 (s - t) (by linarith [hs.1]) (by linarith [hs.2])
      have e3 : t + (s - t) = s := by ring
      rw [e3] at e2
      refine e2.trans ?_
      have e4 : (s - t) ^ 2 ≤ k ^ 2 := pow_le_pow_left₀ (by linarith [hs.1]) (by linarith [hs.2]) _
      have := hf.lip2
      gcongr)
  have e : y (t + k) - (t + k - t) • f (y t) - ((t + k - t) ^ 2 / 2) • f' (y t) (f (y t))
        - (y t - (t - t) • f (y t) - ((t - t) ^ 2 / 2) • f' (y t) (f (y t)))
      = y (t + k) - y t - k • f (y t) - (k ^ 2 / 2) • f' (y t) (f (y t)) := by
    simp only [add_sub_cancel_left, sub_self, zero_smul, sub_zero, ne_eq, OfNat.ofNat_ne_zero, not_false_eq_true,
      zero_pow, zero_div]; abel
  simp only [e] at h2
  calc _ ≤ _ := h2
    _ = _ := by ring

/-- The stages to second order. -/
theorem Smooth2.rkK_expand (a : ℕ → ℕ → ℝ) {f : E → E} {f' : E → E →L[ℝ] E} {L L2 : ℝ} (hf : Smooth2 f f' L L2)
    (H : ℝ) (hH : 0 ≤ H) (B : ℝ) (hB : 0 ≤ B) (i : ℕ) :
    ∃ C, 0 ≤ C ∧ ∀ h, 0 ≤ h → h ≤ H → ∀ x, ‖f x‖ ≤ B →
      ‖rkK a f h x i - f x - (h * ∑ j ∈ range i, a i j) • f' x (f x)‖ ≤ C * h ^ 2 := by
  choose C hC0 hC using fun i => rkK_near a hf.lip H hH i
  have hL := hf.lip.1
  have hL2 := hf.lip2
  let S : ℝ := ∑ j ∈ range i, |a i j| * C j
  let S1 : ℝ := ∑ j ∈ range i, |a i j| * (C j * H + 1)
  have hS : 0 ≤ S := Finset.sum_nonneg fun j _ => mul_nonneg (abs_nonneg _) (hC0 j)
  have hS1 : 0 ≤ S1 := Finset.sum_nonneg fun j _ => mul_nonneg (abs_nonneg _)
    (add_nonneg (mul_nonneg (hC0 j) hH) zero_le_one)
  refine ⟨L2 * (S1 * B) ^ 2 + L * (S * B), by positivity, fun h hh hhH x hx => ?_⟩
  set d : E := h • ∑ j ∈ range i, a i j • rkK a f h x j with hd
  have n1 : ‖d‖ ≤ h * (S1 * B) := by
    rw [hd, norm_smul, Real.norm_eq_abs, abs_of_nonneg hh]
    refine mul_le_mul_of_nonneg_left ?_ hh
    have : S1 * B = ∑ j ∈ range i, |a i j| * (C j * H + 1) * B := by rw [Finset.sum_mul]
    rw [this]
    refine norm_sum_le_of_le _ fun j _ => ?_
    rw [norm_smul, Real.norm_eq_abs, mul_assoc]
    refine mul_le_mul_of_nonneg_left ?_ (abs_nonneg _)
    have e1 := hC j h hh hhH x
    have e2 : ‖rkK a f h x j‖ ≤ ‖rkK a f h x j - f x‖ + ‖f x‖ := by
      simpa using norm_add_le (rkK a f h x j - f x) (f x)
    have e3 : C j * h * ‖f x‖ ≤ C j * H * B := by
      have := hC0 j
      gcongr
    calc _ ≤ C j * H * B + B := by linarith
      _ = _ := by ring
  have n2 : ‖d - (h * ∑ j ∈ range i, a i j) • f x‖ ≤ S * B * h ^ 2 := by
    have e : d - (h * ∑ j ∈ range i, a i j) • f x = h • ∑ j ∈ range i, a i j • (rkK a f h x j - f x) := by
      rw [hd, mul_smul]; simp only [smul_sub, Finset.sum_sub_distrib, Finset.sum_smul]
    rw [e, norm_smul, Real.norm_eq_abs, abs_of_nonneg hh]
    have : ‖∑ j ∈ range i, a i j • (rkK a f h x j - f x)‖ ≤ S * (h * B) := by
      rw [Finset.sum_mul]
      refine norm_sum_le_of_le _ fun j _ => ?_
      rw [norm_smul, Real.norm_eq_abs, mul_assoc]
      refine mul_le_mul_of_nonneg_left ?_ (abs_nonneg _)
      calc _ ≤ C j * h * ‖f x‖ := hC j h hh hhH x
        _ ≤ C j * h * B := by
          have := hC0 j
          gcongr
        _ = _ := by ring
    calc _ ≤ h * (S * (h * B)) := by gcongr
      _ = _ := by ring
  have e : rkK a f h x i - f x - (h * ∑ j ∈ range i, a i j) • f' x (f x)
      = (f (x + d) - f x - f' x d) + f' x (d - (h * ∑ j ∈ range i, a i j) • f x) := by
    have e0 : f' x ((h * ∑ j ∈ range i, a i j) • f x) = (h * ∑ j ∈ range i, a i j) • f' x (f x) := map_smul _ _ _
    rw [rkK_eq, ← hd, map_sub, e0]; abel
  rw [e]
  calc _ ≤ _ := norm_add_le _ _
    _ ≤ L2 * (h * (S1 * B)) ^ 2 + L * (S * B * h ^ 2) := by
      refine add_le_add ((hf.expand x d).trans ?_) (((f' x).le_opNorm _).trans ?_)
      · gcongr
      · have := hf.bound x
        gcongr
    _ = _ := by ring

/-- The local error of a method that satisfies the conditions of order two. -/
theorem rk_local2 (a : ℕ → ℕ → ℝ) (b : ℕ → ℝ) (s : ℕ) {f : E → E} {f' : E → E →L[ℝ] E} {L L2 : ℝ}
    (hf : Smooth2 f f' L L2) {T : ℝ} (hT : 0 ≤ T) (h1 : ∑ i ∈ range s, b i = 1)
    (h2 : ∑ i ∈ range s, b i * ∑ j ∈ range i, a i j = 1 / 2) {y : ℝ → E} (hy : IsSol f y T) :
    ∃ D, 0 ≤ D ∧ ∀ h, 0 ≤ h → h ≤ T → ∀ t, 0 ≤ t → t + h ≤ T →
      ‖rkStep a b s f h (y t) - y (t + h)‖ ≤ D * h ^ (2 + 1) := by
  obtain ⟨B, hB0, hB⟩ := hy.bounded hf.lip
  choose C hC0 hC using fun i => hf.rkK_expand a T hT B hB0 i
  have hL := hf.lip.1
  have hL2 := hf.lip2
  let Q : ℝ := ∑ i ∈ range s, |b i| * C i
  have hQ : 0 ≤ Q := Finset.sum_nonneg fun j _ => mul_nonneg (abs_nonneg _) (hC0 j)
  refine ⟨Q + (L2 * B ^ 2 + L * (L * B)), by positivity, fun h hh hhT t ht hth => ?_⟩
  have e1 := (hf.taylor2 hy hB ht hh hth).2
  have e2 : rkStep a b s f h (y t) - (y t + h • f (y t) + (h ^ 2 / 2) • f' (y t) (f (y t)))
      = h • ∑ i ∈ range s, b i • (rkK a f h (y t) i - f (y t) - (h * ∑ j ∈ range i, a i j) • f' (y t) (f (y t))) := by
    have s1 : ∑ i ∈ range s, b i • f (y t) = f (y t) := by rw [← Finset.sum_smul, h1, one_smul]
    have s2 : ∑ i ∈ range s, b i • (h * ∑ j ∈ range i, a i j) • f' (y t) (f (y t))
        = (h * (1 / 2)) • f' (y t) (f (y t)) := by
      rw [← h2, Finset.mul_sum, Finset.sum_smul]
      refine Finset.sum_congr rfl fun i _ => ?_
      rw [smul_smul]; congr 1; ring
    simp only [smul_sub, Finset.sum_sub_distrib, s1, s2, rkStep]
    rw [smul_smul h (h * (1 / 2)), show h * (h * (1 / 2)) = h ^ 2 / 2 by ring]
    abel
  have e3 : ‖rkStep a b s f h (y t) - (y t + h • f (y t) + (h ^ 2 / 2) • f' (y t) (f (y t)))‖ ≤ Q * h ^ 3 := by
    rw [e2, norm_smul, Real.norm_eq_abs, abs_of_nonneg hh]
    have : ‖∑ i ∈ range s, b i • (rkK a f h (y t) i - f (y t)
        - (h * ∑ j ∈ range i, a i j) • f' (y t) (f (y t)))‖ ≤ Q * h ^ 2 := by
      rw [Finset.sum_mul]
      refine norm_sum_le_of_le _ fun i _ => ?_
      rw [norm_smul, Real.norm_eq_abs, mul_assoc]
      exact mul_le_mul_of_nonneg_left (hC i h hh hhT (y t) (hB t ⟨ht, by linarith⟩)) (abs_nonneg _)
    calc _ ≤ h * (Q * h ^ 2) := by gcongr
      _ = _ := by ring
  have e4 : rkStep a b s f h (y t) - y (t + h)
      = (rkStep a b s f h (y t) - (y t + h • f (y t) + (h ^ 2 / 2) • f' (y t) (f (y t))))
        - (y (t + h) - y t - h • f (y t) - (h ^ 2 / 2) • f' (y t) (f (y t))) := by abel
  rw [e4]
  calc _ ≤ _ := norm_sub_le _ _
    _ ≤ Q * h ^ 3 + (L2 * B ^ 2 + L * (L * B)) * h ^ 3 := add_le_add e3 e1
    _ = _ := by ring

end Gusto.Convergence
