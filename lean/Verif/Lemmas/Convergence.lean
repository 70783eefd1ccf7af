import Verif.Spec.Convergence
import Mathlib.Analysis.Calculus.MeanValue
import Mathlib.Analysis.Calculus.Deriv.Add
import Mathlib.Analysis.Calculus.Deriv.Mul
import Mathlib.Analysis.Calculus.Deriv.Pow
import Mathlib.Analysis.Calculus.Deriv.Comp
import Mathlib.Analysis.SpecialFunctions.Exp
import Mathlib.Tactic.Positivity
import Mathlib.Tactic.Linarith
import Mathlib.Tactic.Ring
import Mathlib.Tactic.Module
import Mathlib.Tactic.Abel
import Verif.Spec.RK

set_option autoImplicit false
set_option linter.unusedSectionVars false
set_option linter.unusedSimpArgs false

/-!
# Convergence of one-step methods: the general part
-/

namespace Gusto.Convergence
open Gusto.Spec Finset Set

/-- Discrete Gronwall inequality. -/
theorem gronwall {e : ℕ → ℝ} {a b : ℝ} (ha : 0 ≤ a) (hb : 0 ≤ b) (N : ℕ) (h0 : 0 ≤ e 0)
    (h : ∀ n < N, e (n + 1) ≤ (1 + a) * e n + b) : e N ≤ Real.exp (N * a) * (e 0 + N * b) := by
  have key : ∀ n ≤ N, e n ≤ (1 + a) ^ n * (e 0 + n * b) := by
    intro n
    induction n with
    | zero => intro _; simp
    | succ n ih =>
      intro hn
      have h1 := ih (by omega)
      have h2 := h n (by omega)
      have h3 : 1 ≤ (1 + a) ^ (n + 1) := one_le_pow₀ (by linarith)
      push_cast
      calc e (n + 1) ≤ (1 + a) * ((1 + a) ^ n * (e 0 + n * b)) + b := by nlinarith
        _ ≤ (1 + a) * ((1 + a) ^ n * (e 0 + n * b)) + (1 + a) ^ (n + 1) * b := by nlinarith
        _ = (1 + a) ^ (n + 1) * (e 0 + (n + 1) * b) := by ring
  refine (key N le_rfl).trans ?_
  have h1 : (1 + a) ^ N ≤ Real.exp (N * a) := by
    rw [Real.exp_nat_mul]
    exact pow_le_pow_left₀ (by linarith) (by linarith [Real.add_one_le_exp a]) _
  exact mul_le_mul_of_nonneg_right h1 (by positivity)

/-- The error of a one-step method: stability and local error give the global error. -/
theorem global_error {e : ℕ → ℝ} {lam D h T : ℝ} {p N : ℕ} (hl : 0 ≤ lam) (hD : 0 ≤ D) (hh : 0 ≤ h)
    (hN : N * h ≤ T) (h0 : 0 ≤ e 0) (hs : ∀ n < N, e (n + 1) ≤ (1 + h * lam) * e n + D * h ^ (p + 1)) :
    e N ≤ Real.exp (T * lam) * (e 0 + T * D * h ^ p) := by
  have h1 := gronwall (a := h * lam) (b := D * h ^ (p + 1)) (by positivity) (by positivity) N h0 hs
  refine h1.trans ?_
  have h2 : (N : ℝ) * (h * lam) ≤ T * lam := by nlinarith
  have h3 : (N : ℝ) * (D * h ^ (p + 1)) ≤ T * D * h ^ p := by
    have : (N : ℝ) * (D * h ^ (p + 1)) = (N * h) * (D * h ^ p) := by ring
    rw [this]
    calc _ ≤ T * (D * h ^ p) := mul_le_mul_of_nonneg_right hN (by positivity)
      _ = _ := by ring
  exact mul_le_mul (Real.exp_le_exp.mpr h2) (by linarith) (by positivity) (by positivity)

variable {E : Type*} [NormedAddCommGroup E] [NormedSpace ℝ E]

/-- The mean value inequality from `t` to `t + h` inside `[0, T]`. -/
theorem mean_value {g g' : ℝ → E} {T C : ℝ} {t h : ℝ} (ht : 0 ≤ t) (hh : 0 ≤ h) (hT : t + h ≤ T)
    (hg : ∀ s ∈ Icc 0 T, HasDerivWithinAt g (g' s) (Icc 0 T) s) (hC : ∀ s ∈ Icc t (t + h), ‖g' s‖ ≤ C) :
    ‖g (t + h) - g t‖ ≤ C * h := by
  have hsub : Icc t (t + h) ⊆ Icc 0 T := Icc_subset_Icc ht hT
  have := Convex.norm_image_sub_le_of_norm_hasDerivWithin_le (s := Icc t (t + h)) (f := g) (f' := g') (C := C)
    (x := t) (y := t + h) (fun s hs => (hg s (hsub hs)).mono hsub) hC (convex_Icc _ _)
    ⟨le_rfl, by linarith⟩ ⟨by linarith, le_rfl⟩
  simpa [abs_of_nonneg hh] using this

theorem Lip.continuous {f : E → E} {L : ℝ} (h : Lip f L) : Continuous f := by
  have : LipschitzWith ⟨L, h.1⟩ f := LipschitzWith.of_dist_le_mul fun x y => by
    rw [dist_eq_norm, dist_eq_norm]; exact h.2 x y
  exact this.continuous

theorem IsSol.continuousOn {f : E → E} {y : ℝ → E} {T : ℝ} (h : IsSol f y T) : ContinuousOn y (Icc 0 T) :=
  fun t ht => (h t ht).continuousWithinAt

theorem IsSol.bounded {f : E → E} {y : ℝ → E} {T L : ℝ} (h : IsSol f y T) (hf : Lip f L) :
    ∃ B, 0 ≤ B ∧ ∀ t ∈ Icc 0 T, ‖f (y t)‖ ≤ B := by
  obtain ⟨B, hB⟩ := isCompact_Icc.exists_bound_of_continuousOn (hf.continuous.comp_continuousOn h.continuousOn)
  refine ⟨max B 0, le_max_right _ _, fun t ht => (hB t ht).trans (le_max_left _ _)⟩

/-- First-order Taylor expansion of the solution, with a remainder that does not depend on the time. -/
theorem IsSol.taylor1 {f : E → E} {y : ℝ → E} {T L B : ℝ} (h : IsSol f y T) (hf : Lip f L)
    (hB : ∀ t ∈ Icc 0 T, ‖f (y t)‖ ≤ B) {t k : ℝ} (ht : 0 ≤ t) (hk : 0 ≤ k) (hT : t + k ≤ T) :
    ‖y (t + k) - y t‖ ≤ B * k ∧ ‖y (t + k) - y t - k • f (y t)‖ ≤ L * B * k ^ 2 := by
  have h1 : ∀ k, 0 ≤ k → t + k ≤ T → ‖y (t + k) - y t‖ ≤ B * k := fun k hk hT =>
    mean_value ht hk hT h fun s hs => hB s ⟨ht.trans hs.1, hs.2.trans hT⟩
  refine ⟨h1 k hk hT, ?_⟩
  have hB0 : 0 ≤ B := (norm_nonneg _).trans (hB t ⟨ht, by linarith⟩)
  have h2 := mean_value (g := fun s => y s - (s - t) • f (y t)) (g' := fun s => f (y s) - f (y t))
    (C := L * B * k) ht hk hT (fun s hs => by
      have e1 : HasDerivWithinAt (fun s => y s - (s - t) • f (y t)) (f (y s) - (1 : ℝ) • f (y t)) (Icc 0 T) s :=
        (h s hs).sub (((hasDerivWithinAt_id s (Icc 0 T)).sub_const t).smul_const (f (y t)))
      simpa using e1) (fun s hs => by
      have e1 := hf.2 (y s) (y t)
      have e2 := h1 (s - t) (by linarith [hs.1]) (by linarith [hs.2])
      have e3 : t + (s - t) = s := by ring
      rw [e3] at e2
      have e4 : B * (s - t) ≤ B * k := mul_le_mul_of_nonneg_left (by linarith [hs.2]) hB0
      calc ‖f (y s) - f (y t)‖ ≤ L * ‖y s - y t‖ := e1
        _ ≤ L * (B * k) := mul_le_mul_of_nonneg_left (e2.trans e4) hf.1
        _ = L * B * k := by ring)
  have e : y (t + k) - (t + k - t) • f (y t) - (y t - (t - t) • f (y t)) = y (t + k) - y t - k • f (y t) := by
    simp only [add_sub_cancel_left, sub_self, zero_smul, sub_zero]; abel
  simp only [e] at h2
  calc _ ≤ L * B * k * k := h2
    _ = L * B * k ^ 2 := by ring

/-! ### Explicit Runge-Kutta methods -/

theorem rkK_eq (a : ℕ → ℕ → ℝ) (f : E → E) (h : ℝ) (x : E) (i : ℕ) :
    rkK a f h x i = f (x + h • ∑ j ∈ range i, a i j • rkK a f h x j) := by
  rw [rkK, Finset.sum_range]

/-- The stages depend Lipschitz-continuously on the state, uniformly in the timestep. -/
theorem rkK_lip (a : ℕ → ℕ → ℝ) {f : E → E} {L : ℝ} (hf : Lip f L) (H : ℝ) (hH : 0 ≤ H) (i : ℕ) :
    ∃ C, 0 ≤ C ∧ ∀ h, 0 ≤ h → h ≤ H → ∀ x y, ‖rkK a f h x i - rkK a f h y i‖ ≤ C * ‖x - y‖ := by
  induction i using Nat.strong_induction_on with
  | _ i ih =>
    have : ∀ j, ∃ C, 0 ≤ C ∧ (j < i → ∀ h, 0 ≤ h → h ≤ H → ∀ x y,
        ‖rkK a f h x j - rkK a f h y j‖ ≤ C * ‖x - y‖) := by
      intro j
      by_cases hj : j < i
      · obtain ⟨C, h0, h1⟩ := ih j hj
        exact ⟨C, h0, fun _ => h1⟩
      · exact ⟨0, le_rfl, fun h => absurd h hj⟩
    choose C hC0 hC using this
    refine ⟨L * (1 + H * ∑ j ∈ range i, |a i j| * C j), ?_, ?_⟩
    · have : 0 ≤ ∑ j ∈ range i, |a i j| * C j := Finset.sum_nonneg fun j _ => mul_nonneg (abs_nonneg _) (hC0 j)
      exact mul_nonneg hf.1 (by positivity)
    intro h h0 hh x y
    rw [rkK_eq, rkK_eq]
    refine (hf.2 _ _).trans ?_
    rw [mul_assoc]
    refine mul_le_mul_of_nonneg_left ?_ hf.1
    have e : x + h • ∑ j ∈ range i, a i j • rkK a f h x j - (y + h • ∑ j ∈ range i, a i j • rkK a f h y j)
        = (x - y) + h • ∑ j ∈ range i, a i j • (rkK a f h x j - rkK a f h y j) := by
      simp only [smul_sub, Finset.sum_sub_distrib]; abel
    rw [e]
    have s1 : ‖∑ j ∈ range i, a i j • (rkK a f h x j - rkK a f h y j)‖
        ≤ (∑ j ∈ range i, |a i j| * C j) * ‖x - y‖ := by
      rw [Finset.sum_mul]
      refine norm_sum_le_of_le _ fun j hj => ?_
      rw [norm_smul, Real.norm_eq_abs, mul_assoc]
      exact mul_le_mul_of_nonneg_left (hC j (Finset.mem_range.mp hj) h h0 hh x y) (abs_nonneg _)
    have s2 : 0 ≤ ∑ j ∈ range i, |a i j| * C j := Finset.sum_nonneg fun j _ => mul_nonneg (abs_nonneg _) (hC0 j)
    calc _ ≤ ‖x - y‖ + ‖h • ∑ j ∈ range i, a i j • (rkK a f h x j - rkK a f h y j)‖ := norm_add_le _ _
      _ ≤ ‖x - y‖ + H * ((∑ j ∈ range i, |a i j| * C j) * ‖x - y‖) := by
          rw [norm_smul, Real.norm_eq_abs, abs_of_nonneg h0]
          gcongr
      _ = _ := by ring

/-- A Runge-Kutta step enlarges errors by at most the factor `1 + C h`. -/
theorem rkStep_lip (a : ℕ → ℕ → ℝ) (b : ℕ → ℝ) (s : ℕ) {f : E → E} {L : ℝ} (hf : Lip f L) (H : ℝ) (hH : 0 ≤ H) :
    ∃ C, 0 ≤ C ∧ ∀ h, 0 ≤ h → h ≤ H → ∀ x y,
      ‖rkStep a b s f h x - rkStep a b s f h y‖ ≤ (1 + h * C) * ‖x - y‖ := by
  choose C hC0 hC using fun i => rkK_lip a hf H hH i
  refine ⟨∑ j ∈ range s, |b j| * C j, Finset.sum_nonneg fun j _ => mul_nonneg (abs_nonneg _) (hC0 j), ?_⟩
  intro h h0 hh x y
  have e : rkStep a b s f h x - rkStep a b s f h y
      = (x - y) + h • ∑ j ∈ range s, b j • (rkK a f h x j - rkK a f h y j) := by
    simp only [rkStep, smul_sub, Finset.sum_sub_distrib]; abel
  rw [e]
  have s1 : ‖∑ j ∈ range s, b j • (rkK a f h x j - rkK a f h y j)‖ ≤ (∑ j ∈ range s, |b j| * C j) * ‖x - y‖ := by
    rw [Finset.sum_mul]
    refine norm_sum_le_of_le _ fun j _ => ?_
    rw [norm_smul, Real.norm_eq_abs, mul_assoc]
    exact mul_le_mul_of_nonneg_left (hC j h h0 hh x y) (abs_nonneg _)
  calc _ ≤ ‖x - y‖ + ‖h • ∑ j ∈ range s, b j • (rkK a f h x j - rkK a f h y j)‖ := norm_add_le _ _
    _ ≤ ‖x - y‖ + h * ((∑ j ∈ range s, |b j| * C j) * ‖x - y‖) := by
        rw [norm_smul, Real.norm_eq_abs, abs_of_nonneg h0]
        gcongr
    _ = _ := by ring

/-- The stages stay near the tendency. -/
theorem rkK_near (a : ℕ → ℕ → ℝ) {f : E → E} {L : ℝ} (hf : Lip f L) (H : ℝ) (hH : 0 ≤ H) (i : ℕ) :
    ∃ C, 0 ≤ C ∧ ∀ h, 0 ≤ h → h ≤ H → ∀ x, ‖rkK a f h x i - f x‖ ≤ C * h * ‖f x‖ := by
  induction i using Nat.strong_induction_on with
  | _ i ih =>
    have : ∀ j, ∃ C, 0 ≤ C ∧ (j < i → ∀ h, 0 ≤ h → h ≤ H → ∀ x, ‖rkK a f h x j - f x‖ ≤ C * h * ‖f x‖) := by
      intro j
      by_cases hj : j < i
      · obtain ⟨C, h0, h1⟩ := ih j hj
        exact ⟨C, h0, fun _ => h1⟩
      · exact ⟨0, le_rfl, fun h => absurd h hj⟩
    choose C hC0 hC using this
    refine ⟨L * ∑ j ∈ range i, |a i j| * (C j * H + 1),
      mul_nonneg hf.1 (Finset.sum_nonneg fun j _ => mul_nonneg (abs_nonneg _)
        (add_nonneg (mul_nonneg (hC0 j) hH) zero_le_one)), ?_⟩
    intro h h0 hh x
    rw [rkK_eq]
    refine (hf.2 _ _).trans ?_
    rw [add_sub_cancel_left, norm_smul, Real.norm_eq_abs, abs_of_nonneg h0]
    have s1 : ‖∑ j ∈ range i, a i j • rkK a f h x j‖ ≤ (∑ j ∈ range i, |a i j| * (C j * H + 1)) * ‖f x‖ := by
      rw [Finset.sum_mul]
      refine norm_sum_le_of_le _ fun j hj => ?_
      rw [norm_smul, Real.norm_eq_abs, mul_assoc]
      refine mul_le_mul_of_nonneg_left ?_ (abs_nonneg _)
      have e1 := hC j (Finset.mem_range.mp hj) h h0 hh x
      have e2 : ‖rkK a f h x j‖ ≤ ‖rkK a f h x j - f x‖ + ‖f x‖ := by
        simpa using norm_add_le (rkK a f h x j - f x) (f x)
      have e3 : C j * h * ‖f x‖ ≤ C j * H * ‖f x‖ := by
        have := hC0 j
        gcongr
      linarith
    calc L * (h * ‖∑ j ∈ range i, a i j • rkK a f h x j‖)
        ≤ L * (h * ((∑ j ∈ range i, |a i j| * (C j * H + 1)) * ‖f x‖)) := by
          have := hf.1
          gcongr
      _ = _ := by ring

/-- A Runge-Kutta step is a forward-Euler step with the sum of the weights, up to `h ^ 2`. -/
theorem rkStep_near (a : ℕ → ℕ → ℝ) (b : ℕ → ℝ) (s : ℕ) {f : E → E} {L : ℝ} (hf : Lip f L) (H : ℝ) (hH : 0 ≤ H) :
    ∃ C, 0 ≤ C ∧ ∀ h, 0 ≤ h → h ≤ H → ∀ x,
      ‖rkStep a b s f h x - (x + h • (∑ j ∈ range s, b j) • f x)‖ ≤ C * h ^ 2 * ‖f x‖ := by
  choose C hC0 hC using fun i => rkK_near a hf H hH i
  refine ⟨∑ j ∈ range s, |b j| * C j, Finset.sum_nonneg fun j _ => mul_nonneg (abs_nonneg _) (hC0 j), ?_⟩
  intro h h0 hh x
  have e : rkStep a b s f h x - (x + h • (∑ j ∈ range s, b j) • f x)
      = h • ∑ j ∈ range s, b j • (rkK a f h x j - f x) := by
    simp only [rkStep, smul_sub, Finset.sum_sub_distrib, Finset.sum_smul]; abel
  rw [e, norm_smul, Real.norm_eq_abs, abs_of_nonneg h0]
  have s1 : ‖∑ j ∈ range s, b j • (rkK a f h x j - f x)‖ ≤ (∑ j ∈ range s, |b j| * C j) * (h * ‖f x‖) := by
    rw [Finset.sum_mul]
    refine norm_sum_le_of_le _ fun j _ => ?_
    rw [norm_smul, Real.norm_eq_abs, mul_assoc]
    refine mul_le_mul_of_nonneg_left ?_ (abs_nonneg _)
    calc _ ≤ C j * h * ‖f x‖ := hC j h h0 hh x
      _ = _ := by ring
  calc _ ≤ h * ((∑ j ∈ range s, |b j| * C j) * (h * ‖f x‖)) := by gcongr
    _ = _ := by ring

/-- Iterating a map that is stable and consistent. -/
theorem iterate_error {Φ : E → E} {y : ℝ → E} {lam D h T : ℝ} {p : ℕ} (hl : 0 ≤ lam) (hD : 0 ≤ D) (hh : 0 ≤ h)
    (hstab : ∀ x x', ‖Φ x - Φ x'‖ ≤ (1 + h * lam) * ‖x - x'‖)
    (hcons : ∀ t, 0 ≤ t → t + h ≤ T → ‖Φ (y t) - y (t + h)‖ ≤ D * h ^ (p + 1)) (x0 : E) (N : ℕ) (hN : N * h ≤ T) :
    ‖Φ^[N] x0 - y (N * h)‖ ≤ Real.exp (T * lam) * (‖x0 - y 0‖ + T * D * h ^ p) := by
  have := global_error (e := fun n => ‖Φ^[n] x0 - y (n * h)‖) (N := N) hl hD hh hN (norm_nonneg _) fun n hn => by
    have hn' : (n : ℝ) + 1 ≤ N := by exact_mod_cast hn
    have e1 := hcons (n * h) (by positivity) (by nlinarith)
    have e2 := hstab (Φ^[n] x0) (y (n * h))
    have e3 : ((n + 1 : ℕ) : ℝ) * h = n * h + h := by push_cast; ring
    simp only [Function.iterate_succ_apply', e3]
    calc _ ≤ ‖Φ (Φ^[n] x0) - Φ (y (n * h))‖ + ‖Φ (y (n * h)) - y (n * h + h)‖ := norm_sub_le_norm_sub_add_norm_sub _ _ _
      _ ≤ _ := add_le_add e2 e1
  simpa using this

/-- An explicit Runge-Kutta method converges, with the first order, to the solution of the equation whose tendency is
multiplied by the sum of the weights. -/
theorem rk_converges (a : ℕ → ℕ → ℝ) (b : ℕ → ℝ) (s : ℕ) {f : E → E} {L : ℝ} (hf : Lip f L) {T : ℝ} (hT : 0 ≤ T)
    {y : ℝ → E} (hy : IsSol (fun x => (∑ j ∈ range s, b j) • f x) y T) :
    ∃ C, ∀ h, 0 ≤ h → ∀ N : ℕ, N * h ≤ T → ‖(rkStep a b s f h)^[N] (y 0) - y (N * h)‖ ≤ C * h := by
  obtain ⟨C1, h10, h1⟩ := rkStep_lip a b s hf T hT
  obtain ⟨C2, h20, h2⟩ := rkStep_near a b s hf T hT
  have hg : Lip (fun x => (∑ j ∈ range s, b j) • f x) (|∑ j ∈ range s, b j| * L) :=
    ⟨mul_nonneg (abs_nonneg _) hf.1, fun x y => by
      rw [← smul_sub, norm_smul, Real.norm_eq_abs, mul_assoc]
      exact mul_le_mul_of_nonneg_left (hf.2 x y) (abs_nonneg _)⟩
  obtain ⟨B, hB0, hB⟩ := hy.bounded hg
  obtain ⟨B', hB0', hB'⟩ : ∃ B', 0 ≤ B' ∧ ∀ t ∈ Icc 0 T, ‖f (y t)‖ ≤ B' := by
    obtain ⟨B, hB⟩ := isCompact_Icc.exists_bound_of_continuousOn
      (hf.continuous.comp_continuousOn hy.continuousOn)
    exact ⟨max B 0, le_max_right _ _, fun t ht => (hB t ht).trans (le_max_left _ _)⟩
  set D := C2 * B' + (|∑ j ∈ range s, b j| * L) * B
  have hD : 0 ≤ D := add_nonneg (mul_nonneg h20 hB0') (mul_nonneg hg.1 hB0)
  refine ⟨Real.exp (T * C1) * (T * D), fun h hh N hN => ?_⟩
  rcases Nat.eq_zero_or_pos N with rfl | hN0
  · simp; positivity
  have hhT : h ≤ T := by
    have : (1 : ℝ) ≤ N := by exact_mod_cast hN0
    nlinarith
  have := iterate_error (Φ := rkStep a b s f h) (y := y) (p := 1) h10 hD hh (h1 h hh hhT) (fun t ht hth => by
    have e1 := h2 h hh hhT (y t)
    have e2 := (hy.taylor1 hg hB ht hh hth).2
    have e3 : C2 * h ^ 2 * ‖f (y t)‖ ≤ C2 * h ^ 2 * B' := by
      have := hB' t ⟨ht, by linarith⟩
      gcongr
    have e4 : rkStep a b s f h (y t) - y (t + h)
        = (rkStep a b s f h (y t) - (y t + h • (∑ j ∈ range s, b j) • f (y t)))
          - (y (t + h) - y t - h • (∑ j ∈ range s, b j) • f (y t)) := by abel
    rw [e4]
    calc _ ≤ _ := norm_sub_le _ _
      _ ≤ C2 * h ^ 2 * B' + (|∑ j ∈ range s, b j| * L) * B * h ^ 2 := add_le_add (e1.trans e3) e2
      _ = D * h ^ (1 + 1) := by simp only [D]; ring) (y 0) N hN
  rw [sub_self, norm_zero, zero_add, pow_one] at this
  linarith [this, mul_assoc (Real.exp (T * C1)) (T * D) h]

end Gusto.Convergence
