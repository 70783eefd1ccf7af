import Verif.Lemmas.ConvergenceOrder
import Mathlib.Tactic.FieldSimp

set_option autoImplicit false
set_option linter.unusedSectionVars false
set_option linter.unusedSimpArgs false

/-!
# Convergence of the implicit one-step methods
-/

namespace Gusto.Convergence
open Gusto.Spec Finset Set

variable {E : Type*} [NormedAddCommGroup E] [NormedSpace ℝ E]

/-- The error of one theta step. -/
theorem theta_error {f : E → E} {L : ℝ} (hf : Lip f L) {h th : ℝ} (hh : 0 ≤ h) (h0 : 0 ≤ th) (h1 : th ≤ 1)
    (hL : h * L ≤ 1 / 2) {x x' Y Y' : E} (hx : x' = x + (h * th) • f x' + (h * (1 - th)) • f x) :
    ‖x' - Y'‖ ≤ (1 + h * (4 * L)) * ‖x - Y‖
      + 2 * ‖Y' - Y - (h * th) • f Y' - (h * (1 - th)) • f Y‖ := by
  set tau := ‖Y' - Y - (h * th) • f Y' - (h * (1 - th)) • f Y‖ with ht
  have e : x' - Y' = (x - Y) + (h * th) • (f x' - f Y') + (h * (1 - th)) • (f x - f Y)
      - (Y' - Y - (h * th) • f Y' - (h * (1 - th)) • f Y) := by
    nth_rewrite 1 [hx]
    simp only [smul_sub]; abel
  have n : ‖x' - Y'‖ ≤ ‖x - Y‖ + (h * th) * (L * ‖x' - Y'‖) + (h * (1 - th)) * (L * ‖x - Y‖) + tau := by
    nth_rewrite 1 [e]
    refine (norm_sub_le _ _).trans (add_le_add ((norm_add_le _ _).trans (add_le_add ((norm_add_le _ _).trans
      (add_le_add le_rfl ?_)) ?_)) le_rfl)
    · rw [norm_smul, Real.norm_eq_abs, abs_of_nonneg (by positivity)]
      exact mul_le_mul_of_nonneg_left (hf.2 _ _) (by positivity)
    · have : 0 ≤ h * (1 - th) := mul_nonneg hh (by linarith)
      rw [norm_smul, Real.norm_eq_abs, abs_of_nonneg this]
      exact mul_le_mul_of_nonneg_left (hf.2 _ _) this
  have hz : 0 ≤ h * L := mul_nonneg hh hf.1
  have ht0 : 0 ≤ tau := norm_nonneg _
  set z := h * L with hzdef
  set e' := ‖x' - Y'‖
  set e0 := ‖x - Y‖
  have he0 : 0 ≤ e0 := norm_nonneg _
  have n' : (1 - z * th) * e' ≤ (1 + z * (1 - th)) * e0 + tau := by
    have : e' ≤ e0 + z * th * e' + z * (1 - th) * e0 + tau := by
      calc e' ≤ _ := n
        _ = _ := by simp only [hzdef]; ring
    linarith
  have hzt : z * th ≤ 1 / 2 := by nlinarith
  have hp : 0 < 1 - z * th := by linarith
  have goal : (1 - z * th) * e' ≤ (1 - z * th) * ((1 + 4 * z) * e0 + 2 * tau) := by
    have a1 : (1 + z * (1 - th)) ≤ (1 - z * th) * (1 + 4 * z) := by nlinarith
    have a2 : tau ≤ (1 - z * th) * (2 * tau) := by nlinarith
    nlinarith [mul_le_mul_of_nonneg_right a1 he0]
  have := le_of_mul_le_mul_left goal hp
  calc e' ≤ _ := this
    _ = _ := by simp only [hzdef]; ring

/-- The local error of the theta method. -/
theorem theta_local {f : E → E} {L : ℝ} (hf : Lip f L) {y : ℝ → E} {T B : ℝ} (hy : IsSol f y T)
    (hB : ∀ t ∈ Icc 0 T, ‖f (y t)‖ ≤ B) {th : ℝ} (h0 : 0 ≤ th) (h1 : th ≤ 1) {t h : ℝ} (ht : 0 ≤ t) (hh : 0 ≤ h)
    (hT : t + h ≤ T) :
    ‖y (t + h) - y t - (h * th) • f (y (t + h)) - (h * (1 - th)) • f (y t)‖ ≤ 2 * L * B * h ^ 2 := by
  obtain ⟨a1, a2⟩ := hy.taylor1 hf hB ht hh hT
  have hB0 : 0 ≤ B := (norm_nonneg _).trans (hB t ⟨ht, by linarith⟩)
  have e : y (t + h) - y t - (h * th) • f (y (t + h)) - (h * (1 - th)) • f (y t)
      = (y (t + h) - y t - h • f (y t)) - (h * th) • (f (y (t + h)) - f (y t)) := by module
  rw [e]
  have hL := hf.1
  calc _ ≤ _ := norm_sub_le _ _
    _ ≤ L * B * h ^ 2 + (h * 1) * (L * (B * h)) := by
      refine add_le_add a2 ?_
      rw [norm_smul, Real.norm_eq_abs, abs_of_nonneg (by positivity)]
      have := hf.2 (y (t + h)) (y t)
      gcongr
      exact this.trans (by gcongr)
    _ = _ := by ring

/-- The local error of the trapezium rule. -/
theorem trapezium_local {f : E → E} {f' : E → E →L[ℝ] E} {L L2 : ℝ} (hf : Smooth2 f f' L L2) {y : ℝ → E} {T B : ℝ}
    (hy : IsSol f y T) (hB : ∀ t ∈ Icc 0 T, ‖f (y t)‖ ≤ B) {t h : ℝ} (ht : 0 ≤ t) (hh : 0 ≤ h) (hT : t + h ≤ T) :
    ‖y (t + h) - y t - (h * (1 / 2)) • f (y (t + h)) - (h * (1 - 1 / 2)) • f (y t)‖
      ≤ 2 * (L2 * B ^ 2 + L * (L * B)) * h ^ 3 := by
  obtain ⟨a1, a2⟩ := hf.taylor2 hy hB ht hh hT
  have hB0 : 0 ≤ B := (norm_nonneg _).trans (hB t ⟨ht, by linarith⟩)
  have hL := hf.lip.1
  have hL2 := hf.lip2
  have e : y (t + h) - y t - (h * (1 / 2)) • f (y (t + h)) - (h * (1 - 1 / 2)) • f (y t)
      = (y (t + h) - y t - h • f (y t) - (h ^ 2 / 2) • f' (y t) (f (y t)))
        - (h * (1 / 2)) • (f (y (t + h)) - f (y t) - h • f' (y t) (f (y t))) := by module
  rw [e]
  calc _ ≤ _ := norm_sub_le _ _
    _ ≤ (L2 * B ^ 2 + L * (L * B)) * h ^ 3 + (h * 1) * ((L2 * B ^ 2 + L * (L * B)) * h ^ 2) := by
      refine add_le_add a2 ?_
      rw [norm_smul, Real.norm_eq_abs, abs_of_nonneg (by positivity)]
      gcongr
      norm_num
    _ = _ := by ring

/-- From the error of one step to the global error, for sequences. -/
theorem seq_global {x : ℕ → E} {y : ℝ → E} {lam D h T : ℝ} {p : ℕ} (hl : 0 ≤ lam) (hD : 0 ≤ D) (hh : 0 ≤ h)
    (N : ℕ) (hN : N * h ≤ T) (h0 : x 0 = y 0)
    (hstep : ∀ n < N, ‖x (n + 1) - y (n * h + h)‖ ≤ (1 + h * lam) * ‖x n - y (n * h)‖ + D * h ^ (p + 1)) :
    ‖x N - y (N * h)‖ ≤ Real.exp (T * lam) * (T * D) * h ^ p := by
  have := global_error (e := fun n => ‖x n - y (n * h)‖) (N := N) hl hD hh hN (norm_nonneg _) fun n hn => by
    have e3 : ((n + 1 : ℕ) : ℝ) * h = n * h + h := by push_cast; ring
    simp only [e3]
    exact hstep n hn
  simp only [Nat.cast_zero, zero_mul, h0, sub_self, norm_zero, zero_add] at this
  linarith [mul_assoc (Real.exp (T * lam)) (T * D) (h ^ p)]

theorem step_le {n N : ℕ} {h T : ℝ} (hh : 0 ≤ h) (hn : n < N) (hN : N * h ≤ T) : n * h + h ≤ T := by
  have hn' : (n : ℝ) + 1 ≤ N := by exact_mod_cast hn
  nlinarith

/-- The theta method converges with the first order. -/
theorem theta_converges {f : E → E} {L : ℝ} (hf : Lip f L) {T : ℝ} {th : ℝ} (h0 : 0 ≤ th) (h1 : th ≤ 1)
    {y : ℝ → E} (hy : IsSol f y T) :
    ∃ C, ∀ h, 0 ≤ h → h * L ≤ 1 / 2 → ∀ (x : ℕ → E) (N : ℕ), N * h ≤ T → x 0 = y 0 →
      (∀ n < N, x (n + 1) = x n + (h * th) • f (x (n + 1)) + (h * (1 - th)) • f (x n)) →
      ‖x N - y (N * h)‖ ≤ C * h := by
  obtain ⟨B, hB0, hB⟩ := hy.bounded hf
  have hL := hf.1
  refine ⟨Real.exp (T * (4 * L)) * (T * (2 * (2 * L * B))), fun h hh hhL x N hN hx0 hx => ?_⟩
  have := seq_global (x := x) (y := y) (lam := 4 * L) (D := 2 * (2 * L * B)) (p := 1) (by positivity) (by positivity)
    hh N hN hx0 fun n hn => by
      have e1 := theta_error hf hh h0 h1 hhL (hx n hn) (Y := y (n * h)) (Y' := y (n * h + h))
      have e2 := theta_local hf hy hB h0 h1 (t := n * h) (by positivity) hh (step_le hh hn hN)
      calc _ ≤ _ := e1
        _ ≤ (1 + h * (4 * L)) * ‖x n - y (n * h)‖ + 2 * (2 * L * B * h ^ 2) := by gcongr
        _ = _ := by ring
  simpa using this

/-- The trapezium rule converges with the second order. -/
theorem trapezium_converges {f : E → E} {f' : E → E →L[ℝ] E} {L L2 : ℝ} (hf : Smooth2 f f' L L2) {T : ℝ}
    {y : ℝ → E} (hy : IsSol f y T) :
    ∃ C, ∀ h, 0 ≤ h → h * L ≤ 1 / 2 → ∀ (x : ℕ → E) (N : ℕ), N * h ≤ T → x 0 = y 0 →
      (∀ n < N, x (n + 1) = x n + (h * (1 / 2)) • f (x (n + 1)) + (h * (1 - 1 / 2)) • f (x n)) →
      ‖x N - y (N * h)‖ ≤ C * h ^ 2 := by
  obtain ⟨B, hB0, hB⟩ := hy.bounded hf.lip
  have hL := hf.lip.1
  have hL2 := hf.lip2
  refine ⟨Real.exp (T * (4 * L)) * (T * (2 * (2 * (L2 * B ^ 2 + L * (L * B))))), fun h hh hhL x N hN hx0 hx => ?_⟩
  refine seq_global (x := x) (y := y) (lam := 4 * L) (D := 2 * (2 * (L2 * B ^ 2 + L * (L * B)))) (p := 2)
    (by positivity) (by positivity) hh N hN hx0 fun n hn => ?_
  have e1 := theta_error hf.lip hh (by norm_num : (0 : ℝ) ≤ 1 / 2) (by norm_num) hhL (hx n hn) (Y := y (n * h))
    (Y' := y (n * h + h))
  have e2 := trapezium_local hf hy hB (t := n * h) (by positivity) hh (step_le hh hn hN)
  calc _ ≤ _ := e1
    _ ≤ (1 + h * (4 * L)) * ‖x n - y (n * h)‖ + 2 * (2 * (L2 * B ^ 2 + L * (L * B)) * h ^ 3) := by gcongr
    _ = _ := by ring

/-! ### TR-BDF2 -/

theorem solve_err {z e0 e' a b : ℝ} (hz0 : 0 ≤ z) (hz : z ≤ 1 / 2) (he : 0 ≤ e0) (ha : 0 ≤ a) (hb : 0 ≤ b)
    (h : e' ≤ e0 + a + z * e' + b) : e' ≤ (1 + 4 * z) * e0 + 2 * a + 2 * b := by
  have h1 : (1 - z) * e' ≤ e0 + a + b := by linarith
  have h2 : 1 ≤ (1 - z) * (1 + 4 * z) := by nlinarith
  have h3 : e0 ≤ (1 - z) * ((1 + 4 * z) * e0) := by
    calc e0 = 1 * e0 := by ring
      _ ≤ (1 - z) * (1 + 4 * z) * e0 := mul_le_mul_of_nonneg_right h2 he
      _ = _ := by ring
  have h4 : a ≤ (1 - z) * (2 * a) := by nlinarith
  have h5 : b ≤ (1 - z) * (2 * b) := by nlinarith
  have h6 : (1 - z) * e' ≤ (1 - z) * ((1 + 4 * z) * e0 + 2 * a + 2 * b) := by
    calc _ ≤ _ := h1
      _ ≤ (1 - z) * ((1 + 4 * z) * e0) + (1 - z) * (2 * a) + (1 - z) * (2 * b) := by linarith
      _ = _ := by ring
  exact le_of_mul_le_mul_left h6 (by linarith)

/-- The local error of the second stage. -/
theorem bdf2_stage_local {f : E → E} {f' : E → E →L[ℝ] E} {L L2 : ℝ} (hf : Smooth2 f f' L L2) {y : ℝ → E} {T B : ℝ}
    (hy : IsSol f y T) (hB : ∀ t ∈ Icc 0 T, ‖f (y t)‖ ≤ B) {g : ℝ} (hg0 : 0 < g) (hg1 : g ≤ 1) {t h : ℝ} (ht : 0 ≤ t)
    (hh : 0 ≤ h) (hT : t + h ≤ T) :
    ‖y (t + h) - (1 / (g * (2 - g))) • y (t + g * h) + ((1 - g) ^ 2 / (g * (2 - g))) • y t
        - ((1 - g) / (2 - g) * h) • f (y (t + h))‖
      ≤ (2 + 1 / (g * (2 - g))) * (L2 * B ^ 2 + L * (L * B)) * h ^ 3 := by
  obtain ⟨a1, a2⟩ := hf.taylor2 hy hB ht hh hT
  have hgh : g * h ≤ h := by nlinarith
  obtain ⟨-, b2⟩ := hf.taylor2 hy hB ht (by positivity : 0 ≤ g * h) (by linarith)
  have hB0 : 0 ≤ B := (norm_nonneg _).trans (hB t ⟨ht, by linarith⟩)
  have hL := hf.lip.1
  have hL2 := hf.lip2
  have h2g : 0 < 2 - g := by linarith
  set Q := L2 * B ^ 2 + L * (L * B) with hQdef
  have hQ : 0 ≤ Q := by positivity
  have e : y (t + h) - (1 / (g * (2 - g))) • y (t + g * h) + ((1 - g) ^ 2 / (g * (2 - g))) • y t
        - ((1 - g) / (2 - g) * h) • f (y (t + h))
      = (y (t + h) - y t - h • f (y t) - (h ^ 2 / 2) • f' (y t) (f (y t)))
        - (1 / (g * (2 - g))) • (y (t + g * h) - y t - (g * h) • f (y t)
            - ((g * h) ^ 2 / 2) • f' (y t) (f (y t)))
        - ((1 - g) / (2 - g) * h) • (f (y (t + h)) - f (y t) - h • f' (y t) (f (y t))) := by
    have c1 : (1 - g) ^ 2 / (g * (2 - g)) = 1 / (g * (2 - g)) - 1 := by field_simp; ring
    have c2 : (1 - g) / (2 - g) = 1 - 1 / (g * (2 - g)) * g := by field_simp; ring
    have c3 : 1 / 2 - 1 / (g * (2 - g)) * g ^ 2 / 2 - (1 - g) / (2 - g) = 0 := by field_simp; ring
    have c4 : 1 / (g * (2 - g)) * g ^ 2 = 2 * (1 / (g * (2 - g)) * g) - 1 := by rw [c2] at c3; linarith
    rw [c1, c2]
    set al := 1 / (g * (2 - g))
    have m1 : al • (y (t + g * h) - y t - (g * h) • f (y t) - ((g * h) ^ 2 / 2) • f' (y t) (f (y t)))
        = al • y (t + g * h) - al • y t - (al * g * h) • f (y t)
          - (al * g ^ 2 * (h ^ 2 / 2)) • f' (y t) (f (y t)) := by
      simp only [smul_sub, smul_smul]
      congr 2
      · congr 1; ring
      · ring
    rw [m1, c4]
    module
  rw [e]
  have hd : (1 - g) / (2 - g) ≤ 1 := by rw [div_le_one h2g]; linarith
  have hd0 : 0 ≤ (1 - g) / (2 - g) := div_nonneg (by linarith) h2g.le
  calc _ ≤ _ := (norm_sub_le _ _).trans (add_le_add (norm_sub_le _ _) le_rfl)
    _ ≤ Q * h ^ 3 + 1 / (g * (2 - g)) * (Q * h ^ 3) + 1 * h * (Q * h ^ 2) := by
      refine add_le_add (add_le_add a2 ?_) ?_
      · rw [norm_smul, Real.norm_eq_abs, abs_of_nonneg (by positivity)]
        have : (g * h) ^ 3 ≤ h ^ 3 := pow_le_pow_left₀ (by positivity) hgh _
        refine mul_le_mul_of_nonneg_left (b2.trans ?_) (by positivity)
        gcongr
      · rw [norm_smul, Real.norm_eq_abs, abs_of_nonneg (by positivity)]
        gcongr
    _ = _ := by ring

/-- TR-BDF2 converges with the second order. -/
theorem trbdf2_converges {f : E → E} {f' : E → E →L[ℝ] E} {L L2 : ℝ} (hf : Smooth2 f f' L L2) {T : ℝ}
    {g : ℝ} (hg0 : 0 < g) (hg1 : g ≤ 1) {y : ℝ → E} (hy : IsSol f y T) :
    ∃ C, ∀ h, 0 ≤ h → h * L ≤ 1 / 2 → ∀ (x xg : ℕ → E) (N : ℕ), N * h ≤ T → x 0 = y 0 →
      (∀ n < N, xg n = x n + (g * h * (1 / 2)) • f (xg n) + (g * h * (1 - 1 / 2)) • f (x n) ∧
        x (n + 1) = (1 / (g * (2 - g))) • xg n - ((1 - g) ^ 2 / (g * (2 - g))) • x n
          + ((1 - g) / (2 - g) * h) • f (x (n + 1))) →
      ‖x N - y (N * h)‖ ≤ C * h ^ 2 := by
  obtain ⟨B, hB0, hB⟩ := hy.bounded hf.lip
  have hL := hf.lip.1
  have hL2 := hf.lip2
  have h2g : 0 < 2 - g := by linarith
  set Q := L2 * B ^ 2 + L * (L * B) with hQdef
  have hQ : 0 ≤ Q := by positivity
  set al := 1 / (g * (2 - g)) with hal
  have hal0 : 0 ≤ al := by positivity
  have hbe : (1 - g) ^ 2 / (g * (2 - g)) = al - 1 := by rw [hal]; field_simp; ring
  have hd1 : (1 - g) / (2 - g) ≤ 1 := by rw [div_le_one h2g]; linarith
  have hd0 : 0 ≤ (1 - g) / (2 - g) := div_nonneg (by linarith) h2g.le
  refine ⟨Real.exp (T * (4 * L + 2 * (al * (4 * L)))) * (T * (2 * (al * (6 * Q)) + 2 * ((2 + al) * Q))),
    fun h hh hhL x xg N hN hx0 hx => ?_⟩
  refine seq_global (x := x) (y := y) (lam := 4 * L + 2 * (al * (4 * L))) (D := 2 * (al * (6 * Q)) + 2 * ((2 + al) * Q))
    (p := 2) (by positivity) (by positivity) hh N hN hx0 fun n hn => ?_
  obtain ⟨r1, r2⟩ := hx n hn
  have hgh0 : 0 ≤ g * h := by positivity
  have hgh : g * h ≤ h := by nlinarith
  have hghL : g * h * L ≤ 1 / 2 := (mul_le_mul_of_nonneg_right hgh hL).trans hhL
  have hth := step_le hh hn hN
  have htn : 0 ≤ (n : ℝ) * h := by positivity
  set Y := y (n * h)
  set Yg := y (n * h + g * h)
  set Y' := y (n * h + h)
  have q1 := theta_error hf.lip hgh0 (by norm_num : (0 : ℝ) ≤ 1 / 2) (by norm_num) hghL r1 (Y := Y) (Y' := Yg)
  have q2 : ‖Yg - Y - (g * h * (1 / 2)) • f Yg - (g * h * (1 - 1 / 2)) • f Y‖ ≤ 2 * Q * h ^ 3 := by
    refine (trapezium_local hf hy hB htn hgh0 (by linarith)).trans ?_
    have : (g * h) ^ 3 ≤ h ^ 3 := pow_le_pow_left₀ hgh0 hgh _
    gcongr
  have q3 := bdf2_stage_local hf hy hB hg0 hg1 htn hh hth
  rw [← hal, hbe] at q3
  set e0 := ‖x n - Y‖
  set eg := ‖xg n - Yg‖
  set e' := ‖x (n + 1) - Y'‖
  have he0 : 0 ≤ e0 := norm_nonneg _
  have heg : eg ≤ 3 * e0 + 4 * Q * h ^ 3 := by
    have : (1 + g * h * (4 * L)) ≤ 3 := by nlinarith
    calc eg ≤ _ := q1
      _ ≤ 3 * e0 + 2 * (2 * Q * h ^ 3) := by gcongr
      _ = _ := by ring
  -- the difference of the stage errors
  have d1 : ‖(xg n - Yg) - (x n - Y)‖ ≤ 4 * L * h * e0 + 6 * Q * h ^ 3 := by
    have e : (xg n - Yg) - (x n - Y) = (g * h * (1 / 2)) • (f (xg n) - f Yg) + (g * h * (1 - 1 / 2)) • (f (x n) - f Y)
        - (Yg - Y - (g * h * (1 / 2)) • f Yg - (g * h * (1 - 1 / 2)) • f Y) := by
      nth_rewrite 1 [r1]
      simp only [smul_sub]; abel
    rw [e]
    have n1 : ‖(g * h * (1 / 2)) • (f (xg n) - f Yg)‖ ≤ h * (1 / 2) * (L * (3 * e0 + 4 * Q * h ^ 3)) := by
      rw [norm_smul, Real.norm_eq_abs, abs_of_nonneg (by positivity)]
      have := hf.lip.2 (xg n) Yg
      gcongr
      exact this.trans (mul_le_mul_of_nonneg_left heg hL)
    have n2 : ‖(g * h * (1 - 1 / 2)) • (f (x n) - f Y)‖ ≤ h * (1 / 2) * (L * e0) := by
      rw [norm_smul, Real.norm_eq_abs, show (1 : ℝ) - 1 / 2 = 1 / 2 by norm_num, abs_of_nonneg (by positivity)]
      have := hf.lip.2 (x n) Y
      gcongr
    have hQh : h * L * (Q * h ^ 3) ≤ 1 / 2 * (Q * h ^ 3) := mul_le_mul_of_nonneg_right hhL (by positivity)
    have hLe : 0 ≤ L * h * e0 := by positivity
    calc _ ≤ _ := (norm_sub_le _ _).trans (add_le_add (norm_add_le _ _) le_rfl)
      _ ≤ h * (1 / 2) * (L * (3 * e0 + 4 * Q * h ^ 3)) + h * (1 / 2) * (L * e0) + 2 * Q * h ^ 3 :=
        add_le_add (add_le_add n1 n2) q2
      _ = 2 * (L * h * e0) + 2 * (h * L * (Q * h ^ 3)) + 2 * (Q * h ^ 3) := by ring
      _ ≤ _ := by nlinarith [mul_nonneg hQ (pow_nonneg hh 3)]
  have d2 : e' ≤ e0 + al * (4 * L * h * e0 + 6 * Q * h ^ 3) + h * (L * e') + (2 + al) * Q * h ^ 3 := by
    have e : x (n + 1) - Y' = (x n - Y) + al • ((xg n - Yg) - (x n - Y))
        + ((1 - g) / (2 - g) * h) • (f (x (n + 1)) - f Y')
        - (Y' - al • Yg + (al - 1) • Y - ((1 - g) / (2 - g) * h) • f Y') := by
      nth_rewrite 1 [r2]
      rw [hbe]
      module
    show ‖x (n + 1) - Y'‖ ≤ _
    rw [e]
    refine (norm_sub_le _ _).trans (add_le_add ((norm_add_le _ _).trans (add_le_add ((norm_add_le _ _).trans
      (add_le_add le_rfl ?_)) ?_)) q3)
    · rw [norm_smul, Real.norm_eq_abs, abs_of_nonneg hal0]
      gcongr
    · rw [norm_smul, Real.norm_eq_abs, abs_of_nonneg (by positivity)]
      have := hf.lip.2 (x (n + 1)) Y'
      calc (1 - g) / (2 - g) * h * ‖f (x (n + 1)) - f Y'‖ ≤ 1 * h * (L * ‖x (n + 1) - Y'‖) := by gcongr
        _ = h * (L * e') := by ring
  have hz0 : 0 ≤ h * L := by positivity
  rw [show h * (L * e') = h * L * e' by ring] at d2
  have d5 := solve_err hz0 hhL he0 (by positivity) (by positivity) d2
  calc e' ≤ _ := d5
    _ = _ := by ring

end Gusto.Convergence
