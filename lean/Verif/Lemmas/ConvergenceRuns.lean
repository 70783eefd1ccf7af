import Verif.Lemmas.ConvergenceTrees
import Verif.Lemmas.ConvergenceImplicit
import Mathlib.Analysis.Calculus.ContDiff.Comp
import Mathlib.Analysis.Calculus.Deriv.Comp

set_option autoImplicit false
set_option linter.unusedSectionVars false
set_option linter.unusedSimpArgs false

/-!
# Solutions of smooth equations are smooth; runs with substeps
-/

namespace Gusto.Convergence
open Gusto.Spec Finset Set

variable {E : Type*} [NormedAddCommGroup E] [NormedSpace ℝ E]
variable {F : Type*} [NormedAddCommGroup F] [NormedSpace ℝ F]

/-- The solution of an equation with a `k` times continuously differentiable right-hand side is `k + 1` times continuously
differentiable. -/
theorem IsSol.contDiffOn {f : E → E} {y : ℝ → E} {T : ℝ} (hT : 0 < T) (hy : IsSol f y T) (k : ℕ) (hf : ContDiff ℝ k f) :
    ContDiffOn ℝ (k + 1 : ℕ) y (Icc 0 T) := by
  have hu : UniqueDiffOn ℝ (Icc (0 : ℝ) T) := uniqueDiffOn_Icc hT
  have hd : DifferentiableOn ℝ y (Icc 0 T) := fun t ht => (hy t ht).differentiableWithinAt
  have he : ∀ t ∈ Icc 0 T, derivWithin y (Icc 0 T) t = f (y t) := fun t ht => (hy t ht).derivWithin (hu t ht)
  have key : ∀ j : ℕ, j ≤ k + 1 → ContDiffOn ℝ j y (Icc 0 T) := by
    intro j
    induction j with
    | zero => intro _; exact (contDiffOn_zero (𝕜 := ℝ)).2 hd.continuousOn
    | succ j ih =>
      intro hj
      have h1 := ih (by omega)
      rw [Nat.cast_add, Nat.cast_one, contDiffOn_succ_iff_derivWithin hu]
      refine ⟨hd, by simp, ?_⟩
      refine ContDiffOn.congr ?_ he
      exact (hf.of_le (by exact_mod_cast (by omega : j ≤ k))).comp_contDiffOn h1
  exact key (k + 1) le_rfl

/-- The derivatives of a smooth function of the time. -/
theorem ContDiffOn.chain {g : ℝ → F} {T : ℝ} (hT : 0 < T) (n : ℕ) (hg : ContDiffOn ℝ n g (Icc 0 T)) :
    Chain (fun j => iteratedDerivWithin j g (Icc 0 T)) n T := by
  have hu : UniqueDiffOn ℝ (Icc (0 : ℝ) T) := uniqueDiffOn_Icc hT
  refine ⟨fun j hj t ht => ?_, fun j hj => ?_⟩
  · have h1 := hg.differentiableOn_iteratedDerivWithin (m := j) (by exact_mod_cast hj) hu
    have := (h1 t ht).hasDerivWithinAt
    rwa [← iteratedDerivWithin_succ] at this
  · obtain ⟨B, hB⟩ := isCompact_Icc.exists_bound_of_continuousOn
      (hg.continuousOn_iteratedDerivWithin (m := j) (by exact_mod_cast hj) hu)
    exact ⟨max B 0, le_max_right _ _, fun t ht => (hB t ht).trans (le_max_left _ _)⟩

theorem chain_zero (g : ℝ → F) (T : ℝ) : iteratedDerivWithin 0 g (Icc 0 T) = g := iteratedDerivWithin_zero

theorem IsSol.chain_one {f : E → E} {y : ℝ → E} {T : ℝ} (hT : 0 < T) (hy : IsSol f y T) (t : ℝ) (ht : t ∈ Icc 0 T) :
    iteratedDerivWithin 1 y (Icc 0 T) t = f (y t) := by
  have hu : UniqueDiffOn ℝ (Icc (0 : ℝ) T) := uniqueDiffOn_Icc hT
  rw [iteratedDerivWithin_one]
  exact (hy t ht).derivWithin (hu t ht)

theorem SmoothRHS.mono {f : E → E} {p q : ℕ} {L : ℝ} (h : SmoothRHS f p L) (hq : q ≤ p) : SmoothRHS f q L :=
  ⟨h.lip, fun h2 => (h.diff (by omega)).of_le (by exact_mod_cast hq), fun h2 => h.dlip (by omega)⟩

theorem SmoothRHS.smooth2 {f : E → E} {p : ℕ} {L : ℝ} (h : SmoothRHS f p L) (hp : 2 ≤ p) :
    ∃ L2, Smooth2 f (fderiv ℝ f) L L2 := by
  obtain ⟨L2, h0, h1⟩ := h.dlip hp
  have hd : Differentiable ℝ f := (h.diff hp).differentiable (by
    have : (1 : WithTop ℕ∞) ≤ p := by exact_mod_cast (by omega : 1 ≤ p)
    exact ne_of_gt (lt_of_lt_of_le (by norm_num) this))
  refine ⟨L2, h.lip, fun x => (hd x).hasFDerivAt, fun x => ?_, h0, h1⟩
  have hl : LipschitzWith ⟨L, h.lip.1⟩ f := LipschitzWith.of_dist_le_mul fun x y => by
    rw [dist_eq_norm, dist_eq_norm]; exact h.lip.2 x y
  exact norm_fderiv_le_of_lipschitz ℝ hl

/-- The linearisation along the solution is smooth. -/
theorem SmoothRHS.lin_chain {f : E → E} {p : ℕ} {L : ℝ} (h : SmoothRHS f (p + 1) L) (hp : 1 ≤ p) {y : ℝ → E} {T : ℝ} (hT : 0 < T)
    (hy : IsSol f y T) : Chain (fun j => iteratedDerivWithin j (fun t => fderiv ℝ f (y t)) (Icc 0 T)) p T := by
  refine ContDiffOn.chain hT p ?_
  have h1 : ContDiff ℝ p (fderiv ℝ f) := (h.diff (by omega)).fderiv_right (by norm_cast)
  exact h1.comp_contDiffOn ((hy.contDiffOn hT (p + 1) (h.diff (by omega))).of_le (by exact_mod_cast (by omega : p ≤ p + 1 + 1)))

theorem SmoothRHS.sol_chain {f : E → E} {p : ℕ} {L : ℝ} (h : SmoothRHS f p L) (hp : 2 ≤ p) {y : ℝ → E} {T : ℝ} (hT : 0 < T)
    (hy : IsSol f y T) : Chain (fun j => iteratedDerivWithin j y (Icc 0 T)) (p + 1) T :=
  ContDiffOn.chain hT (p + 1) (hy.contDiffOn hT p (h.diff hp))

/-! ### Order conditions -/

/-- The order conditions of an explicit Runge-Kutta method, up to the order `p ≤ 4`. -/
structure OrderConditions (a : ℕ → ℕ → ℝ) (b : ℕ → ℝ) (s p : ℕ) : Prop where
  le4 : p ≤ 4
  nodes01 : ∀ i < s, 0 ≤ nodes a i ∧ nodes a i ≤ 1
  quad : ∀ k : ℕ, k < p → ∑ i ∈ range s, b i * nodes a i ^ k = 1 / (k + 1)
  alpha : 3 ≤ p → ∑ i ∈ range s, b i * alpha a i = 0
  beta : 4 ≤ p → ∑ i ∈ range s, b i * beta a i = 0
  gam : 4 ≤ p → ∑ i ∈ range s, b i * gam a i = 0
  calpha : 4 ≤ p → ∑ i ∈ range s, b i * (nodes a i * Convergence.alpha a i) = 0

/-- The local error of a method that satisfies the order conditions. -/
theorem OrderConditions.local {a : ℕ → ℕ → ℝ} {b : ℕ → ℝ} {s p : ℕ} (ho : OrderConditions a b s p) (hp : 1 ≤ p) {f : E → E} {L : ℝ}
    (hf : SmoothRHS f p L) {y : ℝ → E} {T : ℝ} (hT : 0 < T) (hy : IsSol f y T) :
    ∃ D, 0 ≤ D ∧ ∀ h, 0 ≤ h → h ≤ T → ∀ t, 0 ≤ t → t + h ≤ T →
      ‖rkStep a b s f h (y t) - y (t + h)‖ ≤ D * h ^ (p + 1) := by
  have conv : ∀ k, BigO T 1 k (fun h t => rkStep a b s f h (y t) - y (t + h)) →
      ∃ D, 0 ≤ D ∧ ∀ h, 0 ≤ h → h ≤ T → ∀ t, 0 ≤ t → t + h ≤ T → ‖rkStep a b s f h (y t) - y (t + h)‖ ≤ D * h ^ k := by
    rintro k ⟨D, hD, h⟩
    exact ⟨D, hD, fun h' a b t c d => h h' t a b c (by linarith)⟩
  have h4 := ho.le4
  have hb : ∑ i ∈ range s, b i = 1 := by simpa using ho.quad 0 (by omega)
  rcases (by omega : p = 1 ∨ p = 2 ∨ p = 3 ∨ p = 4) with rfl | rfl | rfl | rfl
  · obtain ⟨C, hC, h1⟩ := rkStep_near a b s hf.lip T hT.le
    obtain ⟨B, hB0, hB⟩ := hy.bounded hf.lip
    have hL := hf.lip.1
    refine ⟨C * B + L * B, by positivity, fun h h0 hhT t ht htT => ?_⟩
    have e1 := h1 h h0 hhT (y t)
    rw [hb, one_smul] at e1
    have e2 := (hy.taylor1 hf.lip hB ht h0 htT).2
    have hm := hB t ⟨ht, by linarith⟩
    have e3 : C * h ^ 2 * ‖f (y t)‖ ≤ C * h ^ 2 * B := mul_le_mul_of_nonneg_left hm (by positivity)
    have e4 : rkStep a b s f h (y t) - y (t + h) = (rkStep a b s f h (y t) - (y t + h • f (y t))) - (y (t + h) - y t - h • f (y t)) := by
      abel
    rw [e4]
    refine (norm_sub_le _ _).trans ?_
    calc _ ≤ C * h ^ 2 * B + L * B * h ^ 2 := by linarith
      _ = _ := by ring
  · obtain ⟨L2, hs⟩ := hf.smooth2 le_rfl
    refine rk_local2 a b s hs hT.le hb ?_ hy
    have := ho.quad 1 (by norm_num)
    simp only [pow_one] at this
    rw [show (1 : ℝ) / 2 = 1 / ((1 : ℕ) + 1) by norm_num, ← this]
    rfl
  · obtain ⟨L2, hs⟩ := hf.smooth2 (by norm_num)
    refine conv 4 ?_
    have hv : Chain (fun j => iteratedDerivWithin j (fun t => fderiv ℝ f (y t)) (Icc 0 T)) 1 T := by
      have := hf.lin_chain (p := 2) (by norm_num) hT hy
      exact ⟨fun j hj => this.deriv j (by omega), fun j hj => this.bound j (by omega)⟩
    have := rk_local3 (a := a) hs (hf.sol_chain (by norm_num) hT hy) hv (fun t ht => by
      rw [hy.chain_one hT t ht, chain_zero]) (fun t ht => by rw [chain_zero, chain_zero]) s ho.nodes01 b
      ho.quad (ho.alpha le_rfl)
    simpa only [chain_zero] using this
  · obtain ⟨L2, hs⟩ := hf.smooth2 (by norm_num)
    refine conv 5 ?_
    have hv : Chain (fun j => iteratedDerivWithin j (fun t => fderiv ℝ f (y t)) (Icc 0 T)) 2 T := by
      have := hf.lin_chain (p := 3) (by norm_num) hT hy
      exact ⟨fun j hj => this.deriv j (by omega), fun j hj => this.bound j (by omega)⟩
    have := rk_local4 (a := a) hs (hf.sol_chain (by norm_num) hT hy) hv (fun t ht => by
      rw [hy.chain_one hT t ht, chain_zero]) (fun t ht => by rw [chain_zero, chain_zero]) s ho.nodes01 b
      ho.quad (ho.alpha (by norm_num)) (ho.beta le_rfl) (ho.gam le_rfl) (ho.calpha le_rfl)
    simpa only [chain_zero] using this

/-! ### Runs -/

/-- Several substeps. -/
theorem substeps_error {Φ : ℝ → E → E} {y : ℝ → E} {lam D T : ℝ} {p : ℕ} (hl : 0 ≤ lam) (hD : 0 ≤ D)
    (hstab : ∀ k, 0 ≤ k → k ≤ T → ∀ x x', ‖Φ k x - Φ k x'‖ ≤ (1 + k * lam) * ‖x - x'‖)
    (hcons : ∀ k, 0 ≤ k → k ≤ T → ∀ t, 0 ≤ t → t + k ≤ T → ‖Φ k (y t) - y (t + k)‖ ≤ D * k ^ (p + 1))
    {k t : ℝ} (hk : 0 ≤ k) (ht : 0 ≤ t) (m : ℕ) (hT : t + m * k ≤ T) (x : E) :
    ‖(Φ k)^[m] x - y (t + m * k)‖ ≤ Real.exp (m * k * lam) * (‖x - y t‖ + m * k * D * k ^ p) := by
  rcases Nat.eq_zero_or_pos m with rfl | hm
  · simp
  have hm1 : (1 : ℝ) ≤ m := by exact_mod_cast hm
  have hkT : k ≤ T := by nlinarith
  have := global_error (e := fun n => ‖(Φ k)^[n] x - y (t + n * k)‖) (N := m) (T := m * k) hl hD hk le_rfl (norm_nonneg _) fun n hn => by
    have hn' : (n : ℝ) + 1 ≤ m := by exact_mod_cast hn
    have e0 : t + n * k + k ≤ T := by nlinarith
    have e1 := hcons k hk hkT (t + n * k) (by positivity) e0
    have e2 := hstab k hk hkT ((Φ k)^[n] x) (y (t + n * k))
    have e3 : t + ((n + 1 : ℕ) : ℝ) * k = t + n * k + k := by push_cast; ring
    simp only [e3, Function.iterate_succ_apply']
    calc _ ≤ ‖Φ k ((Φ k)^[n] x) - Φ k (y (t + n * k))‖ + ‖Φ k (y (t + n * k)) - y (t + n * k + k)‖ := by
          refine le_trans (le_of_eq ?_) (norm_add_le _ _); congr 1; abel
      _ ≤ _ := add_le_add e2 e1
  simpa using this

/-- A run in which the number of substeps may change from step to step. -/
theorem run_error {Φ : ℝ → E → E} {y : ℝ → E} {lam D T : ℝ} {p : ℕ} (hl : 0 ≤ lam) (hD : 0 ≤ D)
    (hstab : ∀ k, 0 ≤ k → k ≤ T → ∀ x x', ‖Φ k x - Φ k x'‖ ≤ (1 + k * lam) * ‖x - x'‖)
    (hcons : ∀ k, 0 ≤ k → k ≤ T → ∀ t, 0 ≤ t → t + k ≤ T → ‖Φ k (y t) - y (t + k)‖ ≤ D * k ^ (p + 1))
    {h : ℝ} (hh : 0 ≤ h) (x : ℕ → E) (N : ℕ) (hN : N * h ≤ T) (h0 : x 0 = y 0)
    (hx : ∀ n < N, ∃ m : ℕ, 0 < m ∧ x (n + 1) = (Φ (h / m))^[m] (x n)) :
    ‖x N - y (N * h)‖ ≤ Real.exp (T * lam) * (T * D) * h ^ p := by
  have key : ∀ n ≤ N, ‖x n - y (n * h)‖ ≤ Real.exp (n * h * lam) * (n * h * D * h ^ p) := by
    intro n
    induction n with
    | zero => intro _; simp [h0]
    | succ n ih =>
      intro hn
      have hn' : ((n + 1 : ℕ) : ℝ) ≤ N := by exact_mod_cast hn
      have hT : n * h + h ≤ T := step_le hh (by omega) hN
      obtain ⟨m, hm, e⟩ := hx n (by omega)
      have hm0 : (m : ℝ) ≠ 0 := by positivity
      have hm1 : (1 : ℝ) ≤ m := by exact_mod_cast hm
      have emk : (m : ℝ) * (h / m) = h := by field_simp
      have h1 := substeps_error hl hD hstab hcons (k := h / m) (by positivity) (by positivity : 0 ≤ (n : ℝ) * h) m
        (by rw [emk]; exact hT) (x n)
      rw [emk, ← e] at h1
      have e3 : ((n + 1 : ℕ) : ℝ) * h = n * h + h := by push_cast; ring
      rw [e3]
      refine h1.trans ?_
      have hle : h / m ≤ h := div_le_self hh hm1
      have h2 : (h / m) ^ p ≤ h ^ p := pow_le_pow_left₀ (by positivity) hle p
      have h3 := ih (by omega)
      rw [add_mul (n * h) h lam, Real.exp_add, mul_comm (Real.exp (n * h * lam))]
      have h4 : h * D * (h / m) ^ p ≤ Real.exp (n * h * lam) * (h * D * h ^ p) := by
        calc h * D * (h / m) ^ p ≤ 1 * (h * D * h ^ p) := by rw [one_mul]; exact mul_le_mul_of_nonneg_left h2 (by positivity)
          _ ≤ _ := mul_le_mul_of_nonneg_right (Real.one_le_exp (by positivity)) (by positivity)
      calc Real.exp (h * lam) * (‖x n - y (n * h)‖ + h * D * (h / m) ^ p)
          ≤ Real.exp (h * lam) * (Real.exp (n * h * lam) * (n * h * D * h ^ p) + Real.exp (n * h * lam) * (h * D * h ^ p)) :=
            mul_le_mul_of_nonneg_left (add_le_add h3 h4) (Real.exp_pos _).le
        _ = _ := by ring
  refine (key N le_rfl).trans ?_
  have hNh : (0 : ℝ) ≤ N * h := by positivity
  have e1 : Real.exp (N * h * lam) ≤ Real.exp (T * lam) := Real.exp_le_exp.2 (mul_le_mul_of_nonneg_right hN hl)
  have hT0 : 0 ≤ T := hNh.trans hN
  calc Real.exp (N * h * lam) * (N * h * D * h ^ p) ≤ Real.exp (T * lam) * (T * D * h ^ p) := by
        refine mul_le_mul e1 ?_ (by positivity) (Real.exp_pos _).le
        gcongr
    _ = _ := by ring

/-- Convergence of an explicit Runge-Kutta method with the order of its order conditions. -/
theorem OrderConditions.converges {a : ℕ → ℕ → ℝ} {b : ℕ → ℝ} {s p : ℕ} (ho : OrderConditions a b s p) (hp : 1 ≤ p) {f : E → E} {L : ℝ}
    (hf : SmoothRHS f p L) {y : ℝ → E} {T : ℝ} (hT : 0 < T) (hy : IsSol f y T) :
    ∃ C, ∀ h, 0 ≤ h → ∀ (x : ℕ → E) (N : ℕ), N * h ≤ T → x 0 = y 0 →
      (∀ n < N, ∃ m : ℕ, 0 < m ∧ x (n + 1) = (rkStep a b s f (h / m))^[m] (x n)) → ‖x N - y (N * h)‖ ≤ C * h ^ p := by
  obtain ⟨C1, h10, h1⟩ := rkStep_lip a b s hf.lip T hT.le
  obtain ⟨D, hD, h2⟩ := ho.local hp hf hT hy
  exact ⟨Real.exp (T * C1) * (T * D), fun h hh x N hN h0 hx => run_error (Φ := rkStep a b s f) h10 hD h1 h2 hh x N hN h0 hx⟩

end Gusto.Convergence
