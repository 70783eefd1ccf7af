import Verif.Lemmas.Localise
import Verif.Props.Convergence

set_option autoImplicit false
set_option linter.unusedSectionVars false
set_option linter.unusedSimpArgs false

/-!
# C122 without a global Lipschitz condition

Right-hand sides that are Lipschitz continuous on bounded sets, as those with products of the unknowns, in finite-dimensional
spaces.
-/

namespace Gusto.Props.LocalConvergenceProps
open Gusto LForm TimeDisc Spec Finset Gusto.Props Gusto.Tableaux RK Gusto.Convergence Gusto.Props.ConvergenceProps

variable {E D : Type*} [NormedAddCommGroup E] [NormedSpace ℝ E] [FiniteDimensional ℝ E] [AddCommGroup D] [Module ℝ D]

/-- **C122** (explicit schemes, any smooth right-hand side).  ForwardEuler, Heun, SSPRK2 (2, 3, 4 stages), SSPRK3 (3, 4 stages) and
RK4 converge with the order of their name for every equation with a smooth right-hand side, without any condition on its growth,
on every interval on which the equation has a solution; the timestep has to be small enough. -/
theorem C122_explicit_local {o : Option Table} {p : ℕ} (ho : AdvertisedOrder o p) {t : Table} (ht : o = some t)
    (R : LForm E D) (M : E ≃ₗ[ℝ] D) (hM : ∀ x, mass R x = M x) (hns : ∀ u ∈ R, Label.source ∉ u.labels)
    (hf : LocalRHS (tendency R M) p) {y : ℝ → E} {T : ℝ} (hT : 0 < T) (hy : IsSol (tendency R M) y T) :
    ∃ C h0, 0 < h0 ∧ ∀ h, 0 ≤ h → h ≤ h0 → ∀ (x : ℕ → E) (N : ℕ), N * h ≤ T → x 0 = y 0 → ExplicitRun t R h x N →
      ‖x N - y (N * h)‖ ≤ C * h ^ p := by
  obtain ⟨t', h1, h2⟩ := advertised_tableOrder ho
  obtain rfl : t = t' := Option.some.inj (ht.symm.trans h1)
  obtain ⟨C, h0, hh0, hC⟩ := h2.real.converges_local h2.2.2.1 hf hT hy
  exact ⟨C, h0, hh0, fun h hh hl x N hN hx0 hx => hC h hh hl x N hN hx0 (run_steps h2.1 M hM hns hx)⟩

section implicit
variable (R : LForm E D) (M : E ≃ₗ[ℝ] D) (hM : ∀ x, mass R x = M x)
include hM

/-- **C122** (ThetaMethod, no global Lipschitz condition).  The solver finds the root near its initial guess. -/
theorem C122_theta_local {δ : ℝ} (hδ : 0 < δ) (solve : Solver E D) (hs : NearbySolver δ solve) (hf : LocalLip (tendency R M)) {th : ℝ}
    (hth : offCentringAccepted th = true) {y : ℝ → E} {T : ℝ} (hy : IsSol (tendency R M) y T) :
    ∃ C h0, 0 < h0 ∧ ∀ h, 0 ≤ h → h ≤ h0 → ∀ (x : ℕ → E) (N : ℕ), N * h ≤ T → x 0 = y 0 →
      (∀ n < N, x (n + 1) = implicitCycle solve (thetaRes R h th) (x n)) → ‖x N - y (N * h)‖ ≤ C * h := by
  have : CompleteSpace E := FiniteDimensional.complete ℝ E
  rw [C07_parameter_guard] at hth
  obtain ⟨C, h0, hh0, hC⟩ := theta_localise (p := 1) hth.1 hth.2 le_rfl hy hδ fun B => by
    obtain ⟨g, L, hg, hfg⟩ := cutoff_lip hf B
    refine ⟨g, L, hg, hfg, fun hyg => ?_⟩
    simpa only [pow_one] using theta_converges hg hth.1 hth.2 hyg
  refine ⟨C, h0, hh0, fun h hh hl x N hN hx0 hx => ?_⟩
  have := hC h hh hl x N hN hx0 fun n hn => by
    rw [hx n hn]; exact hs.found (fun z => theta_iff R M hM h th (x n) z) (x n)
  simpa only [pow_one] using this

/-- **C122** (BackwardEuler, no global Lipschitz condition). -/
theorem C122_backward_euler_local {δ : ℝ} (hδ : 0 < δ) (solve : Solver E D) (hs : NearbySolver δ solve)
    (hf : LocalLip (tendency R M)) {y : ℝ → E} {T : ℝ} (hy : IsSol (tendency R M) y T) :
    ∃ C h0, 0 < h0 ∧ ∀ h, 0 ≤ h → h ≤ h0 → ∀ (x : ℕ → E) (N : ℕ), N * h ≤ T → x 0 = y 0 →
      (∀ n < N, x (n + 1) = implicitCycle solve (backwardEulerRes R h) (x n)) → ‖x N - y (N * h)‖ ≤ C * h := by
  obtain ⟨C, h0, hh0, hC⟩ := C122_theta_local R M hM hδ solve hs hf (th := 1) (by rw [C07_parameter_guard]; norm_num) hy
  refine ⟨C, h0, hh0, fun h hh hl x N hN hx0 hx => hC h hh hl x N hN hx0 fun n hn => ?_⟩
  rw [hx n hn]
  unfold implicitCycle
  congr 1
  funext z
  exact (C07_theta_one R h (x n) z).symm

/-- **C122** (TrapeziumRule, no global Lipschitz condition): second order. -/
theorem C122_trapezium_local {δ : ℝ} (hδ : 0 < δ) (solve : Solver E D) (hs : NearbySolver δ solve) (hf : LocalRHS (tendency R M) 2)
    {y : ℝ → E} {T : ℝ} (hy : IsSol (tendency R M) y T) :
    ∃ C h0, 0 < h0 ∧ ∀ h, 0 ≤ h → h ≤ h0 → ∀ (x : ℕ → E) (N : ℕ), N * h ≤ T → x 0 = y 0 →
      (∀ n < N, x (n + 1) = implicitCycle solve (trapeziumRes R h) (x n)) → ‖x N - y (N * h)‖ ≤ C * h ^ 2 := by
  have : CompleteSpace E := FiniteDimensional.complete ℝ E
  obtain ⟨C, h0, hh0, hC⟩ := theta_localise (p := 2) (th := 1 / 2) (by norm_num) (by norm_num) (by norm_num) hy hδ fun B => by
    obtain ⟨g, L, hg, hfg⟩ := hf.cutoff B
    obtain ⟨L2, hg2⟩ := hg.smooth2 le_rfl
    exact ⟨g, L, hg.lip, hfg, fun hyg => trapezium_converges hg2 hyg⟩
  refine ⟨C, h0, hh0, fun h hh hl x N hN hx0 hx => hC h hh hl x N hN hx0 fun n hn => ?_⟩
  have e : x (n + 1) = implicitCycle solve (thetaRes R h (1 / 2)) (x n) := hx n hn
  rw [e]; exact hs.found (fun z => theta_iff R M hM h (1 / 2) (x n) z) (x n)

/-- **C122** (TR_BDF2, no global Lipschitz condition): second order, for every `γ` in `(0, 1]`. -/
theorem C122_tr_bdf2_local {δ : ℝ} (hδ : 0 < δ) (solve : Solver E D) (hs : NearbySolver δ solve) (hf : LocalRHS (tendency R M) 2) {g : ℝ}
    (hg : offCentringAccepted g = true) (hg0 : g ≠ 0) {y : ℝ → E} {T : ℝ} (hy : IsSol (tendency R M) y T) :
    ∃ C h0, 0 < h0 ∧ ∀ h, 0 ≤ h → h ≤ h0 → ∀ (x : ℕ → E) (N : ℕ), N * h ≤ T → x 0 = y 0 →
      (∀ n < N, x (n + 1) = trBdf2Apply solve R h g (x n)) → ‖x N - y (N * h)‖ ≤ C * h ^ 2 := by
  have : CompleteSpace E := FiniteDimensional.complete ℝ E
  rw [C07_parameter_guard] at hg
  have hgp : 0 < g := lt_of_le_of_ne hg.1 (Ne.symm hg0)
  obtain ⟨C, h0, hh0, hC⟩ := trbdf2_converges_local hf hgp hg.2 hy hδ
  refine ⟨C, h0, hh0, fun h hh hl x N hN hx0 hx => hC h hh hl x (fun n => solve (fun z => (trRes R h g z (x n)).eval) (x n)) N hN hx0
    fun n hn => ⟨hs.found (tr_iff R M hM h g (x n)) (x n), ?_⟩⟩
  rw [hx n hn]
  exact hs.found (bdf2Stage_iff R M hM h g (x n) _) _

end implicit

/-! ### An example that is not globally Lipschitz: `2 x' = -2 x²` -/

/-- The residual of `2 x' = -2 x²`. -/
noncomputable def squareR : LForm ℝ ℝ :=
  [ { labels := [.timeDerivative], op := fun x => 2 * x, subj := 0 },
    { labels := [.transport], op := fun x => 2 * (x * x), subj := 0 } ]

theorem square_mass (x : ℝ) : mass squareR x = sineM x := by simp [mass, part, squareR, sineM]

theorem square_tendency : tendency squareR sineM = fun x => -(x * x) := by
  funext x
  rw [tendency, LinearEquiv.symm_apply_eq]
  simp [rest, part, squareR, sineM]

theorem square_rhs (p : ℕ) : LocalRHS (tendency squareR sineM) p := by
  rw [square_tendency]
  refine ⟨fun B => ⟨2 * |B|, by positivity, fun x z hx hz => ?_⟩, fun _ => (contDiff_id.mul contDiff_id).neg⟩
  have e : -(x * x) - -(z * z) = -((x + z) * (x - z)) := by ring
  rw [e, norm_neg, norm_mul]
  refine mul_le_mul_of_nonneg_right ((norm_add_le _ _).trans ?_) (norm_nonneg _)
  have := le_abs_self B
  linarith

/-- It is not globally Lipschitz continuous, so that `C122_explicit` does not apply. -/
example (L : ℝ) : ¬ Lip (tendency squareR sineM) L := by
  rw [square_tendency]
  rintro ⟨h0, h⟩
  have := h (L + 1) 0
  simp only [mul_zero, sub_zero, neg_zero, norm_neg, norm_mul, Real.norm_eq_abs] at this
  rw [abs_of_nonneg (by linarith : (0 : ℝ) ≤ L + 1)] at this
  nlinarith

theorem square_sol (T : ℝ) : IsSol (tendency squareR sineM) (fun t => (1 + t)⁻¹) T := by
  intro t ht
  rw [square_tendency]
  have h0 : (1 : ℝ) + t ≠ 0 := by linarith [ht.1]
  have h1 := (((hasDerivAt_id t).const_add 1).inv h0)
  refine (h1.congr_deriv ?_).hasDerivWithinAt
  simp only [id]
  field_simp

/-- RK4 with three subcycles. -/
noncomputable def squareRun (h : ℝ) (st : RKState ℝ) : ℕ → ℝ
  | 0 => 1
  | n + 1 => RK.apply .predictor { tableScheme rk4 (h / 3) with R := squareR } 3 st (squareRun h st n)

example (st : RKState ℝ) : ∃ C h0, 0 < h0 ∧ ∀ h : ℝ, 0 ≤ h → h ≤ h0 → ∀ N : ℕ, N * h ≤ 10 →
    ‖squareRun h st N - (1 + N * h)⁻¹‖ ≤ C * h ^ 4 := by
  obtain ⟨C, h0, hh0, hC⟩ := C122_explicit_local .rk4 rfl squareR sineM square_mass (by simp [squareR]) (square_rhs 4) (T := 10)
    (by norm_num) (square_sol 10)
  exact ⟨C, h0, hh0, fun h hh hl N hN => hC h hh hl (squareRun h st) N hN (by simp [squareRun]) fun n _ =>
    ⟨.predictor, { tableScheme rk4 (h / 3) with R := squareR }, 3, st, ⟨fun _ _ => rfl, rfl⟩, rfl, choiceSolve_exact, rfl,
      by norm_num, by norm_num [tableScheme], by simp, rfl⟩⟩

open Classical in
/-- A solver that finds the root near its initial guess. -/
noncomputable def nearSolve {E D : Type*} [NormedAddCommGroup E] [AddCommGroup D] (δ : ℝ) : Solver E D := fun r guess =>
  if h : ∃ x, ‖x - guess‖ ≤ δ ∧ r x = 0 then h.choose else guess

theorem nearSolve_near {E D : Type*} [NormedAddCommGroup E] [NormedSpace ℝ E] [AddCommGroup D] (δ : ℝ) :
    NearbySolver δ (nearSolve δ : Solver E D) := by
  intro r guess h
  have h' : ∃ x, ‖x - guess‖ ≤ δ ∧ r x = 0 := h.exists
  rw [nearSolve, dif_pos h']
  exact h'.choose_spec

/-- The trapezium rule on the same equation. -/
noncomputable def squareTrapezium (h : ℝ) : ℕ → ℝ
  | 0 => 1
  | n + 1 => implicitCycle (nearSolve (1 / 10)) (trapeziumRes squareR h) (squareTrapezium h n)

example : ∃ C h0, 0 < h0 ∧ ∀ h : ℝ, 0 ≤ h → h ≤ h0 → ∀ N : ℕ, N * h ≤ 10 → ‖squareTrapezium h N - (1 + N * h)⁻¹‖ ≤ C * h ^ 2 := by
  obtain ⟨C, h0, hh0, hC⟩ := C122_trapezium_local squareR sineM square_mass (δ := 1 / 10) (by norm_num) _ (nearSolve_near _) (square_rhs 2)
    (square_sol 10)
  exact ⟨C, h0, hh0, fun h hh hl N hN => hC h hh hl (squareTrapezium h) N hN (by simp [squareTrapezium]) fun n _ => rfl⟩

end Gusto.Props.LocalConvergenceProps
