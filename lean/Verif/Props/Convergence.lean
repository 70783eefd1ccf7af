import Verif.Lemmas.ConvergenceRuns
import Verif.Props.SSP
import Verif.Props.OneStep
import Mathlib.Topology.MetricSpace.Contracting
import Mathlib.Analysis.SpecialFunctions.ExpDeriv
import Mathlib.Analysis.SpecialFunctions.Trigonometric.ArctanDeriv
import Mathlib.Analysis.SpecialFunctions.Trigonometric.Deriv

set_option autoImplicit false
set_option linter.unusedSectionVars false
set_option linter.unusedSimpArgs false

/-!
# C122: the one-step time discretisations converge
-/

namespace Gusto.Props.ConvergenceProps
open Gusto LForm TimeDisc Spec Finset Gusto.Props Gusto.Tableaux RK Gusto.Convergence
open Gusto.Props.SSPProps (Uses)

/-! ### The tables -/

/-- The order conditions of a table, over the rationals. -/
def TableOrder (t : Table) (p : ℕ) : Prop :=
  0 < t.nStages ∧ p ≤ 4 ∧ 1 ≤ p ∧
  (∀ i < t.nStages, 0 ≤ nodes (stageCoeffs t.A) i ∧ nodes (stageCoeffs t.A) i ≤ 1) ∧
  (∀ k < p, ∑ i ∈ range t.nStages, weights t.A t.nStages i * nodes (stageCoeffs t.A) i ^ k = 1 / ((k : ℚ) + 1)) ∧
  (3 ≤ p → ∑ i ∈ range t.nStages, weights t.A t.nStages i * alpha (stageCoeffs t.A) i = 0) ∧
  (4 ≤ p → ∑ i ∈ range t.nStages, weights t.A t.nStages i * beta (stageCoeffs t.A) i = 0) ∧
  (4 ≤ p → ∑ i ∈ range t.nStages, weights t.A t.nStages i * gam (stageCoeffs t.A) i = 0) ∧
  (4 ≤ p → ∑ i ∈ range t.nStages, weights t.A t.nStages i * (nodes (stageCoeffs t.A) i * alpha (stageCoeffs t.A) i) = 0)

instance (t : Table) (p : ℕ) : Decidable (TableOrder t p) := by unfold TableOrder; infer_instance

theorem advertised_tableOrder {o : Option Table} {p : ℕ} (h : AdvertisedOrder o p) : ∃ t, o = some t ∧ TableOrder t p := by
  cases h <;> exact ⟨_, rfl, by decide +kernel⟩

theorem nodes_cast (a : ℕ → ℕ → ℚ) (i : ℕ) : nodes (fun i j => ((a i j : ℚ) : ℝ)) i = ((nodes a i : ℚ) : ℝ) := by
  simp [nodes]
theorem alpha_cast (a : ℕ → ℕ → ℚ) (i : ℕ) : alpha (fun i j => ((a i j : ℚ) : ℝ)) i = ((alpha a i : ℚ) : ℝ) := by
  simp [alpha, nodes_cast]
theorem beta_cast (a : ℕ → ℕ → ℚ) (i : ℕ) : beta (fun i j => ((a i j : ℚ) : ℝ)) i = ((beta a i : ℚ) : ℝ) := by
  simp [beta, nodes_cast]
theorem gam_cast (a : ℕ → ℕ → ℚ) (i : ℕ) : gam (fun i j => ((a i j : ℚ) : ℝ)) i = ((gam a i : ℚ) : ℝ) := by
  simp [gam, alpha_cast]

theorem TableOrder.real {t : Table} {p : ℕ} (h : TableOrder t p) :
    OrderConditions (fun i j => ((stageCoeffs t.A i j : ℚ) : ℝ)) (fun j => ((weights t.A t.nStages j : ℚ) : ℝ)) t.nStages p := by
  obtain ⟨-, h4, -, hn, hq, h3, hb, hg, hc⟩ := h
  refine ⟨h4, fun i hi => ?_, fun k hk => ?_, fun hp => ?_, fun hp => ?_, fun hp => ?_, fun hp => ?_⟩
  · rw [nodes_cast]; exact ⟨by exact_mod_cast (hn i hi).1, by exact_mod_cast (hn i hi).2⟩
  · simp only [nodes_cast]
    have := congrArg (Rat.cast (K := ℝ)) (hq k hk)
    push_cast at this ⊢
    exact this
  · simp only [alpha_cast]; exact_mod_cast h3 hp
  · simp only [beta_cast]; exact_mod_cast hb hp
  · simp only [gam_cast]; exact_mod_cast hg hp
  · simp only [nodes_cast, alpha_cast]; exact_mod_cast hc hp

variable {E D : Type*} [NormedAddCommGroup E] [NormedSpace ℝ E] [AddCommGroup D] [Module ℝ D]

/-! ### Explicit schemes -/

/-- `x 0, …, x N` are the states of a run of an explicit scheme with the table `t` on the residual `R` and the timestep `h`: in every
timestep, `apply` of a scheme object in some formulation and with some number of subcycles, whatever the work arrays hold.  Linear
solves are exact, there is no limiter; the linear formulation is used only without subcycles, on a linear residual. -/
def ExplicitRun (t : Table) (R : LForm E D) (h : ℝ) (x : ℕ → E) (N : ℕ) : Prop :=
  ∀ n < N, ∃ (form : Formulation) (S : RKScheme ℝ E D) (m : ℕ) (st : RKState E),
    Uses S t ∧ S.R = R ∧ ExactSolver S.solve ∧ S.limiter = none ∧ 0 < m ∧ S.dt = h / m ∧
    (form = .linear → m = 1 ∧ (∃ F : E →ₗ[ℝ] D, ∀ x, rest R x = F x) ∧ ∀ u ∈ R, Label.allButLast ∉ u.labels) ∧
    x (n + 1) = RK.apply form S m st (x n)

theorem run_steps {t : Table} (hs : 0 < t.nStages) {R : LForm E D} (M : E ≃ₗ[ℝ] D) (hM : ∀ x, mass R x = M x)
    (hns : ∀ u ∈ R, Label.source ∉ u.labels) {h : ℝ} {x : ℕ → E} {N : ℕ} (hx : ExplicitRun t R h x N) :
    ∀ n < N, ∃ m : ℕ, 0 < m ∧ x (n + 1) = (rkStep (fun i j => ((stageCoeffs t.A i j : ℚ) : ℝ))
      (fun j => ((weights t.A t.nStages j : ℚ) : ℝ)) t.nStages (tendency R M) (h / m))^[m] (x n) := by
  intro n hn
  obtain ⟨form, S, m, st, hU, rfl, hex, hl, hm, hdt, hlin, hstep⟩ := hx n hn
  have hset : Setting S M := ⟨hM, hex, by rw [hU.nStages]; exact hs⟩
  refine ⟨m, hm, ?_⟩
  have e : textbook S (tendency S.R M) = rkStep (fun i j => ((stageCoeffs t.A i j : ℚ) : ℝ))
      (fun j => ((weights t.A t.nStages j : ℚ) : ℝ)) t.nStages (tendency S.R M) (h / m) := by
    unfold textbook
    rw [hdt, hU.nStages]
    congr 1
    · funext i j; simp [stageCoeffs, hU.A]
    · funext j; simp [weights, hU.A]
  rw [hstep, ← e]
  cases form with
  | increment => exact C02_increment S M hset hl hns m hm st (x n)
  | predictor => exact C02_predictor S M hset hl hns m hm st (x n)
  | linear =>
    obtain ⟨rfl, ⟨F, hF⟩, hA⟩ := hlin rfl
    rw [C02_linear S M F hset hF hA hl, Function.iterate_one]

/-- **C122** (explicit schemes).  ForwardEuler, Heun, SSPRK2 (2, 3, 4 stages), SSPRK3 (3, 4 stages) and RK4 converge with the
order of their name: for every equation with a smooth right-hand side, linear or not, in every formulation, with any number of
subcycles (also one that changes from step to step), the error at any time up to `T` is at most a constant times `dt` to the power
of the order. -/
theorem C122_explicit {o : Option Table} {p : ℕ} (ho : AdvertisedOrder o p) {t : Table} (ht : o = some t)
    (R : LForm E D) (M : E ≃ₗ[ℝ] D) (hM : ∀ x, mass R x = M x) (hns : ∀ u ∈ R, Label.source ∉ u.labels)
    {L : ℝ} (hf : SmoothRHS (tendency R M) p L) {y : ℝ → E} {T : ℝ} (hT : 0 < T) (hy : IsSol (tendency R M) y T) :
    ∃ C, ∀ h, 0 ≤ h → ∀ (x : ℕ → E) (N : ℕ), N * h ≤ T → x 0 = y 0 → ExplicitRun t R h x N →
      ‖x N - y (N * h)‖ ≤ C * h ^ p := by
  obtain ⟨t', h1, h2⟩ := advertised_tableOrder ho
  obtain rfl : t = t' := Option.some.inj (ht.symm.trans h1)
  obtain ⟨C, hC⟩ := h2.real.converges h2.2.2.1 hf hT hy
  exact ⟨C, fun h hh x N hN h0 hx => hC h hh x N hN h0 (run_steps h2.1 M hM hns hx)⟩

/-- **C122** (any table).  Whatever the table, the scheme converges, with the first order, to the solution of the equation whose
right-hand side is multiplied by the sum of the weights. -/
theorem C122_limit (t : Table) (hs : 0 < t.nStages)
    (R : LForm E D) (M : E ≃ₗ[ℝ] D) (hM : ∀ x, mass R x = M x) (hns : ∀ u ∈ R, Label.source ∉ u.labels)
    {L : ℝ} (hf : Lip (tendency R M) L) {y : ℝ → E} {T : ℝ} (hT : 0 ≤ T) (w : ℝ)
    (hw : w = ((∑ j ∈ range t.nStages, weights t.A t.nStages j : ℚ) : ℝ))
    (hy : IsSol (fun x => w • tendency R M x) y T) :
    ∃ C, ∀ h, 0 ≤ h → ∀ (x : ℕ → E) (N : ℕ), N * h ≤ T → x 0 = y 0 → ExplicitRun t R h x N →
      ‖x N - y (N * h)‖ ≤ C * h ^ 1 := by
  have hw' : ∑ j ∈ range t.nStages, ((weights t.A t.nStages j : ℚ) : ℝ) = w := by rw [hw]; push_cast; rfl
  obtain ⟨C1, h10, h1⟩ := rkStep_lip (fun i j => ((stageCoeffs t.A i j : ℚ) : ℝ)) (fun j => ((weights t.A t.nStages j : ℚ) : ℝ))
    t.nStages hf T hT
  obtain ⟨C2, h20, h2⟩ := rkStep_near (fun i j => ((stageCoeffs t.A i j : ℚ) : ℝ)) (fun j => ((weights t.A t.nStages j : ℚ) : ℝ))
    t.nStages hf T hT
  have hwL : Lip (fun x => w • tendency R M x) (|w| * L) := ⟨mul_nonneg (abs_nonneg _) hf.1, fun x z => by
    rw [← smul_sub, norm_smul, Real.norm_eq_abs, mul_assoc]; exact mul_le_mul_of_nonneg_left (hf.2 x z) (abs_nonneg _)⟩
  obtain ⟨B, hB0, hB⟩ := hy.bounded hwL
  obtain ⟨B', hB0', hB'⟩ : ∃ B, 0 ≤ B ∧ ∀ t ∈ Set.Icc 0 T, ‖tendency R M (y t)‖ ≤ B := by
    obtain ⟨B, hB⟩ := isCompact_Icc.exists_bound_of_continuousOn (hf.continuous.comp_continuousOn hy.continuousOn)
    exact ⟨max B 0, le_max_right _ _, fun t ht => (hB t ht).trans (le_max_left _ _)⟩
  have hloc : ∀ k, 0 ≤ k → k ≤ T → ∀ τ, 0 ≤ τ → τ + k ≤ T →
      ‖rkStep (fun i j => ((stageCoeffs t.A i j : ℚ) : ℝ)) (fun j => ((weights t.A t.nStages j : ℚ) : ℝ)) t.nStages (tendency R M) k (y τ)
        - y (τ + k)‖ ≤ (C2 * B' + |w| * L * B) * k ^ (1 + 1) := by
    intro k h0 hhT τ ht htT
    have e1 := h2 k h0 hhT (y τ)
    rw [hw'] at e1
    have e2 := (hy.taylor1 hwL hB ht h0 htT).2
    have hm := hB' τ ⟨ht, by linarith⟩
    have e3 : C2 * k ^ 2 * ‖tendency R M (y τ)‖ ≤ C2 * k ^ 2 * B' := mul_le_mul_of_nonneg_left hm (by positivity)
    rw [← sub_sub_sub_cancel_right _ _ (y τ + k • w • tendency R M (y τ))]
    refine (norm_sub_le _ _).trans ?_
    rw [← sub_sub (y (τ + k))]
    calc _ ≤ C2 * k ^ 2 * B' + |w| * L * B * k ^ 2 := by linarith
      _ = _ := by ring
  have hL := hwL.1
  exact ⟨_, fun h hh x N hN h0 hx => run_error (lam := C1) (D := C2 * B' + |w| * L * B) (p := 1) h10 (by positivity) h1 hloc hh x N hN h0
    (run_steps hs M hM hns hx)⟩

/-- The residual of `x' = 1`. -/
noncomputable def clockR : LForm ℝ ℝ :=
  [ { labels := [.timeDerivative], op := fun x => x, subj := 0 }, { labels := [.named "forcing"], op := fun _ => -1, subj := 0 } ]

theorem clock_mass (x : ℝ) : mass clockR x = LinearEquiv.refl ℝ ℝ x := by simp [mass, part, clockR]
theorem clock_tendency : tendency clockR (LinearEquiv.refl ℝ ℝ) = fun _ => 1 := by
  funext x; simp [tendency, rest, part, clockR]

theorem clock_run (t : Table) (hs : 0 < t.nStages) (h : ℝ) (x : ℕ → ℝ) (N : ℕ) (hx : ExplicitRun t clockR h x N) (n : ℕ) (hn : n ≤ N) :
    x n = x 0 + n * h * ((∑ j ∈ range t.nStages, weights t.A t.nStages j : ℚ) : ℝ) := by
  have hsub := run_steps hs (LinearEquiv.refl ℝ ℝ) clock_mass (by simp [clockR]) hx
  induction n with
  | zero => simp
  | succ n ih =>
    obtain ⟨m, hm, e⟩ := hsub n (by omega)
    have key : ∀ (k : ℝ) (m : ℕ) (z : ℝ), (rkStep (fun i j => ((stageCoeffs t.A i j : ℚ) : ℝ))
        (fun j => ((weights t.A t.nStages j : ℚ) : ℝ)) t.nStages (tendency clockR (LinearEquiv.refl ℝ ℝ)) k)^[m] z
          = z + m * k * ((∑ j ∈ range t.nStages, weights t.A t.nStages j : ℚ) : ℝ) := by
      intro k m
      induction m with
      | zero => simp
      | succ m ihm =>
        intro z
        rw [Function.iterate_succ_apply', ihm, rkStep]
        have : ∀ j ∈ range t.nStages, ((weights t.A t.nStages j : ℚ) : ℝ) • rkK (fun i j => ((stageCoeffs t.A i j : ℚ) : ℝ))
            (tendency clockR (LinearEquiv.refl ℝ ℝ)) k (z + m * k * ((∑ j ∈ range t.nStages, weights t.A t.nStages j : ℚ) : ℝ)) j
              = ((weights t.A t.nStages j : ℚ) : ℝ) := fun j _ => by
          rw [rkK_eq, clock_tendency]; simp
        rw [Finset.sum_congr rfl this, ← Rat.cast_sum, smul_eq_mul]
        push_cast
        ring
    have hm0 : (m : ℝ) ≠ 0 := by positivity
    rw [e, key, ih (by omega)]
    push_cast
    field_simp
    ring

/-- **C122** is refuted for SSPRK3 with five stages and for SSPRK4: their weights do not add up to one.  For `x' = 1` the error at
time `N h` is the fixed fraction `3.2373e-10` (`-8.778e-11`) of the time, whatever the timestep: the scheme does not converge. -/
theorem C122_refuted :
    (∀ t, ssprk3 5 = some t → ∀ (h : ℝ) (x : ℕ → ℝ) (N : ℕ), ExplicitRun t clockR h x N →
      x N - (x 0 + N * h) = 32373 / 10 ^ 14 * (N * h)) ∧
    (∀ t, ssprk4 5 = some t → ∀ (h : ℝ) (x : ℕ → ℝ) (N : ℕ), ExplicitRun t clockR h x N →
      x N - (x 0 + N * h) = -(8778 / 10 ^ 14) * (N * h)) := by
  constructor
  · intro t ht h x N hx
    have key : ∀ t, ssprk3 5 = some t → 0 < t.nStages ∧ ∑ j ∈ range t.nStages, weights t.A t.nStages j = (1 + 32373 / 10 ^ 14 : ℚ) := by
      intro t ht
      simp only [ssprk3, Option.some.injEq] at ht
      subst ht
      decide +kernel
    rw [clock_run _ (key t ht).1 h x N hx N le_rfl, (key t ht).2]
    push_cast; ring
  · intro t ht h x N hx
    have key : ∀ t, ssprk4 5 = some t → 0 < t.nStages ∧ ∑ j ∈ range t.nStages, weights t.A t.nStages j = (1 - 8778 / 10 ^ 14 : ℚ) := by
      intro t ht
      simp only [ssprk4, Option.some.injEq] at ht
      subst ht
      decide +kernel
    rw [clock_run _ (key t ht).1 h x N hx N le_rfl, (key t ht).2]
    push_cast; ring

/-! ### Implicit schemes -/

/-- The implicit equations have exactly one solution if the timestep is small. -/
theorem implicit_unique [CompleteSpace E] {f : E → E} {L : ℝ} (hf : Lip f L) {k : ℝ} (hk : 0 ≤ k) (hkL : k * L ≤ 1 / 2) (c : E) :
    ∃! y, y = c + k • f y := by
  have hl : LipschitzWith ⟨1 / 2, by norm_num⟩ (fun y => c + k • f y) := LipschitzWith.of_dist_le_mul fun x z => by
    rw [dist_eq_norm, dist_eq_norm, add_sub_add_left_eq_sub, ← smul_sub, norm_smul, Real.norm_eq_abs, abs_of_nonneg hk]
    calc k * ‖f x - f z‖ ≤ k * (L * ‖x - z‖) := mul_le_mul_of_nonneg_left (hf.2 x z) hk
      _ = (k * L) * ‖x - z‖ := by ring
      _ ≤ 1 / 2 * ‖x - z‖ := mul_le_mul_of_nonneg_right hkL (norm_nonneg _)
  have hc : ContractingWith ⟨1 / 2, by norm_num⟩ (fun y => c + k • f y) := ⟨by
    show (1 / 2 : ℝ) < 1
    norm_num, hl⟩
  refine ⟨hc.fixedPoint, (hc.fixedPoint_isFixedPt).symm, fun z hz => ?_⟩
  exact hc.fixedPoint_unique (x := z) hz.symm

section implicit
variable [CompleteSpace E] (R : LForm E D) (M : E ≃ₗ[ℝ] D) (hM : ∀ x, mass R x = M x)
include hM

theorem rest_eq (x : E) : rest R x = -M (tendency R M x) := by simp [tendency]

/-- The theta equation in the form of the textbook. -/
theorem theta_iff (h th : ℝ) (x x' : E) : (thetaRes R h th x' x).eval = 0 ↔
    x' = x + (h * th) • tendency R M x' + (h * (1 - th)) • tendency R M x := by
  rw [C07_theta, hM, hM, rest_eq R M hM, rest_eq R M hM]
  rw [← M.injective.eq_iff]
  simp only [map_add, map_smul, smul_neg, sub_neg_eq_add]
  constructor
  · intro e; rw [add_right_comm, ← e]; abel
  · intro e; nth_rewrite 1 [e]; abel

/-- The trapezium stage of TR-BDF2 in the form of the textbook. -/
theorem tr_iff (h g : ℝ) (x x' : E) : (trRes R h g x' x).eval = 0 ↔
    x' = x + (g * h * (1 / 2)) • tendency R M x' + (g * h * (1 - 1 / 2)) • tendency R M x := by
  have : (trRes R h g x' x).eval = (thetaRes R (g * h) (1 / 2) x' x).eval := by
    rw [eval_trRes, eval_thetaRes]; congr 1 <;> ring_nf
  rw [this, theta_iff R M hM]

/-- The BDF2 stage of TR-BDF2 in the form of the textbook. -/
theorem bdf2Stage_iff (h g : ℝ) (x xg x' : E) : (bdf2StageRes R h g x' xg x).eval = 0 ↔
    x' = (1 / (g * (2 - g))) • xg - ((1 - g) ^ 2 / (g * (2 - g))) • x + ((1 - g) / (2 - g) * h) • tendency R M x' := by
  rw [eval_bdf2StageRes, sub_eq_zero, hM, hM, hM, rest_eq R M hM, ← M.injective.eq_iff]
  simp only [map_add, map_sub, map_smul, smul_neg]
  constructor
  · intro e; rw [← e]; abel
  · intro e; nth_rewrite 1 [e]; abel

/-- An exact solver takes the theta step. -/
theorem theta_step (solve : Solver E D) (hs : ExactSolver solve) {L : ℝ} (hf : Lip (tendency R M) L) {h th : ℝ} (hh : 0 ≤ h)
    (h0 : 0 ≤ th) (h1 : th ≤ 1) (hhL : h * L ≤ 1 / 2) (x : E) :
    let x' := implicitCycle solve (thetaRes R h th) x
    x' = x + (h * th) • tendency R M x' + (h * (1 - th)) • tendency R M x := by
  intro x'
  rw [← theta_iff R M hM]
  refine hs (fun z => (thetaRes R h th z x).eval) x ?_
  have hL := hf.1
  obtain ⟨z, hz, hu⟩ := implicit_unique hf (k := h * th) (by positivity) (by
    calc h * th * L = th * (h * L) := by ring
      _ ≤ 1 * (h * L) := mul_le_mul_of_nonneg_right h1 (by positivity)
      _ ≤ _ := by linarith) (x + (h * (1 - th)) • tendency R M x)
  refine ⟨z, (theta_iff R M hM h th x z).2 (by nth_rewrite 1 [hz]; abel), fun z' hz' => hu z' ?_⟩
  have e := (theta_iff R M hM h th x z').1 hz'
  show z' = _
  nth_rewrite 1 [e]; abel

/-- **C122** (ThetaMethod).  For every off-centring in `[0, 1]` the theta method converges with the first order. -/
theorem C122_theta (solve : Solver E D) (hs : ExactSolver solve) {L : ℝ} (hf : Lip (tendency R M) L) {th : ℝ}
    (hth : offCentringAccepted th = true) {y : ℝ → E} {T : ℝ} (hy : IsSol (tendency R M) y T) :
    ∃ C, ∀ h, 0 ≤ h → h * L ≤ 1 / 2 → ∀ (x : ℕ → E) (N : ℕ), N * h ≤ T → x 0 = y 0 →
      (∀ n < N, x (n + 1) = implicitCycle solve (thetaRes R h th) (x n)) → ‖x N - y (N * h)‖ ≤ C * h := by
  rw [C07_parameter_guard] at hth
  obtain ⟨C, hC⟩ := theta_converges hf hth.1 hth.2 hy
  refine ⟨C, fun h hh hhL x N hN h0 hx => hC h hh hhL x N hN h0 fun n hn => ?_⟩
  have := theta_step R M hM solve hs hf hh hth.1 hth.2 hhL (x n)
  rw [← hx n hn] at this
  exact this

/-- **C122** (BackwardEuler): first order. -/
theorem C122_backward_euler (solve : Solver E D) (hs : ExactSolver solve) {L : ℝ} (hf : Lip (tendency R M) L)
    {y : ℝ → E} {T : ℝ} (hy : IsSol (tendency R M) y T) :
    ∃ C, ∀ h, 0 ≤ h → h * L ≤ 1 / 2 → ∀ (x : ℕ → E) (N : ℕ), N * h ≤ T → x 0 = y 0 →
      (∀ n < N, x (n + 1) = implicitCycle solve (backwardEulerRes R h) (x n)) → ‖x N - y (N * h)‖ ≤ C * h := by
  obtain ⟨C, hC⟩ := C122_theta R M hM solve hs hf (th := 1) (by rw [C07_parameter_guard]; norm_num) hy
  refine ⟨C, fun h hh hhL x N hN h0 hx => hC h hh hhL x N hN h0 fun n hn => ?_⟩
  rw [hx n hn]
  unfold implicitCycle
  congr 1
  funext z
  exact (C07_theta_one R h (x n) z).symm

/-- **C122** (TrapeziumRule): second order. -/
theorem C122_trapezium (solve : Solver E D) (hs : ExactSolver solve) {L : ℝ} (hf : SmoothRHS (tendency R M) 2 L)
    {y : ℝ → E} {T : ℝ} (hy : IsSol (tendency R M) y T) :
    ∃ C, ∀ h, 0 ≤ h → h * L ≤ 1 / 2 → ∀ (x : ℕ → E) (N : ℕ), N * h ≤ T → x 0 = y 0 →
      (∀ n < N, x (n + 1) = implicitCycle solve (trapeziumRes R h) (x n)) → ‖x N - y (N * h)‖ ≤ C * h ^ 2 := by
  obtain ⟨L2, hf2⟩ := hf.smooth2 le_rfl
  obtain ⟨C, hC⟩ := trapezium_converges hf2 hy
  refine ⟨C, fun h hh hhL x N hN h0 hx => hC h hh hhL x N hN h0 fun n hn => ?_⟩
  have := theta_step R M hM solve hs hf.lip (th := 1 / 2) hh (by norm_num) (by norm_num) hhL (x n)
  have e : x (n + 1) = implicitCycle solve (thetaRes R h (1 / 2)) (x n) := hx n hn
  rw [← e] at this
  exact this

/-- **C122** (TR_BDF2): second order, for every `γ` in `(0, 1]`. -/
theorem C122_tr_bdf2 (solve : Solver E D) (hs : ExactSolver solve) {L : ℝ} (hf : SmoothRHS (tendency R M) 2 L) {g : ℝ}
    (hg : offCentringAccepted g = true) (hg0 : g ≠ 0) {y : ℝ → E} {T : ℝ} (hy : IsSol (tendency R M) y T) :
    ∃ C, ∀ h, 0 ≤ h → h * L ≤ 1 / 2 → ∀ (x : ℕ → E) (N : ℕ), N * h ≤ T → x 0 = y 0 →
      (∀ n < N, x (n + 1) = trBdf2Apply solve R h g (x n)) → ‖x N - y (N * h)‖ ≤ C * h ^ 2 := by
  rw [C07_parameter_guard] at hg
  have hgp : 0 < g := lt_of_le_of_ne hg.1 (Ne.symm hg0)
  obtain ⟨L2, hf2⟩ := hf.smooth2 le_rfl
  obtain ⟨C, hC⟩ := trbdf2_converges hf2 hgp hg.2 hy
  have hL := hf.lip.1
  have h2g : 0 < 2 - g := by linarith [hg.2]
  have htr := fun h => tr_iff R M hM h g
  have hbdf := fun h => bdf2Stage_iff R M hM h g
  refine ⟨C, fun h hh hhL x N hN h0 hx => hC h hh hhL x
    (fun n => solve (fun z => (trRes R h g z (x n)).eval) (x n)) N hN h0 fun n hn => ⟨?_, ?_⟩⟩
  · rw [← htr]
    refine hs (fun z => (trRes R h g z (x n)).eval) (x n) ?_
    obtain ⟨z, hz, hu⟩ := implicit_unique hf.lip (k := g * h * (1 / 2)) (by positivity) (by
      have : g * (h * L) ≤ 1 * (h * L) := mul_le_mul_of_nonneg_right hg.2 (by positivity)
      nlinarith [mul_nonneg hgp.le (mul_nonneg hh hL)]) (x n + (g * h * (1 - 1 / 2)) • tendency R M (x n))
    refine ⟨z, (htr h (x n) z).2 (by nth_rewrite 1 [hz]; abel), fun z' hz' => hu z' ?_⟩
    have e := (htr h (x n) z').1 hz'
    show z' = _
    nth_rewrite 1 [e]; abel
  · rw [← hbdf, hx n hn]
    refine hs (fun z => (bdf2StageRes R h g z (solve (fun z => (trRes R h g z (x n)).eval) (x n)) (x n)).eval) _ ?_
    have hq : 0 ≤ (1 - g) / (2 - g) := div_nonneg (by linarith [hg.2]) h2g.le
    have hq1 : (1 - g) / (2 - g) ≤ 1 := by rw [div_le_one h2g]; linarith
    obtain ⟨z, hz, hu⟩ := implicit_unique hf.lip (k := (1 - g) / (2 - g) * h) (by positivity) (by
      have : (1 - g) / (2 - g) * (h * L) ≤ 1 * (h * L) := mul_le_mul_of_nonneg_right hq1 (by positivity)
      linarith [mul_assoc ((1 - g) / (2 - g)) h L]) ((1 / (g * (2 - g))) • solve (fun z => (trRes R h g z (x n)).eval) (x n)
        - ((1 - g) ^ 2 / (g * (2 - g))) • x n)
    exact ⟨z, (hbdf h (x n) _ z).2 hz, fun z' hz' => hu z' ((hbdf h (x n) _ z').1 hz')⟩

end implicit

/-! ### A nonlinear example: `2 x' = 2 sin x` -/

/-- The residual of `2 x' = 2 sin x`. -/
noncomputable def sineR : LForm ℝ ℝ :=
  [ { labels := [.timeDerivative], op := fun x => 2 * x, subj := 0 },
    { labels := [.transport], op := fun x => -2 * Real.sin x, subj := 0 } ]

/-- The mass operator. -/
noncomputable def sineM : ℝ ≃ₗ[ℝ] ℝ := LinearEquiv.smulOfNeZero ℝ ℝ (2 : ℝ) (by norm_num)

theorem sine_mass (x : ℝ) : mass sineR x = sineM x := by simp [mass, part, sineR, sineM]
theorem sine_tendency : tendency sineR sineM = Real.sin := by
  funext x
  rw [tendency, LinearEquiv.symm_apply_eq]
  simp [rest, part, sineR, sineM]

theorem sine_smooth (p : ℕ) : SmoothRHS (tendency sineR sineM) p 1 := by
  rw [sine_tendency]
  refine ⟨⟨zero_le_one, fun x z => ?_⟩, fun _ => Real.contDiff_sin, fun _ => ⟨1, zero_le_one, fun x z => ?_⟩⟩
  · rw [one_mul]
    have := Convex.norm_image_sub_le_of_norm_hasDerivWithin_le (s := Set.univ) (C := 1) (x := z) (y := x)
      (fun a _ => (Real.hasDerivAt_sin a).hasDerivWithinAt) (fun a _ => by simpa using Real.abs_cos_le_one a) convex_univ trivial trivial
    simpa using this
  · have e : ∀ x : ℝ, fderiv ℝ Real.sin x = ContinuousLinearMap.toSpanSingleton ℝ (Real.cos x) := fun x =>
      (Real.hasDerivAt_sin x).hasFDerivAt.fderiv
    have e2 : ContinuousLinearMap.toSpanSingleton ℝ (Real.cos x) - ContinuousLinearMap.toSpanSingleton ℝ (Real.cos z)
        = ContinuousLinearMap.toSpanSingleton ℝ (Real.cos x - Real.cos z) := by ext; simp
    rw [e, e, e2, ContinuousLinearMap.norm_toSpanSingleton, one_mul]
    have := Convex.norm_image_sub_le_of_norm_hasDerivWithin_le (s := Set.univ) (C := 1) (x := z) (y := x)
      (fun a _ => (Real.hasDerivAt_cos a).hasDerivWithinAt) (fun a _ => by simpa using Real.abs_sin_le_one a) convex_univ trivial trivial
    simpa using this

theorem sine_sol (T : ℝ) : IsSol (tendency sineR sineM) (fun t => 2 * Real.arctan (Real.exp t)) T := by
  intro t _
  rw [sine_tendency]
  have h1 := ((Real.hasDerivAt_exp t).arctan).const_mul 2
  refine (h1.congr_deriv ?_).hasDerivWithinAt
  have hp : (0 : ℝ) < 1 + Real.exp t ^ 2 := by positivity
  have hs : Real.sqrt (1 + Real.exp t ^ 2) * Real.sqrt (1 + Real.exp t ^ 2) = 1 + Real.exp t ^ 2 := Real.mul_self_sqrt hp.le
  rw [Real.sin_two_mul, Real.sin_arctan, Real.cos_arctan]
  have hq : Real.sqrt (1 + Real.exp t ^ 2) ≠ 0 := (Real.sqrt_pos.2 hp).ne'
  rw [show 2 * (Real.exp t / √(1 + Real.exp t ^ 2)) * (1 / √(1 + Real.exp t ^ 2)) =
    2 * Real.exp t / (√(1 + Real.exp t ^ 2) * √(1 + Real.exp t ^ 2)) by field_simp, hs]
  ring

/-- The scheme object for a table. -/
noncomputable def tableScheme (t : Table) (h : ℝ) : RKScheme ℝ ℝ ℝ where
  R := sineR
  A := fun i j => ((t.A i j : ℚ) : ℝ)
  nStages := t.nStages
  dt := h
  originalDt := h
  limiter := none
  nphys := 0
  evals := fun _ x _ => x
  solve := choiceSolve

/-- Three substeps in every step. -/
noncomputable def sineRun (t : Table) (h : ℝ) (st : RKState ℝ) : ℕ → ℝ
  | 0 => 2 * Real.arctan (Real.exp 0)
  | n + 1 => RK.apply .predictor (tableScheme t (h / 3)) 3 st (sineRun t h st n)

theorem sineRun_run (t : Table) (h : ℝ) (st : RKState ℝ) (N : ℕ) : ExplicitRun t sineR h (sineRun t h st) N := fun n _ =>
  ⟨.predictor, tableScheme t (h / 3), 3, st, ⟨fun _ _ => rfl, rfl⟩, rfl, choiceSolve_exact, rfl, by norm_num, by norm_num [tableScheme],
    by simp, rfl⟩

/-- RK4 in the predictor formulation with three subcycles: fourth order for `x' = sin x`. -/
example (st : RKState ℝ) : ∃ C, ∀ h : ℝ, 0 ≤ h → ∀ N : ℕ, N * h ≤ 10 →
    ‖sineRun rk4 h st N - 2 * Real.arctan (Real.exp (N * h))‖ ≤ C * h ^ 4 := by
  obtain ⟨C, hC⟩ := C122_explicit .rk4 rfl sineR sineM sine_mass (by simp [sineR]) (sine_smooth 4) (T := 10) (by norm_num) (sine_sol 10)
  exact ⟨C, fun h hh N hN => hC h hh (sineRun rk4 h st) N hN rfl (sineRun_run rk4 h st N)⟩

/-- The trapezium rule on the same equation. -/
noncomputable def sineTrapezium (h : ℝ) : ℕ → ℝ
  | 0 => 2 * Real.arctan (Real.exp 0)
  | n + 1 => implicitCycle choiceSolve (trapeziumRes sineR h) (sineTrapezium h n)

example : ∃ C, ∀ h : ℝ, 0 ≤ h → h ≤ 1 / 2 → ∀ N : ℕ, N * h ≤ 10 →
    ‖sineTrapezium h N - 2 * Real.arctan (Real.exp (N * h))‖ ≤ C * h ^ 2 := by
  obtain ⟨C, hC⟩ := C122_trapezium sineR sineM sine_mass choiceSolve choiceSolve_exact (sine_smooth 2) (sine_sol 10)
  exact ⟨C, fun h hh h1 N hN => hC h hh (by linarith) (sineTrapezium h) N hN rfl fun n _ => rfl⟩

end Gusto.Props.ConvergenceProps
