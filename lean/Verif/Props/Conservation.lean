import Verif.Spec.Invariants
import Verif.Props.OneStep
import Verif.Props.ExplicitRK
import Verif.Props.ImplicitRK
import Verif.Props.IMEX
import Verif.Props.Multilevel
import Verif.Props.DeferredCorrection
import Verif.Props.RIDC
import Verif.Props.Split

set_option autoImplicit false
set_option linter.unusedSectionVars false
set_option linter.unusedSimpArgs false

/-!
# C111: every time scheme conserves the totals that the equation conserves
-/

namespace Gusto.Props.ConservationProps
open Gusto LForm TimeDisc Spec Finset Gusto.Props
variable {K X D : Type*} [Field K] [AddCommGroup X] [Module K X] [AddCommGroup D] [Module K D]

/-! ## One-step schemes -/

/-- C111: forward Euler, backward Euler, the theta method and the trapezium rule: every new state
that satisfies the scheme's residual has the total of the old state, whatever the timestep and
off-centring. -/
theorem C111_one_step (μ : D →ₗ[K] K) (R : LForm X D) (hc : EqConserves μ R) (dt th : K)
    (x x' : X) :
    ((baseRes R dt x' x).eval = 0 → total μ R x' = total μ R x) ∧
    ((backwardEulerRes R dt x' x).eval = 0 → total μ R x' = total μ R x) ∧
    ((thetaRes R dt th x' x).eval = 0 → total μ R x' = total μ R x) ∧
    ((trapeziumRes R dt x' x).eval = 0 → total μ R x' = total μ R x) := by
  refine ⟨fun h => ?_, fun h => ?_, fun h => ?_, fun h => ?_⟩
  · have := congrArg μ ((C01_default_residual_is_forward_euler R dt x x').1 h)
    simpa [hc x, total] using this
  · have := congrArg μ ((C07_backward_euler R dt x x').1 h)
    simpa [hc x', total] using this
  · have := congrArg μ ((C07_theta R dt th x x').1 h)
    simpa [hc x', hc x, total] using this
  · have := congrArg μ ((C07_theta R dt (1 / 2) x x').1 h)
    simpa [hc x', hc x, total] using this

/-- C111: TR-BDF2, for every off-centring `γ` with `γ ≠ 0` and `γ ≠ 2`: if both solves converge, the
result has the total of the old state. -/
theorem C111_tr_bdf2 (μ : D →ₗ[K] K) (solve : Solver X D) (R : LForm X D) (hc : EqConserves μ R)
    (dt g : K) (hg : g ≠ 0) (h2g : 2 - g ≠ 0) (x : X)
    (h1 : (trRes R dt g (solve (fun y => (trRes R dt g y x).eval) x) x).eval = 0)
    (h2 : ∀ xg, xg = solve (fun y => (trRes R dt g y x).eval) x →
      (bdf2StageRes R dt g (solve (fun y => (bdf2StageRes R dt g y xg x).eval) xg) xg x).eval = 0) :
    total μ R (trBdf2Apply solve R dt g x) = total μ R x := by
  obtain ⟨xg, e1, e2⟩ := C07_tr_bdf2 solve R dt g x h1 h2
  have e1 := congrArg μ e1
  have e2 := congrArg μ e2
  simp only [map_sub, map_smul, hc _, smul_zero, sub_zero, smul_eq_mul, mul_zero] at e1 e2
  unfold total
  rw [e2, e1]
  field_simp
  ring

/-! ## Explicit Runge-Kutta -/

/-- A textbook Runge-Kutta step adds only multiples of tendencies. -/
theorem textbook_total (μ : D →ₗ[K] K) (S : RKScheme K X D) (M : X ≃ₗ[K] D) (f : X → X)
    (hf : ∀ y, μ (M (f y)) = 0) (x : X) : μ (M (textbook S f x)) = μ (M x) := by
  have hk : ∀ j, μ (M (rkK (stageCoeffs S.A) f S.dt x j)) = 0 := fun j => by
    rw [rkK]; exact hf _
  simp [textbook, rkStep, map_sum, hk]

theorem tendency_total (μ : D →ₗ[K] K) (R : LForm X D) (M : X ≃ₗ[K] D) (hc : EqConserves μ R)
    (y : X) : μ (M (tendency R M y)) = 0 := by
  simp [tendency, hc y]

theorem iterate_inv {Y : Type*} (Φ : X → X) (q : X → Y) (h : ∀ x, q (Φ x) = q x) (n : ℕ) (x : X) :
    q (Φ^[n] x) = q x := by
  induction n with
  | zero => rfl
  | succ n ih => rw [Function.iterate_succ_apply', h, ih]

/-- C111: explicit Runge-Kutta schemes in the increment and predictor formulations, for every
tableau, number of stages and number of subcycles, with or without a limiter: if the limiter keeps
the total (and, for the predictor formulation, limiting twice is the same as limiting once), the
result of `apply` has the total of the input. -/
theorem C111_explicit_rk (μ : D →ₗ[K] K) (S : RKScheme K X D) (M : X ≃ₗ[K] D) (h : Setting S M)
    (hns : ∀ t ∈ S.R, Label.source ∉ t.labels) (hc : EqConserves μ S.R)
    (hlim : ∀ y, total μ S.R (RK.limit S y) = total μ S.R y)
    (n : ℕ) (hn : 0 < n) (st : RKState X) (x : X) :
    total μ S.R (RK.apply .increment S n st x) = total μ S.R x ∧
    ((∀ y, RK.limit S (RK.limit S y) = RK.limit S y) →
      total μ S.R (RK.apply .predictor S n st x) = total μ S.R x) := by
  have key : ∀ y, total μ S.R ((fun x => RK.limit S (textbook S
      (fun y => tendency S.R M (RK.limit S y)) (RK.limit S x))) y) = total μ S.R y := by
    intro y
    dsimp only
    rw [hlim]
    have := textbook_total μ S M (fun y => tendency S.R M (RK.limit S y))
      (fun y => tendency_total μ S.R M hc _) (RK.limit S y)
    unfold total at hlim ⊢
    rw [h.mass_eq, this, ← h.mass_eq, hlim]
  refine ⟨?_, fun hid => ?_⟩
  · rw [C02_increment_limited S M h hns n hn]
    exact iterate_inv _ (total μ S.R) key n x
  · rw [C02_predictor_limited S M h hns hid n hn]
    exact iterate_inv _ (total μ S.R) key n x

/-- C111: the linear formulation also conserves totals, for every number of subcycles (although its
subcycled result is otherwise wrong, see C06). -/
theorem C111_explicit_rk_linear (μ : D →ₗ[K] K) (S : RKScheme K X D) (M : X ≃ₗ[K] D)
    (F : X →ₗ[K] D) (h : Setting S M) (hF : ∀ x, rest S.R x = F x)
    (hA : ∀ t ∈ S.R, Label.allButLast ∉ t.labels) (hl : S.limiter = none)
    (hc : EqConserves μ S.R) (n : ℕ) (st : RKState X) (x : X) :
    total μ S.R (RK.apply .linear S (n + 1) st x) = total μ S.R x := by
  have key : ∀ n y, μ (M ((textbook S (tendency S.R M))^[n] y)) = μ (M y) := fun n y =>
    iterate_inv _ (fun z => μ (M z))
      (textbook_total μ S M _ (tendency_total μ S.R M hc)) n y
  rw [C06_linear_subcycled S M F h hF hA hl]
  unfold total
  rw [h.mass_eq, h.mass_eq, map_add, map_sub, map_add, map_sub, key, key, sub_self, add_zero]

/-- C111 with physics: in the increment formulation the total is kept if the dynamics and the source
terms (at any source field) each conserve it. -/
theorem C111_explicit_rk_sources (μ : D →ₗ[K] K) (S : RKScheme K X D) (M : X ≃ₗ[K] D)
    (h : Setting S M) (hl : S.limiter = none) (hreg : SourcesRegistered S)
    (hc : ∀ x, μ (restNoSource S.R x) = 0) (hsrc : ∀ s, μ (sourcePart S.R s) = 0)
    (n : ℕ) (hn : 0 < n) (st : RKState X) (x : X) :
    total μ S.R (RK.apply .increment S n st x) = total μ S.R x := by
  rw [C61_increment_sources S M h hl hreg n hn]
  refine iterate_inv _ (total μ S.R) (fun y => ?_) n x
  unfold total
  rw [h.mass_eq, h.mass_eq]
  exact textbook_total μ S M _ (fun z => by simp [hc, hsrc]) y

/-! ## Implicit and IMEX Runge-Kutta -/

theorem dirkK_total (μ : D →ₗ[K] K) (a : ℕ → ℕ → K) (b : ℕ → K) (s : ℕ) (M F : X → D)
    (hM : IsLin K M) (hF : ∀ x, μ (F x) = 0) (dt : K) (x y : X)
    (h : IsDIRKStepK a b s M F dt x y) : μ (M y) = μ (M x) := by
  obtain ⟨k, hk, rfl⟩ := h
  have h0 : M 0 = 0 := by simpa using hM.2 0 0
  have hs : ∀ m ≤ s, μ (M (∑ j ∈ range m, b j • k j)) = 0 := by
    intro m
    induction m with
    | zero => intro _; simp [h0]
    | succ m ih =>
      intro hm
      rw [sum_range_succ, hM.1, map_add, ih (by omega), hM.2, map_smul, hk m (by omega), map_neg,
        hF]; simp
  rw [hM.1, map_add, hM.2, map_smul, hs s le_rfl]; simp

theorem dirkY_total (μ : D →ₗ[K] K) (a : ℕ → ℕ → K) (b : ℕ → K) (s : ℕ) (M F : X → D)
    (hF : ∀ x, μ (F x) = 0) (dt : K) (x y : X)
    (h : IsDIRKStepY a b s M F dt x y) : μ (M y) = μ (M x) := by
  obtain ⟨Y, -, hy⟩ := h
  rw [hy]; simp [map_sum, hF]

/-- C111: implicit Runge-Kutta schemes, increment formulation, any tableau (even one with a diagonal
that is not constant, for which the step itself is wrong, see C11): every call of `apply` in a run
keeps the total. -/
theorem C111_implicit_rk_increment (μ : D →ₗ[K] K) (S : IRK.Scheme K X D)
    (hs : ExactSolver S.solve) (hM : IsLin K (mass S.R)) (hc : EqConserves μ S.R)
    (st : IRK.State K X) (hfresh : st.cachedDiag = none) (xin : ℕ → X) (n : ℕ)
    (hu : ∀ x1 : X, ∃! y, mass S.R y + rest S.R (x1 + (S.A 0 0 * S.dt) • y) = 0) :
    total μ S.R (IRK.applyInc S (IRKProps.stateAfter S xin st n) (xin n)).1
      = total μ S.R (xin n) :=
  dirkK_total μ _ _ _ _ _ hM hc _ _ _ (IRKProps.C11_increment_solves S hs st hfresh xin n hu)

/-- C111: implicit Runge-Kutta schemes, predictor formulation, any tableau. -/
theorem C111_implicit_rk_predictor (μ : D →ₗ[K] K) (S : IRK.Scheme K X D)
    (hs : ExactSolver S.solve) (hc : EqConserves μ S.R) (st : IRK.State K X) (x : X)
    (hm : Function.Bijective (mass S.R))
    (hu : ∀ i < S.nStages, ∀ d : D, ∃! y, mass S.R y + (S.dt * S.A i i) • rest S.R y = d) :
    total μ S.R (IRK.applyPred S st x).1 = total μ S.R x :=
  dirkY_total μ _ _ _ _ _ hc _ _ _ (IRKProps.C11_predictor S hs st x hm hu)

/-- C111: IMEX Runge-Kutta schemes with any pair of tables, with at most one physics scheme: if the
implicit, explicit and source terms each conserve the total, `apply` keeps it. -/
theorem C111_imex [DecidableEq K] (μ : D →ₗ[K] K) (S : IMEX.Scheme K X D) (hR : TDClean S.R)
    (hl : S.limiter = none) (e : X → X) (he : S.evaluate = [e] ∨
      (S.evaluate = [] ∧ ∀ t ∈ S.R, Label.source ∉ t.labels))
    (hi : ∀ x, μ (implPart S.R x) = 0) (hx : ∀ x, μ (explPart S.R x) = 0)
    (hsrc : ∀ x, μ (srcPart S.R x) = 0)
    (hs : ExactSolver S.solve) (st : IMEX.State X) (x : X) (hn : 0 < S.nStages)
    (hu : ∀ i < S.nStages, IMEX.startStage S ≤ i → ∀ c : D,
      ∃! y, mass S.R y + (S.dt * S.imp i i) • implPart S.R y = c)
    (hm : ∀ c : D, ∃! y, mass S.R y = c) :
    total μ S.R (IMEX.apply S st x) = total μ S.R x := by
  have key : ∀ G : X → D, (∀ x, μ (G x) = 0) → IsIMEXStep S.imp (S.imp S.nStages) S.exp
      (S.exp S.nStages) S.nStages (mass S.R) (implPart S.R) G S.dt x (IMEX.apply S st x) →
      total μ S.R (IMEX.apply S st x) = total μ S.R x := by
    rintro G hG ⟨Y, -, hy⟩
    unfold total
    rw [hy]; simp [map_sum, hi, hG]
  rcases he with he | ⟨-, he⟩
  · exact key _ (fun z => by simp [hx, hsrc])
      (IMEXProps.C12_apply_source S hR hl e he hs st x hn hu hm)
  · exact key _ hx (IMEXProps.C12_apply S hR hl he hs st x hn hu hm)

/-! ## Multi-level schemes -/

/-- C111: BDF2, the Adams-Bashforth and the Adams-Moulton schemes with any coefficient lists, for
every step of a run that starts from one state, including the start-up steps. -/
theorem C111_multilevel [Inhabited X] [CharZero K] (μ : D →ₗ[K] K) (solve : Solver X D)
    (hs : ExactSolver solve) (R : LForm X D) (hc : EqConserves μ R) (dt bl : K) (b br : List K)
    (hb : b ≠ []) (hbr : br ≠ []) (hm : Function.Bijective (mass R))
    (huniq : ∀ c ∈ [dt, 2 / 3 * dt, 1 / 2 * dt, dt * bl], ∀ d : D,
      ∃! y, mass R y + c • rest R y = d)
    (s1 s2 s3 : Multilevel.RunState X)
    (h1 : Fresh (Multilevel.bdf2 R dt) s1)
    (h2 : Fresh (Multilevel.adamsBashforth R dt b) s2)
    (h3 : Fresh (Multilevel.adamsMoulton R dt bl br) s3) (k : ℕ) :
    total μ R (result (Multilevel.bdf2 R dt) solve s1 k) = total μ R s1.levels.np1 ∧
    total μ R (result (Multilevel.adamsBashforth R dt b) solve s2 k)
      = total μ R s2.levels.np1 ∧
    total μ R (result (Multilevel.adamsMoulton R dt bl br) solve s3 k)
      = total μ R s3.levels.np1 := by
  have sub : ∀ (c : K) (x : X), μ (c • rest R x) = 0 := fun c x => by rw [map_smul, hc]; simp
  have sm : ∀ (n : ℕ) (c : ℕ → K) (y : ℕ → X), μ (dt • ∑ j ∈ range n, c j • rest R (y j)) = 0 := by
    intro n c y; simp [map_sum, hc _]
  refine ⟨?_, ?_, ?_⟩
  · induction k using Nat.strong_induction_on with
    | _ k ih =>
      cases k with
      | zero => rfl
      | succ k =>
        have hk := C10_bdf2_run solve hs R dt (fun c hc' => huniq c (by
          simp at hc' ⊢; tauto)) s1 h1 k
        dsimp only at hk
        split at hk
        · rename_i h0
          subst h0
          have e := congrArg μ hk
          rw [map_add, sub, add_zero] at e
          exact e.trans (ih 0 (by omega))
        · have e := congrArg μ hk
          rw [map_sub, sub, sub_zero, map_sub, map_smul, map_smul] at e
          have a := ih k (by omega)
          have b := ih (k - 1) (by omega)
          unfold total at a b ⊢
          rw [e, a, b]
          simp only [smul_eq_mul]
          ring
  · induction k with
    | zero => rfl
    | succ k ih =>
      have hk := C10_adams_bashforth_run solve hs R dt b hb hm s2 h2 k
      dsimp only at hk
      unfold total at ih ⊢
      rw [hk]
      split
      · rw [map_sub, sub, sub_zero, ih]
      · rw [map_sub, sm, sub_zero, ih]
  · induction k with
    | zero => rfl
    | succ k ih =>
      have hk := C10_adams_moulton_run solve hs R dt bl br hbr (fun c hc' => huniq c (by
          simp at hc' ⊢; tauto)) s3 h3 k
      dsimp only at hk
      unfold total at ih ⊢
      split at hk
      · have e := congrArg μ hk
        rw [map_add, sub, add_zero, map_sub, sub, sub_zero, ih] at e
        exact e
      · have e := congrArg μ hk
        rw [map_add, smul_smul, sub, add_zero, map_sub, sm, sub_zero, ih] at e
        exact e

/-- C111: Leapfrog (whose solved residuals are forward Euler, see C08), both residuals. -/
theorem C111_leapfrog (μ : D →ₗ[K] K) (R : LForm X D) (hc : EqConserves μ R) (dt : K)
    (y xn xnm1 : X) :
    ((Multilevel.leapfrogRes0 R dt y xn).eval = 0 → total μ R y = total μ R xn) ∧
    ((Multilevel.leapfrogRes R dt y xn xnm1).eval = 0 → total μ R y = total μ R xn) := by
  constructor
  · intro h
    have := congrArg μ (sub_eq_zero.1 ((Multilevel.eval_leapfrogRes0 R dt y xn).symm.trans h))
    simpa [hc xn, total] using this
  · intro h
    have := congrArg μ ((C08_leapfrog_solves_forward_euler R dt y xn xnm1).1 h)
    simpa [hc xn, total] using this

/-! ## Deferred correction -/

theorem sweep_total (μ : D →ₗ[K] K) (z2n : Bool) (Q qi qe : ℕ → ℕ → K) (n : ℕ) (M I E : X → D)
    (hI : ∀ x, μ (I x) = 0) (hE : ∀ x, μ (E x) = 0) (U V : ℕ → X)
    (h : IsSweep z2n Q qi qe n M I E U V) : ∀ m ≤ n, μ (M (V m)) = μ (M (U 0)) := by
  obtain ⟨h0, h1⟩ := h
  intro m
  induction m with
  | zero => intro _; rw [h0]
  | succ m ih =>
    intro hm
    have e := congrArg μ (h1 m (by omega))
    simp only [map_sub, map_add, map_sum, map_smul, hI, hE, smul_eq_mul, sub_zero, add_zero,
      mul_zero, sum_const_zero] at e
    rw [e]
    unfold startNode
    split
    · rw [h0]
    · exact ih (by omega)

/-- C111: spectral deferred correction, for every number of nodes, every quadrature and
approximate-integration matrices, both formulations, with or without the final update, after any
positive number of sweeps: the result of `apply` has the total of the input, whatever the base
scheme did. -/
theorem C111_sdc (μ : D →ₗ[K] K) (S : SDC.Scheme K X D) (st : SDC.State K X) (x : X) (G : X → D)
    (hS : SDCProps.Good S (st.solvers.getD st.qdeltaImp) (SDC.start S st x).baseDt G)
    (hlow : ∀ m i, m ≤ i → i < S.M → S.Qe m i = 0) (hk : 0 < S.maxk)
    (hi : ∀ x, μ (implPart S.R x) = 0) (hx : ∀ x, μ (explPart S.R x) = 0)
    (hG : ∀ x, μ (G x) = 0) :
    total μ S.R (SDC.apply S st x).2 = total μ S.R x := by
  obtain ⟨r1, r2⟩ := SDCProps.C24_apply_result S st x G hS hlow
  cases hf : S.finalUpdate with
  | true =>
    unfold total
    rw [r2 hk hf]
    simp [map_sum, hi, hx, hG]
  | false =>
    rw [r1 (Or.inr hf)]
    obtain ⟨k, hk'⟩ : ∃ k, S.maxk = k + 1 := ⟨S.maxk - 1, by omega⟩
    obtain ⟨h0, hsw⟩ := SDCProps.C24_apply_sweeps S st x G hS hlow k
    have := sweep_total μ _ _ _ _ _ _ _ _ hi (fun z => by simp [hx, hG]) _ _ hsw S.M le_rfl
    unfold total
    rw [hk', this, h0]

theorem ridcSweep_total (μ : D →ₗ[K] K) (q : ℕ → ℕ → K) (l n : ℕ) (dt : K) (M I E : X → D) (e : D)
    (hI : ∀ x, μ (I x) = 0) (hE : ∀ x, μ (E x) = 0) (he : μ e = 0) (U V : ℕ → X)
    (h : IsRIDCSweep q l n dt M I E e U V) : ∀ m ≤ n, μ (M (V m)) = μ (M (U 0)) := by
  obtain ⟨h0, h1⟩ := h
  have hq : ∀ m, μ (ridcQuad q l (fun j => I (U j) + E (U j)) m) = 0 := by
    intro m; unfold ridcQuad; split <;> simp [map_sum, hI, hE]
  intro m
  induction m with
  | zero => intro _; rw [h0]
  | succ m ih =>
    intro hm
    have e' := congrArg μ (h1 m (by omega))
    rw [map_sub, hq, map_sub, map_sub, map_sub, map_smul, map_smul, map_sub, map_sub, hI, hI, hE, hE,
      ih (by omega)] at e'
    rw [e']
    split <;> simp [he]

theorem ridc_start (S : RIDC.Scheme K X D) (st : RIDC.State K X) (x : X) :
    (RIDC.start S st x).U 0 = x ∧ (S.base S.dt x = x → ∀ m ≤ S.M, (RIDC.start S st x).U m = x) := by
  have h1 : ∀ n (s : RIDC.State K X), ((List.range n).foldl (fun (st : RIDC.State K X) m =>
      { st with sU := Function.update st.sU m (RIDC.evalSrc S st.baseDt (st.U m) (st.sU m)) }) s).U
        = s.U := by
    intro n
    induction n with
    | zero => intro s; rfl
    | succ n ih => intro s; rw [List.range_succ, List.foldl_append]; exact ih s
  have h2 : ∀ n (s : RIDC.State K X), s.U 0 = x → ((List.range n).foldl (fun (st : RIDC.State K X) m =>
      { st with baseDt := S.dt, U := Function.update st.U (m + 1) (S.base S.dt (st.U m)) }) s).U 0
        = x := by
    intro n
    induction n with
    | zero => intro s h; exact h
    | succ n ih =>
      intro s h
      rw [List.range_succ, List.foldl_append, List.foldl_cons, List.foldl_nil]
      simpa using ih s h
  have h3 : S.base S.dt x = x → ∀ n (s : RIDC.State K X), s.U 0 = x → ∀ m ≤ n,
      ((List.range n).foldl (fun (st : RIDC.State K X) m =>
      { st with baseDt := S.dt, U := Function.update st.U (m + 1) (S.base S.dt (st.U m)) }) s).U m
        = x := by
    intro hb n
    induction n with
    | zero => intro s h m hm; obtain rfl : m = 0 := by omega
              exact h
    | succ n ih =>
      intro s h m hm
      rw [List.range_succ, List.foldl_append, List.foldl_cons, List.foldl_nil]
      dsimp only
      by_cases e : m = n + 1
      · subst e; rw [Function.update_self, ih s h n le_rfl, hb]
      · rw [Function.update_of_ne e]; exact ih s h m (by omega)
  unfold RIDC.start
  dsimp only
  rw [h1]
  exact ⟨h2 _ _ (by simp), fun hb m hm => h3 hb _ _ (by simp) m hm⟩

theorem ridc_sweeps (S : RIDC.Scheme K X D) (s : RIDC.State K X)
    (hS : RIDCProps.Good S s.baseDt fun _ => 0) (hno : ∀ x, srcPart S.R x = 0)
    (hk : ∀ k ≤ S.Kc, RIDC.stencil S k ≤ S.M) (k : ℕ) (hkK : k ≤ S.Kc) :
    (RIDC.sweeps S s k).U 0 = s.U 0 ∧ (RIDC.sweeps S s k).baseDt = s.baseDt := by
  induction k with
  | zero => exact ⟨rfl, rfl⟩
  | succ k ih =>
    obtain ⟨h1, h2⟩ := ih (by omega)
    have e : RIDC.sweeps S s (k + 1) = RIDC.sweep S (RIDC.sweeps S s k) (k + 1) := by
      simp [RIDC.sweeps, List.range_succ]
    have sp := RIDCProps.sweep_spec S (fun _ => 0) (RIDC.sweeps S s k) (by rw [h2]; exact hS)
      (fun i _ => hno _) (k + 1) (hk _ hkK)
    rw [e]
    exact ⟨sp.1.1.trans h1, sp.2.2.2.trans h2⟩

/-- C111: revisionist integral deferred correction without physics sources, after any positive
number of corrections (reduced or full stencils), whatever the base scheme did: if `apply` does not
raise, its result has the total of the input. -/
theorem C111_ridc (μ : D →ₗ[K] K) (S : RIDC.Scheme K X D) (st : RIDC.State K X) (x : X)
    (hS : RIDCProps.Good S (RIDC.start S st x).baseDt fun _ => 0) (hno : ∀ x, srcPart S.R x = 0)
    (hi : ∀ x, μ (implPart S.R x) = 0) (hx : ∀ x, μ (explPart S.R x) = 0)
    (hK : 0 < S.Kc) (r : RIDC.State K X × X) (hr : RIDC.apply S st x = some r) :
    total μ S.R r.2 = total μ S.R x := by
  have hM : S.Kc ≤ S.M := by
    by_contra h
    simp [RIDC.apply, show S.M < S.Kc by omega] at hr
  have hr2 := (RIDCProps.C67_apply S st x).2 hM
  rw [hr] at hr2
  have hr2 : r.2 = (RIDC.sweeps S (RIDC.start S st x) S.Kc).U S.M := by simpa using hr2
  have hk : ∀ k ≤ S.Kc, RIDC.stencil S k ≤ S.M := by
    intro k hk; unfold RIDC.stencil; split <;> omega
  obtain ⟨k, hk'⟩ : ∃ k, S.Kc = k + 1 := ⟨S.Kc - 1, by omega⟩
  obtain ⟨h1, h2⟩ := ridc_sweeps S _ hS hno hk k (by omega)
  have e : RIDC.sweeps S (RIDC.start S st x) (k + 1)
      = RIDC.sweep S (RIDC.sweeps S (RIDC.start S st x) k) (k + 1) := by
    simp [RIDC.sweeps, List.range_succ]
  have sp := RIDCProps.C67_sweep_equation_partial S (RIDC.sweeps S (RIDC.start S st x) k)
    (by rw [h2]; exact hS) hno (k + 1) (hk _ (by omega))
  have := ridcSweep_total μ _ _ _ _ _ _ _ _ hi hx (by simp) _ _ sp S.M le_rfl
  unfold total
  rw [hr2, hk', e, this, h1, (ridc_start S st x).1]

/-! ## Operator splitting -/

/-- C111: a split timestepper keeps every quantity (of any type) that each of the split schemes'
cycles keeps, over any number of steps, for any order, weights and physics schemes. -/
theorem C111_split {Y : Type*} (q : X → Y) (splitting : List String) (dts : List K)
    (dyn : String → Split.Scheme K X) (phys : List (Split.Scheme K X))
    (hd : ∀ l c t x, q ((dyn l).cycle c t x) = q x)
    (hp : ∀ s ∈ phys, ∀ c t x, q (s.cycle c t x) = q x) (st : Split.St K X) (n : ℕ) :
    q ((Split.timestep splitting dts dyn phys)^[n] st).x = q st.x := by
  have hloop : ∀ (ss : List (Split.Scheme K X)), (∀ s ∈ ss, ∀ c t x, q (s.cycle c t x) = q x) →
      ∀ (dt : K) cs x, q (Split.physicsLoop dt ss cs x).2 = q x := by
    intro ss
    induction ss with
    | nil => intro _ dt cs x; rfl
    | cons s ss ih =>
      intro h dt cs x
      simp only [Split.physicsLoop, Split.substep]
      rw [ih (fun s' h' => h s' (List.mem_cons_of_mem _ h'))]
      exact iterate_inv _ q (fun y => h s (by simp) _ _ y) _ _
  have hentry : ∀ (st : Split.St K X) e, q (Split.entry dyn phys st e).x = q st.x := by
    intro st e
    unfold Split.entry
    split
    · exact hloop phys hp _ _ _
    · exact iterate_inv _ q (fun y => hd _ _ _ y) _ _
  have hstep : ∀ st, q (Split.timestep splitting dts dyn phys st).x = q st.x := by
    intro st
    unfold Split.timestep
    generalize splitting.zip dts = es
    induction es generalizing st with
    | nil => rfl
    | cons e es ih => rw [List.foldl_cons, ih, hentry]
  induction n with
  | zero => rfl
  | succ n ih => rw [Function.iterate_succ_apply', hstep, ih]

/-! ## A conserving equation -/

/-- Exchange between two boxes, `x₀' = x₁ - x₀`, `x₁' = x₀ - x₁` (nonlinear variant of a flux: the
flux is multiplied by `x₀²`). -/
def exchange : LForm (Fin 2 → ℚ) (Fin 2 → ℚ) :=
  [ { labels := [.timeDerivative], op := id, subj := 0 },
    { labels := [.transport],
      op := fun x => ![x 0 ^ 2 * (x 0 - x 1), x 0 ^ 2 * (x 1 - x 0)], subj := 0 } ]

/-- The sum over the boxes. -/
def boxSum : (Fin 2 → ℚ) →ₗ[ℚ] ℚ where
  toFun v := v 0 + v 1
  map_add' u v := by simp; ring
  map_smul' c v := by simp; ring

theorem exchange_conserves : EqConserves boxSum exchange := by
  intro x
  simp [rest, part, exchange, boxSum]; ring

theorem exchange_mass (x : Fin 2 → ℚ) : mass exchange x = x := by simp [mass, part, exchange]

/-- non-vacuity of `C111_one_step`: the total is 3, and the state does change. -/
example : (baseRes exchange (1 / 4 : ℚ) ![2, 1] ![1, 2]).eval ≠ 0 ∧
    (baseRes exchange (1 / 4 : ℚ) ![5 / 4, 7 / 4] ![1, 2]).eval = 0 ∧
    total boxSum exchange ![5 / 4, 7 / 4] = 3 := by
  refine ⟨?_, ?_, ?_⟩
  · rw [Ne, C01_default_residual_is_forward_euler, exchange_mass, exchange_mass]
    intro h
    have := congrFun h 0
    simp [rest, part, exchange] at this
    norm_num at this
  · rw [C01_default_residual_is_forward_euler, exchange_mass, exchange_mass]
    funext i
    fin_cases i <;> simp [rest, part, exchange] <;> norm_num
  · simp [total, exchange_mass, boxSum]; norm_num

/-- Heun's method for the exchange equation. -/
noncomputable def exchangeScheme : RKScheme ℚ (Fin 2 → ℚ) (Fin 2 → ℚ) where
  R := exchange
  A := fun i j => if i = 0 then (if j = 0 then 1 else 0) else 1 / 2
  nStages := 2
  dt := 1 / 4
  originalDt := 1 / 4
  limiter := none
  nphys := 0
  evals := fun _ x _ => x
  solve := choiceSolve

theorem exchange_setting : Setting exchangeScheme (LinearEquiv.refl ℚ (Fin 2 → ℚ)) where
  mass_eq := fun x => by simp [exchangeScheme, exchange_mass]
  exact := choiceSolve_exact
  stages := by simp [exchangeScheme]

/-- non-vacuity of `C111_explicit_rk` -/
example (st : RKState (Fin 2 → ℚ)) (n : ℕ) (hn : 0 < n) :
    let y := RK.apply .increment exchangeScheme n st ![1, 2]
    y 0 + y 1 = 3 := by
  have h := (C111_explicit_rk boxSum exchangeScheme (LinearEquiv.refl ℚ (Fin 2 → ℚ)) exchange_setting
    (by simp [exchangeScheme, exchange]) exchange_conserves (fun y => by
      simp [RK.limit, exchangeScheme]) n hn st ![1, 2]).1
  have e : ∀ x : Fin 2 → ℚ, total boxSum exchangeScheme.R x = x 0 + x 1 := fun x => by
    simp [total, exchangeScheme, exchange_mass, boxSum]
  rw [e, e] at h
  dsimp only
  rw [h]
  norm_num

end Gusto.Props.ConservationProps
