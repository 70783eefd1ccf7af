import Verif.Props.Conservation

set_option autoImplicit false
set_option linter.unusedSectionVars false
set_option linter.unusedSimpArgs false

/-!
# C112: steady states of the equation are left unchanged by the time schemes
-/

namespace Gusto.Props.SteadyProps
open Gusto LForm TimeDisc Spec Finset Gusto.Props ConservationProps
variable {K X D : Type*} [Field K] [AddCommGroup X] [Module K X] [AddCommGroup D] [Module K D]

/-! ## One-step schemes -/

/-- C112: at a steady state, the old state satisfies the residual of forward Euler, backward Euler,
the theta method and the trapezium rule, and (unique solvability) it is the only one that does. -/
theorem C112_one_step (R : LForm X D) (x : X) (hx : Steady R x) (dt th : K) :
    (baseRes R dt x x).eval = 0 ∧ (backwardEulerRes R dt x x).eval = 0 ∧
    (thetaRes R dt th x x).eval = 0 ∧ (trapeziumRes R dt x x).eval = 0 := by
  unfold Steady at hx
  refine ⟨?_, ?_, ?_, ?_⟩
  · rw [C01_default_residual_is_forward_euler, hx]; simp
  · rw [C07_backward_euler, hx]; simp
  · rw [C07_theta, hx]; simp
  · rw [trapeziumRes, C07_theta, hx]; simp

/-- C112 for the states computed with an exact solver: `apply` returns the steady state itself, from
any initial guess. -/
theorem C112_one_step_solved (solve : Solver X D) (hs : ExactSolver solve) (R : LForm X D) (x : X)
    (hx : Steady R x) (dt th : K) (guess : X) (hm : Function.Injective (mass R))
    (hbe : ∀ y z, mass R y + dt • rest R y = mass R z + dt • rest R z → y = z)
    (hth : ∀ y z, mass R y + (dt * th) • rest R y = mass R z + (dt * th) • rest R z → y = z) :
    solve (fun y => (baseRes R dt y x).eval) guess = x ∧
    solve (fun y => (backwardEulerRes R dt y x).eval) guess = x ∧
    solve (fun y => (thetaRes R dt th y x).eval) guess = x := by
  obtain ⟨h1, h2, h3, -⟩ := C112_one_step R x hx dt th
  have key : ∀ r : X → D, r x = 0 → (∀ y, r y = 0 → y = x) → solve r guess = x :=
    fun r hr hu => hu _ (hs r guess ⟨x, hr, hu⟩)
  have hx' : rest R x = 0 := hx
  refine ⟨key _ h1 fun y hy => hm ?_, key _ h2 fun y hy => hbe _ _ ?_, key _ h3 fun y hy => hth _ _ ?_⟩
  · have := (C01_default_residual_is_forward_euler R dt x y).1 hy
    rw [this, hx']; simp
  · rw [(C07_backward_euler R dt x y).1 hy, hx']; simp
  · rw [(C07_theta R dt th x y).1 hy, hx']; simp

/-- C112: TR-BDF2 (with `γ ≠ 0, 2`) returns a steady state unchanged. -/
theorem C112_tr_bdf2 (solve : Solver X D) (hs : ExactSolver solve) (R : LForm X D) (x : X)
    (hx : Steady R x) (dt g : K) (hg : g ≠ 0) (h2g : 2 - g ≠ 0)
    (hu : ∀ c ∈ [1 / 2 * g * dt, (1 - g) / (2 - g) * dt],
      ∀ y z, mass R y + c • rest R y = mass R z + c • rest R z → y = z) :
    trBdf2Apply solve R dt g x = x := by
  have hx' : rest R x = 0 := hx
  have key : ∀ (r : X → D) guess, r x = 0 → (∀ y, r y = 0 → y = x) → solve r guess = x :=
    fun r guess hr hu => hu _ (hs r guess ⟨x, hr, hu⟩)
  have e1 : solve (fun y => (trRes R dt g y x).eval) x = x := by
    refine key _ _ (by rw [eval_trRes, hx']; simp) fun y hy => ?_
    rw [eval_trRes, hx', sub_eq_zero] at hy
    refine hu (1 / 2 * g * dt) (by simp) _ _ ?_
    rw [hy, hx']; simp
  have hc : (1 / (g * (2 - g)) : K) - (1 - g) ^ 2 / (g * (2 - g)) = 1 := by
    field_simp; ring
  have hm : (1 / (g * (2 - g)) : K) • mass R x - ((1 - g) ^ 2 / (g * (2 - g))) • mass R x
      = mass R x := by rw [← sub_smul, hc, one_smul]
  have e2 : solve (fun y => (bdf2StageRes R dt g y x x).eval) x = x := by
    refine key _ _ (by rw [eval_bdf2StageRes, hx', hm]; simp) fun y hy => ?_
    rw [eval_bdf2StageRes, hm, sub_eq_zero] at hy
    refine hu ((1 - g) / (2 - g) * dt) (by simp) _ _ ?_
    rw [hy, hx']; simp
  unfold trBdf2Apply
  simp only
  rw [e1, e2]

/-! ## Explicit Runge-Kutta -/

theorem rkK_zero (a : ℕ → ℕ → K) (f : X → X) (dt : K) (x : X) (hf : f x = 0) (i : ℕ) :
    rkK a f dt x i = 0 := by
  induction i using Nat.strong_induction_on with
  | _ i ih =>
    rw [rkK]
    have : ∑ j : Fin i, a i j • rkK a f dt x j = 0 :=
      Finset.sum_eq_zero fun j _ => by rw [ih j j.2, smul_zero]
    rw [this, smul_zero, add_zero, hf]

theorem textbook_fixed (S : RKScheme K X D) (f : X → X) (x : X) (hf : f x = 0) :
    textbook S f x = x := by
  simp [textbook, rkStep, rkK_zero _ f _ x hf]

theorem iterate_fixed (Φ : X → X) (x : X) (h : Φ x = x) (n : ℕ) : Φ^[n] x = x :=
  Function.iterate_fixed h n

/-- C112: explicit Runge-Kutta, increment and predictor formulations, any tableau and number of
subcycles, with any limiter that leaves the steady state unchanged (and is idempotent, for the
predictor formulation). -/
theorem C112_explicit_rk (S : RKScheme K X D) (M : X ≃ₗ[K] D) (h : Setting S M)
    (hns : ∀ t ∈ S.R, Label.source ∉ t.labels) (x : X) (hx : Steady S.R x)
    (hlim : RK.limit S x = x) (n : ℕ) (hn : 0 < n) (st : RKState X) :
    RK.apply .increment S n st x = x ∧
    ((∀ y, RK.limit S (RK.limit S y) = RK.limit S y) → RK.apply .predictor S n st x = x) := by
  have key : (fun x => RK.limit S (textbook S
      (fun y => tendency S.R M (RK.limit S y)) (RK.limit S x))) x = x := by
    dsimp only
    rw [hlim, textbook_fixed, hlim]
    rw [hlim, tendency, show rest S.R x = 0 from hx]; simp
  refine ⟨?_, fun hid => ?_⟩
  · rw [C02_increment_limited S M h hns n hn]; exact iterate_fixed _ x key n
  · rw [C02_predictor_limited S M h hns hid n hn]; exact iterate_fixed _ x key n

/-- C112: the linear formulation, with any number of subcycles. -/
theorem C112_explicit_rk_linear (S : RKScheme K X D) (M : X ≃ₗ[K] D)
    (F : X →ₗ[K] D) (h : Setting S M) (hF : ∀ x, rest S.R x = F x)
    (hA : ∀ t ∈ S.R, Label.allButLast ∉ t.labels) (hl : S.limiter = none)
    (x : X) (hx : Steady S.R x) (n : ℕ) (st : RKState X) :
    RK.apply .linear S (n + 1) st x = x := by
  have key : textbook S (tendency S.R M) x = x :=
    textbook_fixed S _ x (by rw [tendency, show rest S.R x = 0 from hx]; simp)
  rw [C06_linear_subcycled S M F h hF hA hl, iterate_fixed _ x key, iterate_fixed _ x key]
  simp

/-! ## Implicit Runge-Kutta -/

/-- C112: implicit Runge-Kutta, increment formulation, every call of `apply` in a run. -/
theorem C112_implicit_rk_increment (S : IRK.Scheme K X D) (hs : ExactSolver S.solve)
    (hM : mass S.R 0 = 0) (st : IRK.State K X) (hfresh : st.cachedDiag = none) (xin : ℕ → X) (n : ℕ)
    (hu : ∀ x1 : X, ∃! y, mass S.R y + rest S.R (x1 + (S.A 0 0 * S.dt) • y) = 0)
    (hx : Steady S.R (xin n)) :
    (IRK.applyInc S (IRKProps.stateAfter S xin st n) (xin n)).1 = xin n := by
  obtain ⟨k, hk, hy⟩ := IRKProps.C11_increment_solves S hs st hfresh xin n hu
  have hk0 : ∀ i < S.nStages, k i = 0 := by
    intro i
    induction i using Nat.strong_induction_on with
    | _ i ih =>
      intro hi
      have e := hk i hi
      rw [sum_range_succ] at e
      have z : ∑ j ∈ range i, IRKProps.withDiag S.A (S.A 0 0) i j • k j = 0 :=
        Finset.sum_eq_zero fun j hj => by
          rw [ih j (mem_range.1 hj) (by have := mem_range.1 hj; omega), smul_zero]
      rw [z, zero_add] at e
      obtain ⟨y0, -, hun⟩ := hu (xin n)
      refine (hun (k i) ?_).trans (hun 0 ?_).symm
      · dsimp only
        rw [e]
        simp [IRKProps.withDiag, smul_smul, mul_comm]
      · dsimp only
        rw [hM, smul_zero, add_zero, show rest S.R (xin n) = 0 from hx, add_zero]
  have hy' : (IRK.applyInc S (IRKProps.stateAfter S xin st n) (xin n)).1 = _ := hy
  rw [hy']
  have z : ∑ j ∈ range S.nStages, S.A S.nStages j • k j = 0 :=
    Finset.sum_eq_zero fun j hj => by rw [hk0 j (mem_range.1 hj), smul_zero]
  rw [z]; simp

/-- C112: implicit Runge-Kutta, predictor formulation. -/
theorem C112_implicit_rk_predictor (S : IRK.Scheme K X D) (hs : ExactSolver S.solve)
    (st : IRK.State K X) (x : X) (hx : Steady S.R x) (hm : Function.Bijective (mass S.R))
    (hu : ∀ i < S.nStages, ∀ d : D, ∃! y, mass S.R y + (S.dt * S.A i i) • rest S.R y = d) :
    (IRK.applyPred S st x).1 = x := by
  obtain ⟨Y, hY, hy⟩ := IRKProps.C11_predictor S hs st x hm hu
  have hx' : rest S.R x = 0 := hx
  have hYx : ∀ i < S.nStages, Y i = x := by
    intro i
    induction i using Nat.strong_induction_on with
    | _ i ih =>
      intro hi
      have e := hY i hi
      rw [sum_range_succ] at e
      have z : ∑ j ∈ range i, S.A i j • rest S.R (Y j) = 0 :=
        Finset.sum_eq_zero fun j hj => by
          rw [ih j (mem_range.1 hj) (by have := mem_range.1 hj; omega), hx', smul_zero]
      rw [z, zero_add] at e
      obtain ⟨y0, -, hun⟩ := hu i hi (mass S.R x)
      refine (hun (Y i) ?_).trans (hun x ?_).symm
      · dsimp only; rw [e]; module
      · dsimp only; rw [hx']; simp
  apply hm.1
  rw [hy]
  have z : ∑ j ∈ range S.nStages, S.A S.nStages j • rest S.R (Y j) = 0 :=
    Finset.sum_eq_zero fun j hj => by rw [hYx j (mem_range.1 hj), hx', smul_zero]
  rw [z]; simp

/-! ## IMEX -/

/-- C112: IMEX Runge-Kutta schemes: a steady state, in which the implicit and explicit terms balance,
is returned unchanged, provided both tables have the same row sums (and weights with the same sum).
Without that, see `C112_imex_trap2_refuted`. -/
theorem C112_imex_partial [DecidableEq K] (S : IMEX.Scheme K X D) (hR : TDClean S.R)
    (hl : S.limiter = none) (hsrc : ∀ t ∈ S.R, Label.source ∉ t.labels)
    (hs : ExactSolver S.solve) (st : IMEX.State X) (x : X) (hn : 0 < S.nStages)
    (hu : ∀ i < S.nStages, IMEX.startStage S ≤ i → ∀ c : D,
      ∃! y, mass S.R y + (S.dt * S.imp i i) • implPart S.R y = c)
    (hm : ∀ c : D, ∃! y, mass S.R y = c)
    (hrow : ∀ i < S.nStages, ∑ j ∈ range (i + 1), S.imp i j = ∑ j ∈ range i, S.exp i j)
    (hwts : ∑ j ∈ range S.nStages, S.imp S.nStages j = ∑ j ∈ range S.nStages, S.exp S.nStages j)
    (hx : implPart S.R x + explPart S.R x = 0) :
    IMEX.apply S st x = x := by
  obtain ⟨Y, hY, hy⟩ := IMEXProps.C12_apply S hR hl hsrc hs st x hn hu hm
  have hE : explPart S.R x = - implPart S.R x := (neg_eq_of_add_eq_zero_right hx).symm
  have hst : IMEX.startStage S ≤ 1 := by rw [IMEXProps.startStage_eq]; split <;> omega
  have hYx : ∀ i < S.nStages, Y i = x := by
    intro i
    induction i using Nat.strong_induction_on with
    | _ i ih =>
      intro hi
      have e := hY i hi
      have z1 : ∑ j ∈ range i, S.imp i j • implPart S.R (Y j)
          = (∑ j ∈ range i, S.imp i j) • implPart S.R x := by
        rw [sum_smul]
        exact sum_congr rfl fun j hj => by
          rw [ih j (mem_range.1 hj) (by have := mem_range.1 hj; omega)]
      have z2 : ∑ j ∈ range i, S.exp i j • explPart S.R (Y j)
          = - ((∑ j ∈ range i, S.exp i j) • implPart S.R x) := by
        rw [sum_smul, ← sum_neg_distrib]
        exact sum_congr rfl fun j hj => by
          rw [ih j (mem_range.1 hj) (by have := mem_range.1 hj; omega), hE, smul_neg]
      have hr := hrow i hi
      rw [sum_range_succ] at e hr
      rw [z1, z2, ← hr] at e
      have hui : ∀ c : D, ∃! y, mass S.R y + (S.dt * S.imp i i) • implPart S.R y = c := by
        by_cases hle : IMEX.startStage S ≤ i
        · exact hu i hi hle
        · obtain rfl : i = 0 := by omega
          have h00 : S.imp 0 0 = 0 := by
            rw [IMEXProps.startStage_eq] at hle
            split at hle
            · rename_i h; exact h 0 hn
            · omega
          rw [h00]
          simpa using hm
      obtain ⟨y0, -, hun⟩ := hui (mass S.R x + (S.dt * S.imp i i) • implPart S.R x)
      refine (hun (Y i) ?_).trans (hun x rfl).symm
      dsimp only; rw [e]; module
  obtain ⟨y0, -, hun⟩ := hm (mass S.R x)
  refine (hun _ ?_).trans (hun x rfl).symm
  dsimp only
  rw [hy]
  have z1 : ∑ j ∈ range S.nStages, S.imp S.nStages j • implPart S.R (Y j)
      = (∑ j ∈ range S.nStages, S.imp S.nStages j) • implPart S.R x := by
    rw [sum_smul]
    exact sum_congr rfl fun j hj => by rw [hYx j (mem_range.1 hj)]
  have z2 : ∑ j ∈ range S.nStages, S.exp S.nStages j • explPart S.R (Y j)
      = - ((∑ j ∈ range S.nStages, S.exp S.nStages j) • implPart S.R x) := by
    rw [sum_smul, ← sum_neg_distrib]
    exact sum_congr rfl fun j hj => by rw [hYx j (mem_range.1 hj), hE, smul_neg]
  rw [z1, z2, hwts]
  module

/-- `x' = 1 - x`, with the constant implicit and the decay explicit: the steady state is 1. -/
def balanceR : LForm ℝ ℝ :=
  [ { labels := [.timeDerivative], op := id, subj := 0 },
    { labels := [.implicit], op := fun _ => -1, subj := 0 },
    { labels := [.explicit], op := id, subj := 0 } ]

/-- IMEX_Trap2 for it. -/
noncomputable def trap2Scheme (dt : ℝ) : IMEX.Scheme ℝ ℝ ℝ where
  R := balanceR
  imp := IMEX.entry IMEX.trap2Imp
  exp := IMEX.entry IMEX.trap2Exp
  nStages := 4
  dt := dt
  solve := choiceSolve

open Classical in
/-- C112 is false for IMEX_Trap2 (whose two tables have different row sums in stage 1): for
`x' = 1 - x` from the steady state 1, a step of any length `dt` returns `1 - dt³/4`. -/
theorem C112_imex_trap2_refuted (dt : ℝ) (st : IMEX.State ℝ) :
    implPart balanceR 1 + explPart balanceR 1 = 0 ∧
    IMEX.apply (trap2Scheme dt) st 1 = 1 - dt ^ 3 / 4 := by
  constructor
  · simp [implPart, explPart, part, balanceR]
  have hm : ∀ x, mass balanceR x = x := fun x => by simp [mass, part, balanceR]
  have hi : ∀ x, implPart balanceR x = -1 := fun x => by simp [implPart, part, balanceR]
  have he : ∀ x, explPart balanceR x = x := fun x => by simp [explPart, part, balanceR]
  obtain ⟨Y, h1, h2⟩ := IMEXProps.C12_apply (trap2Scheme dt)
    (by intro t ht; simp [trap2Scheme, balanceR] at ht; rcases ht with rfl | rfl | rfl <;> simp) rfl
    (by intro t ht; simp [trap2Scheme, balanceR] at ht; rcases ht with rfl | rfl | rfl <;> simp)
    choiceSolve_exact st 1 (by simp [trap2Scheme])
    (fun i _ _ c => by
      change ∃! y, mass balanceR y + _ • implPart balanceR y = c
      simp only [hm, hi]
      exact ⟨c + (trap2Scheme dt).dt * (trap2Scheme dt).imp i i, by simp [smul_eq_mul], fun y hy => by
        simp only [smul_eq_mul] at hy; linarith⟩)
    (fun c => by
      change ∃! y, mass balanceR y = c
      simp only [hm]; exact ⟨c, rfl, fun y hy => hy⟩)
  change ∀ i < 4, mass balanceR (Y i) = mass balanceR 1 - dt • ∑ j ∈ range (i + 1),
    IMEX.entry IMEX.trap2Imp i j • implPart balanceR (Y j) - dt • ∑ j ∈ range i,
      IMEX.entry IMEX.trap2Exp i j • explPart balanceR (Y j) at h1
  change mass balanceR (IMEX.apply (trap2Scheme dt) st 1) = mass balanceR 1
    - dt • ∑ j ∈ range 4, IMEX.entry IMEX.trap2Imp 4 j • implPart balanceR (Y j)
    - dt • ∑ j ∈ range 4, IMEX.entry IMEX.trap2Exp 4 j • explPart balanceR (Y j) at h2
  simp only [hm, hi, he] at h1 h2
  have e0 := h1 0 (by norm_num)
  have e1 := h1 1 (by norm_num)
  have e2 := h1 2 (by norm_num)
  simp [sum_range_succ, IMEX.entry, IMEX.trap2Imp, IMEX.trap2Exp] at e0 e1 e2 h2
  rw [h2, e2, e1, e0]
  ring

/-! ## Multi-level schemes -/

/-- C112: BDF2, Adams-Bashforth and Adams-Moulton (any coefficients): a run started from a steady
state stays there, whatever was in the older levels. -/
theorem C112_multilevel [Inhabited X] [CharZero K] (solve : Solver X D)
    (hs : ExactSolver solve) (R : LForm X D) (dt bl : K) (b br : List K)
    (hb : b ≠ []) (hbr : br ≠ []) (hm : Function.Bijective (mass R))
    (huniq : ∀ c ∈ [dt, 2 / 3 * dt, 1 / 2 * dt, dt * bl], ∀ d : D,
      ∃! y, mass R y + c • rest R y = d)
    (s1 s2 s3 : Multilevel.RunState X)
    (h1 : Fresh (Multilevel.bdf2 R dt) s1)
    (h2 : Fresh (Multilevel.adamsBashforth R dt b) s2)
    (h3 : Fresh (Multilevel.adamsMoulton R dt bl br) s3) (k : ℕ) :
    (Steady R s1.levels.np1 → result (Multilevel.bdf2 R dt) solve s1 k = s1.levels.np1) ∧
    (Steady R s2.levels.np1 →
      result (Multilevel.adamsBashforth R dt b) solve s2 k = s2.levels.np1) ∧
    (Steady R s3.levels.np1 →
      result (Multilevel.adamsMoulton R dt bl br) solve s3 k = s3.levels.np1) := by
  have uq : ∀ c ∈ [dt, 2 / 3 * dt, 1 / 2 * dt, dt * bl], ∀ y z : X,
      mass R y + c • rest R y = mass R z + c • rest R z → y = z := by
    intro c hc y z h
    obtain ⟨w, -, hw⟩ := huniq c hc (mass R z + c • rest R z)
    exact (hw y h).trans (hw z rfl).symm
  refine ⟨fun hx => ?_, fun hx => ?_, fun hx => ?_⟩
  · have hx' : rest R s1.levels.np1 = 0 := hx
    induction k using Nat.strong_induction_on with
    | _ k ih =>
      cases k with
      | zero => rfl
      | succ k =>
        have hk := C10_bdf2_run solve hs R dt (fun c hc' => huniq c (by
          simp at hc' ⊢; tauto)) s1 h1 k
        dsimp only at hk
        split at hk
        · rename_i h0
          subst h0
          refine uq dt (by simp) _ _ ?_
          rw [hk, hx']; simp [result, after]
        · refine uq (2 / 3 * dt) (by simp) _ _ ?_
          rw [ih k (by omega), ih (k - 1) (by omega)] at hk
          rw [hk, hx']
          match_scalars <;> ring
  · have hx' : rest R s2.levels.np1 = 0 := hx
    induction k using Nat.strong_induction_on with
    | _ k ih =>
      cases k with
      | zero => rfl
      | succ k =>
      have hk := C10_adams_bashforth_run solve hs R dt b hb hm s2 h2 k
      dsimp only at hk
      apply hm.1
      rw [hk, ih k (by omega)]
      split
      · rw [hx']; simp
      · rename_i hlt
        have z : ∑ j ∈ range b.length, b.getD j 0 • rest R (result (Multilevel.adamsBashforth R dt b)
            solve s2 (k + 1 + j - b.length)) = 0 := by
          refine Finset.sum_eq_zero fun j hj => ?_
          have hj := mem_range.1 hj
          rw [ih _ (by omega), hx', smul_zero]
        rw [z]; simp
  · have hx' : rest R s3.levels.np1 = 0 := hx
    induction k using Nat.strong_induction_on with
    | _ k ih =>
      cases k with
      | zero => rfl
      | succ k =>
      have hk := C10_adams_moulton_run solve hs R dt bl br hbr (fun c hc' => huniq c (by
          simp at hc' ⊢; tauto)) s3 h3 k
      dsimp only at hk
      split at hk
      · refine uq (1 / 2 * dt) (by simp) _ _ ?_
        rw [hk, ih k (by omega), hx']; simp
      · refine uq (dt * bl) (by simp) _ _ ?_
        have z : ∑ j ∈ range br.length, br.getD j 0 • rest R (result
            (Multilevel.adamsMoulton R dt bl br) solve s3 (k + 1 + j - br.length)) = 0 := by
          refine Finset.sum_eq_zero fun j hj => ?_
          have hj := mem_range.1 hj
          rw [ih _ (by omega), hx', smul_zero]
        rw [z, ih k (by omega), smul_smul] at hk
        rw [hk, hx']; simp

/-- C112: Leapfrog as implemented. -/
theorem C112_leapfrog [Inhabited X] (solve : Solver X D) (hs : ExactSolver solve) (R : LForm X D) (dt : K)
    (hm : Function.Bijective (mass R)) (s : Multilevel.RunState X) (hfr : Fresh (Multilevel.leapfrog R dt) s)
    (hx : Steady R s.levels.np1) (k : ℕ) : result (Multilevel.leapfrog R dt) solve s k = s.levels.np1 := by
  have hx' : rest R s.levels.np1 = 0 := hx
  have hu : ∀ d : D, ∃! y, mass R y = d := fun d => hm.existsUnique d
  induction k with
  | zero => rfl
  | succ k ih =>
    have key := C10_run_solves (Multilevel.leapfrog R dt) solve hs
      (fun x => by
        have : ∀ y, ((Multilevel.leapfrog R dt).res0 x y).eval = 0 ↔ mass R y = mass R (x 1) - dt • rest R (x 1) := fun y => by
          rw [← C08_adams_bashforth_startup R dt y (x 1)]; rfl
        simp only [this]; exact hu _)
      (fun x => by
        have : ∀ y, ((Multilevel.leapfrog R dt).res x y).eval = 0 ↔ mass R y = mass R (x 1) - dt • rest R (x 1) := fun y => by
          rw [← C08_leapfrog_solves_forward_euler R dt y (x 1) (x 0)]; rfl
        simp only [this]; exact hu _) s hfr k
    have hn : (Multilevel.leapfrog R dt).nlevels = 2 := rfl
    have g1 := handed_getD (Multilevel.leapfrog R dt) solve s hfr k 1 (by rw [hn]; omega) (by rw [hn]; omega)
    rw [hn, show k + 1 + 1 - 2 = k by omega, ih] at g1
    apply hm.1
    simp only [hn] at key
    split at key
    · have := (C08_adams_bashforth_startup R dt _ _).1 key
      rw [this]; dsimp only; rw [g1, hx']; simp
    · have := (C08_leapfrog_solves_forward_euler R dt _ _
        ((handed (Multilevel.leapfrog R dt) solve s k).getD 0 default)).1 key
      rw [this]; dsimp only; rw [g1, hx']; simp

/-! ## Deferred correction -/

/-- C112: SDC: if the base scheme leaves the steady state unchanged (or there is no base scheme),
then so does `apply`, with any number of sweeps, in both formulations, with or without final
update. -/
theorem C112_sdc (S : SDC.Scheme K X D) (st : SDC.State K X) (x : X) (G : X → D)
    (hS : SDCProps.Good S (st.solvers.getD st.qdeltaImp) (SDC.start S st x).baseDt G)
    (hlow : ∀ m i, m ≤ i → i < S.M → S.Qe m i = 0)
    (hbase : S.baseFlag = true → ∀ m < S.M, S.base (S.dtau m) x = x)
    (hx : implPart S.R x + explPart S.R x + G x = 0) :
    (SDC.apply S st x).2 = x := by
  have hstart : ∀ m ≤ S.M, SDCProps.nodes S st x 0 m = x := by
    have h1 : ∀ n (s : SDC.State K X), ((List.range n).foldl (fun (st : SDC.State K X) m =>
        { st with sU := Function.update st.sU m (SDC.evalSrc S st.baseDt (st.U m) (st.sU m)) }) s).U
          = s.U := by
      intro n
      induction n with
      | zero => intro s; rfl
      | succ n ih => intro s; rw [List.range_succ, List.foldl_append]; exact ih s
    intro m hm
    unfold SDCProps.nodes SDC.sweeps SDC.start
    simp only [List.range_zero, List.foldl_nil]
    rw [h1]
    split
    · rename_i hb
      have h3 : ∀ n ≤ S.M, ∀ (s : SDC.State K X), s.U 0 = x → ∀ m ≤ n,
          ((List.range n).foldl (fun (st : SDC.State K X) m =>
          { st with baseDt := S.dtau m,
                    U := Function.update st.U (m + 1) (S.base (S.dtau m) (st.U m)) }) s).U m
            = x := by
        intro n
        induction n with
        | zero => intro _ s h m hm; obtain rfl : m = 0 := by omega
                  exact h
        | succ n ih =>
          intro hn s h m hm
          rw [List.range_succ, List.foldl_append, List.foldl_cons, List.foldl_nil]
          dsimp only
          by_cases e : m = n + 1
          · subst e; rw [Function.update_self, ih (by omega) s h n le_rfl, hbase hb n (by omega)]
          · rw [Function.update_of_ne e]; exact ih (by omega) s h m (by omega)
      exact h3 S.M le_rfl _ (by simp) m hm
    · have h3 : ∀ n, ∀ (s : SDC.State K X), s.U 0 = x → s.un = x →
          let r := ((List.range n).foldl (fun (st : SDC.State K X) m =>
          { st with U := Function.update st.U (m + 1) st.un }) s)
          r.un = x ∧ ∀ m ≤ n, r.U m = x := by
        intro n
        induction n with
        | zero => intro s h h' ; exact ⟨h', fun m hm => by obtain rfl : m = 0 := by omega
                                                           exact h⟩
        | succ n ih =>
          intro s h h'
          rw [List.range_succ, List.foldl_append, List.foldl_cons, List.foldl_nil]
          dsimp only
          refine ⟨(ih s h h').1, fun m hm => ?_⟩
          by_cases e : m = n + 1
          · subst e; rw [Function.update_self]; exact (ih s h h').1
          · rw [Function.update_of_ne e]; exact (ih s h h').2 m (by omega)
      exact (h3 S.M _ (by simp) rfl).2 m hm
  have hcol : IsCollocation S.z2n S.Q S.M (mass S.R)
      (fun y => implPart S.R y + explPart S.R y + G y) (SDCProps.nodes S st x 0) := by
    intro m hm
    have z : ∑ k ∈ range S.M, S.Q m k • (implPart S.R (SDCProps.nodes S st x 0 (k + 1))
        + explPart S.R (SDCProps.nodes S st x 0 (k + 1)) + G (SDCProps.nodes S st x 0 (k + 1))) = 0 :=
      Finset.sum_eq_zero fun k hk => by
        rw [hstart (k + 1) (by have := mem_range.1 hk; omega), hx, smul_zero]
    dsimp only
    rw [z, hstart (m + 1) (by omega), sub_zero]
    unfold startNode
    split
    · rw [hstart 0 (by omega)]
    · rw [hstart m (by omega)]
  have hall := (SDCProps.C24_apply_stationary S st x G hS hlow 0).2 hcol
  simp only [zero_add] at hall
  have hnode : ∀ j m, m ≤ S.M → SDCProps.nodes S st x j m = x := fun j m hm =>
    (hall j m hm).trans (hstart m hm)
  obtain ⟨r1, r2⟩ := SDCProps.C24_apply_result S st x G hS hlow
  by_cases hc : S.maxk = 0 ∨ S.finalUpdate = false
  · rw [r1 hc, hnode _ _ le_rfl]
  · push Not at hc
    have e := r2 (by omega) (by simpa using hc.2)
    have z : ∑ k ∈ range S.M, S.Qfin k • (implPart S.R (SDCProps.nodes S st x S.maxk (k + 1))
        + explPart S.R (SDCProps.nodes S st x S.maxk (k + 1))
        + G (SDCProps.nodes S st x S.maxk (k + 1))) = 0 :=
      Finset.sum_eq_zero fun k hk => by
        rw [hnode _ (k + 1) (by have := mem_range.1 hk; omega), hx, smul_zero]
    rw [z, sub_zero] at e
    obtain ⟨y0, -, hun⟩ := hS.massInv (mass S.R x)
    exact (hun _ e).trans (hun x rfl).symm

/-- C112: RIDC without physics sources: if the base scheme leaves the steady state unchanged, so
does `apply`, with any number of corrections and either kind of stencil. -/
theorem C112_ridc (S : RIDC.Scheme K X D) (st : RIDC.State K X) (x : X)
    (hS : RIDCProps.Good S (RIDC.start S st x).baseDt fun _ => 0) (hno : ∀ x, srcPart S.R x = 0)
    (hbase : S.base S.dt x = x) (hx : implPart S.R x + explPart S.R x = 0)
    (r : RIDC.State K X × X) (hr : RIDC.apply S st x = some r) : r.2 = x := by
  have hM : S.Kc ≤ S.M := by
    by_contra h
    simp [RIDC.apply, show S.M < S.Kc by omega] at hr
  have hr2 := (RIDCProps.C67_apply S st x).2 hM
  rw [hr] at hr2
  have hr2 : r.2 = (RIDC.sweeps S (RIDC.start S st x) S.Kc).U S.M := by simpa using hr2
  have hk : ∀ k ≤ S.Kc, RIDC.stencil S k ≤ S.M := by
    intro k hk; unfold RIDC.stencil; split <;> omega
  have key : ∀ k ≤ S.Kc, ∀ m ≤ S.M, (RIDC.sweeps S (RIDC.start S st x) k).U m = x := by
    intro k
    induction k with
    | zero => intro _ m hm; exact (ridc_start S st x).2 hbase m hm
    | succ k ih =>
      intro hkK
      obtain ⟨h1, h2⟩ := ridc_sweeps S _ hS hno hk k (by omega)
      have e : RIDC.sweeps S (RIDC.start S st x) (k + 1)
          = RIDC.sweep S (RIDC.sweeps S (RIDC.start S st x) k) (k + 1) := by
        simp [RIDC.sweeps, List.range_succ]
      have ihk := ih (by omega)
      have fx := (RIDCProps.C67_fixed_iff_partial S (RIDC.sweeps S (RIDC.start S st x) k)
        (by rw [h2]; exact hS) hno (k + 1) (hk _ hkK)).2 (by
          intro m hm
          dsimp only
          have hq : ridcQuad (S.Q (k + 1)) (RIDC.stencil S (k + 1)) (fun j =>
              implPart S.R ((RIDC.sweeps S (RIDC.start S st x) k).U j)
                + explPart S.R ((RIDC.sweeps S (RIDC.start S st x) k).U j)) m = 0 := by
            have hst := hk _ hkK
            unfold ridcQuad
            split
            · refine Finset.sum_eq_zero fun j hj => ?_
              have := mem_range.1 hj
              dsimp only
              rw [ihk j (by omega), hx, smul_zero]
            · refine Finset.sum_eq_zero fun j hj => ?_
              have := mem_range.1 hj
              dsimp only
              rw [ihk _ (by omega), hx, smul_zero]
          rw [hq, ihk (m + 1) (by omega), ihk m (by omega), sub_zero])
      intro m hm
      rw [e, fx m hm, ihk m hm]
  rw [hr2]
  exact key _ le_rfl _ le_rfl

/-! ## Splitting -/

/-- C112 is false for operator splitting in general: two labels whose tendencies balance,
`x' = 1` and `x' = -x`, each integrated exactly by its own forward Euler scheme: from the steady
state 1 the split step of length `dt` returns `1 - dt²`. -/
theorem C112_split_refuted (dt : ℚ) :
    (Split.timestep ["transport", "wave"] [dt, dt]
      (fun l => ⟨fun _ d x => if l = "transport" then x + d * 1 else x + d * (-x), 1⟩) []
      ⟨(1 : ℚ), fun _ => none, []⟩).x = 1 - dt ^ 2 := by
  simp [Split.timestep, Split.entry, Split.substep]
  ring

/-! ## Example -/

/-- non-vacuity: the exchange equation of C111 is steady exactly when the boxes agree or the first
is empty. -/
example : Steady exchange ![7, 7] ∧ Steady exchange ![0, 5] ∧ ¬ Steady exchange ![1, 2] := by
  refine ⟨?_, ?_, fun h => ?_⟩
  · simp [Steady, rest, part, exchange]
  · simp [Steady, rest, part, exchange]
  · have := congrFun (show rest exchange ![1, 2] = 0 from h) 0
    simp [rest, part, exchange] at this
    norm_num at this

example (st : RKState (Fin 2 → ℚ)) (n : ℕ) (hn : 0 < n) :
    RK.apply .predictor exchangeScheme n st ![0, 5] = ![0, 5] :=
  (C112_explicit_rk exchangeScheme (LinearEquiv.refl ℚ (Fin 2 → ℚ)) exchange_setting
    (by simp [exchangeScheme, exchange]) ![0, 5] (by simp [Steady, exchangeScheme, rest, part, exchange])
    (by simp [RK.limit, exchangeScheme]) n hn st).2 (fun y => by simp [RK.limit, exchangeScheme])

/-- Leapfrog, whatever the older levels hold -/
example (solve : Solver (Fin 2 → ℚ) (Fin 2 → ℚ)) (hs : ExactSolver solve) (dt : ℚ) (a b : Fin 2 → ℚ) (k : ℕ) :
    result (Multilevel.leapfrog exchange dt) solve ⟨⟨[a, b], ![7, 7]⟩, 0⟩ k = ![7, 7] := by
  refine C112_leapfrog solve hs exchange dt ?_ _ ⟨by simp [Multilevel.leapfrog], rfl, rfl⟩ (by simp [Steady, rest, part, exchange]) k
  have : mass exchange = id := by
    funext x
    simp [mass, part, exchange]
  rw [this]
  exact Function.bijective_id

end Gusto.Props.SteadyProps
