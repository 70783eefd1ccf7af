import Verif.Lemmas.LinearRK
import Verif.Props.OneStep
import Mathlib.Algebra.Module.Equiv.Basic

set_option autoImplicit false

/-!
# C02, C04 (Runge-Kutta), C06, C61: explicit Runge-Kutta formulations
-/

set_option linter.unusedSectionVars false

namespace Gusto.Props
open Gusto LForm TimeDisc Spec Finset RK
variable {K X D : Type*} [Field K] [AddCommGroup X] [Module K X] [AddCommGroup D] [Module K D]

/-- The right-hand side `f` of `x' = f(x)` defined by the residual: `M f(x) = -F(x)`. -/
def tendency (R : LForm X D) (M : X ≃ₗ[K] D) (x : X) : X := M.symm (-(rest R x))

/-- Setting: invertible linear mass operator, exact linear solves. -/
structure Setting (S : RKScheme K X D) (M : X ≃ₗ[K] D) : Prop where
  mass_eq : ∀ x, mass S.R x = M x
  exact : ExactSolver S.solve
  stages : 0 < S.nStages

/-- The textbook step for the scheme's tableau. -/
def textbook (S : RKScheme K X D) (f : X → X) : X → X :=
  rkStep (stageCoeffs S.A) (weights S.A S.nStages) S.nStages f S.dt

/-- One cycle of the increment formulation (general: limiter and physics sources). -/
theorem inc_cycle (S : RKScheme K X D) (M : X ≃ₗ[K] D) (h : Setting S M) (ncycles idx : ℕ)
    (st : RKState X) :
    let r := applyCycle .increment S ncycles idx st
    (∀ j, S.nphys ≤ j → r.src j = st.src j) ∧
      r.x1 = limit S (textbook S (incF S M st.src) (limit S st.x0)) := by
  obtain ⟨i1, i2, i3⟩ := inc_inv S M h.mass_eq h.exact (limit S st.x0)
    { st with x0 := limit S st.x0, x1 := limit S st.x0 } S.nStages
  have hr : applyCycle .increment S ncycles idx st
      = run (incStage S (limit S st.x0)) { st with x0 := limit S st.x0, x1 := limit S st.x0 }
        S.nStages := rfl
  rw [hr]
  refine ⟨i1, ?_⟩
  rw [i3 h.stages rfl]
  congr 1
  exact IsRKStep.unique (a := stageCoeffs S.A) (b := weights S.A S.nStages)
    (s := S.nStages) (f := incF S M st.src) (dt := S.dt) ⟨_, i2, rfl⟩ (rkStep_isRKStep ..)

/-- One cycle of the predictor formulation, idempotent limiter. -/
theorem pred_cycle (S : RKScheme K X D) (M : X ≃ₗ[K] D) (h : Setting S M)
    (hR : WellLabelled S.R) (hsrc : S.nphys = 0 → ∀ t ∈ S.R, Label.source ∉ t.labels)
    (hid : ∀ x, limit S (limit S x) = limit S x) (ncycles idx : ℕ) (st : RKState X) :
    (applyCycle .predictor S ncycles idx st).x1
      = limit S (textbook S (predF S M) (limit S st.x0)) := by
  obtain ⟨u, u0, -, -, -, u1, u2⟩ := pred_inv S M h.mass_eq hR h.exact hsrc (limit S st.x0)
    { st with x0 := limit S st.x0, x1 := limit S st.x0 } S.nStages
  have hr : applyCycle .predictor S ncycles idx st
      = run (predStage S (limit S st.x0)) { st with x0 := limit S st.x0, x1 := limit S st.x0 }
        S.nStages := rfl
  rw [hr, u2 h.stages rfl]
  congr 1
  rw [hid] at u1
  refine IsRKStep.unique (a := stageCoeffs S.A) (b := weights S.A S.nStages)
    (s := S.nStages) (f := predF S M) (dt := S.dt) ⟨fun i => predF S M (u i), ?_, ?_⟩
    (rkStep_isRKStep ..)
  · intro i hi
    cases i with
    | zero => simp [u0]
    | succ i => dsimp only; rw [u1 i (by omega)]; rfl
  · obtain ⟨m, hm⟩ : ∃ m, S.nStages = m + 1 := ⟨S.nStages - 1, by have := h.stages; omega⟩
    rw [hm, u1 m (by omega)]
    simp [weights]

/-- The subcycling loop for a cycle map that only depends on the field. -/
theorem loop_iterate (f : Formulation) (S : RKScheme K X D) (n : ℕ) (st : RKState X) (x : X)
    (P : RKState X → Prop) (Φ : X → X) (hP : P { st with x0 := x })
    (hstep : ∀ idx r, P r → (applyCycle f S n idx r).x1 = Φ r.x0 ∧
      P { applyCycle f S n idx r with x0 := (applyCycle f S n idx r).x1 })
    (hn : 0 < n) :
    RK.apply f S n st x = Φ^[n] x := by
  have key : ∀ m, let r := (List.range (m + 1)).foldl (fun st idx =>
      let st := applyCycle f S n idx st
      { st with x0 := st.x1 }) { st with x0 := x }
      r.x1 = Φ^[m + 1] x ∧ r.x0 = r.x1 ∧ P r := by
    intro m
    induction m with
    | zero =>
      have := hstep 0 _ hP
      exact ⟨this.1, rfl, this.2⟩
    | succ m ih =>
      rw [List.range_succ, List.foldl_append]
      obtain ⟨i1, i2, i3⟩ := ih
      have := hstep (m + 1) _ i3
      refine ⟨?_, rfl, this.2⟩
      simp only [List.foldl_cons, List.foldl_nil]
      rw [this.1, i2, i1, ← Function.comp_apply (f := Φ), ← Function.iterate_succ']
  obtain ⟨m, rfl⟩ : ∃ m, n = m + 1 := ⟨n - 1, by omega⟩
  exact (key m).1

theorem incF_eq (S : RKScheme K X D) (M : X ≃ₗ[K] D) (src : ℕ → X)
    (hns : ∀ t ∈ S.R, Label.source ∉ t.labels) :
    incF S M src = fun x => tendency S.R M (limit S x) := by
  funext x
  simp [incF, tendency, sourcePart_eq_zero _ hns, restNoSource_eq_rest _ hns]

theorem predF_eq (S : RKScheme K X D) (M : X ≃ₗ[K] D)
    (hns : ∀ t ∈ S.R, Label.source ∉ t.labels) :
    predF S M = fun x => tendency S.R M (limit S x) := by
  funext x
  simp [predF, tendency, sourcePart_eq_zero _ hns, restNoSource_eq_rest _ hns]

theorem wellLabelled_of_noSource {R : LForm X D} (hns : ∀ t ∈ R, Label.source ∉ t.labels) :
    WellLabelled R := fun t ht _ => hns t ht

/-- C02 (and C04): the increment formulation, with any number `n ≥ 1` of subcycles and any
limiter, is the `n`-fold iterate of: limit, take the textbook Runge-Kutta step for the tendency
of the limited state, limit. -/
theorem C02_increment_limited (S : RKScheme K X D) (M : X ≃ₗ[K] D) (h : Setting S M)
    (hns : ∀ t ∈ S.R, Label.source ∉ t.labels) (n : ℕ) (hn : 0 < n) (st : RKState X) (x : X) :
    RK.apply .increment S n st x
      = (fun x => limit S (textbook S (fun y => tendency S.R M (limit S y)) (limit S x)))^[n] x := by
  refine loop_iterate _ S n st x (fun _ => True) _ trivial ?_ hn
  intro idx r _
  refine ⟨?_, trivial⟩
  rw [(inc_cycle S M h n idx r).2, incF_eq S M _ hns]

/-- C02 (and C04): the predictor formulation likewise, for an idempotent limiter. -/
theorem C02_predictor_limited (S : RKScheme K X D) (M : X ≃ₗ[K] D) (h : Setting S M)
    (hns : ∀ t ∈ S.R, Label.source ∉ t.labels)
    (hid : ∀ x, limit S (limit S x) = limit S x)
    (n : ℕ) (hn : 0 < n) (st : RKState X) (x : X) :
    RK.apply .predictor S n st x
      = (fun x => limit S (textbook S (fun y => tendency S.R M (limit S y)) (limit S x)))^[n] x := by
  refine loop_iterate _ S n st x (fun _ => True) _ trivial ?_ hn
  intro idx r _
  refine ⟨?_, trivial⟩
  rw [pred_cycle S M h (wellLabelled_of_noSource hns) (fun _ => hns) hid, predF_eq S M hns]

/-- C02: increment formulation without limiter = the textbook Runge-Kutta method, whatever the
state left in the scheme's work arrays by earlier calls. -/
theorem C02_increment (S : RKScheme K X D) (M : X ≃ₗ[K] D) (h : Setting S M)
    (hl : S.limiter = none) (hns : ∀ t ∈ S.R, Label.source ∉ t.labels)
    (n : ℕ) (hn : 0 < n) (st : RKState X) (x : X) :
    RK.apply .increment S n st x = (textbook S (tendency S.R M))^[n] x := by
  have hlim : ∀ y, limit S y = y := fun y => by simp [limit, hl]
  rw [C02_increment_limited S M h hns n hn]
  simp only [hlim]

/-- C02: predictor formulation without limiter = the textbook Runge-Kutta method. -/
theorem C02_predictor (S : RKScheme K X D) (M : X ≃ₗ[K] D) (h : Setting S M)
    (hl : S.limiter = none) (hns : ∀ t ∈ S.R, Label.source ∉ t.labels)
    (n : ℕ) (hn : 0 < n) (st : RKState X) (x : X) :
    RK.apply .predictor S n st x = (textbook S (tendency S.R M))^[n] x := by
  have hlim : ∀ y, limit S y = y := fun y => by simp [limit, hl]
  rw [C02_predictor_limited S M h hns (fun x => by simp only [hlim]) n hn]
  simp only [hlim]

/-- C02: the linear formulation, for a linear right-hand side and no subcycling, = the textbook
Runge-Kutta method. -/
theorem C02_linear (S : RKScheme K X D) (M : X ≃ₗ[K] D) (F : X →ₗ[K] D) (h : Setting S M)
    (hF : ∀ x, rest S.R x = F x) (hA : ∀ t ∈ S.R, Label.allButLast ∉ t.labels)
    (hl : S.limiter = none) (st : RKState X) (x : X) :
    RK.apply .linear S 1 st x = textbook S (tendency S.R M) x := by
  have H : LinHyp S M F := ⟨h.mass_eq, hF, hA, h.exact, hl, h.stages⟩
  have := H.apply_eq (textbook S (tendency S.R M)) (fun y => by
    have e : (fun x => M.symm (-(F x))) = tendency S.R M := by
      funext z; rw [tendency, hF]
    rw [e]; exact rkStep_isRKStep ..) 0 st x
  rw [this]; simp

/-- C02: the three formulations agree. -/
theorem C02_formulations_agree (S : RKScheme K X D) (M : X ≃ₗ[K] D) (F : X →ₗ[K] D)
    (h : Setting S M) (hF : ∀ x, rest S.R x = F x)
    (hA : ∀ t ∈ S.R, Label.allButLast ∉ t.labels)
    (hl : S.limiter = none) (hns : ∀ t ∈ S.R, Label.source ∉ t.labels)
    (st st' st'' : RKState X) (x : X) :
    RK.apply .increment S 1 st x = RK.apply .predictor S 1 st' x ∧
      RK.apply .predictor S 1 st' x = RK.apply .linear S 1 st'' x := by
  rw [C02_increment S M h hl hns 1 one_pos, C02_predictor S M h hl hns 1 one_pos,
    C02_linear S M F h hF hA hl]
  exact ⟨rfl, rfl⟩

/-- C06: exact result of the subcycled linear formulation: the correct `n`-fold step plus a
spurious second copy of everything done in the earlier cycles. -/
theorem C06_linear_subcycled (S : RKScheme K X D) (M : X ≃ₗ[K] D) (F : X →ₗ[K] D)
    (h : Setting S M) (hF : ∀ x, rest S.R x = F x)
    (hA : ∀ t ∈ S.R, Label.allButLast ∉ t.labels)
    (hl : S.limiter = none) (n : ℕ) (st : RKState X) (x : X) :
    RK.apply .linear S (n + 1) st x
      = (textbook S (tendency S.R M))^[n + 1] x + ((textbook S (tendency S.R M))^[n] x - x) := by
  have H : LinHyp S M F := ⟨h.mass_eq, hF, hA, h.exact, hl, h.stages⟩
  refine H.apply_eq (textbook S (tendency S.R M)) (fun y => ?_) n st x
  have e : (fun x => M.symm (-(F x))) = tendency S.R M := by
    funext z; rw [tendency, hF]
  rw [e]; exact rkStep_isRKStep ..

/-- C06, the part that holds: with a single cycle the linear and increment formulations agree,
and with several cycles they agree exactly on the states that the earlier cycles leave unchanged.
Missing: agreement for every state, which is false (`C06_refuted`). -/
theorem C06_agree_iff_partial (S : RKScheme K X D) (M : X ≃ₗ[K] D) (F : X →ₗ[K] D)
    (h : Setting S M) (hF : ∀ x, rest S.R x = F x)
    (hA : ∀ t ∈ S.R, Label.allButLast ∉ t.labels)
    (hl : S.limiter = none) (hns : ∀ t ∈ S.R, Label.source ∉ t.labels)
    (n : ℕ) (st st' : RKState X) (x : X) :
    RK.apply .linear S (n + 1) st x = RK.apply .increment S (n + 1) st' x ↔
      (textbook S (tendency S.R M))^[n] x = x := by
  rw [C06_linear_subcycled S M F h hF hA hl, C02_increment S M h hl hns _ (Nat.succ_pos n)]
  rw [add_eq_left, sub_eq_zero]

/-! ### Concrete scheme for non-vacuity: `x' = x` over ℚ, SSPRK2 (Heun) -/

/-- An exact solver for affine scalar residuals over ℚ: one Newton step from 0. -/
def affineSolve : Solver ℚ ℚ := fun r _ => - r 0 / (r 1 - r 0)

/-- `2 x' - 2 x = 0`, i.e. `x' = x`. -/
def growthR : LForm ℚ ℚ :=
  [ { labels := [.timeDerivative], op := fun x => 2 * x, subj := 0 },
    { labels := [.transport], op := fun x => -2 * x, subj := 0 } ]

/-- An exact solver for any residual with a unique root (non-constructive choice). -/
noncomputable def choiceSolve {X D : Type*} [Zero D] : Solver X D := fun r g =>
  open Classical in if h : ∃ x, r x = 0 then h.choose else g

theorem choiceSolve_exact {X D : Type*} [AddCommMonoid D] :
    ExactSolver (choiceSolve : Solver X D) := by
  intro r g h
  have h' : ∃ x, r x = 0 := h.exists
  simp only [choiceSolve, h', dif_pos]
  exact h'.choose_spec

noncomputable def growthScheme : RKScheme ℚ ℚ ℚ where
  R := growthR
  A := fun i j => if i = 0 then (if j = 0 then 1 else 0) else 1 / 2
  nStages := 2
  dt := 1
  originalDt := 1
  limiter := none
  nphys := 0
  evals := fun _ x _ => x
  solve := choiceSolve

/-- The mass operator `x ↦ 2x`. -/
def twice : ℚ ≃ₗ[ℚ] ℚ := LinearEquiv.smulOfNeZero ℚ ℚ (2 : ℚ) (by norm_num)

theorem growth_setting : Setting growthScheme twice where
  mass_eq := fun x => by simp [mass, part, growthScheme, growthR, twice]
  exact := choiceSolve_exact
  stages := by simp [growthScheme]

theorem growth_linear (x : ℚ) :
    rest growthScheme.R x = ((-2 : ℚ) • LinearMap.id : ℚ →ₗ[ℚ] ℚ) x := by
  simp [rest, part, growthScheme, growthR]

theorem growth_tendency (x : ℚ) : tendency growthScheme.R twice x = x := by
  rw [tendency, growth_linear]
  rw [LinearEquiv.symm_apply_eq]
  simp [twice]

theorem growth_step (x : ℚ) : textbook growthScheme (tendency growthScheme.R twice) x = 5 / 2 * x := by
  have e : tendency growthScheme.R twice = id := funext growth_tendency
  have hk0 : rkK (stageCoeffs growthScheme.A) id growthScheme.dt x 0 = x := by
    rw [rkK]; simp [growthScheme]
  have hk1 : rkK (stageCoeffs growthScheme.A) id growthScheme.dt x 1 = 2 * x := by
    rw [rkK]; simp [hk0]; simp [growthScheme, stageCoeffs]; ring
  have hs : growthScheme.nStages = 2 := rfl
  rw [e, textbook, rkStep, hs]
  simp only [Finset.sum_range_succ, Finset.sum_range_zero, hk0, hk1]
  simp [growthScheme, weights]; ring

/-- non-vacuity of C02: the hypotheses hold and the step is the expected `1 + z + z²/2`. -/
example (st : RKState ℚ) : RK.apply .increment growthScheme 1 st 2 = 5 := by
  rw [C02_increment _ twice growth_setting rfl (by simp [growthScheme, growthR]) 1 one_pos]
  simp only [Function.iterate_one, growth_step]; norm_num

/-- C06 refuted: with two subcycles the linear formulation returns 31/4 · x instead of
25/4 · x for `x' = x` (x = 1). -/
theorem C06_refuted : ∃ (S : RKScheme ℚ ℚ ℚ) (M : ℚ ≃ₗ[ℚ] ℚ) (F : ℚ →ₗ[ℚ] ℚ),
    Setting S M ∧ (∀ x, rest S.R x = F x) ∧ S.limiter = none ∧
    (∀ t ∈ S.R, Label.source ∉ t.labels) ∧ (∀ t ∈ S.R, Label.allButLast ∉ t.labels) ∧
    ∀ st st' : RKState ℚ, RK.apply .linear S 2 st 1 ≠ RK.apply .increment S 2 st' 1 := by
  refine ⟨growthScheme, twice, _, growth_setting, growth_linear, rfl,
    by simp [growthScheme, growthR], by simp [growthScheme, growthR], ?_⟩
  intro st st' h
  rw [C06_agree_iff_partial growthScheme twice _ growth_setting growth_linear
    (by simp [growthScheme, growthR]) rfl (by simp [growthScheme, growthR]) 1] at h
  simp only [Function.iterate_one, growth_step] at h
  norm_num at h

/-! ### C61: physics sources -/

/-- Sources evaluated by all the schemes at the state `x`. -/
def allSources (S : RKScheme K X D) (x : X) : ℕ → X := fun j => S.evals j x S.dt

/-- Every source term belongs to one of the registered physics schemes. -/
def SourcesRegistered (S : RKScheme K X D) : Prop :=
  ∀ t ∈ S.R, Label.source ∈ t.labels → ∃ j < S.nphys, t.physIdx = some j

theorem sourcePart_congr (R : LForm X D) (n : ℕ) (f g : ℕ → X)
    (h : ∀ t ∈ R, Label.source ∈ t.labels → ∃ j < n, t.physIdx = some j)
    (hfg : ∀ j < n, f j = g j) : sourcePart R f = sourcePart R g := by
  induction R with
  | nil => rfl
  | cons t R ih =>
    rw [sourcePart_cons, sourcePart_cons, ih fun t ht => h t (List.mem_cons_of_mem _ ht)]
    congr 1
    by_cases ht : Label.source ∈ t.labels
    · obtain ⟨j, hj, hp⟩ := h t List.mem_cons_self ht
      simp [hp, hfg j hj]
    · simp [ht]

/-- C61: in the increment formulation every physics term is evaluated at its own scheme's source,
computed from the current stage value, for any number of physics schemes: the step is the textbook
Runge-Kutta step for `M x' = -(F(x) + Σ_j source terms at S_j(x))`. -/
theorem C61_increment_sources (S : RKScheme K X D) (M : X ≃ₗ[K] D) (h : Setting S M)
    (hl : S.limiter = none) (hreg : SourcesRegistered S)
    (n : ℕ) (hn : 0 < n) (st : RKState X) (x : X) :
    RK.apply .increment S n st x
      = (textbook S (fun y => M.symm (-(restNoSource S.R y + sourcePart S.R (allSources S y)))))^[n]
          x := by
  refine loop_iterate _ S n st x (fun _ => True) _ trivial ?_ hn
  intro idx r _
  refine ⟨?_, trivial⟩
  have hlim : ∀ y, limit S y = y := fun y => by simp [limit, hl]
  rw [(inc_cycle S M h n idx r).2]
  simp only [hlim]
  congr 1
  funext y
  simp only [incF, hlim]
  rw [sourcePart_congr S.R S.nphys _ (allSources S y) hreg]
  intro j hj
  simp [evalSources, allSources, hj]

/-- C61, predictor formulation: proved for at most one physics scheme.  Missing: several physics
schemes, where it is false (`C61_predictor_two_schemes_refuted`). -/
theorem C61_predictor_sources_partial (S : RKScheme K X D) (M : X ≃ₗ[K] D) (h : Setting S M)
    (hR : WellLabelled S.R) (hl : S.limiter = none) (hreg : SourcesRegistered S)
    (hone : S.nphys ≤ 1) (n : ℕ) (hn : 0 < n) (st : RKState X) (x : X) :
    RK.apply .predictor S n st x
      = (textbook S (fun y => M.symm (-(restNoSource S.R y + sourcePart S.R (allSources S y)))))^[n]
          x := by
  have hlim : ∀ y, limit S y = y := fun y => by simp [limit, hl]
  have h0 : S.nphys = 0 → ∀ t ∈ S.R, Label.source ∉ t.labels := by
    intro h0 t ht hs
    obtain ⟨j, hj, -⟩ := hreg t ht hs
    omega
  refine loop_iterate _ S n st x (fun _ => True) _ trivial ?_ hn
  intro idx r _
  refine ⟨?_, trivial⟩
  rw [pred_cycle S M h hR h0 (fun x => by simp only [hlim])]
  simp only [hlim]
  congr 1
  funext y
  simp only [predF, hlim]
  rw [sourcePart_congr S.R S.nphys _ (allSources S y) hreg]
  intro j hj
  have hj0 : j = 0 := by omega
  have h1 : S.nphys = 1 := by omega
  simp [evalSourcesInto, h1, allSources, hj0]

/-- Two physics schemes with constant sources 1 and 3 (`x' + s_0 + s_1 = 0`). -/
noncomputable def twoPhysics : RKScheme ℚ ℚ ℚ where
  R := [ { labels := [.timeDerivative], op := fun x => 2 * x, subj := 0 },
         { labels := [.source, .physics 0], op := fun s => 2 * s, subj := 0 },
         { labels := [.source, .physics 1], op := fun s => 2 * s, subj := 0 } ]
  A := fun _ _ => 1
  nStages := 1
  dt := 1
  originalDt := 1
  limiter := none
  nphys := 2
  evals := fun j _ _ => if j = 0 then 1 else 3
  solve := choiceSolve

theorem twoPhysics_setting : Setting twoPhysics twice where
  mass_eq := fun x => by simp [mass, part, twoPhysics, twice]
  exact := choiceSolve_exact
  stages := by simp [twoPhysics]

theorem twoPhysics_registered : SourcesRegistered twoPhysics := by
  intro t ht hs
  simp only [twoPhysics, List.mem_cons, List.not_mem_nil, or_false] at ht
  rcases ht with rfl | rfl | rfl
  · simp at hs
  · exact ⟨0, by simp [twoPhysics], by simp [Term.physIdx]⟩
  · exact ⟨1, by simp [twoPhysics], by simp [Term.physIdx]⟩

/-- C61 refuted for the predictor formulation with two physics schemes: the source of the last
scheme overwrites the others (the code assigns all of them to the same Function), so the
increment and predictor formulations of the same scheme give different results. -/
theorem C61_predictor_two_schemes_refuted :
    ∃ (S : RKScheme ℚ ℚ ℚ) (M : ℚ ≃ₗ[ℚ] ℚ), Setting S M ∧ S.limiter = none ∧
      WellLabelled S.R ∧ SourcesRegistered S ∧
      ∀ st st' : RKState ℚ,
        RK.apply .increment S 1 st 0 = -4 ∧ RK.apply .predictor S 1 st' 0 = -6 := by
  refine ⟨twoPhysics, twice, twoPhysics_setting, rfl, ?_, twoPhysics_registered, ?_⟩
  · intro t ht hs
    simp only [twoPhysics, List.mem_cons, List.not_mem_nil, or_false] at ht
    rcases ht with rfl | rfl | rfl <;> simp at hs ⊢
  · intro st st'
    have hlim : ∀ y, limit twoPhysics y = y := fun y => rfl
    have hstep : ∀ (f : ℚ → ℚ) (c : ℚ), (∀ y, f y = c) → textbook twoPhysics f 0 = c := by
      intro f c hf
      have hs : twoPhysics.nStages = 1 := rfl
      rw [textbook, rkStep, hs, Finset.sum_range_one, rkK, hf]
      simp [twoPhysics, weights]
    constructor
    · rw [C61_increment_sources twoPhysics twice twoPhysics_setting rfl twoPhysics_registered 1
        one_pos, Function.iterate_one]
      apply hstep
      intro y
      rw [LinearEquiv.symm_apply_eq]
      simp [restNoSource, part, sourcePart, twoPhysics, allSources, Term.physIdx, twice]
      norm_num
    · rw [loop_iterate .predictor twoPhysics 1 st' 0 (fun _ => True)
        (textbook twoPhysics (predF twoPhysics twice)) trivial ?_ one_pos, Function.iterate_one]
      · apply hstep
        intro y
        simp only [predF]
        rw [LinearEquiv.symm_apply_eq]
        simp [restNoSource, part, sourcePart, twoPhysics, evalSourcesInto, Term.physIdx, twice,
          List.range_succ]
        norm_num
      · intro idx r _
        refine ⟨?_, trivial⟩
        rw [pred_cycle twoPhysics twice twoPhysics_setting ?_ (by simp [twoPhysics])
          (fun x => by simp only [hlim])]
        · simp only [hlim]
        · intro t ht hs
          simp only [twoPhysics, List.mem_cons, List.not_mem_nil, or_false] at ht
          rcases ht with rfl | rfl | rfl <;> simp at hs ⊢

/-- C61 refuted for the implicit one-step schemes: BackwardEuler (and ThetaMethod) replace the
subject of *every* term by the new state, so a physics-source term is evaluated at the state
instead of at the source: the residual does not depend on the evaluated source at all. -/
theorem C61_backward_euler_refuted_ignores_source (R : LForm X D) (dt : K) (src src' : ℕ → X)
    (xOut x1 : X) :
    (backwardEulerRes (withSources src R) dt xOut x1).eval
      = (backwardEulerRes (withSources src' R) dt xOut x1).eval := by
  have hm : ∀ (s : ℕ → X) (x : X), mass (withSources s R) x = mass R x := by
    intro s x
    induction R with
    | nil => rfl
    | cons t R ih =>
      rw [withSources, labelMap_cons]
      rw [withSources] at ih
      by_cases h : isSource t
      · rw [if_pos h]
        refine (mass_cons _ _ _).trans ?_
        rw [mass_cons]
        exact congrArg _ ih
      · rw [if_neg h]
        refine (mass_cons _ _ _).trans ?_
        rw [mass_cons]
        exact congrArg _ ih
  have hr : ∀ (s : ℕ → X) (x : X), rest (withSources s R) x = rest R x := by
    intro s x
    clear hm
    induction R with
    | nil => rfl
    | cons t R ih =>
      rw [withSources, labelMap_cons]
      rw [withSources] at ih
      by_cases h : isSource t
      · rw [if_pos h]
        refine (rest_cons _ _ _).trans ?_
        rw [rest_cons]
        exact congrArg _ ih
      · rw [if_neg h]
        refine (rest_cons _ _ _).trans ?_
        rw [rest_cons]
        exact congrArg _ ih
  simp only [eval_backwardEulerRes, hm, hr]

end Gusto.Props
