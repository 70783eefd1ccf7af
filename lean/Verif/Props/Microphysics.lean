import Verif.Model.Physics
import Verif.Props.ExplicitRK
import Verif.Props.Thermodynamics
import Mathlib.Analysis.Complex.ExponentialBounds
import Mathlib.Tactic.Positivity
import Mathlib.Tactic.FieldSimp
import Mathlib.Tactic.Linarith
import Mathlib.Tactic.NormNum

set_option autoImplicit false
set_option linter.unusedSectionVars false
set_option linter.unusedSimpArgs false

/-!
# C43-C45, C73, C74: moist physics of the compressible equations, sources

`stepWith dt l x` is the forward-Euler step of `dq/dt + r = 0`: `x - dt * r`, where `r` is the sum of the terms
that the scheme has added to the residual.  `C43_forward_euler` shows that this is what the explicit
Runge-Kutta machinery of gusto computes.
-/

namespace Gusto.Props.MicroProps
open Gusto.Physics Gusto.Thermo Real Gusto.Spec

/-- Specification: a forward-Euler step at a point. -/
def stepWith (dt : ℝ) (l : List (String × ℝ)) (x : Local) : Local :=
  fun f => x f - dt * ((l.filter fun p => p.1 = f).map Prod.snd).sum

/-- The forward-Euler scheme (one stage with weight one) applied to an equation with one physics scheme. -/
structure IsForwardEuler {N D : Type*} [AddCommGroup D] [Module ℝ D]
    (S : RKScheme ℝ (N → Local) D) (M : (N → Local) ≃ₗ[ℝ] D)
    (phys : ℝ → ℝ → Local → List (String × ℝ)) (rhoAvg : (N → Local) → N → ℝ) : Prop where
  form : ∃ x0, S.R = physicsForm M x0
  stages : S.nStages = 1
  weight : S.A 0 0 = 1
  one : S.nphys = 1
  evals : ∀ x dt, S.evals 0 x dt = sourceField phys rhoAvg x dt
  nolimiter : S.limiter = none
  exact : ExactSolver S.solve

theorem rkStep_one {X : Type*} [AddCommGroup X] [Module ℝ X] (a : ℕ → ℕ → ℝ) (b : ℕ → ℝ) (f : X → X)
    (dt : ℝ) (x : X) : rkStep a b 1 f dt x = x + dt • (b 0 • f x) := by
  rw [rkStep, Finset.sum_range_one, rkK]
  simp

/-- **C43** (what is computed).  With any mass matrix, applying the forward-Euler scheme to an equation with
one physics scheme performs, at every node, the forward-Euler step of that scheme's residual. -/
theorem C43_forward_euler {N D : Type*} [AddCommGroup D] [Module ℝ D]
    (S : RKScheme ℝ (N → Local) D) (M : (N → Local) ≃ₗ[ℝ] D)
    (phys : ℝ → ℝ → Local → List (String × ℝ)) (rhoAvg : (N → Local) → N → ℝ)
    (h : IsForwardEuler S M phys rhoAvg) (st : RKState (N → Local)) (x : N → Local) :
    RK.apply .increment S 1 st x = fun n => stepWith S.dt (phys (rhoAvg x n) S.dt (x n)) (x n) := by
  obtain ⟨x0, hR⟩ := h.form
  have hset : Setting S M := by
    refine ⟨fun y => ?_, h.exact, by rw [h.stages]; exact one_pos⟩
    simp [hR, physicsForm, mass, part]
  have hreg : SourcesRegistered S := by
    intro t ht hs
    rw [hR] at ht
    simp only [physicsForm, List.mem_cons, List.not_mem_nil, or_false] at ht
    rcases ht with rfl | rfl
    · simp at hs
    · exact ⟨0, by rw [h.one]; exact one_pos, rfl⟩
  rw [C61_increment_sources S M hset h.nolimiter hreg 1 one_pos st x]
  have hrest : ∀ y, restNoSource S.R y = 0 := by
    intro y; simp [hR, physicsForm, restNoSource, part]
  have hsrc : ∀ y, sourcePart S.R (allSources S y) = M (S.evals 0 y S.dt) := by
    intro y
    simp [hR, physicsForm, sourcePart, allSources, Term.physIdx]
  funext n f
  simp only [Function.iterate_one, textbook, h.stages, rkStep_one, weights,
    Nat.sub_self, h.weight, one_smul, hrest, hsrc, zero_add,
    map_neg, LinearEquiv.symm_apply_apply, h.evals, Pi.add_apply, Pi.smul_apply, Pi.neg_apply,
    smul_eq_mul, stepWith, sourceField, residualOf]
  ring

/-- A forward-Euler scheme over one node, with the mass matrix `2`. -/
noncomputable def exFE : RKScheme ℝ (Unit → Local) (Unit → Local) where
  R := physicsForm (fun x => (2 : ℝ) • x) 0
  A := fun _ _ => 1
  nStages := 1
  dt := 1
  originalDt := 1
  limiter := none
  nphys := 1
  evals := fun _ x dt => sourceField (fun _ _ _ => [("a", 3)]) (fun _ _ => 0) x dt
  solve := fun r _ => Classical.epsilon fun y => r y = 0

/-- The conditions can be met. -/
example : IsForwardEuler exFE (LinearEquiv.smulOfNeZero ℝ (Unit → Local) 2 two_ne_zero)
    (fun _ _ _ => [("a", 3)]) (fun _ _ => 0) :=
  ⟨⟨0, rfl⟩, rfl, rfl, rfl, fun _ _ => rfl, rfl, fun _ _ hr => Classical.epsilon_spec hr.exists⟩

/-! ### C74: SourceSink -/

/-- **C74** (what holds).  A forward-Euler step with SourceSink changes the variable by *minus* the timestep
times the rate expression, and nothing else. -/
theorem C74_source_sink_partial (name : String) (rate dt : ℝ) (x : Local) :
    stepWith dt (sourceSink name rate) x name = x name - dt * rate ∧
      ∀ f, f ≠ name → stepWith dt (sourceSink name rate) x f = x f := by
  refine ⟨by simp [stepWith, sourceSink], fun f hf => ?_⟩
  simp [stepWith, sourceSink, hf.symm]

/-- **C74** (refutation).  The rate expression is not the rate of change of the variable, for any non-zero
rate and timestep. -/
theorem C74_rate_refuted (name : String) (rate dt : ℝ) (x : Local) (hr : rate ≠ 0) (hdt : dt ≠ 0) :
    stepWith dt (sourceSink name rate) x name ≠ x name + dt * rate := by
  rw [(C74_source_sink_partial name rate dt x).1]
  intro h
  exact mul_ne_zero hdt hr (by linarith)

/-! ### C43: saturation adjustment -/

/-- Distinct names. -/
structure Distinct (N : MoistNames) : Prop where
  vc : N.vapour ≠ N.condensate
  vt : N.vapour ≠ "theta"
  ct : N.condensate ≠ "theta"

example : Distinct {} := by constructor <;> decide

variable {P : Parameters} {N : MoistNames} {latent : Bool} {rhoAvg dt : ℝ} {x : Local}

/-- The saturation mixing ratio at the point. -/
noncomputable def satAt (P : Parameters) (N : MoistNames) (rhoAvg : ℝ) (x : Local) : ℝ :=
  rSat P (temperature P (x "theta") (exnerPressure P rhoAvg (x "theta")) (some (x N.vapour)))
    (pressure P (exnerPressure P rhoAvg (x "theta")))

/-- The condensation rate used at the point. -/
noncomputable def rateAt (P : Parameters) (N : MoistNames) (latent : Bool) (rhoAvg dt : ℝ) (x : Local) : ℝ :=
  satAdjRate P latent (moistState P rhoAvg (x "theta") (x N.vapour) (liquidWater N x))
    (x N.vapour) (x N.condensate) dt

theorem step_vapour (hN : Distinct N) :
    stepWith dt (saturationAdjustment P N latent rhoAvg dt x) x N.vapour
      = x N.vapour - dt * rateAt P N latent rhoAvg dt x := by
  have h1 := hN.vc.symm
  have h2 := hN.vt.symm
  cases latent <;> simp [stepWith, saturationAdjustment, h1, h2, rateAt]

theorem step_cloud (hN : Distinct N) :
    stepWith dt (saturationAdjustment P N latent rhoAvg dt x) x N.condensate
      = x N.condensate + dt * rateAt P N latent rhoAvg dt x := by
  have h1 := hN.vc
  have h2 := hN.ct.symm
  cases latent <;> simp [stepWith, saturationAdjustment, h1, h2, rateAt]

/-- **C43** (conservation).  The sum of vapour and cloud is unchanged, with or without latent heat. -/
theorem C43_conserves (hN : Distinct N) :
    stepWith dt (saturationAdjustment P N latent rhoAvg dt x) x N.vapour
        + stepWith dt (saturationAdjustment P N latent rhoAvg dt x) x N.condensate
      = x N.vapour + x N.condensate := by
  rw [step_vapour hN, step_cloud hN]; ring

/-- **C43** (other fields).  Only vapour, cloud and (with latent heat) the potential temperature change. -/
theorem C43_only (f : String) (h1 : f ≠ N.vapour) (h2 : f ≠ N.condensate)
    (h3 : latent = true → f ≠ "theta") :
    stepWith dt (saturationAdjustment P N latent rhoAvg dt x) x f = x f := by
  cases latent
  · simp [stepWith, saturationAdjustment, h1.symm, h2.symm]
  · simp [stepWith, saturationAdjustment, h1.symm, h2.symm, (h3 rfl).symm]

/-- The rate in terms of an effective excess `e = (v - sat)/F`, with `F = 1` without latent heat. -/
theorem rate_form (hdt : 0 < dt) :
    ∃ F : ℝ, (latent = false → F = 1) ∧ (0 < P.cp * P.Rv → 0 ≤ satAt P N rhoAvg x → 1 ≤ F) ∧
      dt * rateAt P N latent rhoAvg dt x
        = if (x N.vapour - satAt P N rhoAvg x) / F < 0 then
            max ((x N.vapour - satAt P N rhoAvg x) / F) (-x N.condensate)
          else min ((x N.vapour - satAt P N rhoAvg x) / F) (x N.vapour) := by
  have key : ∀ F : ℝ, dt * (if (x N.vapour - satAt P N rhoAvg x) / dt / F < 0 then
        max ((x N.vapour - satAt P N rhoAvg x) / dt / F) (-x N.condensate / dt)
        else min ((x N.vapour - satAt P N rhoAvg x) / dt / F) (x N.vapour / dt))
      = if (x N.vapour - satAt P N rhoAvg x) / F < 0 then
            max ((x N.vapour - satAt P N rhoAvg x) / F) (-x N.condensate)
          else min ((x N.vapour - satAt P N rhoAvg x) / F) (x N.vapour) := by
    intro F
    have e : (x N.vapour - satAt P N rhoAvg x) / dt / F
        = (x N.vapour - satAt P N rhoAvg x) / F / dt := by ring
    rw [e]
    have hc : ((x N.vapour - satAt P N rhoAvg x) / F / dt < 0)
        ↔ ((x N.vapour - satAt P N rhoAvg x) / F < 0) := by
      rw [div_lt_iff₀ hdt, zero_mul]
    simp only [hc]
    split
    · rw [mul_max_of_nonneg _ _ hdt.le]; congr 1 <;> field_simp
    · rw [mul_min_of_nonneg _ _ hdt.le]; congr 1 <;> field_simp
  cases latent
  · refine ⟨1, fun _ => rfl, fun _ _ => le_refl _, ?_⟩
    rw [← key 1]
    simp only [div_one]
    rfl
  · refine ⟨1 + (moistState P rhoAvg (x "theta") (x N.vapour) (liquidWater N x)).Lv ^ 2
        * satAt P N rhoAvg x
        / (P.cp * P.Rv * (moistState P rhoAvg (x "theta") (x N.vapour) (liquidWater N x)).T ^ 2),
        fun h => absurd h (by simp), ?_, ?_⟩
    · intro h1 h2
      have : 0 ≤ (moistState P rhoAvg (x "theta") (x N.vapour) (liquidWater N x)).Lv ^ 2
        * satAt P N rhoAvg x
        / (P.cp * P.Rv * (moistState P rhoAvg (x "theta") (x N.vapour) (liquidWater N x)).T ^ 2) := by
        positivity
      linarith
    · rw [← key]
      rfl

/-- **C43** (non-negativity).  If vapour and cloud are non-negative, they still are after the step. -/
theorem C43_nonneg (hN : Distinct N) (hdt : 0 < dt) (hv : 0 ≤ x N.vapour) (hc : 0 ≤ x N.condensate) :
    0 ≤ stepWith dt (saturationAdjustment P N latent rhoAvg dt x) x N.vapour ∧
      0 ≤ stepWith dt (saturationAdjustment P N latent rhoAvg dt x) x N.condensate := by
  rw [step_vapour hN, step_cloud hN]
  obtain ⟨F, -, -, h⟩ := rate_form (P := P) (N := N) (latent := latent) (rhoAvg := rhoAvg) (x := x) hdt
  rw [h]
  split
  case isTrue hneg =>
    have h1 := le_max_right ((x N.vapour - satAt P N rhoAvg x) / F) (-x N.condensate)
    have h2 : max ((x N.vapour - satAt P N rhoAvg x) / F) (-x N.condensate) ≤ 0 :=
      max_le hneg.le (by linarith)
    constructor <;> linarith
  case isFalse hneg =>
    have h1 := min_le_right ((x N.vapour - satAt P N rhoAvg x) / F) (x N.vapour)
    have h2 : 0 ≤ min ((x N.vapour - satAt P N rhoAvg x) / F) (x N.vapour) :=
      le_min (not_lt.1 hneg) hv
    constructor <;> linarith

/-- **C43** (direction and no overshoot, super-saturated air).  Vapour does not grow, and does not fall
below saturation. -/
theorem C43_supersaturated (hN : Distinct N) (hdt : 0 < dt)
    (hP : latent = true → 0 < P.cp * P.Rv) (hs : 0 ≤ satAt P N rhoAvg x)
    (hv : satAt P N rhoAvg x ≤ x N.vapour) :
    stepWith dt (saturationAdjustment P N latent rhoAvg dt x) x N.vapour ≤ x N.vapour ∧
      satAt P N rhoAvg x ≤ stepWith dt (saturationAdjustment P N latent rhoAvg dt x) x N.vapour := by
  rw [step_vapour hN]
  obtain ⟨F, hF0, hF1, h⟩ :=
    rate_form (P := P) (N := N) (latent := latent) (rhoAvg := rhoAvg) (x := x) hdt
  have hF : 1 ≤ F := by
    cases latent
    · rw [hF0 rfl]
    · exact hF1 (hP rfl) hs
  rw [h]
  have hp : 0 ≤ (x N.vapour - satAt P N rhoAvg x) / F := div_nonneg (by linarith) (by linarith)
  have hle : (x N.vapour - satAt P N rhoAvg x) / F ≤ x N.vapour - satAt P N rhoAvg x :=
    div_le_self (by linarith) hF
  rw [if_neg (not_lt.2 hp)]
  have h1 := min_le_left ((x N.vapour - satAt P N rhoAvg x) / F) (x N.vapour)
  have h2 : 0 ≤ min ((x N.vapour - satAt P N rhoAvg x) / F) (x N.vapour) :=
    le_min hp (by linarith)
  constructor <;> linarith

/-- **C43** (direction and no overshoot, sub-saturated air).  Vapour does not fall, and does not exceed
saturation. -/
theorem C43_subsaturated (hN : Distinct N) (hdt : 0 < dt)
    (hP : latent = true → 0 < P.cp * P.Rv) (hs : 0 ≤ satAt P N rhoAvg x)
    (hv : x N.vapour ≤ satAt P N rhoAvg x) (hv0 : 0 ≤ x N.vapour) (hc : 0 ≤ x N.condensate) :
    x N.vapour ≤ stepWith dt (saturationAdjustment P N latent rhoAvg dt x) x N.vapour ∧
      stepWith dt (saturationAdjustment P N latent rhoAvg dt x) x N.vapour ≤ satAt P N rhoAvg x := by
  rw [step_vapour hN]
  obtain ⟨F, hF0, hF1, h⟩ :=
    rate_form (P := P) (N := N) (latent := latent) (rhoAvg := rhoAvg) (x := x) hdt
  have hF : 1 ≤ F := by
    cases latent
    · rw [hF0 rfl]
    · exact hF1 (hP rfl) hs
  rw [h]
  have hp : (x N.vapour - satAt P N rhoAvg x) / F ≤ 0 :=
    div_nonpos_of_nonpos_of_nonneg (by linarith) (by linarith)
  have hle : x N.vapour - satAt P N rhoAvg x ≤ (x N.vapour - satAt P N rhoAvg x) / F := by
    rw [le_div_iff₀ (by linarith)]
    nlinarith
  split
  case isTrue hneg =>
    have h1 := le_max_left ((x N.vapour - satAt P N rhoAvg x) / F) (-x N.condensate)
    have h2 : max ((x N.vapour - satAt P N rhoAvg x) / F) (-x N.condensate) ≤ 0 :=
      max_le hneg.le (by linarith)
    constructor <;> linarith
  case isFalse hneg =>
    have h0 : (x N.vapour - satAt P N rhoAvg x) / F = 0 := le_antisymm hp (not_lt.1 hneg)
    rw [h0, min_eq_left hv0]
    have : x N.vapour - satAt P N rhoAvg x ≤ 0 := by linarith
    constructor <;> linarith

/-- **C43** (exact result without latent heat).  The new vapour is the saturation value if there is enough
water for it, otherwise all the water. -/
theorem C43_no_latent_heat (hN : Distinct N) (hdt : 0 < dt) (hs : 0 ≤ satAt P N rhoAvg x)
    (hc : 0 ≤ x N.condensate) :
    stepWith dt (saturationAdjustment P N false rhoAvg dt x) x N.vapour
      = min (satAt P N rhoAvg x) (x N.vapour + x N.condensate) := by
  rw [step_vapour hN]
  obtain ⟨F, hF0, -, h⟩ :=
    rate_form (P := P) (N := N) (latent := false) (rhoAvg := rhoAvg) (x := x) hdt
  rw [h, hF0 rfl, div_one]
  split
  case isTrue hneg =>
    rcases le_total (satAt P N rhoAvg x) (x N.vapour + x N.condensate) with hle | hle
    · rw [max_eq_left (by linarith), min_eq_left hle]; ring
    · rw [max_eq_right (by linarith), min_eq_right hle]; ring
  case isFalse hneg =>
    push Not at hneg
    rw [min_eq_left (by linarith), min_eq_left (by linarith)]; ring

/-- **C43** (latent heat).  The potential temperature changes by `(change of cloud) * theta * (...)`, the
bracket being the one of the documentation: the same rate multiplies all the fields. -/
theorem C43_theta (hN : Distinct N) (m : MoistState)
    (hm : m = moistState P rhoAvg (x "theta") (x N.vapour) (liquidWater N x)) :
    stepWith dt (saturationAdjustment P N true rhoAvg dt x) x "theta"
      = x "theta" * (1 + (stepWith dt (saturationAdjustment P N true rhoAvg dt x) x N.condensate
          - x N.condensate)
          * (P.cv * m.Lv / (m.cvml * P.cp * m.T) - P.Rv * P.cv * m.cpml / (m.Rm * P.cp * m.cvml))) := by
  rw [step_cloud hN]
  have h1 := hN.vt
  have h2 := hN.ct
  have : stepWith dt (saturationAdjustment P N true rhoAvg dt x) x "theta"
      = x "theta" - dt * (rateAt P N true rhoAvg dt x * thetaFactor P (x "theta") m) := by
    simp [stepWith, saturationAdjustment, h1, h2, rateAt, hm]
  rw [this, thetaFactor]
  ring

/-- The step is neutral exactly in the states where it should be: saturated, or sub-saturated without
cloud. -/
theorem C43_neutral (hN : Distinct N) (hdt : 0 < dt) (hv : 0 ≤ x N.vapour)
    (h : x N.vapour = satAt P N rhoAvg x ∨
      (x N.vapour < satAt P N rhoAvg x ∧ 0 < P.cp * P.Rv ∧ x N.condensate = 0)) (f : String)
    (hf : f ≠ "theta") :
    stepWith dt (saturationAdjustment P N latent rhoAvg dt x) x f = x f := by
  have hr : dt * rateAt P N latent rhoAvg dt x = 0 := by
    obtain ⟨F, hF0, hF1, hrate⟩ :=
      rate_form (P := P) (N := N) (latent := latent) (rhoAvg := rhoAvg) (x := x) hdt
    rw [hrate]
    rcases h with h | ⟨h, hP, hc⟩
    · rw [h, sub_self, zero_div, if_neg (lt_irrefl _), min_eq_left (h ▸ hv)]
    · have hF := hF1 hP (hv.trans h.le)
      have : (x N.vapour - satAt P N rhoAvg x) / F < 0 := div_neg_of_neg_of_pos (by linarith) (by linarith)
      rw [if_pos this, hc, neg_zero, max_eq_right this.le]
  by_cases h1 : f = N.vapour
  · subst h1; rw [step_vapour hN, hr, sub_zero]
  by_cases h2 : f = N.condensate
  · subst h2; rw [step_cloud hN, hr, add_zero]
  exact C43_only f h1 h2 fun _ => hf

/-! A concrete state: 300 K, at the reference pressure. -/

/-- Density giving the reference pressure at theta = 300 K. -/
noncomputable def exRho : ℝ := 100000 / (287 * 300)

theorem exExner : exnerPressure defaults exRho 300 = 1 := by
  have : exRho * 287 * 300 / (1000 * 100) = 1 := by norm_num [exRho]
  simp only [exnerPressure, defaults]
  rw [this, one_rpow]

theorem exPressure : pressure defaults 1 = 100000 := by
  simp only [pressure, one_rpow]; norm_num [defaults]

/-- Vapour `v`, cloud `c`, rain `r` at 300 K. -/
noncomputable def exState (v c r : ℝ) : Local := fun f =>
  if f = "theta" then 300 else if f = "water_vapour" then v else if f = "cloud_water" then c
  else if f = "rain" then r else 0

theorem exState_theta (v c r : ℝ) : exState v c r "theta" = 300 := by
  unfold exState; rw [if_pos rfl]

theorem exState_vapour (v c r : ℝ) : exState v c r "water_vapour" = v := by
  unfold exState; rw [if_neg (by decide), if_pos rfl]

theorem exState_cloud (v c r : ℝ) : exState v c r "cloud_water" = c := by
  unfold exState; rw [if_neg (by decide), if_neg (by decide), if_pos rfl]

theorem exState_rain (v c r : ℝ) : exState v c r "rain" = r := by
  unfold exState; rw [if_neg (by decide), if_neg (by decide), if_neg (by decide), if_pos rfl]

/-- Saturation in the dry state at 300 K: positive and below 0.04. -/
theorem exSat (c r : ℝ) : 0 < satAt defaults {} exRho (exState 0 c r) ∧
    satAt defaults {} exRho (exState 0 c r) < 0.04 := by
  have hT : temperature defaults 300 1 (some 0) = 300 := by simp [temperature]
  have e : satAt defaults {} exRho (exState 0 c r) = rSat defaults 300 100000 := by
    simp only [satAt, exState_theta, exState_vapour, exExner, exPressure, hT]
  rw [e]
  have h1 : 0 < eSat defaults 300 := by
    unfold eSat
    have : 0 < defaults.w4 := by norm_num [defaults]
    positivity
  have h2 : eSat defaults 300 < 4600 := by
    have hexp : exp (-defaults.w2 * (300 - defaults.T0) / (300 - defaults.w3)) ≤ exp 2 := by
      apply exp_le_exp.2
      norm_num [defaults]
    have h3 : exp 2 < 7.5 := by
      have h1 := exp_one_lt_d9
      have : exp 2 = exp 1 ^ 2 := by rw [← exp_nat_mul]; norm_num
      rw [this]
      nlinarith [exp_pos 1]
    unfold eSat
    have h4 : defaults.w4 = 610.9 := rfl
    rw [h4]
    nlinarith
  unfold rSat
  have h5 : defaults.Rd / defaults.Rv = 287 / 461 := rfl
  simp only [h5]
  constructor
  · apply div_pos <;> nlinarith
  · rw [div_lt_iff₀ (by linarith)]
    nlinarith

/-- The hypotheses of the C43 theorems are met: dry air with cloud at 300 K. -/
example : 0 < defaults.cp * defaults.Rv ∧ 0 ≤ satAt defaults {} exRho (exState 0 1 0) ∧
    exState 0 1 0 "water_vapour" ≤ satAt defaults {} exRho (exState 0 1 0) ∧
    0 ≤ exState 0 1 0 "cloud_water" := by
  refine ⟨by norm_num [defaults], (exSat 1 0).1.le, ?_, ?_⟩
  · have : exState 0 1 0 "water_vapour" = 0 := by simp [exState_theta, exState_vapour, exState_cloud, exState_rain]
    rw [this]; exact (exSat 1 0).1.le
  · simp [exState_cloud]

/-! ### C44: coalescence -/

section Coalescence
variable {cn rn : String} {accretion accumulation : Bool}

theorem coal_cloud (h : cn ≠ rn) :
    stepWith dt (coalescence cn rn accretion accumulation dt x) x cn
      = x cn - dt * coalescenceRate accretion accumulation (x cn) (x rn) dt := by
  simp [stepWith, coalescence, h.symm]

theorem coal_rain (h : cn ≠ rn) :
    stepWith dt (coalescence cn rn accretion accumulation dt x) x rn
      = x rn + dt * coalescenceRate accretion accumulation (x cn) (x rn) dt := by
  simp [stepWith, coalescence, h]

/-- **C44** (conservation). -/
theorem C44_conserves (h : cn ≠ rn) :
    stepWith dt (coalescence cn rn accretion accumulation dt x) x cn
        + stepWith dt (coalescence cn rn accretion accumulation dt x) x rn = x cn + x rn := by
  rw [coal_cloud h, coal_rain h]; ring

/-- The rate is between zero and what removes all the cloud, when cloud is non-negative. -/
theorem coal_rate_bounds (c r : ℝ) (hdt : 0 < dt) (hc : 0 ≤ c) :
    0 ≤ coalescenceRate accretion accumulation c r dt ∧
      dt * coalescenceRate accretion accumulation c r dt ≤ c := by
  have hcd : 0 ≤ c / dt := div_nonneg hc hdt.le
  have hm : ∀ a : ℝ, dt * min a (c / dt) ≤ c := fun a => by
    calc dt * min a (c / dt) ≤ dt * (c / dt) := mul_le_mul_of_nonneg_left (min_le_right _ _) hdt.le
      _ = c := by field_simp
  have hz : dt * 0 ≤ c := by linarith
  unfold coalescenceRate
  dsimp only
  generalize (if accretion = true then (0.001 : ℝ) * (c - 0.001) else 0) = accr
  have haccu : 0 ≤ r → 0 ≤ (if accumulation = true then (2.2 : ℝ) * c * r ^ (0.875 : ℝ) else 0) := by
    intro hr; split <;> positivity
  generalize (if accumulation = true then (2.2 : ℝ) * c * r ^ (0.875 : ℝ) else 0) = accu at haccu ⊢
  by_cases hr : r < 0
  · rw [if_pos hr]
    by_cases ha : accr < 0
    · rw [if_pos ha]; exact ⟨le_refl _, hz⟩
    · rw [if_neg ha]; exact ⟨le_min (not_lt.1 ha) hcd, hm _⟩
  · rw [if_neg hr]
    by_cases hs : accr + accu < 0
    · rw [if_pos hs]; exact ⟨le_refl _, hz⟩
    · rw [if_neg hs]
      by_cases ha : accr < 0
      · rw [if_pos ha]; exact ⟨le_min (haccu (not_lt.1 hr)) hcd, hm _⟩
      · rw [if_neg ha]; exact ⟨le_min (not_lt.1 hs) hcd, hm _⟩

/-- **C44** (bounds).  If cloud is non-negative, the step does not increase cloud, leaves it non-negative,
and does not decrease rain. -/
theorem C44_bounds (h : cn ≠ rn) (hdt : 0 < dt) (hc : 0 ≤ x cn) :
    0 ≤ stepWith dt (coalescence cn rn accretion accumulation dt x) x cn ∧
    stepWith dt (coalescence cn rn accretion accumulation dt x) x cn ≤ x cn ∧
    x rn ≤ stepWith dt (coalescence cn rn accretion accumulation dt x) x rn := by
  rw [coal_cloud h, coal_rain h]
  have hb := coal_rate_bounds (accretion := accretion) (accumulation := accumulation) (x cn) (x rn) hdt hc
  have h0 := mul_nonneg hdt.le hb.1
  exact ⟨by linarith [hb.2], by linarith, by linarith⟩

/-- **C44** (amount).  With both processes, cloud above the threshold of 1 g/kg and non-negative rain, the
amount converted is what the two rates give over the timestep, but never more than the cloud. -/
theorem C44_amount (h : cn ≠ rn) (hdt : 0 < dt) (hc : 0.001 ≤ x cn) (hr : 0 ≤ x rn) :
    stepWith dt (coalescence cn rn true true dt x) x rn
      = x rn + min (dt * (0.001 * (x cn - 0.001) + 2.2 * x cn * x rn ^ (0.875 : ℝ))) (x cn) := by
  rw [coal_rain h]
  have hc0 : 0 ≤ x cn := by linarith
  have h1 : ¬ (0.001 : ℝ) * (x cn - 0.001) < 0 := not_lt.2 (by nlinarith)
  have h2 : ¬ (0.001 : ℝ) * (x cn - 0.001) + 2.2 * x cn * x rn ^ (0.875 : ℝ) < 0 := by
    have : 0 ≤ 2.2 * x cn * x rn ^ (0.875 : ℝ) := by positivity
    exact not_lt.2 (by linarith [not_lt.1 h1])
  unfold coalescenceRate
  simp only [if_true, if_neg (not_lt.2 hr), if_neg h1, if_neg h2]
  rw [mul_min_of_nonneg _ _ hdt.le, mul_div_cancel₀ _ hdt.ne']

/-- **C44** (below the threshold).  Cloud at or below 1 g/kg without rain is not converted, whatever the
options. -/
theorem C44_below_threshold (h : cn ≠ rn) (hdt : 0 < dt) (hc0 : 0 ≤ x cn) (hc : x cn ≤ 0.001)
    (hr : x rn = 0) (f : String) :
    stepWith dt (coalescence cn rn accretion accumulation dt x) x f = x f := by
  have hz : coalescenceRate accretion accumulation (x cn) (x rn) dt = 0 := by
    unfold coalescenceRate
    rw [hr]
    have h0 : (0 : ℝ) ^ (0.875 : ℝ) = 0 := zero_rpow (by norm_num)
    simp only [h0, mul_zero, ite_self, add_zero, lt_irrefl, if_false]
    have hcd : 0 ≤ x cn / dt := div_nonneg hc0 hdt.le
    cases accretion
    · simp [hcd]
    · simp only [if_true]
      rcases hc.lt_or_eq with hlt | heq
      · have : (0.001 : ℝ) * (x cn - 0.001) < 0 := by nlinarith
        simp [this]
      · rw [heq]
        have : (0 : ℝ) ≤ 0.001 / dt := by positivity
        simp [this]
  by_cases h1 : f = cn
  · subst h1; rw [coal_cloud h, hz]; ring
  by_cases h2 : f = rn
  · subst h2; rw [coal_rain h, hz]; ring
  have h1' : ¬ cn = f := fun e => h1 e.symm
  have h2' : ¬ rn = f := fun e => h2 e.symm
  simp [stepWith, coalescence, h1', h2']

/-- **C44** (negative cloud, refutation).  With negative cloud the comment "don't turn rain back into cloud"
is not respected: with accretion off and no rain, rain is made negative. -/
theorem C44_negative_cloud_refuted : ∃ (dt : ℝ) (x : Local), 0 < dt ∧
    stepWith dt (coalescence "cloud_water" "rain" false true dt x) x "rain" < x "rain" ∧
    x "rain" = 0 := by
  refine ⟨1, exState 0 (-1) 0, one_pos, ?_, by simp [exState_theta, exState_vapour, exState_cloud, exState_rain]⟩
  rw [coal_rain (by decide)]
  have h1 : exState 0 (-1) 0 "cloud_water" = -1 := by simp [exState_theta, exState_vapour, exState_cloud, exState_rain]
  have h2 : exState 0 (-1) 0 "rain" = 0 := by simp [exState_theta, exState_vapour, exState_cloud, exState_rain]
  rw [h1, h2]
  have h0 : (0 : ℝ) ^ (0.875 : ℝ) = 0 := zero_rpow (by norm_num)
  unfold coalescenceRate
  simp only [h0]
  norm_num

/-- The hypotheses are met. -/
example : ("cloud_water" : String) ≠ "rain" ∧ (0.001 : ℝ) ≤ exState 0 1 1 "cloud_water" ∧
    0 ≤ exState 0 1 1 "rain" := by
  refine ⟨by decide, ?_, ?_⟩ <;> norm_num [exState_cloud, exState_rain]

end Coalescence

/-! ### C45: evaporation of rain -/

/-- The evaporation rate used at the point. -/
noncomputable def evapAt (P : Parameters) (N : MoistNames) (rhoAvg dt : ℝ) (x : Local) : ℝ :=
  evapRate rhoAvg (x N.condensate) (x N.vapour) (pressure P (exnerPressure P rhoAvg (x "theta")))
    (satAt P N rhoAvg x) dt

theorem evap_rain (hN : Distinct N) :
    stepWith dt (evaporationOfRain P N latent rhoAvg dt x) x N.condensate
      = x N.condensate + dt * evapAt P N rhoAvg dt x := by
  have h1 := hN.vc
  have h2 := hN.ct.symm
  have e : evapRate rhoAvg (x N.condensate) (x N.vapour)
      (moistState P rhoAvg (x "theta") (x N.vapour) (liquidWater N x)).p
      (moistState P rhoAvg (x "theta") (x N.vapour) (liquidWater N x)).sat dt = evapAt P N rhoAvg dt x := rfl
  cases latent <;> simp [stepWith, evaporationOfRain, h1, h2, e]

theorem evap_vapour (hN : Distinct N) :
    stepWith dt (evaporationOfRain P N latent rhoAvg dt x) x N.vapour
      = x N.vapour - dt * evapAt P N rhoAvg dt x := by
  have h1 := hN.vc.symm
  have h2 := hN.vt.symm
  have e : evapRate rhoAvg (x N.condensate) (x N.vapour)
      (moistState P rhoAvg (x "theta") (x N.vapour) (liquidWater N x)).p
      (moistState P rhoAvg (x "theta") (x N.vapour) (liquidWater N x)).sat dt = evapAt P N rhoAvg dt x := rfl
  cases latent <;> simp [stepWith, evaporationOfRain, h1, h2, e]

/-- **C45** (the parts that hold: conservation, and rain stays non-negative).  The sum of rain and vapour is
unchanged and non-negative rain stays non-negative.  Missing: the direction, which is reversed
(`C45_direction_refuted`). -/
theorem C45_conserves_partial (hN : Distinct N) (hdt : 0 < dt) :
    stepWith dt (evaporationOfRain P N latent rhoAvg dt x) x N.condensate
        + stepWith dt (evaporationOfRain P N latent rhoAvg dt x) x N.vapour
      = x N.condensate + x N.vapour ∧
    (0 ≤ x N.condensate → 0 ≤ stepWith dt (evaporationOfRain P N latent rhoAvg dt x) x N.condensate) := by
  rw [evap_rain hN, evap_vapour hN]
  refine ⟨by ring, fun h => ?_⟩
  have : 0 ≤ evapAt P N rhoAvg dt x := by
    unfold evapAt evapRate
    dsimp only
    split
    · exact le_refl _
    · rename_i hr
      split
      · exact le_refl _
      · exact le_min (not_lt.1 hr) (div_nonneg h hdt.le)
  have := mul_nonneg hdt.le this
  linarith

/-- **C45** (the computed rate).  The rate itself is the documented one: zero for super-saturated air or
without rain, and it never amounts to more than the rain present. -/
theorem C45_rate (hdt : 0 < dt) (rho rain v p sat : ℝ) :
    0 ≤ evapRate rho rain v p sat dt ∧ (0 ≤ rain → dt * evapRate rho rain v p sat dt ≤ rain) ∧
    (rain ≤ 0 → evapRate rho rain v p sat dt = 0) ∧
    (0 < sat → sat ≤ v → 0 < rho → 0 ≤ rain → 0 < p → evapRate rho rain v p sat dt = 0) := by
  have key : 0 ≤ evapRate rho rain v p sat dt := by
    unfold evapRate
    dsimp only
    split
    · exact le_refl _
    · rename_i hr
      split
      · exact le_refl _
      · rename_i hr2
        exact le_min (not_lt.1 hr) (div_nonneg (not_lt.1 hr2) hdt.le)
  refine ⟨key, fun hrain => ?_, fun hrain => ?_, fun hs hv hrho hrain hp => ?_⟩
  · unfold evapRate
    dsimp only
    split
    · linarith
    · split
      · linarith
      · calc dt * min (evapRaw rho rain v p sat) (rain / dt) ≤ dt * (rain / dt) :=
            mul_le_mul_of_nonneg_left (min_le_right _ _) hdt.le
          _ = rain := by field_simp
  · unfold evapRate
    dsimp only
    split
    · rfl
    · rename_i h
      split
      · rfl
      · rename_i h2
        have h3 : rain = 0 := le_antisymm hrain (not_lt.1 h2)
        have h4 := not_lt.1 h
        rw [h3] at h4 ⊢
        rw [zero_div, min_eq_right h4]
  · have hraw : evapRaw rho rain v p sat ≤ 0 := by
      unfold evapRaw
      dsimp only
      apply div_nonpos_of_nonpos_of_nonneg
      · have h1 : 1 - v / sat ≤ 0 := by
          rw [sub_nonpos, le_div_iff₀ hs]; linarith
        have h2 : 0 ≤ 1.6 + 124.9 * (rho * rain) ^ (0.2046 : ℝ) := by positivity
        have h3 : 0 ≤ (rho * rain) ^ (0.525 : ℝ) := by positivity
        nlinarith [mul_nonneg h2 h3]
      · positivity
    unfold evapRate
    dsimp only
    split
    · rfl
    · rename_i h
      have h0 : evapRaw rho rain v p sat = 0 := le_antisymm hraw (not_lt.1 h)
      split
      · rfl
      · rw [h0, min_eq_left (div_nonneg hrain hdt.le)]

/-- **C45** (refutation).  In every sub-saturated state with rain, the scheme makes rain *increase* and vapour
*decrease*. -/
theorem C45_direction_refuted (hN : Distinct N) (hdt : 0 < dt) (hrho : 0 < rhoAvg)
    (hrain : 0 < x N.condensate) (hp : 0 < pressure P (exnerPressure P rhoAvg (x "theta")))
    (hs : 0 < satAt P N rhoAvg x) (hv : x N.vapour < satAt P N rhoAvg x) :
    x N.condensate < stepWith dt (evaporationOfRain P N latent rhoAvg dt x) x N.condensate ∧
      stepWith dt (evaporationOfRain P N latent rhoAvg dt x) x N.vapour < x N.vapour := by
  rw [evap_rain hN, evap_vapour hN]
  have h1 : 0 < 1 - x N.vapour / satAt P N rhoAvg x := by
    rw [sub_pos, div_lt_iff₀ hs]; linarith
  have hraw : 0 < evapRaw rhoAvg (x N.condensate) (x N.vapour)
      (pressure P (exnerPressure P rhoAvg (x "theta"))) (satAt P N rhoAvg x) := by
    unfold evapRaw
    positivity
  have hpos : 0 < evapAt P N rhoAvg dt x := by
    unfold evapAt evapRate
    dsimp only
    rw [if_neg (not_lt.2 hraw.le), if_neg (not_lt.2 hrain.le)]
    exact lt_min hraw (div_pos hrain hdt)
  have := mul_pos hdt hpos
  constructor <;> linarith

/-- There is such a state: dry air at 300 K with rain; there the vapour even becomes negative. -/
theorem C45_vapour_negative_refuted : ∃ (rho dt : ℝ) (x : Local), 0 < rho ∧ 0 < dt ∧
    0 ≤ x "water_vapour" ∧ 0 ≤ x "rain" ∧
    stepWith dt (evaporationOfRain defaults { condensate := "rain" } true rho dt x) x "water_vapour" < 0 := by
  have hx : exState 0 0 1 "water_vapour" = 0 := by simp [exState_theta, exState_vapour, exState_cloud, exState_rain]
  have hr : exState 0 0 1 "rain" = 1 := by simp [exState_theta, exState_vapour, exState_cloud, exState_rain]
  refine ⟨exRho, 1, exState 0 0 1, by norm_num [exRho], one_pos, hx.ge, by rw [hr]; norm_num, ?_⟩
  have hd : Distinct { condensate := "rain" } := by constructor <;> decide
  have ht : exState 0 0 1 "theta" = 300 := by simp [exState_theta, exState_vapour, exState_cloud, exState_rain]
  have hs := (exSat 0 1).1
  have h := C45_direction_refuted (P := defaults) (N := { condensate := "rain" }) (latent := true)
    (rhoAvg := exRho) (dt := 1) (x := exState 0 0 1) hd one_pos (by norm_num [exRho])
    (by rw [hr]; norm_num) (by rw [ht, exExner, exPressure]; norm_num) hs (by rw [hx]; exact hs)
  calc _ < exState 0 0 1 "water_vapour" := h.2
    _ = 0 := hx

/-! ### C73: energy -/

/-- Thermodynamic consistency of the constants. -/
structure Consistent (P : Parameters) : Prop where
  cp : P.cp = P.cv + P.Rd
  cpv : P.cpv = P.cvv + P.Rv
  kappa : P.kappa = P.Rd / P.cp
  cppos : 0 < P.cp
  cvpos : 0 < P.cv

theorem defaults_consistent : Consistent defaults := by
  constructor <;> norm_num [defaults]

/-- Derivative of the temperature along a curve of states with fixed density. -/
theorem temperature_deriv (hP : ThermoProps.Good P) (rho : ℝ) (hrho : 0 < rho) (th v : ℝ → ℝ)
    (th' v' t : ℝ) (hth : HasDerivAt th th' t) (hv : HasDerivAt v v' t) (hpos : 0 < th t)
    (hm : 0 < 1 + v t * P.Rv / P.Rd) :
    HasDerivAt (fun s => temperature P (th s) (exnerPressure P rho (th s)) (some (v s)))
      (temperature P (th t) (exnerPressure P rho (th t)) (some (v t))
        * (th' / th t * (1 / (1 - P.kappa)) - v' * P.Rv / P.Rd / (1 + v t * P.Rv / P.Rd))) t := by
  have hb := ThermoProps.base_pos hP hrho hpos
  have hk1 : 1 - P.kappa ≠ 0 := by linarith [hP.klt]
  have hRd := hP.Rd.ne'
  have hp0 := hP.p0.ne'
  unfold temperature exnerPressure
  dsimp only
  have d1 : HasDerivAt (fun s => rho * P.Rd * th s / P.p0) (rho * P.Rd * th' / P.p0) t :=
    (hth.const_mul (rho * P.Rd)).div_const P.p0
  have d2 := (d1.rpow_const (p := P.kappa / (1 - P.kappa)) (Or.inl hb.ne'))
  have d3 : HasDerivAt (fun s => 1 + v s * P.Rv / P.Rd) (v' * P.Rv / P.Rd) t := by
    simpa using ((hv.mul_const P.Rv).div_const P.Rd).const_add 1
  have d4 := (hth.mul d2).div d3 hm.ne'
  refine d4.congr_deriv ?_
  rw [rpow_sub_one hb.ne']
  obtain ⟨E, hE⟩ : ∃ E, (rho * P.Rd * th t / P.p0) ^ (P.kappa / (1 - P.kappa)) = E := ⟨_, rfl⟩
  obtain ⟨m, hm'⟩ : ∃ m, 1 + v t * P.Rv / P.Rd = m := ⟨_, rfl⟩
  have hm0 : m ≠ 0 := hm' ▸ hm.ne'
  have hr0 := hrho.ne'
  have ht0 := hpos.ne'
  obtain ⟨q, hq⟩ : ∃ q, 1 - P.kappa = q := ⟨_, rfl⟩
  have hkq : P.kappa = 1 - q := by linarith
  rw [hq] at hk1 ⊢
  rw [hkq]
  have hE' : (rho * P.Rd * th t / P.p0) ^ ((1 - q) / q) = E := by rw [← hE, hkq]; simp
  simp only [Pi.mul_apply, hE', hm']
  field_simp
  ring

/-- **C73** (latent heating conserves energy).  The rates of change of vapour, cloud and potential temperature
produced by SaturationAdjustment with latent heat (minus the terms that it adds to the residual) conserve the
internal energy density at fixed density: along any curve through the state with these rates, its derivative
vanishes.  `other` is the rest of the liquid water. -/
theorem C73_energy (hP : ThermoProps.Good P) (hC : Consistent P) (hN : Distinct N) (rho dt : ℝ)
    (hrho : 0 < rho) (x : Local) (th v c : ℝ → ℝ) (t : ℝ)
    (hth0 : th t = x "theta") (hv0 : v t = x N.vapour) (hc0 : c t = x N.condensate)
    (hpos : 0 < x "theta") (hm : 0 < P.Rd + P.Rv * x N.vapour)
    (hcv : P.cv + P.cvv * x N.vapour + P.cpl * liquidWater N x ≠ 0)
    (hth : HasDerivAt th (-residualOf (saturationAdjustment P N true rho dt x) "theta") t)
    (hv : HasDerivAt v (-residualOf (saturationAdjustment P N true rho dt x) N.vapour) t)
    (hc : HasDerivAt c (-residualOf (saturationAdjustment P N true rho dt x) N.condensate) t) :
    HasDerivAt (fun s => internalEnergy P rho
      (temperature P (th s) (exnerPressure P rho (th s)) (some (v s))) (v s)
      (c s + (N.others.map x).sum)) 0 t := by
  have hRd := hP.Rd.ne'
  have h1 := hN.vt
  have h2 := hN.ct
  have h3 := hN.vc
  obtain ⟨S, hS⟩ : ∃ S, rateAt P N true rho dt x = S := ⟨_, rfl⟩
  obtain ⟨m, hmm⟩ : ∃ m, moistState P rho (x "theta") (x N.vapour) (liquidWater N x) = m := ⟨_, rfl⟩
  have hS' : satAdjRate P true m (x N.vapour) (x N.condensate) dt = S := by rw [← hS, ← hmm]; rfl
  have e1 : residualOf (saturationAdjustment P N true rho dt x) "theta"
      = S * thetaFactor P (x "theta") m := by
    simp [residualOf, saturationAdjustment, h1, h2, hmm, hS']
  have e2 : residualOf (saturationAdjustment P N true rho dt x) N.vapour = S := by
    simp [residualOf, saturationAdjustment, h1.symm, h3.symm, hmm, hS']
  have e3 : residualOf (saturationAdjustment P N true rho dt x) N.condensate = -S := by
    simp [residualOf, saturationAdjustment, h2.symm, h3, hmm, hS']
  rw [e1] at hth; rw [e2] at hv; rw [e3] at hc
  have hmp : 0 < 1 + v t * P.Rv / P.Rd := by
    rw [hv0]
    have : 1 + x N.vapour * P.Rv / P.Rd = (P.Rd + P.Rv * x N.vapour) / P.Rd := by field_simp
    rw [this]; exact div_pos hm hP.Rd
  have hT := temperature_deriv hP rho hrho th v _ _ t hth hv (hth0 ▸ hpos) hmp
  have hT0 : temperature P (th t) (exnerPressure P rho (th t)) (some (v t)) = m.T := by
    rw [hth0, hv0, ← hmm]; rfl
  have hTpos : 0 < m.T := by
    rw [← hT0]
    unfold temperature exnerPressure
    have hb := ThermoProps.base_pos hP hrho (hth0 ▸ hpos : 0 < th t)
    exact div_pos (mul_pos (hth0 ▸ hpos) (rpow_pos_of_pos hb _)) hmp
  rw [hT0] at hT
  have hl : x N.condensate + (N.others.map x).sum = liquidWater N x := rfl
  have hcvml : m.cvml = P.cv + P.cvv * x N.vapour + P.cpl * liquidWater N x := by rw [← hmm]; rfl
  have hcpml : m.cpml = P.cp + P.cpv * x N.vapour + P.cpl * liquidWater N x := by rw [← hmm]; rfl
  have hRm : m.Rm = P.Rd + P.Rv * x N.vapour := by rw [← hmm]; rfl
  have hLv : m.Lv = P.Lv0 - (P.cpl - P.cpv) * (m.T - P.T0) := by rw [← hmm]; rfl
  have hkap : 1 - P.kappa = P.cv / P.cp := by
    have := hC.cppos.ne'
    rw [hC.kappa]
    field_simp
    linarith [hC.cp]
  have hmd : 1 + x N.vapour * P.Rv / P.Rd = m.Rm / P.Rd := by rw [hRm]; field_simp
  have hcpml' : m.cpml = m.cvml + m.Rm := by rw [hcpml, hcvml, hRm, hC.cp, hC.cpv]; ring
  have hcv' : m.cvml ≠ 0 := by rw [hcvml]; exact hcv
  have hRm' : m.Rm ≠ 0 := by rw [hRm]; exact hm.ne'
  have hTd : HasDerivAt (fun s => temperature P (th s) (exnerPressure P rho (th s)) (some (v s)))
      (S * (m.Lv - P.Rv * m.T) / m.cvml) t := by
    refine hT.congr_deriv ?_
    rw [hth0, hv0, hkap, hmd, thetaFactor, hcpml']
    have hT' := hTpos.ne'
    have hcp' := hC.cppos.ne'
    have hcvp := hC.cvpos.ne'
    have hx := hpos.ne'
    field_simp
    ring
  have hTv : HasDerivAt (fun s => P.cv * temperature P (th s) (exnerPressure P rho (th s)) (some (v s))
      + v s * P.cvv * temperature P (th s) (exnerPressure P rho (th s)) (some (v s))
      + (c s + (N.others.map x).sum)
        * (P.cpv * temperature P (th s) (exnerPressure P rho (th s)) (some (v s))
          - (P.Lv0 - (P.cpl - P.cpv)
            * (temperature P (th s) (exnerPressure P rho (th s)) (some (v s)) - P.T0)))) _ t :=
    ((hTd.const_mul P.cv).add ((hv.mul_const P.cvv).mul hTd)).add
      ((hc.add_const _).mul ((hTd.const_mul P.cpv).sub
        (((hTd.sub_const P.T0).const_mul (P.cpl - P.cpv)).const_sub P.Lv0)))
  refine HasDerivAt.congr_deriv (f := fun s => internalEnergy P rho
      (temperature P (th s) (exnerPressure P rho (th s)) (some (v s))) (v s)
      (c s + (N.others.map x).sum)) (hTv.const_mul rho) ?_
  rw [hT0, hv0, hc0, hl]
  obtain ⟨Q, hQ⟩ : ∃ Q, S * (m.Lv - P.Rv * m.T) / m.cvml = Q := ⟨_, rfl⟩
  have hQ2 : S * (m.Lv - P.Rv * m.T) = Q * m.cvml := by rw [← hQ]; field_simp
  rw [hQ]
  rw [hLv, hcvml] at hQ2
  have hcpv := hC.cpv
  linear_combination (-rho) * hQ2 + rho * S * m.T * hcpv

/-- The constants and a state meet the hypotheses. -/
example : ThermoProps.Good defaults ∧ Consistent defaults ∧ Distinct {} ∧
    0 < exState 0 1 0 "theta" ∧ 0 < defaults.Rd + defaults.Rv * exState 0 1 0 "water_vapour" :=
  ⟨ThermoProps.defaults_good, defaults_consistent, by constructor <;> decide, by simp [exState_theta, exState_vapour, exState_cloud, exState_rain],
    by norm_num [exState_vapour, defaults]⟩

end Gusto.Props.MicroProps
