import Verif.Props.Microphysics
import Mathlib.Analysis.SpecialFunctions.Gamma.Basic

set_option autoImplicit false
set_option linter.unusedSectionVars false
set_option linter.unusedSimpArgs false

/-! # C48, C50, C75, C76: surface fluxes, wind drag, wind suppression, Held-Suarez forcing, fall speed -/

namespace Gusto.Props.BoundaryProps
open Gusto.Physics Gusto.Thermo Gusto.Coord Real Gusto.Spec MicroProps

/-! ### C48: surface fluxes, implicit formulation -/

theorem flux_backward_euler (C w za dt q target : ℝ) (hC : 0 ≤ C) (hw : 0 ≤ w) (hz : 0 < za) (hdt : 0 < dt) :
    implicitFlux C w za dt q target
      = q + dt * (C * w * (target - implicitFlux C w za dt q target) / za) := by
  have hp : 0 < 1 + C * w * dt / za := by positivity
  have hz' := hz.ne'
  unfold implicitFlux
  obtain ⟨D, hD⟩ : ∃ D, 1 + C * w * dt / za = D := ⟨_, rfl⟩
  have hCw : C * w * dt = (D - 1) * za := by rw [← hD]; field_simp; ring
  rw [hD] at hp ⊢
  have hD' := hp.ne'
  have e1 : C * w * target * dt / za = (D - 1) * target := by
    rw [show C * w * target * dt = C * w * dt * target by ring, hCw]; field_simp
  have e2 : dt * (C * w * (target - (q + (D - 1) * target) / D) / za)
      = (D - 1) * (target - (q + (D - 1) * target) / D) := by
    rw [show dt * (C * w * (target - (q + (D - 1) * target) / D) / za)
      = C * w * dt * (target - (q + (D - 1) * target) / D) / za by ring, hCw]
    field_simp
  rw [e1, e2]
  field_simp
  ring

theorem flux_between (C w za dt q target : ℝ) (hC : 0 ≤ C) (hw : 0 ≤ w) (hz : 0 < za) (hdt : 0 < dt) :
    min q target ≤ implicitFlux C w za dt q target ∧
      implicitFlux C w za dt q target ≤ max q target := by
  have hp : 0 < 1 + C * w * dt / za := by positivity
  have ha : 0 ≤ C * w * dt / za := by positivity
  unfold implicitFlux
  have e1 : C * w * target * dt / za = C * w * dt / za * target := by ring
  rw [e1]
  generalize C * w * dt / za = a at *
  rw [le_div_iff₀ hp, div_le_iff₀ hp]
  rcases le_total q target with h | h
  · rw [min_eq_left h, max_eq_right h]; constructor <;> nlinarith
  · rw [min_eq_right h, max_eq_left h]; constructor <;> nlinarith

/-- Admissible boundary-layer parameters. -/
structure BLGood (B : BLParameters) : Prop where
  CD0 : 0 ≤ B.CD0
  CD1 : 0 ≤ B.CD1
  CD2 : 0 ≤ B.CD2
  CH : 0 ≤ B.CH
  CE : 0 ≤ B.CE
  za : 0 < B.za

theorem blDefaults_good : BLGood blDefaults := by
  constructor <;> norm_num [blDefaults]

variable {P : Parameters} {B : BLParameters} {dt w z rhoAvg Ts : ℝ} {x : Local} {vn : String}

/-- The temperature of a state at the *old* Exner pressure, as the scheme uses it. -/
noncomputable def tempAt (P : Parameters) (exner theta : ℝ) (mv : Option ℝ) : ℝ :=
  temperature P theta exner mv

theorem theta_inverse (hP : ThermoProps.Good P) (T Pi : ℝ) (hPi : 0 < Pi) :
    Thermo.theta P T (pressure P Pi) * Pi = T := by
  have h := ThermoProps.C40_theta_of_T hP (T / Pi) Pi hPi
  have e : temperature P (T / Pi) Pi none = T := by
    simp only [temperature]; field_simp
  rw [e] at h
  rw [h]; field_simp

/-- **C48** (dry surface fluxes, implicit).  In the surface layer the temperature of the new state, taken at
the old pressure, is the backward-Euler solution of `dT/dt = C_H |u| (T_s - T)/z_a`, and lies between the old
temperature and that of the surface. -/
theorem C48_surface_dry (hP : ThermoProps.Good P) (hB : BLGood B) (hz : z < B.za) (hw : 0 ≤ w)
    (hdt : 0 < dt) (hrho : 0 < rhoAvg) (hth : 0 < x "theta")
    (Pi : ℝ) (hPi : Pi = exnerPressure P rhoAvg (x "theta")) :
    let y := stepWith dt (surfaceFluxesImplicit P B none Ts z w rhoAvg dt x) x
    let T := tempAt P Pi (x "theta") none
    let T' := tempAt P Pi (y "theta") none
    T' = T + dt * (B.CH * w * (Ts - T') / B.za) ∧ min T Ts ≤ T' ∧ T' ≤ max T Ts := by
  intro y T T'
  have hPip : 0 < Pi := by
    rw [hPi]; unfold exnerPressure
    exact rpow_pos_of_pos (ThermoProps.base_pos hP hrho hth) _
  have hy : y "theta" = Thermo.theta P (implicitFlux B.CH w B.za dt T Ts) (pressure P Pi) := by
    simp only [y, stepWith, surfaceFluxesImplicit, surfaceExpr, if_pos hz, T, tempAt, hPi,
      List.filter_cons, List.filter_nil, decide_true, if_true, List.map_cons, List.map_nil,
      List.sum_cons, List.sum_nil, Option.map_none]
    field_simp
    ring
  have hT' : T' = implicitFlux B.CH w B.za dt T Ts := by
    have := theta_inverse hP (implicitFlux B.CH w B.za dt T Ts) Pi hPip
    simp only [T', tempAt, temperature, hy]
    exact this
  rw [hT']
  exact ⟨flux_backward_euler _ _ _ _ _ _ hB.CH hw hB.za hdt,
    flux_between _ _ _ _ _ _ hB.CH hw hB.za hdt⟩

theorem stepWith_second (dt : ℝ) (x : Local) (a b : ℝ) (f g : String) (h : g ≠ f) :
    stepWith dt [(g, b), (f, a)] x f = x f - dt * a := by
  simp [stepWith, List.filter_cons, h]

/-- **C48** (moist surface fluxes, implicit).  In the surface layer the new vapour is the backward-Euler
solution of `dm/dt = C_E |u| (m_sat - m)/z_a` (with the saturation value of the old state) and lies between
the old vapour and saturation; the temperature of the new state, taken at the old pressure and with the new
vapour, is the backward-Euler solution of `dT/dt = C_H |u| (T_s - T)/z_a` and lies between the old
temperature and that of the surface. -/
theorem C48_surface_moist (hP : ThermoProps.Good P) (hB : BLGood B) (hz : z < B.za) (hw : 0 ≤ w)
    (hdt : 0 < dt) (hrho : 0 < rhoAvg) (hth : 0 < x "theta") (hvn : vn ≠ "theta")
    (Pi : ℝ) (hPi : Pi = exnerPressure P rhoAvg (x "theta")) (sat : ℝ)
    (hsat : sat = rSat P (tempAt P Pi (x "theta") (some (x vn))) (pressure P Pi))
    (hv0 : 0 ≤ x vn) (hs0 : 0 ≤ sat) :
    let y := stepWith dt (surfaceFluxesImplicit P B (some vn) Ts z w rhoAvg dt x) x
    let T := tempAt P Pi (x "theta") (some (x vn))
    let T' := tempAt P Pi (y "theta") (some (y vn))
    (T' = T + dt * (B.CH * w * (Ts - T') / B.za) ∧ min T Ts ≤ T' ∧ T' ≤ max T Ts) ∧
    (y vn = x vn + dt * (B.CE * w * (sat - y vn) / B.za) ∧
      min (x vn) sat ≤ y vn ∧ y vn ≤ max (x vn) sat) := by
  intro y T T'
  have hPip : 0 < Pi := by
    rw [hPi]; unfold exnerPressure
    exact rpow_pos_of_pos (ThermoProps.base_pos hP hrho hth) _
  have hyv : y vn = implicitFlux B.CE w B.za dt (x vn) sat := by
    simp only [y, stepWith, surfaceFluxesImplicit, surfaceExpr, if_pos hz, tempAt, hPi, hsat,
      List.filter_cons, List.filter_nil, decide_true, if_true, List.map_cons, List.map_nil,
      List.sum_cons, List.sum_nil, Option.map_some, hvn.symm, decide_false]
    simp only [Bool.false_eq_true, if_false, List.map_nil, List.sum_nil]
    field_simp
    ring
  have hyt : y "theta" = Thermo.theta P (implicitFlux B.CH w B.za dt T Ts) (pressure P Pi)
      * (1 + y vn / (P.Rd / P.Rv)) := by
    rw [hyv]
    simp only [y, surfaceFluxesImplicit, stepWith_second _ _ _ _ _ _ hvn, surfaceExpr, if_pos hz, T, tempAt,
      hPi, hsat, Option.map_some]
    field_simp
    ring
  have hb := flux_between B.CE w B.za dt (x vn) sat hB.CE hw hB.za hdt
  have hy0 : 0 ≤ y vn := by rw [hyv]; exact (le_min hv0 hs0).trans hb.1
  have hT' : T' = implicitFlux B.CH w B.za dt T Ts := by
    have h1 := theta_inverse hP (implicitFlux B.CH w B.za dt T Ts) Pi hPip
    have hRd := hP.Rd
    have hRv := hP.Rv
    have h2 : 0 < 1 + y vn * P.Rv / P.Rd := by positivity
    have h3 : 1 + y vn / (P.Rd / P.Rv) = 1 + y vn * P.Rv / P.Rd := by rw [div_div_eq_mul_div]
    simp only [T', tempAt, temperature]
    rw [hyt, h3]
    rw [show ∀ a b c : ℝ, a * b * c = a * c * b by intros; ring, h1]
    field_simp
  rw [hT']
  refine ⟨⟨flux_backward_euler _ _ _ _ _ _ hB.CH hw hB.za hdt,
    flux_between _ _ _ _ _ _ hB.CH hw hB.za hdt⟩, ?_, ?_⟩
  · rw [hyv]; exact flux_backward_euler _ _ _ _ _ _ hB.CE hw hB.za hdt
  · rw [hyv]; exact hb

/-- **C48** (above the surface layer nothing changes). -/
theorem C48_surface_above (hz : ¬ z < B.za) (vapour : Option String) (f : String) :
    stepWith dt (surfaceFluxesImplicit P B vapour Ts z w rhoAvg dt x) x f = x f := by
  have key : ∀ l : List (String × ℝ), (∀ p ∈ l, p.2 = 0) → stepWith dt l x f = x f := by
    intro l hl
    have : ((l.filter fun p => p.1 = f).map Prod.snd).sum = 0 := by
      apply List.sum_eq_zero
      intro a ha
      simp only [List.mem_map, List.mem_filter] at ha
      obtain ⟨p, ⟨hp, -⟩, rfl⟩ := ha
      exact hl p hp
    rw [stepWith, this, mul_zero, sub_zero]
  apply key
  cases vapour <;> simp [surfaceFluxesImplicit, surfaceExpr, hz]

/-- The hypotheses are met: 300 K, dry, in the lowest layer. -/
example : ThermoProps.Good defaults ∧ BLGood blDefaults ∧ (10 : ℝ) < blDefaults.za ∧ 0 < exRho ∧
    0 < exState 0 0 0 "theta" ∧ 0 ≤ exState 0 0 0 "water_vapour" ∧
    0 ≤ rSat defaults (tempAt defaults 1 300 (some 0)) (pressure defaults 1) := by
  refine ⟨ThermoProps.defaults_good, blDefaults_good, by norm_num [blDefaults], by norm_num [exRho],
    by rw [exState_theta]; norm_num, by rw [exState_vapour], ?_⟩
  have h := (exSat 0 0).1.le
  simpa [satAt, tempAt, exState_theta, exState_vapour, exExner] using h

/-! ### C48: surface fluxes, general formulation -/

/-- **C48** (general formulation, what holds).  Let theta and vapour change at the rates that the general
formulation adds to the equations, at fixed density.  Then the temperature changes at the intended rate
multiplied by `(1 - kappa/rho)/(1 - kappa)`. -/
theorem C48_general_partial (hP : ThermoProps.Good P) (rho : ℝ) (hrho : 0 < rho) (th m : ℝ → ℝ) (t : ℝ)
    (hpos : 0 < th t) (hm : 0 ≤ m t)
    (hdth : HasDerivAt th (surfaceFluxRates P B (some (m t)) Ts z w rho (th t)).2.2 t)
    (hdm : HasDerivAt m (surfaceFluxRates P B (some (m t)) Ts z w rho (th t)).1 t) :
    HasDerivAt (fun s => temperature P (th s) (exnerPressure P rho (th s)) (some (m s)))
      ((surfaceFluxRates P B (some (m t)) Ts z w rho (th t)).2.1
        * ((1 - P.kappa / rho) / (1 - P.kappa))) t := by
  have hRd := hP.Rd
  have hRv := hP.Rv
  have hmp : 0 < 1 + m t * P.Rv / P.Rd := by positivity
  refine (temperature_deriv hP rho hrho th m _ _ t hdth hdm hpos hmp).congr_deriv ?_
  simp only [surfaceFluxRates]
  have hb := ThermoProps.base_pos hP hrho hpos
  have hE : 0 < exnerPressure P rho (th t) := by unfold exnerPressure; exact rpow_pos_of_pos hb _
  obtain ⟨T, hT⟩ : ∃ T, temperature P (th t) (exnerPressure P rho (th t)) (some (m t)) = T := ⟨_, rfl⟩
  rw [hT]
  obtain ⟨E, hEe⟩ : ∃ E, exnerPressure P rho (th t) = E := ⟨_, rfl⟩
  rw [hEe] at hT hE ⊢
  obtain ⟨q, hq⟩ : ∃ q, 1 + m t * P.Rv / P.Rd = q := ⟨_, rfl⟩
  have hTe : T * q = th t * E := by
    rw [← hT, ← hq]; simp only [temperature]; field_simp
  have hq3 : 1 + m t / (P.Rd / P.Rv) = q := by rw [← hq, div_div_eq_mul_div]
  have hq4 : P.Rd / P.Rv + m t = P.Rd / P.Rv * q := by rw [← hq]; field_simp
  rw [hq3, hq4, hq]
  rw [hq] at hmp
  have hTp : 0 < T := by
    have : 0 < T * q := by rw [hTe]; positivity
    exact (mul_pos_iff_of_pos_right hmp).1 this
  generalize rSat P T (pressure P E) = sat
  generalize surfaceExpr z B.za * B.CH * w * (Ts - T) / B.za = dT
  generalize surfaceExpr z B.za * B.CE * w * (sat - m t) / B.za = dm
  have hk := hP.klt
  have hk1 : 1 - P.kappa ≠ 0 := by linarith
  have hq0 := hmp.ne'
  have hT0 := hTp.ne'
  have hE0 := hE.ne'
  have hr0 := hrho.ne'
  have hth0 := hpos.ne'
  have hqE : q / E = th t / T := by rw [div_eq_div_iff hE0 hT0]; linarith
  have hTE : T / (P.Rd / P.Rv * E) = th t / (P.Rd / P.Rv * q) := by
    rw [div_eq_div_iff (by positivity) (by positivity)]
    linear_combination (P.Rd / P.Rv) * hTe
  rw [hqE, hTE]
  field_simp
  ring

/-- **C48** (general formulation, the rates).  In the surface layer the temperature and the vapour are driven towards the
temperature of the surface and towards saturation, at the rates of which the implicit formulation is the backward Euler
step (and of which its values are the solution to first order in the time step); above it all rates are zero. -/
theorem C48_general_rates (hB : BLGood B) (rho th m : ℝ) :
    let E := exnerPressure P rho th
    let T := temperature P th E (some m)
    let sat := rSat P T (pressure P E)
    let r := surfaceFluxRates P B (some m) Ts z w rho th
    let r0 := surfaceFluxRates P B none Ts z w rho th
    let T0 := temperature P th E none
    (z < B.za →
      (r.2.1 = B.CH * w * (Ts - T) / B.za ∧ HasDerivAt (fun dt => implicitFlux B.CH w B.za dt T Ts) r.2.1 0) ∧
      (r.1 = B.CE * w * (sat - m) / B.za ∧ HasDerivAt (fun dt => implicitFlux B.CE w B.za dt m sat) r.1 0) ∧
      (r0.2.1 = B.CH * w * (Ts - T0) / B.za ∧ HasDerivAt (fun dt => implicitFlux B.CH w B.za dt T0 Ts) r0.2.1 0)) ∧
    r0.1 = 0 ∧ (¬ z < B.za → r = (0, 0, 0) ∧ r0 = (0, 0, 0)) := by
  intro E T sat r r0 T0
  have hza := hB.za.ne'
  have hd : ∀ c q q' : ℝ, HasDerivAt (fun dt => implicitFlux c w B.za dt q q') (c * w * (q' - q) / B.za) 0 := by
    intro c q q'
    have h1 : HasDerivAt (fun dt : ℝ => q + c * w * q' * dt / B.za) (c * w * q' / B.za) 0 := by
      have := (((hasDerivAt_id (0 : ℝ)).const_mul (c * w * q')).div_const B.za).const_add q
      simpa using this
    have h2 : HasDerivAt (fun dt : ℝ => 1 + c * w * dt / B.za) (c * w / B.za) 0 := by
      have := (((hasDerivAt_id (0 : ℝ)).const_mul (c * w)).div_const B.za).const_add 1
      simpa using this
    refine (h1.div h2 (by simp)).congr_deriv ?_
    simp
    field_simp
  refine ⟨fun hz => ?_, rfl, fun hz => ?_⟩
  · have e1 : r.2.1 = B.CH * w * (Ts - T) / B.za := by simp [r, surfaceFluxRates, surfaceExpr, hz, T, E]
    have e2 : r.1 = B.CE * w * (sat - m) / B.za := by simp [r, surfaceFluxRates, surfaceExpr, hz, T, E, sat]
    have e3 : r0.2.1 = B.CH * w * (Ts - T0) / B.za := by simp [r0, surfaceFluxRates, surfaceExpr, hz, T0, E]
    exact ⟨⟨e1, e1 ▸ hd _ _ _⟩, ⟨e2, e2 ▸ hd _ _ _⟩, e3, e3 ▸ hd _ _ _⟩
  · constructor <;> simp [r, r0, surfaceFluxRates, surfaceExpr, hz]

/-- **C48** (general formulation without vapour, what holds): as above. -/
theorem C48_general_dry_partial (hP : ThermoProps.Good P) (rho : ℝ) (hrho : 0 < rho) (th : ℝ → ℝ) (t : ℝ)
    (hpos : 0 < th t)
    (hdth : HasDerivAt th (surfaceFluxRates P B none Ts z w rho (th t)).2.2 t) :
    HasDerivAt (fun s => temperature P (th s) (exnerPressure P rho (th s)) none)
      ((surfaceFluxRates P B none Ts z w rho (th t)).2.1 * ((1 - P.kappa / rho) / (1 - P.kappa))) t := by
  have h0 := temperature_deriv hP rho hrho th (fun _ => 0) _ _ t hdth (hasDerivAt_const t 0) hpos (by simp)
  have e : (fun s => temperature P (th s) (exnerPressure P rho (th s)) (some 0))
      = fun s => temperature P (th s) (exnerPressure P rho (th s)) none := by
    funext s; simp [temperature]
  rw [e] at h0
  refine h0.congr_deriv ?_
  have hb := ThermoProps.base_pos hP hrho hpos
  have hE : 0 < exnerPressure P rho (th t) := by unfold exnerPressure; exact rpow_pos_of_pos hb _
  simp only [surfaceFluxRates, temperature]
  obtain ⟨E, hEe⟩ : ∃ E, exnerPressure P rho (th t) = E := ⟨_, rfl⟩
  rw [hEe] at hE ⊢
  generalize surfaceExpr z B.za * B.CH * w * (Ts - th t * E) / B.za = dT
  have hk := hP.klt
  have hk1 : 1 - P.kappa ≠ 0 := by linarith
  have hE0 := hE.ne'
  have hr0 := hrho.ne'
  have hth0 := hpos.ne'
  simp
  field_simp

/-- **C48** (general formulation, refutation).  Whenever the density is not exactly one and the intended
temperature rate is not zero, the actual temperature rate is different from the intended one. -/
theorem C48_general_refuted (hP : ThermoProps.Good P) (rho : ℝ) (hrho : 0 < rho) (hne : rho ≠ 1)
    (th m : ℝ → ℝ) (t : ℝ) (hpos : 0 < th t) (hm : 0 ≤ m t)
    (hdth : HasDerivAt th (surfaceFluxRates P B (some (m t)) Ts z w rho (th t)).2.2 t)
    (hdm : HasDerivAt m (surfaceFluxRates P B (some (m t)) Ts z w rho (th t)).1 t)
    (hT : (surfaceFluxRates P B (some (m t)) Ts z w rho (th t)).2.1 ≠ 0) :
    ¬ HasDerivAt (fun s => temperature P (th s) (exnerPressure P rho (th s)) (some (m s)))
      (surfaceFluxRates P B (some (m t)) Ts z w rho (th t)).2.1 t := by
  intro h
  have h2 := (C48_general_partial hP rho hrho th m t hpos hm hdth hdm).unique h
  have hk := hP.klt
  have hk1 : 1 - P.kappa ≠ 0 := by linarith
  have h3 : (1 - P.kappa / rho) / (1 - P.kappa) = 1 := by
    have := mul_left_cancel₀ hT (h2.trans (mul_one _).symm)
    exact this
  rw [div_eq_one_iff_eq hk1] at h3
  have h4 : P.kappa / rho = P.kappa := by linarith
  rw [div_eq_iff hrho.ne'] at h4
  have : rho = 1 := by
    have hk0 := hP.kpos.ne'
    have : P.kappa * rho = P.kappa * 1 := by linarith
    exact mul_left_cancel₀ hk0 this
  exact hne this

/-! ### C48: wind drag -/

variable {k u : V3}

theorem dot_uHori (hk : V3.dot k k = 1) : V3.dot (uHori k u) k = 0 := by
  simp only [uHori, V3.dot, V3.sub, V3.smul] at *
  linear_combination (-(u.x * k.x + u.y * k.y + u.z * k.z)) * hk

/-- The forward-Euler step of a vector field with residual `r`. -/
def stepVec (dt : ℝ) (r u : V3) : V3 := V3.sub u (V3.smul dt r)

theorem drag_step (hk : V3.dot k k = 1) (hdt : dt ≠ 0) (hz : z < B.za) :
    stepVec dt (windDragImplicit B k u z dt) u
      = V3.add (V3.smul (1 / (1 + dragCoeff B (uHoriMag k u) * uHoriMag k u * dt / B.za)) (uHori k u))
          (V3.smul (V3.dot u k) k) := by
  obtain ⟨a, ha⟩ : ∃ a, 1 / (1 + dragCoeff B (uHoriMag k u) * uHoriMag k u * dt / B.za) = a := ⟨_, rfl⟩
  have hs : windDragSource B k u z dt = V3.smul ((a - 1) / dt) (uHori k u) := by
    simp only [windDragSource, surfaceExpr, if_pos hz, ha]
    ext <;> simp only [V3.smul, V3.sub] <;> ring
  have hd : V3.dot (windDragSource B k u z dt) k = 0 := by
    rw [hs]
    have := dot_uHori (u := u) hk
    simp only [V3.dot, V3.smul] at *
    linear_combination ((a - 1) / dt) * this
  simp only [windDragImplicit]
  rw [hd, hs, ha]
  ext <;> simp only [stepVec, V3.smul, V3.sub, V3.add, uHori] <;> field_simp <;> ring

/-- **C48** (wind drag, implicit).  With `k` a unit vector, in the surface layer: the vertical wind is
unchanged; the new horizontal wind is a multiple, between 0 and 1, of the old; and it is the (linearly
implicit) backward-Euler solution of `du/dt = -C_D |u| u/z_a` with the coefficient `C_D |u|` of the old
wind. -/
theorem C48_drag (hk : V3.dot k k = 1) (hB : BLGood B) (hdt : 0 < dt) (hz : z < B.za) :
    V3.dot (stepVec dt (windDragImplicit B k u z dt) u) k = V3.dot u k ∧
    (∃ a : ℝ, 0 < a ∧ a ≤ 1 ∧
      uHori k (stepVec dt (windDragImplicit B k u z dt) u) = V3.smul a (uHori k u)) ∧
    uHori k (stepVec dt (windDragImplicit B k u z dt) u)
      = V3.add (uHori k u) (V3.smul (dt * (-(dragCoeff B (uHoriMag k u) * uHoriMag k u / B.za)))
          (uHori k (stepVec dt (windDragImplicit B k u z dt) u))) := by
  have hw : 0 ≤ uHoriMag k u := Real.sqrt_nonneg _
  have hC : 0 ≤ dragCoeff B (uHoriMag k u) := by
    unfold dragCoeff
    split
    · have := hB.CD0; have := hB.CD1; positivity
    · exact hB.CD2
  have hza := hB.za
  rw [drag_step hk hdt.ne' hz]
  have hc : 0 ≤ dragCoeff B (uHoriMag k u) * uHoriMag k u * dt / B.za := by positivity
  have hcc : dt * -(dragCoeff B (uHoriMag k u) * uHoriMag k u / B.za)
      = -(dragCoeff B (uHoriMag k u) * uHoriMag k u * dt / B.za) := by ring
  rw [hcc]
  obtain ⟨c, hce⟩ : ∃ c, dragCoeff B (uHoriMag k u) * uHoriMag k u * dt / B.za = c := ⟨_, rfl⟩
  rw [hce] at hc ⊢
  have h0 := dot_uHori (u := u) hk
  have hd : V3.dot (V3.add (V3.smul (1 / (1 + c)) (uHori k u)) (V3.smul (V3.dot u k) k)) k
      = V3.dot u k := by
    have : V3.dot (V3.add (V3.smul (1 / (1 + c)) (uHori k u)) (V3.smul (V3.dot u k) k)) k
        = 1 / (1 + c) * V3.dot (uHori k u) k + V3.dot u k * V3.dot k k := by
      simp only [V3.dot, V3.add, V3.smul]; ring
    rw [this, h0, hk]; ring
  have hh : uHori k (V3.add (V3.smul (1 / (1 + c)) (uHori k u)) (V3.smul (V3.dot u k) k))
      = V3.smul (1 / (1 + c)) (uHori k u) := by
    rw [uHori, hd]
    ext <;> simp only [V3.sub, V3.add, V3.smul] <;> ring
  refine ⟨hd, ⟨1 / (1 + c), by positivity, ?_, hh⟩, ?_⟩
  · rw [div_le_one (by linarith)]; linarith
  · rw [hh]
    have hp : 1 + c ≠ 0 := by linarith
    ext <;> simp only [V3.add, V3.smul] <;> field_simp <;> ring

/-- **C48** (wind drag above the surface layer).  Nothing changes, in either formulation. -/
theorem C48_drag_above (hz : ¬ z < B.za) :
    stepVec dt (windDragImplicit B k u z dt) u = u ∧ stepVec dt (windDragGeneral B k u z) u = u := by
  constructor <;> ext <;>
    simp [stepVec, windDragImplicit, windDragGeneral, windDragSource, surfaceExpr, hz, V3.sub, V3.smul, V3.dot]

/-- **C48** (wind drag, general formulation).  The rate of change of the wind is `-C_D |u| u_h/z_a`, purely
horizontal. -/
theorem C48_drag_general (hk : V3.dot k k = 1) (hz : z < B.za) :
    windDragGeneral B k u z
      = V3.smul (dragCoeff B (uHoriMag k u) * uHoriMag k u / B.za) (uHori k u) ∧
    V3.dot (windDragGeneral B k u z) k = 0 := by
  have e : windDragGeneral B k u z
      = V3.smul (dragCoeff B (uHoriMag k u) * uHoriMag k u / B.za) (uHori k u) := by
    simp only [windDragGeneral, surfaceExpr, if_pos hz]
    ext <;> simp only [V3.smul] <;> ring
  refine ⟨e, ?_⟩
  rw [e]
  have := dot_uHori (u := u) hk
  simp only [V3.dot, V3.smul] at *
  linear_combination (dragCoeff B (uHoriMag k u) * uHoriMag k u / B.za) * this

/-- **C48** (default drag coefficient).  With the default parameters the drag coefficient is continuous: it
grows linearly with the wind speed up to the value `C_D2`, where it stays. -/
theorem C48_default_drag (w : ℝ) : dragCoeff blDefaults w = min (7e-4 + 6.5e-5 * w) 2e-3 := by
  unfold dragCoeff blDefaults
  dsimp only
  split
  · rename_i h
    rw [min_eq_left]; norm_num; linarith
  · rename_i h
    rw [min_eq_right]; norm_num; linarith

/-- The hypotheses are met. -/
example : V3.dot ⟨0, 0, 1⟩ ⟨0, 0, 1⟩ = 1 ∧ BLGood blDefaults ∧ (10 : ℝ) < blDefaults.za :=
  ⟨by norm_num [V3.dot], blDefaults_good, by norm_num [blDefaults]⟩

/-! ### C50: suppression of the vertical wind -/

/-- The attributes after a sequence of steps (time, timestep, wind). -/
noncomputable def history (spinUp : ℝ) (k : V3) (h : List (ℝ × ℝ × V3)) : SuppressState :=
  h.foldl (fun s e => (suppressStep spinUp k e.1 e.2.1 e.2.2 s).1) suppressInit

theorem history_inv (spinUp : ℝ) (k : V3) (h : List (ℝ × ℝ × V3)) (hdt : ∀ e ∈ h, e.2.1 ≠ 0) :
    ((∀ e ∈ h, e.1 < spinUp) → (history spinUp k h).strength = 1 ∧ (history spinUp k h).done = false) ∧
    ((∃ e ∈ h, ¬ e.1 < spinUp) → (history spinUp k h).strength = 0 ∧ (history spinUp k h).done = true) ∧
    ((history spinUp k h).dt = 0 ↔ ∀ e ∈ h, ¬ e.1 < spinUp) := by
  induction h using List.reverseRecOn with
  | nil => simp [history, suppressInit]
  | append_singleton l e ih =>
    have ih := ih fun e he => hdt e (by simp [he])
    have hs : history spinUp k (l ++ [e]) = suppressEvaluate spinUp e.1 e.2.2 e.2.1 (history spinUp k l) := by
      simp [history, suppressStep]
    have he0 : e.2.1 ≠ 0 := hdt e (by simp)
    rw [hs]
    obtain ⟨i1, i2, i3⟩ := ih
    by_cases het : e.1 < spinUp
    · simp only [suppressEvaluate, if_pos het]
      refine ⟨fun h => i1 fun e he => h e (by simp [he]), ?_, ?_⟩
      · rintro ⟨e', he', hn⟩
        rcases List.mem_append.1 he' with h1 | h1
        · exact i2 ⟨e', h1, hn⟩
        · rw [List.mem_singleton] at h1; exact absurd (h1 ▸ het) hn
      · exact ⟨fun h => absurd h he0, fun h => absurd het (h e (by simp))⟩
    · simp only [suppressEvaluate, if_neg het]
      refine ⟨fun h => absurd (h e (by simp)) het, fun _ => ?_, ?_⟩
      · cases hd : (history spinUp k l).done
        · simp
        · simp only [hd, Bool.not_true, Bool.false_eq_true, if_false]
          refine ⟨?_, trivial⟩
          by_cases hall : ∀ e ∈ l, e.1 < spinUp
          · rw [(i1 hall).2] at hd; exact absurd hd (by simp)
          · push Not at hall
            obtain ⟨e', he', hn⟩ := hall
            exact (i2 ⟨e', he', not_lt.2 hn⟩).1
      · have : (if (!(history spinUp k l).done) = true then
            { (history spinUp k l) with strength := 0, done := true } else history spinUp k l).dt
              = (history spinUp k l).dt := by split <;> rfl
        rw [this, i3]
        constructor
        · intro h e' he'
          rcases List.mem_append.1 he' with h1 | h1
          · exact h e' h1
          · rw [List.mem_singleton] at h1; subst h1; exact het
        · intro h e' he'
          exact h e' (by simp [he'])

/-- **C50** (during spin-up).  After any number of steps during spin-up, a step during spin-up removes exactly
the vertical part of the wind. -/
theorem C50_spin_up (spinUp : ℝ) (k : V3) (h : List (ℝ × ℝ × V3)) (hdt : ∀ e ∈ h, e.2.1 ≠ 0)
    (hall : ∀ e ∈ h, e.1 < spinUp) (t dt : ℝ) (u : V3) (ht : t < spinUp) (hdt' : dt ≠ 0) :
    (suppressStep spinUp k t dt u (history spinUp k h)).2
      = some (V3.sub u (V3.smul (V3.dot u k) k)) := by
  have hs := ((history_inv spinUp k h hdt).1 hall).1
  simp only [suppressStep, suppressEvaluate, if_pos ht, suppressResidual, if_neg hdt', hs, Option.map_some]
  congr 1
  have hc : V3.dot k u = V3.dot u k := by simp only [V3.dot]; ring
  rw [hc]
  ext <;> simp only [V3.sub, V3.smul] <;> field_simp <;> ring

/-- The vertical component is then zero. -/
theorem C50_vertical_zero (k u : V3) (hk : V3.dot k k = 1) :
    V3.dot (V3.sub u (V3.smul (V3.dot u k) k)) k = 0 := dot_uHori hk

/-- **C50** (after spin-up, what holds).  If at least one step was made during spin-up, then from the first
step at or after the end of spin-up on, the wind is never changed again, whatever the later times.  Missing:
the case in which no step was made during spin-up (`C50_no_spin_up_refuted`). -/
theorem C50_after_partial (spinUp : ℝ) (k : V3) (h : List (ℝ × ℝ × V3)) (hdt : ∀ e ∈ h, e.2.1 ≠ 0)
    (hsome : ∃ e ∈ h, e.1 < spinUp) (t dt : ℝ) (u : V3) (hdt' : dt ≠ 0)
    (hafter : (∃ e ∈ h, ¬ e.1 < spinUp) ∨ ¬ t < spinUp) :
    (suppressStep spinUp k t dt u (history spinUp k h)).2 = some u := by
  have hinv := history_inv spinUp k (h ++ [(t, dt, u)]) (by
    intro e he
    rcases List.mem_append.1 he with h1 | h1
    · exact hdt e h1
    · rw [List.mem_singleton] at h1; subst h1; exact hdt')
  have hs : history spinUp k (h ++ [(t, dt, u)]) = suppressEvaluate spinUp t u dt (history spinUp k h) := by
    simp [history, suppressStep]
  rw [hs] at hinv
  have h1 : (suppressEvaluate spinUp t u dt (history spinUp k h)).strength = 0 := by
    refine (hinv.2.1 ?_).1
    rcases hafter with ⟨e, he, hn⟩ | hn
    · exact ⟨e, by simp [he], hn⟩
    · exact ⟨(t, dt, u), by simp, hn⟩
  have h2 : (suppressEvaluate spinUp t u dt (history spinUp k h)).dt ≠ 0 := by
    intro h0
    obtain ⟨e, he, hlt⟩ := hsome
    exact hinv.2.2.1 h0 e (by simp [he]) hlt
  simp only [suppressStep, suppressResidual, if_neg h2, h1, Option.map_some]
  congr 1
  ext <;> simp [V3.sub, V3.smul]

/-- **C50** (refutation).  If no step has been made during spin-up (the spin-up period is not after the start
time, or the run is continued from a checkpoint after it), the term divides zero by zero: every step gives
NaN. -/
theorem C50_no_spin_up_refuted (spinUp : ℝ) (k : V3) (h : List (ℝ × ℝ × V3)) (hdt : ∀ e ∈ h, e.2.1 ≠ 0)
    (hnone : ∀ e ∈ h, ¬ e.1 < spinUp) (t dt : ℝ) (u : V3) (ht : ¬ t < spinUp) :
    (suppressStep spinUp k t dt u (history spinUp k h)).2 = none := by
  have h0 := (history_inv spinUp k h hdt).2.2.2 hnone
  have : (suppressEvaluate spinUp t u dt (history spinUp k h)).dt = 0 := by
    simp only [suppressEvaluate, if_neg ht]
    split <;> exact h0
  simp [suppressStep, suppressResidual, this]

/-- A history with spin-up steps followed by later ones, and one without. -/
example : (∃ e ∈ [((0 : ℝ), (1 : ℝ), (⟨1, 2, 3⟩ : V3)), (1, 1, ⟨1, 2, 0⟩), (2, 1, ⟨1, 2, 0⟩)], e.1 < 2) ∧
    (∀ e ∈ [((5 : ℝ), (1 : ℝ), (⟨1, 2, 3⟩ : V3))], ¬ e.1 < 2) := by
  constructor
  · exact ⟨_, List.mem_cons_self, by norm_num⟩
  · norm_num

/-! ### C75: Held-Suarez forcing -/

variable {H : HSParameters} {kappa lat exner sigma theta : ℝ}

/-- Admissible Held-Suarez parameters. -/
structure HSGood (H : HSParameters) : Prop where
  sigmab : H.sigmab < 1
  tauu : 0 < H.tauu
  le : H.tauu ≤ H.taud

theorem hsDefaults_good : HSGood hsDefaults := by
  constructor <;> norm_num [hsDefaults]

/-- **C75** (vertical coordinate).  The ratio of the Exner pressure to that of the lowest level is 1 at the
lowest level and between 0 and 1 above it in a column whose Exner pressure decreases with height. -/
theorem C75_sigma (column : ℕ → ℝ) (h0 : 0 < column 0) :
    hsSigma column 0 = 1 ∧
      ∀ lev, 0 ≤ column lev → column lev ≤ column 0 →
        0 ≤ hsSigma column lev ∧ hsSigma column lev ≤ 1 := by
  refine ⟨div_self h0.ne', fun lev h1 h2 => ⟨div_nonneg h1 h0.le, ?_⟩⟩
  rw [hsSigma, div_le_one h0]; exact h2

/-- The weight of the boundary layer. -/
theorem hs_weight (hH : HSGood H) (hk : 0 < kappa) (hs0 : 0 ≤ sigma) (hs1 : sigma ≤ 1) :
    0 ≤ (if 0 ≥ hsTauCond H kappa sigma then 0 else hsTauCond H kappa sigma) ∧
      (if 0 ≥ hsTauCond H kappa sigma then 0 else hsTauCond H kappa sigma) ≤ 1 := by
  split
  · exact ⟨le_refl _, zero_le_one⟩
  · rename_i h
    refine ⟨(not_le.1 h).le, ?_⟩
    unfold hsTauCond
    rw [div_le_one (by linarith [hH.sigmab])]
    have := rpow_le_one hs0 hs1 (by positivity : (0 : ℝ) ≤ 1 / kappa)
    linarith

/-- **C75** (relaxation rate).  The relaxation rate lies between `1/tau_d` and `1/tau_u`; it is `1/tau_d`
above the boundary layer, and `1/tau_u` at the surface on the equator. -/
theorem C75_rate (hH : HSGood H) (hk : 0 < kappa) (hs0 : 0 ≤ sigma) (hs1 : sigma ≤ 1) :
    1 / H.taud ≤ hsNewtonFreq H kappa lat sigma ∧ hsNewtonFreq H kappa lat sigma ≤ 1 / H.tauu ∧
    (sigma ^ (1 / kappa) ≤ H.sigmab → hsNewtonFreq H kappa lat sigma = 1 / H.taud) ∧
    hsNewtonFreq H kappa 0 1 = 1 / H.tauu := by
  have hw := hs_weight (H := H) hH hk hs0 hs1
  have hc0 : 0 ≤ cos lat ^ 4 := by positivity
  have hc1 : cos lat ^ 4 ≤ 1 := by
    have := cos_sq_le_one lat
    have h2 := sq_nonneg (cos lat)
    nlinarith
  have hd : 0 ≤ 1 / H.tauu - 1 / H.taud := by
    have := one_div_le_one_div_of_le hH.tauu hH.le; linarith
  unfold hsNewtonFreq
  refine ⟨?_, ?_, ?_, ?_⟩
  · have := mul_nonneg (mul_nonneg hd hw.1) hc0; linarith
  · generalize (if 0 ≥ hsTauCond H kappa sigma then 0 else hsTauCond H kappa sigma) = wt at hw
    have h1 : (1 / H.tauu - 1 / H.taud) * wt ≤ 1 / H.tauu - 1 / H.taud := mul_le_of_le_one_right hd hw.2
    have h2 : (1 / H.tauu - 1 / H.taud) * wt * cos lat ^ 4 ≤ (1 / H.tauu - 1 / H.taud) * wt :=
      mul_le_of_le_one_right (mul_nonneg hd hw.1) hc1
    linarith
  · intro h
    have : 0 ≥ hsTauCond H kappa sigma :=
      div_nonpos_of_nonpos_of_nonneg (by linarith) (by linarith [hH.sigmab])
    rw [if_pos this]; ring
  · have h1 : hsTauCond H kappa 1 = 1 := by
      unfold hsTauCond
      rw [one_rpow]
      exact div_self (by linarith [hH.sigmab])
    rw [h1, if_neg (by norm_num), cos_zero]
    ring

/-- **C75** (equilibrium).  The equilibrium temperature is the larger of the stratospheric one and the
tropospheric profile. -/
theorem C75_equilibrium : hsThetaEq H kappa lat exner
    = max (H.T0stra / exner)
      (H.T0surf - H.T0horiz * sin lat ^ 2 - H.T0vert * log exner * cos lat ^ 2 / kappa) := by
  unfold hsThetaEq
  split
  · rename_i h; rw [max_eq_left]; exact h
  · rename_i h; rw [max_eq_right]; · rfl
    exact (not_le.1 h).le

/-- **C75** (relaxation).  A forward-Euler step with a timestep not longer than `tau_u` moves theta towards
the equilibrium profile without passing it, and leaves it unchanged there. -/
theorem C75_relaxation (hH : HSGood H) (hk : 0 < kappa) (hs0 : 0 ≤ sigma) (hs1 : sigma ≤ 1) {dt : ℝ}
    (hdt : 0 < dt) (hle : dt ≤ H.tauu) (x : Local) :
    let y := stepWith dt (hsRelaxation H kappa lat exner sigma (x "theta")) x
    min (x "theta") (hsThetaEq H kappa lat exner) ≤ y "theta" ∧
      y "theta" ≤ max (x "theta") (hsThetaEq H kappa lat exner) ∧
      (x "theta" ≠ hsThetaEq H kappa lat exner →
        |y "theta" - hsThetaEq H kappa lat exner| < |x "theta" - hsThetaEq H kappa lat exner|) := by
  intro y
  have hy : y "theta" = x "theta" - dt * (hsNewtonFreq H kappa lat sigma
      * (x "theta" - hsThetaEq H kappa lat exner)) := by
    simp [y, stepWith, hsRelaxation]
  obtain ⟨h1, h2, -, -⟩ := C75_rate (lat := lat) hH hk hs0 hs1
  have htd : 0 < H.taud := hH.tauu.trans_le hH.le
  have hf0 : 0 < hsNewtonFreq H kappa lat sigma := (one_div_pos.2 htd).trans_le h1
  have hq1 : dt * hsNewtonFreq H kappa lat sigma ≤ 1 := by
    calc dt * hsNewtonFreq H kappa lat sigma ≤ H.tauu * (1 / H.tauu) :=
          mul_le_mul hle h2 hf0.le hH.tauu.le
      _ = 1 := mul_one_div_cancel hH.tauu.ne'
  have hq0 : 0 < dt * hsNewtonFreq H kappa lat sigma := mul_pos hdt hf0
  generalize hsThetaEq H kappa lat exner = e at *
  rw [show dt * (hsNewtonFreq H kappa lat sigma * (x "theta" - e))
    = dt * hsNewtonFreq H kappa lat sigma * (x "theta" - e) by ring] at hy
  generalize dt * hsNewtonFreq H kappa lat sigma = q at *
  rw [hy]
  refine ⟨?_, ?_, fun hne => ?_⟩
  · rcases le_total (x "theta") e with h | h
    · rw [min_eq_left h]; nlinarith
    · rw [min_eq_right h]; nlinarith
  · rcases le_total (x "theta") e with h | h
    · rw [max_eq_right h]; nlinarith
    · rw [max_eq_left h]; nlinarith
  · have e1 : x "theta" - q * (x "theta" - e) - e = (1 - q) * (x "theta" - e) := by ring
    rw [e1, abs_mul, abs_of_nonneg (by linarith)]
    have := abs_pos.2 (sub_ne_zero.2 hne)
    nlinarith

/-- **C75** (friction).  A forward-Euler step with a timestep of at most one day leaves the vertical wind
unchanged and multiplies the horizontal wind by a factor between 0 and 1; above the boundary layer nothing
changes. -/
theorem C75_friction (hH : HSGood H) (hkap : 0 < kappa) (hs0 : 0 ≤ sigma) (hs1 : sigma ≤ 1) {dt : ℝ}
    (hdt : 0 < dt) (hle : dt ≤ 24 * 60 * 60) (hk : V3.dot k k = 1) :
    V3.dot (stepVec dt (hsFriction H kappa sigma k u) u) k = V3.dot u k ∧
    (∃ a : ℝ, 0 ≤ a ∧ a ≤ 1 ∧
      uHori k (stepVec dt (hsFriction H kappa sigma k u) u) = V3.smul a (uHori k u)) ∧
    (sigma ^ (1 / kappa) ≤ H.sigmab → stepVec dt (hsFriction H kappa sigma k u) u = u) := by
  obtain ⟨hw0, hw1⟩ := hs_weight (H := H) hH hkap hs0 hs1
  have h0 := dot_uHori (u := u) hk
  simp only [hsFriction]
  have hcase : sigma ^ (1 / kappa) ≤ H.sigmab →
      (if 0 ≥ hsTauCond H kappa sigma then 0 else hsTauCond H kappa sigma) = 0 := fun h =>
    if_pos (div_nonpos_of_nonpos_of_nonneg (by linarith) (by linarith [hH.sigmab]))
  generalize (if 0 ≥ hsTauCond H kappa sigma then 0 else hsTauCond H kappa sigma) = wt at *
  have hd : V3.dot (stepVec dt (V3.smul (wt / (24 * 60 * 60)) (uHori k u)) u) k = V3.dot u k := by
    have : V3.dot (stepVec dt (V3.smul (wt / (24 * 60 * 60)) (uHori k u)) u) k
        = V3.dot u k - dt * (wt / (24 * 60 * 60)) * V3.dot (uHori k u) k := by
      simp only [V3.dot, stepVec, V3.sub, V3.smul]; ring
    rw [this, h0]; ring
  refine ⟨hd, ⟨1 - dt * (wt / (24 * 60 * 60)), ?_, ?_, ?_⟩, fun h => ?_⟩
  · have : dt * (wt / (24 * 60 * 60)) ≤ 1 := by
      rw [← mul_div_assoc, div_le_one (by norm_num)]; nlinarith
    linarith
  · have : 0 ≤ dt * (wt / (24 * 60 * 60)) := by positivity
    linarith
  · rw [uHori, hd]
    ext <;> simp only [stepVec, V3.sub, V3.smul, uHori] <;> ring
  · rw [hcase h]
    ext <;> simp [stepVec, V3.sub, V3.smul]

/-- The hypotheses are met. -/
example : HSGood hsDefaults ∧ (0 : ℝ) < 2 / 7 ∧ (1200 : ℝ) ≤ hsDefaults.tauu :=
  ⟨hsDefaults_good, by norm_num, by norm_num [hsDefaults]⟩

/-! ### C76: fall speed of rain -/

/-- **C76** (fall speed).  For any positive density and any rain mixing ratio (zero and negative included) the
fall speed of the single-moment scheme is positive, it does not decrease with the rain mixing ratio, and it is
constant below the threshold of `1e-10`. -/
theorem C76_fall_speed (rho : ℝ) (hrho : 0 < rho) :
    (∀ rain, 0 < fallSpeed Real.Gamma rho rain) ∧
    (∀ r1 r2, r1 ≤ r2 → fallSpeed Real.Gamma rho r1 ≤ fallSpeed Real.Gamma rho r2) ∧
    (∀ r1 r2, r1 ≤ 1 / 10 ^ 10 → r2 ≤ 1 / 10 ^ 10 →
      fallSpeed Real.Gamma rho r1 = fallSpeed Real.Gamma rho r2) := by
  have hG : ∀ s : ℝ, 0 < s → 0 < Real.Gamma s := fun s hs => Real.Gamma_pos_of_pos hs
  -- the speed as a function of a positive mixing ratio
  let f : ℝ → ℝ := fun r => 362 * Real.Gamma (4 + 0.65 + 0) / (Real.Gamma (4 + 0)
    * ((10 ^ 5 * π * 1000 * Real.Gamma (4 + 0) / (6 * Real.Gamma (1 + 0) * rho * r)) ^ (1 / 3 : ℝ))
      ^ (0.65 : ℝ)) * (1.22 / rho) ^ (0.5 : ℝ)
  have hG1 := hG (4 + 0.65 + 0) (by norm_num)
  have hG2 := hG (4 + 0) (by norm_num)
  have hG3 := hG (1 + 0) (by norm_num)
  have hfpos : ∀ r, 0 < r → 0 < f r := by
    intro r hr
    simp only [f]
    have := Real.pi_pos
    positivity
  have hfmono : ∀ r1 r2, 0 < r1 → r1 ≤ r2 → f r1 ≤ f r2 := by
    intro r1 r2 h1 h12
    have h2 : 0 < r2 := h1.trans_le h12
    have hpi := Real.pi_pos
    simp only [f]
    apply mul_le_mul_of_nonneg_right _ (by positivity)
    apply div_le_div_of_nonneg_left (by positivity) (by positivity)
    apply mul_le_mul_of_nonneg_left _ hG2.le
    apply rpow_le_rpow (by positivity) _ (by norm_num)
    apply rpow_le_rpow (by positivity) _ (by norm_num)
    apply div_le_div_of_nonneg_left (by positivity) (by positivity)
    exact mul_le_mul_of_nonneg_left h12 (by positivity)
  have hfs : ∀ r, fallSpeed Real.Gamma rho r = f (max r (1 / 10 ^ 10)) := by
    intro r
    unfold fallSpeed
    dsimp only
    split
    · rename_i h; rw [max_eq_left (le_of_lt h)]
    · rename_i h; rw [max_eq_right (not_lt.1 h)]
  have ht : (0 : ℝ) < 1 / 10 ^ 10 := by norm_num
  refine ⟨fun r => ?_, fun r1 r2 h => ?_, fun r1 r2 h1 h2 => ?_⟩
  · rw [hfs]; exact hfpos _ (lt_max_of_lt_right ht)
  · rw [hfs, hfs]; exact hfmono _ _ (lt_max_of_lt_right ht) (max_le_max h (le_refl _))
  · rw [hfs, hfs, max_eq_right h1, max_eq_right h2]

end Gusto.Props.BoundaryProps
