import Verif.Model.Thermodynamics
import Mathlib.Analysis.SpecialFunctions.Pow.Deriv
import Mathlib.Tactic.LinearCombination
import Mathlib.Tactic.FieldSimp
import Mathlib.Tactic.Linarith
import Mathlib.Tactic.NormNum

set_option autoImplicit false
set_option linter.unusedSectionVars false
set_option linter.unusedSimpArgs false

/-! # C40-C42, C71: thermodynamics -/

namespace Gusto.Props.ThermoProps
open Gusto.Thermo Real

/-- Admissible parameters: positive constants and `0 < kappa < 1`. -/
structure Good (P : Parameters) : Prop where
  Rd : 0 < P.Rd
  Rv : 0 < P.Rv
  p0 : 0 < P.p0
  kpos : 0 < P.kappa
  klt : P.kappa < 1

theorem defaults_good : Good defaults := by
  constructor <;> norm_num [defaults]

variable {P : Parameters}

theorem base_pos (hP : Good P) {rho th : ℝ} (hr : 0 < rho) (ht : 0 < th) :
    0 < rho * P.Rd * th / P.p0 :=
  div_pos (mul_pos (mul_pos hr hP.Rd) ht) hP.p0

/-- **C40** (density).  The density from the Exner pressure of a density is that density. -/
theorem C40_density_of_exner (hP : Good P) (rho th : ℝ) (hr : 0 < rho) (ht : 0 < th) :
    density P th (exnerPressure P rho th) = rho := by
  have hb := base_pos hP hr ht
  have hk := hP.kpos
  have hk1 : 1 - P.kappa ≠ 0 := by linarith [hP.klt]
  unfold density exnerPressure
  rw [← rpow_mul hb.le]
  have : P.kappa / (1 - P.kappa) * (1 / P.kappa - 1) = 1 := by field_simp
  rw [this, rpow_one]
  have h1 := hP.p0.ne'
  have h2 := hP.Rd.ne'
  field_simp

/-- **C40** (Exner pressure).  The Exner pressure of the density computed from an Exner pressure is that
Exner pressure. -/
theorem C40_exner_of_density (hP : Good P) (th Pi : ℝ) (ht : 0 < th) (hPi : 0 < Pi) :
    exnerPressure P (density P th Pi) th = Pi := by
  have hk := hP.kpos
  have hk1 : 1 - P.kappa ≠ 0 := by linarith [hP.klt]
  have h1 := hP.p0.ne'
  have h2 := hP.Rd.ne'
  unfold density exnerPressure
  rw [show P.p0 * Pi ^ (1 / P.kappa - 1) / (P.Rd * th) * P.Rd * th / P.p0 = Pi ^ (1 / P.kappa - 1) by
    field_simp, ← rpow_mul hPi.le]
  have : (1 / P.kappa - 1) * (P.kappa / (1 - P.kappa)) = 1 := by field_simp
  rw [this, rpow_one]

/-- **C40** (potential temperature).  The potential temperature of the temperature and pressure given by
an Exner pressure is the original one. -/
theorem C40_theta_of_T (hP : Good P) (th Pi : ℝ) (hPi : 0 < Pi) :
    theta P (temperature P th Pi none) (pressure P Pi) = th := by
  have hk := hP.kpos.ne'
  unfold theta temperature pressure
  dsimp only
  rw [show P.p0 / (P.p0 * Pi ^ (1 / P.kappa)) = Pi ^ (-(1 / P.kappa)) by
    rw [rpow_neg hPi.le, div_mul_eq_div_div, div_self hP.p0.ne', one_div], ← rpow_mul hPi.le]
  have : -(1 / P.kappa) * P.kappa = -1 := by field_simp
  rw [this, rpow_neg_one, mul_assoc, mul_inv_cancel₀ hPi.ne', mul_one]

/-- **C40** (Exner pressure of a pressure).  Conversely the temperature at pressure `p` is recovered from
the potential temperature, with the Exner pressure `(p/p0)^kappa`, whose pressure is `p`. -/
theorem C40_T_of_theta (hP : Good P) (T p : ℝ) (hp : 0 < p) :
    pressure P ((p / P.p0) ^ P.kappa) = p ∧
      temperature P (theta P T p) ((p / P.p0) ^ P.kappa) none = T := by
  have hk := hP.kpos.ne'
  have hq : 0 < p / P.p0 := div_pos hp hP.p0
  constructor
  · unfold pressure
    rw [← rpow_mul hq.le, mul_one_div, div_self hk, rpow_one]
    have := hP.p0.ne'
    field_simp
  · unfold temperature theta
    dsimp only
    rw [mul_assoc, ← mul_rpow (div_pos hP.p0 hp).le hq.le]
    have h : P.p0 / p * (p / P.p0) = 1 := by
      have := hP.p0.ne'
      have := hp.ne'
      field_simp
    rw [h, one_rpow, mul_one]

theorem exner_split (hP : Good P) {Pi : ℝ} (hPi : 0 < Pi) :
    Pi ^ (1 / P.kappa) = Pi ^ (1 / P.kappa - 1) * Pi := by
  rw [rpow_sub_one hPi.ne']
  field_simp

/-- **C40** (equation of state).  For dry air the pressure, density and temperature computed from a
positive Exner pressure and potential temperature satisfy `p = rho R_d T`. -/
theorem C40_equation_of_state (hP : Good P) (th Pi : ℝ) (ht : 0 < th) (hPi : 0 < Pi) :
    pressure P Pi = density P th Pi * P.Rd * temperature P th Pi none := by
  unfold pressure density temperature
  dsimp only
  rw [exner_split hP hPi]
  have h2 := hP.Rd.ne'
  field_simp

/-- **C40** (moist equation of state).  With vapour, the dry density and the temperature satisfy
`p = rho_d (R_d + r_v R_v) T`. -/
theorem C40_moist_equation_of_state (hP : Good P) (th Pi rv : ℝ) (ht : 0 < th) (hPi : 0 < Pi)
    (hrv : 0 ≤ rv) :
    pressure P Pi = density P th Pi * (P.Rd + rv * P.Rv) * temperature P th Pi (some rv) := by
  unfold pressure density temperature
  dsimp only
  rw [exner_split hP hPi]
  have h2 := hP.Rd
  have h3 : 0 < P.Rd + rv * P.Rv := by
    have := mul_nonneg hrv hP.Rv.le
    linarith
  have h4 : 1 + rv * P.Rv / P.Rd = (P.Rd + rv * P.Rv) / P.Rd := by field_simp
  rw [h4]
  field_simp

/-- **C40** (consistency of the built-in constants): `R_d = kappa c_p`, `c_v = c_p - R_d`,
`c_vv = c_pv - R_v`. -/
theorem C40_constants : defaults.Rd = defaults.kappa * defaults.cp ∧
    defaults.cv = defaults.cp - defaults.Rd ∧ defaults.cvv = defaults.cpv - defaults.Rv := by
  simp only [defaults]; norm_num

example : Good defaults ∧ (0 : ℝ) < 1.2 ∧ (0 : ℝ) < 300 := ⟨defaults_good, by norm_num, by norm_num⟩

/-! ### C41 -/

/-- **C41** (density).  `dexner_drho` is the derivative of the Exner pressure with respect to the
density. -/
theorem C41_drho (hP : Good P) (rho th : ℝ) (hr : 0 < rho) (ht : 0 < th) :
    HasDerivAt (fun r => exnerPressure P r th) (dexnerDrho P rho th) rho := by
  have hb := base_pos hP hr ht
  unfold exnerPressure dexnerDrho
  have h : HasDerivAt (fun r : ℝ => r * P.Rd * th / P.p0) (P.Rd * th / P.p0) rho := by
    have := (((hasDerivAt_id rho).mul_const P.Rd).mul_const th).div_const P.p0
    simpa using this
  have h' := h.rpow_const (p := P.kappa / (1 - P.kappa)) (Or.inl hb.ne')
  convert h' using 1
  rw [rpow_sub_one hb.ne']
  have h1 := hP.p0.ne'
  have h2 := hP.Rd.ne'
  field_simp

/-- **C41** (potential temperature).  `dexner_dtheta` is the derivative of the Exner pressure with
respect to the potential temperature. -/
theorem C41_dtheta (hP : Good P) (rho th : ℝ) (hr : 0 < rho) (ht : 0 < th) :
    HasDerivAt (fun t => exnerPressure P rho t) (dexnerDtheta P rho th) th := by
  have hb := base_pos hP hr ht
  unfold exnerPressure dexnerDtheta
  have h : HasDerivAt (fun t : ℝ => rho * P.Rd * t / P.p0) (rho * P.Rd / P.p0) th := by
    have := ((hasDerivAt_id th).const_mul (rho * P.Rd)).div_const P.p0
    simpa using this
  have h' := h.rpow_const (p := P.kappa / (1 - P.kappa)) (Or.inl hb.ne')
  convert h' using 1
  rw [rpow_sub_one hb.ne']
  have h1 := hP.p0.ne'
  have h2 := hP.Rd.ne'
  field_simp

/-! ### C42 -/

/-- The saturation mixing ratio is positive below the boiling point. -/
theorem rSat_pos (hP : Good P) (T p : ℝ) (he : 0 < eSat P T) (hp : eSat P T < p) : 0 < rSat P T p := by
  unfold rSat
  exact div_pos (mul_pos he (div_pos hP.Rd hP.Rv)) (by linarith)

/-- **C42** (inverse).  For every relative humidity for which the mixing ratio is finite,
`RH(r_v(H)) = H`. -/
theorem C42_RH_of_rv (hP : Good P) (T p H : ℝ) (he : 0 < eSat P T) (hp : eSat P T < p)
    (hH : 0 < 1 + (1 - H) * rSat P T p / (P.Rd / P.Rv)) :
    relHumidity P (mixingRatio P H T p) T p = H := by
  have hr := rSat_pos hP T p he hp
  have heps : 0 < P.Rd / P.Rv := div_pos hP.Rd hP.Rv
  unfold relHumidity mixingRatio
  dsimp only
  generalize rSat P T p = r at hr hH ⊢
  generalize P.Rd / P.Rv = E at heps hH ⊢
  have h3 : 0 < E + (1 - H) * r := by
    have : 0 < (1 + (1 - H) * r / E) * E := mul_pos hH heps
    have e : (1 + (1 - H) * r / E) * E = E + (1 - H) * r := by field_simp
    rwa [e] at this
  have h4 : (1 + (1 - H) * r / E) = (E + (1 - H) * r) / E := by field_simp
  rw [h4]
  obtain ⟨D, hD⟩ : ∃ D, D = E + (1 - H) * r := ⟨_, rfl⟩
  rw [← hD] at h3 ⊢
  have h6 : (0 : ℝ) < E + r := by linarith
  have h5 : 1 + H * r / (D / E) / E = (E + r) / D := by
    field_simp
    rw [hD]; ring
  rw [h5]
  field_simp

/-- **C42** (inverse).  For every non-negative mixing ratio, `r_v(RH(r)) = r`. -/
theorem C42_rv_of_RH (hP : Good P) (T p rv : ℝ) (he : 0 < eSat P T) (hp : eSat P T < p)
    (hrv : 0 ≤ rv) : mixingRatio P (relHumidity P rv T p) T p = rv := by
  have hr := rSat_pos hP T p he hp
  have heps : 0 < P.Rd / P.Rv := div_pos hP.Rd hP.Rv
  unfold relHumidity mixingRatio
  dsimp only
  generalize rSat P T p = r at hr ⊢
  generalize P.Rd / P.Rv = E at heps ⊢
  have h1 : 0 < E + rv := by linarith
  have h2 : 0 < E + r := by linarith
  have hH : rv * (1 + r / E) / (r * (1 + rv / E)) = rv * (E + r) / (r * (E + rv)) := by field_simp
  rw [hH]
  have hD : 1 + (1 - rv * (E + r) / (r * (E + rv))) * r / E = (E + r) / (E + rv) := by
    field_simp
    ring
  rw [hD]
  field_simp

/-- **C42** (saturation).  The relative humidity at the saturation mixing ratio is 1, and the vapour
pressure there is the saturation vapour pressure. -/
theorem C42_saturation (hP : Good P) (T p : ℝ) (he : 0 < eSat P T) (hp : eSat P T < p) :
    relHumidity P (rSat P T p) T p = 1 ∧ vapourPressure P p (rSat P T p) = eSat P T := by
  have hr := rSat_pos hP T p he hp
  have heps : 0 < P.Rd / P.Rv := div_pos hP.Rd hP.Rv
  constructor
  · unfold relHumidity
    dsimp only
    generalize rSat P T p = r at hr ⊢
    generalize P.Rd / P.Rv = E at heps ⊢
    apply div_self
    have : 0 < r / E := div_pos hr heps
    positivity
  · unfold vapourPressure rSat
    dsimp only
    generalize P.Rd / P.Rv = E at heps ⊢
    generalize eSat P T = e at he hp ⊢
    have h1 : 0 < p - e := by linarith
    have h2 : E + e * E / (p - e) = E * p / (p - e) := by
      field_simp
      ring
    have h3 : 0 < p := by linarith
    rw [h2]
    field_simp

/-- **C42** (vapour pressure).  The relative humidity is the ratio of the vapour pressure to the
saturation vapour pressure. -/
theorem C42_RH_ratio (hP : Good P) (T p rv : ℝ) (he : 0 < eSat P T) (hp : eSat P T < p)
    (hrv : 0 ≤ rv) : relHumidity P rv T p = vapourPressure P p rv / eSat P T := by
  have heps : 0 < P.Rd / P.Rv := div_pos hP.Rd hP.Rv
  unfold relHumidity vapourPressure rSat
  dsimp only
  generalize P.Rd / P.Rv = E at heps ⊢
  generalize eSat P T = e at he hp ⊢
  have h1 : 0 < p - e := by linarith
  have h2 : 0 < E + rv := by linarith
  have h3 : 1 + e * E / (p - e) / E = p / (p - e) := by
    field_simp
    ring
  have h4 : 1 + rv / E = (E + rv) / E := by field_simp
  rw [h3, h4]
  field_simp

/-- **C42** (monotone).  The relative humidity increases strictly with the mixing ratio, and the
saturation mixing ratio decreases strictly with pressure. -/
theorem C42_monotone (hP : Good P) (T p rv rv' : ℝ) (he : 0 < eSat P T) (hp : eSat P T < p)
    (hrv : 0 ≤ rv) (hlt : rv < rv') :
    relHumidity P rv T p < relHumidity P rv' T p ∧
      ∀ p', p < p' → rSat P T p' < rSat P T p := by
  have heps : 0 < P.Rd / P.Rv := div_pos hP.Rd hP.Rv
  constructor
  · rw [C42_RH_ratio hP T p rv he hp hrv, C42_RH_ratio hP T p rv' he hp (by linarith)]
    apply div_lt_div_of_pos_right _ he
    unfold vapourPressure
    dsimp only
    rw [div_lt_div_iff₀ (by linarith) (by linarith)]
    have hp' : 0 < p := by linarith
    have := mul_pos (mul_pos hp' heps) (sub_pos.mpr hlt)
    nlinarith
  · intro p' hp'
    unfold rSat
    dsimp only
    exact div_lt_div_of_pos_left (mul_pos he heps) (by linarith) (by linarith)

/-! ### C71 -/

/-- **C71** (Tetens).  With `w_sat4 > 0`, `w_sat2 < 0` and `w_sat3 < T_0`, the saturation vapour pressure
is positive, equals `w_sat4` at `T_0` and increases strictly with the temperature above `w_sat3`. -/
theorem C71_esat (P : Parameters) (h4 : 0 < P.w4) (h2 : P.w2 < 0) (h3 : P.w3 < P.T0) :
    (∀ T, 0 < eSat P T) ∧ eSat P P.T0 = P.w4 ∧
      ∀ T T', P.w3 < T → T < T' → eSat P T < eSat P T' := by
  refine ⟨fun T => mul_pos h4 (exp_pos _), by simp [eSat], fun T T' hT hTT => ?_⟩
  unfold eSat
  apply mul_lt_mul_of_pos_left _ h4
  rw [exp_lt_exp, div_lt_div_iff₀ (by linarith) (by linarith)]
  have := mul_pos (mul_pos (neg_pos.mpr h2) (sub_pos.mpr h3)) (sub_pos.mpr hTT)
  nlinarith

/-- **C71** (saturation mixing ratio).  Under the same conditions the saturation mixing ratio increases
strictly with temperature as long as the saturation pressure stays below the pressure. -/
theorem C71_rsat (hP : Good P) (h4 : 0 < P.w4) (h2 : P.w2 < 0) (h3 : P.w3 < P.T0) (T T' p : ℝ)
    (hT : P.w3 < T) (hTT : T < T') (hp : eSat P T' < p) : rSat P T p < rSat P T' p := by
  obtain ⟨hpos, _, hmono⟩ := C71_esat P h4 h2 h3
  have hlt := hmono T T' hT hTT
  have heps : 0 < P.Rd / P.Rv := div_pos hP.Rd hP.Rv
  unfold rSat
  dsimp only
  have := hpos T
  rw [div_lt_div_iff₀ (by linarith) (by linarith)]
  have h := mul_pos heps (mul_pos (show 0 < p by linarith) (sub_pos.mpr hlt))
  nlinarith

/-- **C71** (latent heat).  Kirchhoff's relation: the latent heat has the constant slope
`c_pv - c_pl` and the value `L_v0` at `T_0`. -/
theorem C71_latent_heat (P : Parameters) (T : ℝ) :
    latentHeat P P.T0 = P.Lv0 ∧ HasDerivAt (latentHeat P) (P.cpv - P.cpl) T := by
  refine ⟨by simp [latentHeat], ?_⟩
  have h := (((hasDerivAt_id T).sub_const P.T0).const_mul (P.cpl - P.cpv)).const_sub P.Lv0
  simp only [id_eq, mul_one, neg_sub] at h
  exact h

/-- **C71** (equivalent potential temperature).  Without water the equivalent potential temperature is
the potential temperature, if `kappa = R_d / c_p`. -/
theorem C71_theta_e_dry (P : Parameters) (hk : P.kappa = P.Rd / P.cp) (T p : ℝ) :
    thetaE P T p 0 0 = theta P T p := by
  simp [thetaE, theta, hk]

/-- **C71** (saturated equivalent potential temperature).  At saturation the humidity factor of
`theta_e` is 1. -/
theorem C71_theta_e_saturated (hP : Good P) (T p rt : ℝ) (he : 0 < eSat P T) (hp : eSat P T < p) :
    thetaE P T p (rSat P T p) rt =
      T * (P.p0 * (1 + rSat P T p * P.Rv / P.Rd) / p) ^ (P.Rd / (P.cp + P.cpl * rt))
        * exp (latentHeat P T * rSat P T p / (T * (P.cp + P.cpl * rt))) := by
  simp only [thetaE, (C42_saturation hP T p he hp).1, one_rpow, mul_one]

/-- **C71** (internal energy).  Condensing vapour into liquid at constant volume and temperature lowers the
internal energy density by the latent heat less the work of the vapour, `L_v - R_v T`, per unit mass
(with `c_vv = c_pv - R_v`), and the energy of dry air is `rho c_v T`. -/
theorem C71_internal_energy (P : Parameters) (hc : P.cvv = P.cpv - P.Rv) (rho T rv rl d : ℝ) :
    internalEnergy P rho T (rv - d) (rl + d) =
      internalEnergy P rho T rv rl - rho * d * (latentHeat P T - P.Rv * T) ∧
    internalEnergy P rho T 0 0 = rho * (P.cv * T) := by
  simp only [internalEnergy, hc]
  constructor <;> ring

example : Good defaults ∧ 0 < defaults.w4 ∧ defaults.w2 < 0 ∧ defaults.w3 < defaults.T0 ∧
    defaults.kappa = defaults.Rd / defaults.cp ∧ defaults.cvv = defaults.cpv - defaults.Rv := by
  refine ⟨defaults_good, ?_⟩
  simp only [defaults]; norm_num

/-- At the reference temperature and pressure the hypotheses of C42 hold. -/
example : 0 < eSat defaults defaults.T0 ∧ eSat defaults defaults.T0 < 100000 ∧
    0 < 1 + (1 - 0.9) * rSat defaults defaults.T0 100000 / (defaults.Rd / defaults.Rv) := by
  have h : eSat defaults defaults.T0 = 610.9 := by
    rw [(C71_esat defaults (by norm_num [defaults]) (by norm_num [defaults])
      (by norm_num [defaults])).2.1]; rfl
  refine ⟨by rw [h]; norm_num, by rw [h]; norm_num, ?_⟩
  unfold rSat
  rw [h]
  norm_num [defaults]

end Gusto.Props.ThermoProps
