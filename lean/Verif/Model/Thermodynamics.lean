import Mathlib.Analysis.SpecialFunctions.Pow.Real

set_option autoImplicit false

/-!
# Thermodynamics

Model of `gusto/equations/thermodynamics.py` and of the constants of `CompressibleParameters`
(gusto/core/equation_configuration.py:81-101), pointwise and over the real numbers.
-/

namespace Gusto.Thermo
open Real

/-- The attributes of `CompressibleParameters` used by the formulas (equation_configuration.py 81-101). -/
structure Parameters where
  cp : ℝ
  Rd : ℝ
  kappa : ℝ
  p0 : ℝ
  cv : ℝ
  cpl : ℝ
  cpv : ℝ
  cvv : ℝ
  Rv : ℝ
  Lv0 : ℝ
  T0 : ℝ
  w2 : ℝ
  w3 : ℝ
  w4 : ℝ

/-- Default values, equation_configuration.py:86-100. -/
noncomputable def defaults : Parameters where
  cp := 1004.5
  Rd := 287
  kappa := 2 / 7
  p0 := 1000 * 100
  cv := 717.5
  cpl := 4186
  cpv := 1885
  cvv := 1424
  Rv := 461
  Lv0 := 2.5e6
  T0 := 273.15
  w2 := -17.27
  w3 := 35.86
  w4 := 610.9

/-- `theta`, thermodynamics.py:10-24. -/
noncomputable def theta (P : Parameters) (T p : ℝ) : ℝ := T * (P.p0 / p) ^ P.kappa

/-- `exner_pressure`, thermodynamics.py:27-43. -/
noncomputable def exnerPressure (P : Parameters) (rho thetaVd : ℝ) : ℝ :=
  (rho * P.Rd * thetaVd / P.p0) ^ (P.kappa / (1 - P.kappa))

/-- `dexner_drho`, thermodynamics.py:46-64. -/
noncomputable def dexnerDrho (P : Parameters) (rho thetaVd : ℝ) : ℝ :=
  P.kappa / (1 - P.kappa) * (rho * P.Rd * thetaVd / P.p0) ^ (P.kappa / (1 - P.kappa)) / rho

/-- `dexner_dtheta`, thermodynamics.py:67-85. -/
noncomputable def dexnerDtheta (P : Parameters) (rho thetaVd : ℝ) : ℝ :=
  P.kappa / (1 - P.kappa) * (rho * P.Rd * thetaVd / P.p0) ^ (P.kappa / (1 - P.kappa)) / thetaVd

/-- `p`, thermodynamics.py:88-101. -/
noncomputable def pressure (P : Parameters) (exner : ℝ) : ℝ := P.p0 * exner ^ (1 / P.kappa)

/-- `T`, thermodynamics.py:104-124. -/
noncomputable def temperature (P : Parameters) (thetaVd exner : ℝ) (rv : Option ℝ) : ℝ :=
  match rv with
  | some rv => thetaVd * exner / (1 + rv * P.Rv / P.Rd)
  | none => thetaVd * exner

/-- `rho`, thermodynamics.py:127-145. -/
noncomputable def density (P : Parameters) (thetaVd exner : ℝ) : ℝ :=
  P.p0 * exner ^ (1 / P.kappa - 1) / (P.Rd * thetaVd)

/-- `e_sat`, thermodynamics.py:248-265. -/
noncomputable def eSat (P : Parameters) (T : ℝ) : ℝ :=
  P.w4 * exp (-P.w2 * (T - P.T0) / (T - P.w3))

/-- `r_sat`, thermodynamics.py:148-164. -/
noncomputable def rSat (P : Parameters) (T p : ℝ) : ℝ :=
  let epsilon := P.Rd / P.Rv
  let esat := eSat P T
  esat * epsilon / (p - esat)

/-- `Lv`, thermodynamics.py:167-182. -/
noncomputable def latentHeat (P : Parameters) (T : ℝ) : ℝ := P.Lv0 - (P.cpl - P.cpv) * (T - P.T0)

/-- `RH`, thermodynamics.py:230-245. -/
noncomputable def relHumidity (P : Parameters) (rv T p : ℝ) : ℝ :=
  let epsilon := P.Rd / P.Rv
  let rsat := rSat P T p
  rv * (1 + rsat / epsilon) / (rsat * (1 + rv / epsilon))

/-- `theta_e`, thermodynamics.py:185-206. -/
noncomputable def thetaE (P : Parameters) (T p rv rt : ℝ) : ℝ :=
  let Lv := latentHeat P T
  let H := relHumidity P rv T p
  T * (P.p0 * (1 + rv * P.Rv / P.Rd) / p) ^ (P.Rd / (P.cp + P.cpl * rt))
    * exp (Lv * rv / (T * (P.cp + P.cpl * rt))) * H ^ (-rv * P.Rv / (P.cp + P.cpl * rt))

/-- `internal_energy`, thermodynamics.py:209-227. -/
noncomputable def internalEnergy (P : Parameters) (rho T rv rl : ℝ) : ℝ :=
  let Lv := latentHeat P T
  rho * (P.cv * T + rv * P.cvv * T + rl * (P.cpv * T - Lv))

/-- `e`, thermodynamics.py:268-283. -/
noncomputable def vapourPressure (P : Parameters) (p rv : ℝ) : ℝ :=
  let epsilon := P.Rd / P.Rv
  p * rv / (epsilon + rv)

/-- `r_v`, thermodynamics.py:286-303. -/
noncomputable def mixingRatio (P : Parameters) (H T p : ℝ) : ℝ :=
  let epsilon := P.Rd / P.Rv
  let rsat := rSat P T p
  H * rsat / (1 + (1 - H) * rsat / epsilon)

end Gusto.Thermo
