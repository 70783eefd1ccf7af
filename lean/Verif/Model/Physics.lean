import Verif.Model.Thermodynamics
import Verif.Model.CoordTransforms
import Verif.Model.ExplicitRK

set_option autoImplicit false

/-!
# Physics parametrisations

Model of `gusto/physics/`: the source expressions of each parametrisation at one point (degree of freedom)
and the terms they add to the residual of the equation.

Simplifications: real numbers instead of floating point; interpolating an expression into the space of a
field is evaluating it at the degrees of freedom (exact for the point-evaluation spaces used); the fields
that a scheme couples have the same degrees of freedom; the density recovered to the points of theta is an
input `rhoAvg`; the projection of a vector source into the velocity space is the identity.  Wind vectors are
represented by their value at a point.
-/

namespace Gusto.Physics
open Real Gusto.Thermo

/-- The values of all the fields at a point, by name
(the state read by physics/microphysics.py 27-680 and the other schemes). -/
abbrev Local := String → ℝ

/-- The terms added to the residual: `(name, s)` stands for `test_name * s * dx`.  The value of the residual
in the equation of a field is the sum of the terms tested with that field's test function
(physics/physics_parametrisation.py 48-159 and the residuals of the other schemes). -/
def residualOf (l : List (String × ℝ)) : Local :=
  fun f => ((l.filter fun p => p.1 = f).map Prod.snd).sum

/-- The values written at a node by a physics scheme with local residual `phys` (a function of the recovered
density, the timestep and the local state) for a state given at every node of a set `N`
(`evaluate`, e.g. physics/microphysics.py 186-208). -/
def sourceField {N : Type*} (phys : ℝ → ℝ → Local → List (String × ℝ)) (rhoAvg : (N → Local) → N → ℝ)
    (x : N → Local) (dt : ℝ) : N → Local :=
  fun n => residualOf (phys (rhoAvg x n) dt (x n))

/-- The labelled form of `dq/dt + source = 0`: mass term plus the physics term, whose subject is the scheme's
`source` Function (e.g. physics_parametrisation.py:115-117); `M` is the assembled mass matrix. -/
def physicsForm {X D : Type*} (M : X → D) (x0 : X) : LForm X D :=
  [{ labels := [.timeDerivative], op := M, subj := x0 },
   { labels := [.source, .physics 0], op := M, subj := x0 }]

/-- `SourceSink`, physics_parametrisation.py:113-148: the residual receives `+ test * rate`. -/
def sourceSink (name : String) (rate : ℝ) : List (String × ℝ) := [(name, rate)]

/-! ### Saturation adjustment -/

/-- The thermodynamic quantities used by `SaturationAdjustment` and `EvaporationOfRain`
(microphysics.py:104-152 and 561-606): `liquid` is the sum of all the liquid water species. -/
structure MoistState where
  T : ℝ
  p : ℝ
  sat : ℝ
  Lv : ℝ
  Rm : ℝ
  cpml : ℝ
  cvml : ℝ

/-- microphysics.py:111-113 and 126-152. -/
noncomputable def moistState (P : Parameters) (rhoAvg theta rv liquid : ℝ) : MoistState :=
  let exner := exnerPressure P rhoAvg theta
  let T := temperature P theta exner (some rv)
  let p := pressure P exner
  { T := T, p := p, sat := rSat P T p, Lv := latentHeat P T
    Rm := P.Rd + P.Rv * rv
    cpml := P.cp + P.cpv * rv + P.cpl * liquid
    cvml := P.cv + P.cvv * rv + P.cpl * liquid }

/-- The factor of the theta source, microphysics.py:178 and 637. -/
noncomputable def thetaFactor (P : Parameters) (theta : ℝ) (m : MoistState) : ℝ :=
  -theta * (P.cv * m.Lv / (m.cvml * P.cp * m.T) - P.Rv * P.cv * m.cpml / (m.Rm * P.cp * m.cvml))

/-- Settings of `SaturationAdjustment` and `EvaporationOfRain`: `others` are the names of the liquid H2O
tracers other than the scheme's own (physics/microphysics.py 27-208, 501-680). -/
structure MoistNames where
  vapour : String := "water_vapour"
  condensate : String := "cloud_water"
  others : List String := []

/-- Total liquid water, microphysics.py:124-130. -/
def liquidWater (N : MoistNames) (x : Local) : ℝ := x N.condensate + (N.others.map x).sum

/-- The condensation rate, microphysics.py:158-170. -/
noncomputable def satAdjRate (P : Parameters) (latent : Bool) (m : MoistState) (v c dt : ℝ) : ℝ :=
  let rate := (v - m.sat) / dt
  let rate := if latent then rate / (1 + m.Lv ^ 2 * m.sat / (P.cp * P.Rv * m.T ^ 2)) else rate
  if rate < 0 then max rate (-c / dt) else min rate (v / dt)

/-- `SaturationAdjustment`, microphysics.py:94-195. -/
noncomputable def saturationAdjustment (P : Parameters) (N : MoistNames) (latent : Bool)
    (rhoAvg dt : ℝ) (x : Local) : List (String × ℝ) :=
  let m := moistState P rhoAvg (x "theta") (x N.vapour) (liquidWater N x)
  let rate := satAdjRate P latent m (x N.vapour) (x N.condensate) dt
  [(N.vapour, rate * 1), (N.condensate, rate * -1)]
    ++ if latent then [("theta", rate * thetaFactor P (x "theta") m)] else []

/-! ### Coalescence -/

/-- `rain_expr`, microphysics.py:436-462. -/
noncomputable def coalescenceRate (accretion accumulation : Bool) (cloud rain dt : ℝ) : ℝ :=
  let k1 : ℝ := 0.001
  let k2 : ℝ := 2.2
  let a : ℝ := 0.001
  let b : ℝ := 0.875
  let accr := if accretion then k1 * (cloud - a) else 0
  let accu := if accumulation then k2 * cloud * rain ^ b else 0
  if rain < 0 then
    if accr < 0 then 0 else min accr (cloud / dt)
  else if accr + accu < 0 then 0
  else if accr < 0 then min accu (cloud / dt)
  else min (accr + accu) (cloud / dt)

/-- `Coalescence`, microphysics.py:436-479: `test_cl*source - test_r*source`. -/
noncomputable def coalescence (cloudName rainName : String) (accretion accumulation : Bool)
    (dt : ℝ) (x : Local) : List (String × ℝ) :=
  let s := coalescenceRate accretion accumulation (x cloudName) (x rainName) dt
  [(cloudName, s), (rainName, -s)]

/-! ### Evaporation of rain -/

/-- `evap_rate` before clipping, microphysics.py:609-626. -/
noncomputable def evapRaw (rhoAvg rain v p sat : ℝ) : ℝ :=
  let C := 1.6 + 124.9 * (rhoAvg * rain) ^ (0.2046 : ℝ)
  ((1 - v / sat) * C * (rhoAvg * rain) ^ (0.525 : ℝ))
    / (rhoAvg * (5.4e5 + 2.55e6 / (p * sat)))

/-- `evap_rate`, microphysics.py:628-631. -/
noncomputable def evapRate (rhoAvg rain v p sat dt : ℝ) : ℝ :=
  let rate := evapRaw rhoAvg rain v p sat
  if rate < 0 then 0 else if rain < 0 then 0 else min rate (rain / dt)

/-- `EvaporationOfRain`, microphysics.py:612-656: the factors are -1 for rain, 1 for vapour, and the terms
are added to the residual. -/
noncomputable def evaporationOfRain (P : Parameters) (N : MoistNames) (latent : Bool)
    (rhoAvg dt : ℝ) (x : Local) : List (String × ℝ) :=
  let m := moistState P rhoAvg (x "theta") (x N.vapour) (liquidWater N x)
  let rate := evapRate rhoAvg (x N.condensate) (x N.vapour) m.p m.sat dt
  [(N.condensate, rate * -1), (N.vapour, rate * 1)]
    ++ if latent then [("theta", rate * thetaFactor P (x "theta") m)] else []

/-! ### Shallow-water microphysics -/

/-- `tau`: the given value, or the timestep (shallow_water_microphysics.py:99-106 and 165-166). -/
noncomputable def timescale (tau : Option ℝ) (dt : ℝ) : ℝ := tau.getD dt

/-- The source of `InstantRain`, shallow_water_microphysics.py:143-146. -/
noncomputable def instantRainSource (gamma : ℝ) (tau : Option ℝ) (sat v dt : ℝ) : ℝ :=
  if v > sat then (1 / timescale tau dt) * gamma * (v - sat) else 0

/-- `InstantRain`, shallow_water_microphysics.py:119-141, with the saturation value at the point given.
With convective feedback the depth term multiplies a scalar test function by the whole (vector-valued) mixed
source (line 139), which UFL rejects: `error`. -/
noncomputable def instantRain (vapour : String) (rain : Option String) (gamma : ℝ) (tau : Option ℝ)
    (convective : Bool) (sat : Local → ℝ) (dt : ℝ) (x : Local) :
    Except String (List (String × ℝ)) :=
  let s := instantRainSource gamma tau (sat x) (x vapour) dt
  if convective then .error "UFL: integrand is not scalar"
  else .ok ([(vapour, s)] ++ match rain with
    | some r => [(r, -s)]
    | none => [])

/-- `sat_adj_expr`, shallow_water_microphysics.py:317-319. -/
noncomputable def swSatRate (gamma sat v c tau : ℝ) : ℝ :=
  max (min (gamma * (v - sat) / tau) (v / tau)) (-c / tau)

/-- `SWSaturationAdjustment`, shallow_water_microphysics.py:264-349. -/
noncomputable def swSaturationAdjustment (vapour cloud : String) (beta1 beta2 : Option ℝ)
    (gamma : Local → ℝ) (tau : Option ℝ) (sat : Local → ℝ) (dt : ℝ) (x : Local) :
    List (String × ℝ) :=
  let s := swSatRate (gamma x) (sat x) (x vapour) (x cloud) (timescale tau dt)
  [(vapour, s * 1), (cloud, s * -1)]
    ++ (match beta1 with | some b => [("D", s * b)] | none => [])
    ++ (match beta2 with | some b => [("b", s * b)] | none => [])

/-! ### Chemistry -/

/-- `Kx`, chemistry.py:107. -/
def terminatorKx (k1 k2 s1 s2 : ℝ) : ℝ := k1 * s2 - k2 * s1 ^ 2

/-- `X_T_0`, chemistry.py:79. -/
noncomputable def terminatorTotal : ℝ := 4e-6

/-- The analytical increment before clipping, chemistry.py:79-86. -/
noncomputable def terminatorRaw (k1 k2 s1 dt : ℝ) : ℝ :=
  let r := k1 / (4 * k2)
  let d := √(r ^ 2 + 2 * terminatorTotal * r)
  let e := exp (-4 * k2 * d * dt)
  let e1 := (if |d * k2 * dt| > 1e-16 then (1 - e) / (d * dt) else 4 * k2 : ℝ);
  (-e1) * (s1 - d + r) * (s1 + d + r) / (1 + e + dt * e1 * (s1 + r))

/-- The clipped increment, chemistry.py:89-91. -/
noncomputable def terminatorRate (k1 k2 s1 s2 dt : ℝ) : ℝ :=
  let s := terminatorRaw k1 k2 s1 dt
  if s < 0 then max s (-s1 / dt) else min s (2 * s2 / dt)

/-- `TerminatorToy` with the analytical formulation, chemistry.py:93-104 (the residual is decreased). -/
noncomputable def terminatorAnalytical (n1 n2 : String) (k1 k2 : ℝ) (dt : ℝ) (x : Local) :
    List (String × ℝ) :=
  let s := terminatorRate k1 k2 (x n1) (x n2) dt
  [(n1, -s), (n2, -(-s / 2))]

/-- `TerminatorToy`, general formulation, chemistry.py:107-113, assembled: `V` is the space of either species
(they must have the same space, line 61), `assembleKx` the vector of integrals of `test*Kx`.  The residual
receives `-2 Kx` tested with species 1 and `+Kx` tested with species 2. -/
def terminatorGeneral {V D : Type*} [AddCommGroup D] (assembleKx : V × V → D) (x : V × V) : D × D :=
  (-((2 : ℤ) • assembleKx x), -(-(assembleKx x)))

/-! ### Surface fluxes and wind drag -/

/-- `BoundaryLayerParameters`, equation_configuration.py:142-154. -/
structure BLParameters where
  CD0 : ℝ
  CD1 : ℝ
  CD2 : ℝ
  CH : ℝ
  CE : ℝ
  za : ℝ

/-- The default values (equation_configuration.py 142-154). -/
noncomputable def blDefaults : BLParameters where
  CD0 := 7e-4
  CD1 := 6.5e-5
  CD2 := 2e-3
  CH := 1.1e-3
  CE := 1.1e-3
  za := 75

/-- `surface_expr`, boundary_and_turbulence.py:118 and 292. -/
noncomputable def surfaceExpr (z za : ℝ) : ℝ := if z < za then 1 else 0

/-- `T_np1_expr` and `mv_np1_expr`, boundary_and_turbulence.py:132-133 and 141-142:
`q` relaxes to `target` with coefficient `C` and wind speed `w`. -/
noncomputable def implicitFlux (C w za dt q target : ℝ) : ℝ :=
  (q + C * w * target * dt / za) / (1 + C * w * dt / za)

/-- `SurfaceFluxes`, implicit formulation, boundary_and_turbulence.py:96-174; `w` is the horizontal wind
speed, `z` the height above the surface. -/
noncomputable def surfaceFluxesImplicit (P : Parameters) (B : BLParameters) (vapour : Option String)
    (Tsurf z w rhoAvg dt : ℝ) (x : Local) : List (String × ℝ) :=
  let theta := x "theta"
  let exner := exnerPressure P rhoAvg theta
  let T := temperature P theta exner (vapour.map x)
  let p := pressure P exner
  let TNew := implicitFlux B.CH w B.za dt T Tsurf
  match vapour with
  | some name =>
    let mv := x name
    let mvNew := implicitFlux B.CE w B.za dt mv (rSat P T p)
    let epsilon := P.Rd / P.Rv
    let thetaNew := Thermo.theta P TNew p * (1 + mvNew / epsilon)
    [(name, -(surfaceExpr z B.za * (mvNew - mv) / dt)),
     ("theta", -(surfaceExpr z B.za * (thetaNew - theta) / dt))]
  | none =>
    let thetaNew := Thermo.theta P TNew p
    [("theta", -(surfaceExpr z B.za * (thetaNew - theta) / dt))]

/-- The rates of `SurfaceFluxes`, general formulation, boundary_and_turbulence.py:176-194:
`(dmv_dt, dT_dt, dtheta_vd_dt)`. -/
noncomputable def surfaceFluxRates (P : Parameters) (B : BLParameters) (vapour : Option ℝ)
    (Tsurf z w rho theta : ℝ) : ℝ × ℝ × ℝ :=
  let exner := exnerPressure P rho theta
  let T := temperature P theta exner vapour
  let p := pressure P exner
  let dT := surfaceExpr z B.za * B.CH * w * (Tsurf - T) / B.za
  match vapour with
  | some mv =>
    let dmv := surfaceExpr z B.za * B.CE * w * (rSat P T p - mv) / B.za
    let epsilon := P.Rd / P.Rv
    (dmv, dT, dT * ((1 + mv / epsilon) / exner - P.kappa * theta / (rho * T))
      + dmv * (T / (epsilon * exner) - P.kappa * theta / (epsilon + mv)))
  | none => (0, dT, dT * (1 / exner - P.kappa * theta / (rho * T)))

/-- Difference of vectors (UFL; physics/boundary_and_turbulence.py 228-350). -/
def _root_.Gusto.Coord.V3.sub (a b : Gusto.Coord.V3) : Gusto.Coord.V3 :=
  ⟨a.x - b.x, a.y - b.y, a.z - b.z⟩

open Gusto.Coord in
/-- `u_hori`, boundary_and_turbulence.py:120, 283. -/
def uHori (k u : V3) : V3 := V3.sub u (V3.smul (V3.dot u k) k)

open Gusto.Coord in
/-- `u_hori_mag`, boundary_and_turbulence.py:121, 284. -/
noncomputable def uHoriMag (k u : V3) : ℝ := √(V3.dot (uHori k u) (uHori k u))

/-- `C_D`, boundary_and_turbulence.py:298. -/
noncomputable def dragCoeff (B : BLParameters) (w : ℝ) : ℝ := if w < 20 then B.CD0 + B.CD1 * w else B.CD2

open Gusto.Coord in
/-- `du_expr` of `WindDrag`, implicit formulation, boundary_and_turbulence.py:309-311. -/
noncomputable def windDragSource (B : BLParameters) (k u : V3) (z dt : ℝ) : V3 :=
  let w := uHoriMag k u
  let uNew := V3.smul (1 / (1 + dragCoeff B w * w * dt / B.za)) (uHori k u)
  V3.smul (surfaceExpr z B.za / dt) (V3.sub uNew (uHori k u))

open Gusto.Coord in
/-- `WindDrag`, implicit formulation: the residual of the wind, boundary_and_turbulence.py:320-323
(`-= inner(test, source_u - k*dot(source_u, k))`). -/
noncomputable def windDragImplicit (B : BLParameters) (k u : V3) (z dt : ℝ) : V3 :=
  let s := windDragSource B k u z dt
  V3.smul (-1) (V3.sub s (V3.smul (V3.dot s k) k))

open Gusto.Coord in
/-- `WindDrag`, general formulation: the residual of the wind, boundary_and_turbulence.py:328-333
(`-= inner(test, du_dt)`). -/
noncomputable def windDragGeneral (B : BLParameters) (k u : V3) (z : ℝ) : V3 :=
  let w := uHoriMag k u
  V3.smul (-1) (V3.smul (-(surfaceExpr z B.za) * dragCoeff B w * w / B.za) (uHori k u))

/-! ### Suppression of the vertical wind -/

open Gusto.Coord in
/-- The mutable attributes of `SuppressVerticalWind`, boundary_and_turbulence.py:491-496 and 505. -/
structure SuppressState where
  wind : V3
  dt : ℝ
  strength : ℝ
  done : Bool

open Gusto.Coord in
/-- `__init__`, boundary_and_turbulence.py:491-496: `X` and `dt` are zero. -/
def suppressInit : SuppressState := { wind := ⟨0, 0, 0⟩, dt := 0, strength := 1, done := false }

open Gusto.Coord in
/-- `evaluate`, boundary_and_turbulence.py:516-538, at time `t`. -/
noncomputable def suppressEvaluate (spinUp : ℝ) (t : ℝ) (u : V3) (dt : ℝ) (s : SuppressState) :
    SuppressState :=
  if t < spinUp then { s with wind := u, dt := dt }
  else if !s.done then { s with strength := 0, done := true }
  else s

open Gusto.Coord in
/-- The residual of the wind, boundary_and_turbulence.py:510-513
(`-= -strength * inner(test, k*dot(k, wind))/dt`).  The division by the Constant `dt` is a floating-point
division: by zero it gives NaN (`none`). -/
noncomputable def suppressResidual (k : V3) (s : SuppressState) : Option (V3) :=
  if s.dt = 0 then none
  else some (V3.smul (-1) (V3.smul (-s.strength / s.dt) (V3.smul (V3.dot k s.wind) k)))

open Gusto.Coord in
/-- A forward-Euler step with this physics: `evaluate`, then `u - dt * residual`.  Returns the new attributes
and the new wind (`none` for NaN) (physics/boundary_and_turbulence.py 460-538). -/
noncomputable def suppressStep (spinUp : ℝ) (k : V3) (t dt : ℝ) (u : V3) (s : SuppressState) :
    SuppressState × Option (V3) :=
  let s := suppressEvaluate spinUp t u dt s
  (s, (suppressResidual k s).map fun r => V3.sub u (V3.smul dt r))

/-! ### Held-Suarez forcing -/

/-- `HeldSuarezParameters`, equation_configuration.py:157-167. -/
structure HSParameters where
  T0stra : ℝ
  T0surf : ℝ
  T0horiz : ℝ
  T0vert : ℝ
  sigmab : ℝ
  taud : ℝ
  tauu : ℝ

/-- The default values (equation_configuration.py 157-167). -/
noncomputable def hsDefaults : HSParameters where
  T0stra := 200
  T0surf := 315
  T0horiz := 60
  T0vert := 10
  sigmab := 0.7
  taud := 40 * 24 * 60 * 60
  tauu := 4 * 24 * 60 * 60

/-- `theta_condition`, held_suarez_forcing.py:70. -/
noncomputable def hsThetaCondition (H : HSParameters) (kappa lat exner : ℝ) : ℝ :=
  H.T0surf - H.T0horiz * sin lat ^ 2 - (H.T0vert * log exner * cos lat ^ 2) / kappa

/-- `Theta_eq`, held_suarez_forcing.py:71. -/
noncomputable def hsThetaEq (H : HSParameters) (kappa lat exner : ℝ) : ℝ :=
  if H.T0stra / exner ≥ hsThetaCondition H kappa lat exner then H.T0stra / exner
  else hsThetaCondition H kappa lat exner

/-- `tau_cond`, held_suarez_forcing.py:74 and 153. -/
noncomputable def hsTauCond (H : HSParameters) (kappa sigma : ℝ) : ℝ :=
  (sigma ^ (1 / kappa) - H.sigmab) / (1 - H.sigmab)

/-- `newton_freq`, held_suarez_forcing.py:75. -/
noncomputable def hsNewtonFreq (H : HSParameters) (kappa lat sigma : ℝ) : ℝ :=
  1 / H.taud + (1 / H.tauu - 1 / H.taud)
    * (if 0 ≥ hsTauCond H kappa sigma then 0 else hsTauCond H kappa sigma) * cos lat ^ 4

/-- `Relaxation`, held_suarez_forcing.py:76-87: residual of theta (`+= test*forcing`). -/
noncomputable def hsRelaxation (H : HSParameters) (kappa lat exner sigma theta : ℝ) :
    List (String × ℝ) :=
  [("theta", hsNewtonFreq H kappa lat sigma * (theta - hsThetaEq H kappa lat exner))]

/-- The ratio of the Exner pressure to that of the lowest level, for a column,
held_suarez_forcing.py:101-105 and 182-186. -/
noncomputable def hsSigma (column : ℕ → ℝ) (lev : ℕ) : ℝ := column lev / column 0

open Gusto.Coord in
/-- `RayleighFriction`, held_suarez_forcing.py:151-166: residual of the wind (`+= inner(test, forcing)`). -/
noncomputable def hsFriction (H : HSParameters) (kappa sigma : ℝ) (k u : V3) : V3 :=
  let tauFric : ℝ := 24 * 60 * 60
  V3.smul ((if 0 ≥ hsTauCond H kappa sigma then 0 else hsTauCond H kappa sigma) / tauFric) (uHori k u)

/-! ### Fallout -/

/-- The rain fall speed of the single-moment scheme, microphysics.py:312-337 (the vertical velocity is
`-speed*k`); `G` is `math.gamma`. -/
noncomputable def fallSpeed (G : ℝ → ℝ) (rho rain : ℝ) : ℝ :=
  let rhoW : ℝ := 1000
  let Nr : ℝ := 10 ^ 5
  let mu : ℝ := 0
  let a : ℝ := 362
  let b : ℝ := 0.65
  let rho0 : ℝ := 1.22
  let g : ℝ := 0.5
  let threshold : ℝ := 1 / 10 ^ 10
  let lambda := fun r : ℝ => (Nr * π * rhoW * G (4 + mu) / (6 * G (1 + mu) * rho * r)) ^ (1 / 3 : ℝ)
  if rain > threshold then
    a * G (4 + b + mu) / (G (4 + mu) * lambda rain ^ b) * (rho0 / rho) ^ g
  else
    a * G (4 + b + mu) / (G (4 + mu) * lambda threshold ^ b) * (rho0 / rho) ^ g

end Gusto.Physics
