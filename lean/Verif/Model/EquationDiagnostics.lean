import Verif.Model.Diagnostics
import Verif.Model.Thermodynamics
import Verif.Model.TopoSort

set_option autoImplicit false

/-!
# Diagnostics of the shallow-water and of the compressible Euler equations

Model of `gusto/diagnostics/shallow_water_diagnostics.py` and `gusto/diagnostics/compressible_euler_diagnostics.py`.
-/

namespace Gusto.EqnDiag
open Gusto.DG Gusto.Diag Gusto.Thermo

/-! ### Shallow water -/

section SW
variable {K : Type*} [Field K] [LinearOrder K] [IsStrictOrderedRing K] {d : ℕ} {C F B : Type*}
variable [Fintype C] [Fintype F] [Fintype B]

/-- `Energy.kinetic`, diagnostics.py:756-772, with the density factor: `0.5*factor*dot(u, u)`. -/
def kinetic (u : Fin d → K) (factor : K) : K := 1 / 2 * factor * dot u u
/-- `ShallowWaterPotentialEnergy.setup`, shallow_water_diagnostics.py:75-77. -/
def swPotential (g D : K) : K := 1 / 2 * g * D ^ 2

/-- The argument `base_field_name` (shallow_water_diagnostics.py 81-141). -/
inductive VBase where
  | potential | relative | absolute | other
  deriving DecidableEq

/-- `ShallowWaterPotentialEnstrophy`, shallow_water_diagnostics.py:81-142, at a point: `vort` is the value of the base
field. -/
def enstrophy (base : VBase) (vort D f : K) : Except DErr K :=
  match base with
  | .potential => .ok (1 / 2 * vort ^ 2 * D)
  | .relative => .ok (1 / 2 * (vort + f) ^ 2 / D)
  | .absolute => .ok (1 / 2 * vort ^ 2 / D)
  | .other => .error .valueError

/-- The right-hand side of `Vorticity.setup` with the method `'solve'`, shallow_water_diagnostics.py:213-216, on the
plane. -/
def vorticityRHS (M : Mesh K 2 C F B) (base : VBase) (gamma : Sc K 2 C F B) (u : Ve K 2 C F B) (f : C → K) : K :=
  -(∑ x, M.wC x * dot (perp (gamma.g x)) (u.c x)) +
    (if base ≠ .relative then ∑ x, M.wC x * (gamma.c x * f x) else 0)

/-- What the solver computes, shallow_water_diagnostics.py:202-220: the values `q` of a function with
`a(gamma, q) = L(gamma)` for all `gamma` of the space. -/
def IsVorticity (M : Mesh K 2 C F B) (V : Set (Sc K 2 C F B)) (base : VBase) (u : Ve K 2 C F B) (f D q : C → K) : Prop :=
  ∀ gamma ∈ V, ∑ x, M.wC x * (if base = .potential then q x * gamma.c x * D x else q x * gamma.c x) =
    vorticityRHS M base gamma u f

/-- The expressions of `Vorticity.setup` for other methods, shallow_water_diagnostics.py:191-197. -/
def vorticityExpr (base : VBase) (curl D f : K) : K :=
  match base with
  | .potential => (curl + f) / D
  | .absolute => curl + f
  | _ => curl

/-- How `Vorticity` is computed: the mixed problem, the curl of the velocity, or `domain.divperp` of the velocity projected into HCurl
(shallow_water_diagnostics.py 164-183, 226-233). -/
inductive VMode where
  | solve | curlOfU | divperpOfHCurl
  deriving DecidableEq

/-- `Vorticity.setup`, shallow_water_diagnostics.py:159-229: `isCG` is `is_cg(space)`.  With `curl` the expression is a scalar on the
plane and a vector on the sphere (UFL), where it fits neither `f` nor the scalar space. -/
def vorticityMode (base : VBase) (isCG solve onSphere : Bool) : Except DErr VMode :=
  if base = .other then .error .valueError
  else if !isCG then if solve then .error .assertionError else .ok .divperpOfHCurl
  else if solve then .ok .solve
  else if onSphere then .error .valueError
  else .ok .curlOfU

/-- `Projector(u_hdiv, self.u_hcurl)`, shallow_water_diagnostics.py:226: `uh` is in the space `W` and has the products of `u` with all
its functions. -/
def IsHCurl (M : Mesh K 2 C F B) (W : Set (Ve K 2 C F B)) (u uh : Ve K 2 C F B) : Prop :=
  uh ∈ W ∧ ∀ w ∈ W, ∑ x, M.wC x * dot (w.c x) (uh.c x) = ∑ x, M.wC x * dot (w.c x) (u.c x)

/-- `domain.divperp` on the plane, domain.py:132. -/
def divperp (u : Ve K 2 C F B) (x : C) : K := -u.j x 0 1 + u.j x 1 0

/-- The expression of the DG variant, shallow_water_diagnostics.py:178, 191-197. -/
def vorticityDG (base : VBase) (uh : Ve K 2 C F B) (D f : C → K) (x : C) : K := vorticityExpr base (divperp uh x) (D x) (f x)

end SW

/-- `compute_saturation`, shallow_water_equations.py:516-532. -/
noncomputable def swSaturation (q0 nu g H : ℝ) (topog : Option ℝ) (D b : ℝ) : ℝ :=
  match topog with
  | none => q0 * H / D * Real.exp (nu * (1 - b / g))
  | some t => q0 * H / (D + t) * Real.exp (nu * (1 - b / g))

/-- What `PartitionedVapour` and `PartitionedCloud` hold: `qsat_func` and the field
(shallow_water_diagnostics.py 332-430). -/
structure Partition where
  qsat : ℝ
  field : ℝ

/-- `PartitionedVapour.compute`, shallow_water_diagnostics.py:366-379, at a DoF; `sat` is the saturation value of the
state of the moment. -/
noncomputable def partitionedVapour (sat qt : ℝ) (s : Partition) : Partition :=
  let s := { s with qsat := sat }
  { s with field := if qt < s.qsat then qt else s.qsat }
/-- `PartitionedCloud.compute`, shallow_water_diagnostics.py:416-430. -/
noncomputable def partitionedCloud (sat qt : ℝ) (s : Partition) : Partition :=
  let s := { s with qsat := sat }
  { s with field := qt - if qt < s.qsat then qt else s.qsat }

/-! ### Richardson number -/

/-- `RichardsonNumber.__init__`, compressible_euler_diagnostics.py:41: the required fields. -/
def richardsonRequired (density : String) : List String := [density, "u_gradient"]
/-- `RichardsonNumber.setup`, compressible_euler_diagnostics.py:53-59: the fields which are looked up. -/
def richardsonReads (density : String) : List String := [density ++ "_gradient", "u_gradient", "u"]

/-- `RichardsonNumber.setup`, compressible_euler_diagnostics.py:57-63: `gradu i j` is the entry of the field
`u_gradient`, `z` the vertical direction, `n` the number of velocity components. -/
def richardson {K : Type*} [Field K] (factor : K) (z n : ℕ) (gradDensity : ℕ → K) (gradu : ℕ → ℕ → K) : K :=
  factor * gradDensity z / ∑ i ∈ Finset.range (n - 1), gradu i z ^ 2

/-- The shape of the space of `Gradient`, diagnostics.py:470-475: `shape` is the one of the field. -/
def gradientShape (meshDim : ℕ) (shape : List ℕ) : List ℕ :=
  List.replicate (match shape with | [] => 1 | n :: _ => n) meshDim

/-- The shape of `grad(f)` (UFL; compressible_euler_diagnostics.py 24-64). -/
def gradShape (meshDim : ℕ) (shape : List ℕ) : List ℕ := shape ++ [meshDim]

/-- `state_fields(name)` without a space in the `setup` of scheduled diagnostics: each diagnostic reads some fields and
then creates the field of its name (io.py:366-368; `StateFields.__call__`, fields.py:163-190: a `ValueError` if the field
is not there). -/
def setupAll (reads : String → List String) : List String → List String → Except DErr (List String)
  | present, [] => .ok present
  | present, n :: rest =>
    if (reads n).all (· ∈ present) then setupAll reads (present ++ [n]) rest else .error .valueError

/-! ### Thermodynamic diagnostics -/

/-- The phases of a tracer, active_tracers.py:36-42. -/
inductive Phase where
  | gas | liquid | solid | plasma
  deriving DecidableEq

/-- What the diagnostics read of an `ActiveTracer`
(active_tracers.py 45-96; compressible_euler_diagnostics.py 278-315). -/
structure MTracer where
  name : String
  isWater : Bool
  mixingRatio : Bool
  phase : Phase

/-- `r_v`, `r_l`, `r_t` (compressible_euler_diagnostics.py 278-315). -/
structure Moist (K : Type*) where
  rv : K
  rl : K
  rt : K

section Sums
variable {K : Type*} [Field K]

/-- The body of the loop of `_setup_thermodynamics`, compressible_euler_diagnostics.py:302-310. -/
def moistStep (val : String → K) (a : Moist K) (t : MTracer) : Except DErr (Moist K) :=
  if t.isWater then
    if !t.mixingRatio then .error .typeError
    else
      let a := match t.phase with
        | .gas => { a with rv := a.rv + val t.name }
        | .liquid => { a with rl := a.rl + val t.name }
        | _ => a
      .ok { a with rt := a.rt + val t.name }
  else .ok a

/-- `_setup_thermodynamics`, compressible_euler_diagnostics.py:298-310: the sums at a point. -/
def moistSums (val : String → K) (tracers : List MTracer) : Except DErr (Moist K) :=
  tracers.foldlM (moistStep val) ⟨0, 0, 0⟩

end Sums

/-- `required_fields` of `ThermodynamicDiagnostic`, compressible_euler_diagnostics.py:268-276. -/
def thermoRequired (tracers : List MTracer) : List String :=
  ["rho", "theta"] ++ (tracers.filter (·.isWater)).map (·.name)

/-- The attributes `exner`, `T`, `p` of `_setup_thermodynamics`, compressible_euler_diagnostics.py:313-315; `rho` is the
recovered density. -/
noncomputable def tdExner (P : Parameters) (rho theta : ℝ) : ℝ := exnerPressure P rho theta
/-- See compressible_euler_diagnostics.py 278-315, 585-599. -/
noncomputable def tdT (P : Parameters) (rho theta rv : ℝ) : ℝ := temperature P theta (tdExner P rho theta) (some rv)
/-- See compressible_euler_diagnostics.py 278-315, 636-650. -/
noncomputable def tdP (P : Parameters) (rho theta : ℝ) : ℝ := pressure P (tdExner P rho theta)
/-- `Theta_d.setup`, compressible_euler_diagnostics.py:615. -/
noncomputable def tdThetaD (P : Parameters) (theta rv : ℝ) : ℝ := theta / (1 + rv * P.Rv / P.Rd)
/-- `RelativeHumidity.setup`, compressible_euler_diagnostics.py:632. -/
noncomputable def tdRH (P : Parameters) (rho theta rv : ℝ) : ℝ := relHumidity P rv (tdT P rho theta rv) (tdP P rho theta)
/-- `InternalEnergy.setup`, compressible_euler_diagnostics.py:353. -/
noncomputable def tdInternal (P : Parameters) (rho theta rv rl : ℝ) : ℝ :=
  internalEnergy P rho (tdT P rho theta rv) rv rl
/-- `PotentialEnergy.setup`, compressible_euler_diagnostics.py:373. -/
noncomputable def tdPotential (rho rt g z : ℝ) : ℝ := rho * (1 + rt) * g * z
/-- `ThermodynamicKineticEnergy.setup`, compressible_euler_diagnostics.py:417. -/
noncomputable def tdKinetic {d : ℕ} (rho rt : ℝ) (u : Fin d → ℝ) : ℝ := 1 / 2 * rho * (1 + rt) * dot u u

/-- `BruntVaisalaFrequencySquared.__init__`, compressible_euler_diagnostics.py:217-234: whether a compressible equation set
with `n` active tracers is accepted (`none`: the attribute is `None`). -/
def bvAccepts (n : Option ℕ) : Bool := match n with | none => true | some n => !decide (n > 1)
/-- `BruntVaisalaFrequencySquared.setup`, compressible_euler_diagnostics.py:245. -/
noncomputable def bruntVaisala {d : ℕ} (g theta : ℝ) (k gradTheta : Fin d → ℝ) : ℝ := g / theta * dot k gradTheta

/-- `DewpointTemperature.implicit_expr`, compressible_euler_diagnostics.py:452-475, as a function of the field. -/
noncomputable def dewpointExpr (P : Parameters) (rho theta rv : ℝ) (Td : ℝ) : ℝ :=
  Td - tdT P rho theta rv * (rSat P Td (tdP P rho theta) - rv)
/-- `WetBulbTemperature.implicit_expr`, compressible_euler_diagnostics.py:528-562. -/
noncomputable def wetBulbExpr (P : Parameters) (rho theta rv : ℝ) (Tw : ℝ) : ℝ :=
  let b := -P.Lv0 - (P.cpl - P.cpv) * P.T0
  let a := P.Rv + P.cpl - P.cpv;
  (-b) / a + (a * tdT P rho theta rv + b) / a *
    ((P.cvv * rSat P Tw (tdP P rho theta) + P.cv) / (P.cvv * rv + P.cv)) ^ (a / P.cvv)

/-! ### Hydrostatic imbalance -/

section Forms
variable {K : Type*} [Field K] [LinearOrder K] [IsStrictOrderedRing K] {d : ℕ} {C F B : Type*}
variable [Fintype C] [Fintype F] [Fintype B]

/-- `- cp*div(theta*w)*exner*dx + cp*jump(theta*w, n)*avg(exner)*dS_v`; `vert` says which interior facets are vertical
(compressible_euler_diagnostics.py 672-746). -/
def pgf (M : Mesh K d C F B) (vert : F → Bool) (cp : K) (w : Ve K d C F B) (theta exner : Sc K d C F B) : K :=
  -cp * (∑ x, M.wC x * ((dot (theta.g x) (w.c x) + theta.c x * w.div x) * exner.c x)) +
    cp * ∑ x, if vert x then M.wF x * ((theta.p x * dot (w.p x) (M.nP x) + theta.m x * dot (w.m x) (M.nM x)) *
      (1 / 2 * (exner.p x + exner.m x))) else 0

/-- The difference of two scalar functions (UFL; compressible_euler_diagnostics.py 672-746). -/
def Sc.sub (a b : Sc K d C F B) : Sc K d C F B where
  c x := a.c x - b.c x
  g x i := a.g x i - b.g x i
  p x := a.p x - b.p x
  m x := a.m x - b.m x
  b x := a.b x - b.b x
  gp x i := a.gp x i - b.gp x i
  gm x i := a.gm x i - b.gm x i

/-- The right-hand side `L` of `HydrostaticImbalance.setup`, compressible_euler_diagnostics.py:729-732. -/
def imbalanceRHS (M : Mesh K d C F B) (vert : F → Bool) (cp : K) (w : Ve K d C F B)
    (theta thetabar exner exnerbar : Sc K d C F B) : K :=
  pgf M vert cp w (Sc.sub theta thetabar) exnerbar + pgf M vert cp w thetabar (Sc.sub exner exnerbar)

/-! ### Precipitation -/

variable {I : Type*} [DecidableEq I]

/-- `area`, compressible_euler_diagnostics.py:785-795: the solution in DG0 of `phi*area*dx = phi*ds_b`; `bottom` are the
points of `ds_b`. -/
def precipArea (M : Mesh K d C F B) (E : Cells C F B I) (bottom : B → Bool) (i : I) : K :=
  (∑ x, if bottom x then M.wB x * (if E.cB x = i then 1 else 0) else 0) / vol M E i

/-- `flux`, compressible_euler_diagnostics.py:787-800; `rate` is `rain*dot(-v, k)*rho` on the boundary. -/
def precipFlux (M : Mesh K d C F B) (E : Cells C F B I) (bottom : B → Bool) (dt : K) (rate : B → K) (i : I) : K :=
  (∑ x, if bottom x then M.wB x * (dt * (if E.cB x = i then 1 else 0) * (rate x / precipArea M E bottom (E.cB x)))
    else 0) / vol M E i

/-- `rain*dot(-v, domain.k)*rho`, compressible_euler_diagnostics.py:789. -/
def precipRate (k : Fin d → K) (rain rho : B → K) (v : B → Fin d → K) (x : B) : K :=
  rain x * dot (fun i => -v x i) k * rho x

end Forms

/-- `Precipitation` over a run, compressible_euler_diagnostics.py:801-808: `setup` puts 0 and then the initial dump and the
dump after every step add the flux of the state (`IO.dump` computes the diagnostics at each call, io.py:745-760; the
initial dump is in `setup_dump`, io.py:568-569, and is left out when the run picks up).  `flux n` is the flux of the state
after `n` steps. -/
def precipRun {V : Type*} [AddCommGroup V] (flux : ℕ → V) : ℕ → V
  | 0 => 0 + flux 0
  | n + 1 => precipRun flux n + flux (n + 1)

/-- A run which picks up the field `P` (`pick_up=True`) of a checkpoint written after `m` steps
(compressible_euler_diagnostics.py 749-808, core/io.py 584-720). -/
def precipPickUp {V : Type*} [AddCommGroup V] (flux : ℕ → V) (m : ℕ) (P : V) : ℕ → V
  | 0 => P
  | n + 1 => precipPickUp flux m P n + flux (m + (n + 1))

end Gusto.EqnDiag
