import Mathlib.Algebra.Module.LinearMap.Basic
import Mathlib.Algebra.Order.Field.Rat
import Mathlib.Data.Rat.Init

set_option autoImplicit false

/-!
# Hydrostatic initialisation

Model of `gusto/initialisation/hydrostatic_initialisation.py`: the control flow of the two moist routines and the
variational problem of `compressible_hydrostatic_balance`.

Simplifications: a field is an element of a vector space over the rational numbers (only the damping uses the linear
structure; `delta` is 1 or 0.8); the thermodynamic expressions, the recovery of the density, the error tests and
`compressible_hydrostatic_balance` (which starts from the Exner pressure of the linear problem, not from the old
density) are parameters.
-/

namespace Gusto.Hydro

/-- Operations used by the iterations.  `T`, `R`, `M`: temperature, density and vapour fields.
`balance th m` is `compressible_hydrostatic_balance(equation, th, ..., mr_t=m, solve_for_rho=True)`;
`average` is `rho_recoverer.project()` (hydrostatic_initialisation.py 223-474). -/
structure Ops (T R M : Type*) where
  balance : T → M → R
  average : R → T

/-- `rho0.assign(rho0 * (1 - delta) + delta * rho_h)`, hydrostatic_initialisation.py:311, 442. -/
def damp {V : Type*} [AddCommGroup V] [Module ℚ V] (delta : ℚ) (old new : V) : V := (1 - delta) • old + delta • new

variable {T R M : Type*} [AddCommGroup T] [Module ℚ T] [AddCommGroup R] [Module ℚ R] [AddCommGroup M] [Module ℚ M]

/-- The Functions of the state and the average (hydrostatic_initialisation.py 223-474). -/
structure St (T R M : Type*) where
  theta : T
  rho : R
  mv : M
  avg : T

/-! ### Unsaturated -/

/-- The expressions of `unsaturated_hydrostatic_balance`: `rv avg theta mv` is `r_v_expr` (426), `close avg theta mv`
the test `errornorm(RH, H) < 1e-10` for `RH` evaluated from these fields, `virtual mv` the field
`theta_d * (1 + mr_v0 / epsilon)` (457), `guess` the field `theta_d * 1.01` (408) and `guessM` the field `0.01`
(hydrostatic_initialisation.py 350-474). -/
structure Unsat (T R M : Type*) extends Ops T R M where
  rv : T → T → M → M
  close : T → T → M → Bool
  virtual : M → T
  guess : T
  guessM : M

/-- `delta = 1.0`, hydrostatic_initialisation.py:420. -/
def deltaU : ℚ := 1

/-- Inner loop, hydrostatic_initialisation.py:452-462, `j` in `range(n)`. -/
def unsatInner (o : Unsat T R M) : ℕ → St T R M → St T R M
  | 0, s => s
  | n + 1, s =>
    let w := o.rv s.avg s.theta s.mv
    let s := { s with mv := damp deltaU s.mv w }
    let s := { s with theta := o.virtual s.mv }
    if o.close s.avg s.theta s.mv then s else unsatInner o n s

/-- Outer loop, hydrostatic_initialisation.py:435-465, with `left` iterations left, iteration number `i`, and the
check `if i == max_outer_solve_count` at the end of the body.  The Boolean tells whether the loop was left by
`break`. -/
def unsatOuter (o : Unsat T R M) (maxOuter nInner : ℕ) : ℕ → ℕ → St T R M → Except String (St T R M × Bool)
  | _, 0, s => .ok (s, false)
  | i, left + 1, s =>
    let rhoH := o.balance s.theta s.mv
    let s := { s with rho := damp deltaU s.rho rhoH }
    let s := { s with avg := o.average s.rho }
    if o.close s.avg s.theta s.mv then .ok (s, true)
    else
      let s := unsatInner o nInner s
      if i = maxOuter then .error "RuntimeError" else unsatOuter o maxOuter nInner (i + 1) left s

/-- `unsaturated_hydrostatic_balance`, hydrostatic_initialisation.py:350-474.  `exner rho theta` is the interpolated
Exner pressure (467-469); returned are the final fields, the contents of `exner0` (if given) and whether the loop was
left by `break`. -/
def unsaturated {E : Type*} (o : Unsat T R M) (exner : R → T → E) (withExner : Bool) (maxOuter maxInner : ℕ)
    (rho0 : R) (avg0 : T) : Except String (St T R M × Option E × Bool) :=
  let s : St T R M := { theta := o.guess, rho := rho0, mv := o.guessM, avg := avg0 }
  match unsatOuter o maxOuter maxInner 0 maxOuter s with
  | .error e => .error e
  | .ok (s, conv) =>
    let ex := if withExner then some (exner s.rho s.theta) else none
    let s := { s with rho := o.balance s.theta s.mv }
    .ok (s, ex, conv)

/-! ### Saturated -/

/-- The expressions of `saturated_hydrostatic_balance`: `rsat` is `r_v_expr` (301), `E` the type of `theta_e`
fields, `thetaE avg theta mv` is `theta_e_expr` (302), `close8`, `close6` the tests `errornorm(theta_e_test, theta_e)`
below 1e-8 and 1e-6, `newTheta avg theta mv` is `theta_e / theta_e_expr * theta0` (322), `guess` is `theta_e`
interpolated and `total` is `mr_t` (hydrostatic_initialisation.py 223-347). -/
structure Sat (T R M E : Type*) extends Ops T R M where
  rsat : T → T → M → M
  thetaE : T → T → M → E
  close8 : E → Bool
  close6 : E → Bool
  newTheta : T → T → M → T
  guess : T
  total : M

/-- The state of the saturated iteration: with `theta_e_test` (hydrostatic_initialisation.py 223-347). -/
structure SatSt (T R M E : Type*) extends St T R M where
  test : E

/-- `delta = 0.8`, hydrostatic_initialisation.py:295. -/
def deltaS : ℚ := 4 / 5

variable {E : Type*}

/-- Innermost loop, hydrostatic_initialisation.py:328-335. -/
def satInner (o : Sat T R M E) : ℕ → SatSt T R M E → SatSt T R M E
  | 0, s => s
  | n + 1, s =>
    let w := o.rsat s.avg s.theta s.mv
    let s := { s with mv := damp deltaS s.mv w }
    let s := { s with test := o.thetaE s.avg s.theta s.mv }
    if o.close6 s.test then s else satInner o n s

/-- Loop over `j`, hydrostatic_initialisation.py:321-335; the test of 326 uses `theta_e_test` as it is. -/
def satTheta (o : Sat T R M E) (nInner : ℕ) : ℕ → SatSt T R M E → SatSt T R M E
  | 0, s => s
  | n + 1, s =>
    let th := o.newTheta s.avg s.theta s.mv
    let s := { s with theta := damp deltaS s.theta th }
    if o.close6 s.test then s else satTheta o nInner n (satInner o nInner s)

/-- Outer loop, hydrostatic_initialisation.py:304-338. -/
def satOuter (o : Sat T R M E) (maxOuter nTheta nInner : ℕ) :
    ℕ → ℕ → SatSt T R M E → Except String (SatSt T R M E × Bool)
  | _, 0, s => .ok (s, false)
  | i, left + 1, s =>
    let rhoH := o.balance s.theta o.total
    let s := { s with rho := damp deltaS s.rho rhoH }
    let s := { s with test := o.thetaE s.avg s.theta s.mv }
    if o.close8 s.test then .ok (s, true)
    else
      let s := { s with avg := o.average s.rho }
      let s := satTheta o nInner nTheta s
      if i = maxOuter then .error "RuntimeError" else satOuter o maxOuter nTheta nInner (i + 1) left s

/-- `saturated_hydrostatic_balance`, hydrostatic_initialisation.py:223-347.  Line 341 calls `thermodynamics.exner`,
which does not exist. -/
def saturated (o : Sat T R M E) (withExner : Bool) (maxOuter maxTheta maxInner : ℕ) (rho0 : R) (avg0 : T) (test0 : E) :
    Except String (SatSt T R M E × Bool) :=
  let s : SatSt T R M E := { theta := o.guess, rho := rho0, mv := o.total, avg := avg0, test := test0 }
  match satOuter o maxOuter maxTheta maxInner 0 maxOuter s with
  | .error e => .error e
  | .ok (s, conv) =>
    if withExner then .error "AttributeError"
    else .ok ({ s with rho := o.balance s.theta o.total }, conv)

/-! ### The variational problem -/

/-- The residual of the linear problem of `compressible_hydrostatic_balance`, hydrostatic_initialisation.py:163-173, as
a functional of the test functions `dv`, `dexner`.  The integrals are parameters: `m v dv` of `inner(v, dv)`,
`d q e` of `div(q) * e` where `q` is a vector field, `bnd dv` of `inner(dv, n) * theta * exner_boundary` over the
boundary with the pressure condition, `grav dv` of `inner(dv, k)`; `th v` is `theta * v` (with
`theta = theta0 / (1 + mr_t)`). -/
def exnerResidual {K W V Q : Type*} [Field K] [AddCommGroup V] [Module K V] [AddCommGroup Q] [Module K Q]
    [AddCommGroup W] [Module K W] (cp g : K) (m : V →ₗ[K] V →ₗ[K] K) (d : W →ₗ[K] Q →ₗ[K] K) (th : V →ₗ[K] W)
    (bnd grav : V →ₗ[K] K) (v : V) (exner : Q) (dv : V) (dexner : Q) : K :=
  (cp * m v dv - cp * d (th dv) exner) + d (th v) dexner + cp * bnd dv + g * grav dv

/-- The residual of the nonlinear problem for the density, hydrostatic_initialisation.py:206-212: `exnerOf rho` is
the Exner pressure of the density and `th0 v` is `theta0 * v`. -/
def rhoResidual {K W V Q : Type*} [Field K] [AddCommGroup V] [Module K V] [AddCommGroup Q] [Module K Q]
    [AddCommGroup W] [Module K W] (cp g : K) (m : V →ₗ[K] V →ₗ[K] K) (d : W →ₗ[K] Q →ₗ[K] K) (th th0 : V →ₗ[K] W)
    (bnd grav : V →ₗ[K] K) (exnerOf : Q → Q) (v : V) (rho : Q) (dv : V) (dexner : Q) : K :=
  (cp * m v dv - cp * d (th dv) (exnerOf rho)) + d (th0 v) dexner + cp * bnd dv + g * grav dv

end Gusto.Hydro
