import Verif.Model.FML
import Mathlib.Algebra.Field.Basic
import Mathlib.Algebra.Order.Floor.Semiring

set_option autoImplicit false

/-!
# One-step schemes: `gusto/time_discretisation/time_discretisation.py`

Residuals are built with the same sequence of label maps as the code.
Not modelled: function spaces, boundary conditions (see C142, C143), wrappers/augmentation (see `Model/Wrappers`),
solver parameters; floating point is replaced by a field `K`.
-/

namespace Gusto
open LForm
variable {K X D : Type*} [Field K] [AddCommGroup D] [Module K D]

namespace TimeDisc

/-- `t.has_label(time_derivative)` (time_discretisation.py 395, 405, 552, 563, 685). -/
def isTD (t : Term X D) : Bool := t.has .timeDerivative

/-- `TimeDiscretisation.res` and `ExplicitTimeDiscretisation.res`,
time_discretisation.py:392-411 and 549-569. -/
def baseRes (R : LForm X D) (dt : K) (xOut x1 : X) : LForm X D :=
  let residual := R.labelMap isTD (replaceSubject xOut) drop
  let r := R.labelMap allTerms (replaceSubject x1) keep
  let r := r.labelMap isTD keep (scaleTerm (-dt))
  sub residual r

/-- `BackwardEuler.res`, time_discretisation.py:676-696. -/
def backwardEulerRes (R : LForm X D) (dt : K) (xOut x1 : X) : LForm X D :=
  let residual := R.labelMap allTerms (replaceSubject xOut) keep
  let residual := residual.labelMap isTD keep (scaleTerm dt)
  let r := R.labelMap isTD (replaceSubject x1) drop
  sub residual r

/-- `ThetaMethod.res`, time_discretisation.py:816-836. -/
def thetaRes (R : LForm X D) (dt theta : K) (xOut x1 : X) : LForm X D :=
  let residual := R.labelMap allTerms (replaceSubject xOut) keep
  let residual := residual.labelMap isTD keep (scaleTerm (theta * dt))
  let r := R.labelMap allTerms (replaceSubject x1) keep
  let r := r.labelMap isTD keep (scaleTerm (-(1 - theta) * dt))
  sub residual r

/-- `TrapeziumRule.__init__`, time_discretisation.py:886-907: theta = 0.5. -/
def trapeziumRes (R : LForm X D) (dt : K) (xOut x1 : X) : LForm X D :=
  thetaRes R dt (1 / 2) xOut x1

/-- `TR_BDF2.res` (TR stage), time_discretisation.py:960-981. -/
def trRes (R : LForm X D) (dt gamma : K) (xnpg xn : X) : LForm X D :=
  let residual := R.labelMap allTerms (replaceSubject xnpg) keep
  let residual := residual.labelMap isTD keep (scaleTerm (1 / 2 * gamma * dt))
  let r := R.labelMap allTerms (replaceSubject xn) keep
  let r := r.labelMap isTD keep (scaleTerm (-(1 / 2) * gamma * dt))
  sub residual r

/-- `TR_BDF2.res_bdf2`, time_discretisation.py:984-1010. -/
def bdf2StageRes (R : LForm X D) (dt gamma : K) (xOut xnpg xn : X) : LForm X D :=
  let residual := R.labelMap allTerms (replaceSubject xOut) keep
  let residual := residual.labelMap isTD keep (scaleTerm ((1 - gamma) / (2 - gamma) * dt))
  let fxn := R.labelMap isTD (replaceSubject xn) drop
  let fxnpg := R.labelMap isTD (replaceSubject xnpg) drop
  let r := sub (LForm.smul (1 / (gamma * (2 - gamma))) fxnpg)
    (LForm.smul ((1 - gamma) ^ 2 / (gamma * (2 - gamma))) fxn)
  sub residual r

/-- `TR_BDF2.apply`, time_discretisation.py:1031-1048. -/
def trBdf2Apply (solve : Solver X D) (R : LForm X D) (dt gamma : K) (xIn : X) : X :=
  let xn := xIn
  let xnpg := solve (fun y => (trRes R dt gamma y xn).eval) xIn
  solve (fun y => (bdf2StageRes R dt gamma y xnpg xn).eval) xnpg

/-- `ThetaMethod.apply_cycle`/`BackwardEuler.apply_cycle` (time_discretisation.py:698-714 and
838-853) without physics sources: the guess is the input, the result is the solver's. -/
def implicitCycle (solve : Solver X D) (res : X → X → LForm X D) (xIn : X) : X :=
  solve (fun y => (res y xIn).eval) xIn

/-- `__init__` guards of ThetaMethod (774-775) and TR_BDF2 (946-947): `ValueError` unless the
off-centring parameter lies in [0,1]. [time_discretisation.py] -/
def offCentringAccepted [LT K] [DecidableLT K] (theta : K) : Bool :=
  !(decide (theta < 0) || decide (1 < theta))

/-- `SubcyclingOptions` (gusto/core/configuration.py): the three settings (configuration.py 193-218). -/
structure SubcyclingOptions (K : Type*) where
  fixedSubcycles : Option ℕ := none
  subcycleByCourant : Option K := none
  maxSubcycles : Option ℕ := some 10

/-- `(ncycles, dt)` held by the scheme object (time_discretisation.py 428-452). -/
structure CycleState (K : Type*) where
  ncycles : ℕ
  dt : K

/-- The subcycling part of `ExplicitTimeDiscretisation.setup`, time_discretisation.py:518-526. -/
def setupSubcycling (opts : Option (SubcyclingOptions K)) (dt : K) : CycleState K :=
  match opts.bind (·.fixedSubcycles) with
  | some n => { ncycles := n, dt := dt / n }
  | none => { ncycles := 1, dt := dt }

/-- The subcycling part of `BackwardEuler.setup` and `ThetaMethod.setup`,
time_discretisation.py:664-671 and 804-811: reads `self.fixed_subcycles`, an attribute that is
never set, so a fixed number of subcycles ends in `AttributeError` (`none`). -/
def setupSubcyclingImplicit (opts : Option (SubcyclingOptions K)) (dt : K) :
    Option (CycleState K) :=
  match opts.bind (·.fixedSubcycles) with
  | some _ => none
  | none => some { ncycles := 1, dt := dt }

/-- `update_subcycling`, time_discretisation.py:428-452.  `ceil` is `math.ceil` on the
quotient `courant_max/subcycle_by_courant` (for non-negative Courant numbers). -/
def updateSubcycling [LinearOrder K] [FloorSemiring K] [IsStrictOrderedRing K]
    (opts : Option (SubcyclingOptions K)) (courantMax originalDt : K) (s : CycleState K) :
    CycleState K :=
  match opts with
  | none => s
  | some o =>
    match o.subcycleByCourant with
    | none => s
    | some c =>
      let n := max 1 ⌈courantMax / c⌉₊
      let n := match o.maxSubcycles with
        | some m => if n > m then m else n
        | none => n
      { ncycles := n, dt := originalDt / n }

/-- The loop of `ExplicitTimeDiscretisation.apply` (and BackwardEuler/ThetaMethod.apply),
time_discretisation.py:599-607 (725-732, 864-873): `x0.assign(x_in)`, then `ncycles` times
`apply_cycle(x1, x0); x0.assign(x1)`, finally `x_out.assign(x1)`.  `cycle i x` is the result of
`apply_cycle` on the field `x` with `subcycle_idx = i`.  With `ncycles = 0` the code returns
whatever `x1` holds (`x1init`). -/
def applyLoop (cycle : ℕ → X → X) (ncycles : ℕ) (xIn x1init : X) : X :=
  ((List.range ncycles).foldl (fun (s : X × X) i =>
    let x1 := cycle i s.1
    (x1, x1)) (xIn, x1init)).2

/-- `apply` of an explicit scheme: `update_subcycling`, then the loop.  `cycle dt i x` is one
`apply_cycle` with the timestep held by the scheme (time_discretisation.py 592-607). -/
def apply [LinearOrder K] [FloorSemiring K] [IsStrictOrderedRing K]
    (opts : Option (SubcyclingOptions K)) (domainDt courantMax : K)
    (cycle : K → ℕ → X → X) (xIn x1init : X) : X :=
  let s := updateSubcycling opts courantMax domainDt (setupSubcycling opts domainDt)
  applyLoop (cycle s.dt) s.ncycles xIn x1init

end TimeDisc
end Gusto
