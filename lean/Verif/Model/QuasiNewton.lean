import Verif.Model.FML
import Mathlib.Algebra.Module.Pi
import Mathlib.Algebra.Field.Basic
import Mathlib.Algebra.Order.Field.Basic
import Mathlib.Logic.Function.Iterate

set_option autoImplicit false

/-!
# `timestepping/semi_implicit_quasi_newton.py` and `timestepping/tr_bdf2_quasi_newton.py`

The mixed state is a dependent function from field indices to the space of each field.
Schemes (transport, physics, diffusion) are maps; the forcing right-hand sides are built from the
labelled residual as in the code; the linear solver is described by the equation it solves.
Not modelled: the boundary conditions inside the forcing and linear solves, the consistent
metric term, auxiliary equations, logging, solver parameters.
-/

namespace Gusto.QN
open Gusto LForm

/-! ### Forcing -/
section forcing
variable {K X D : Type*} [Field K] [AddCommGroup D] [Module K D]

/-- `hydrostatic`, `incompressible`, `sponge`, core/labels.py:116-118. -/
def hydrostatic : Label := .named "hydrostatic"
/-- core/labels.py:117. -/
def incompressible : Label := .named "incompressible"
/-- core/labels.py:118. -/
def sponge : Label := .named "sponge"

/-- `any(t.has_label(*implicit_terms))` with `implicit_terms = [incompressible, sponge]`,
semi_implicit_quasi_newton.py:154. -/
def isImplicitTerm (t : Term X D) : Bool := t.has incompressible || t.has sponge

/-- Terms dropped from the forcing, semi_implicit_quasi_newton.py:749-751. -/
def isNotForcing (t : Term X D) : Bool :=
  t.has .transport || t.has .diffusion || t.physIdx.isSome

/-- The predicate of lines 761-763 and 769-772. [semi_implicit_quasi_newton.py] -/
def isExcluded (t : Term X D) : Bool :=
  t.has .timeDerivative || t.has hydrostatic || isImplicitTerm t

/-- `residual` of `Forcing.__init__`, lines 749-751. [semi_implicit_quasi_newton.py] -/
def forcingResidual (R : LForm X D) : LForm X D := R.labelMap isNotForcing drop keep

/-- `L_explicit` of `Forcing.__init__`, lines 760-765 and 783-787. [semi_implicit_quasi_newton.py] -/
def lExplicit (R : LForm X D) (alpha dt : K) (x0 : X) : LForm X D :=
  let residual := forcingResidual R
  let L := LForm.smul (-(1 - alpha) * dt) (residual.labelMap isExcluded drop (replaceSubject x0))
  if residual.any (fun t => t.has hydrostatic) then
    LForm.add L (residual.labelMap (fun t => t.has hydrostatic) (replaceSubject x0) drop)
  else L

/-- `L_implicit` of `Forcing.__init__`, lines 768-780 and 789-792. [semi_implicit_quasi_newton.py] -/
def lImplicit (R : LForm X D) (alpha dt : K) (x0 : X) : LForm X D :=
  let residual := forcingResidual R
  let L := LForm.smul (-alpha * dt) (residual.labelMap isExcluded drop (replaceSubject x0))
  let L := LForm.sub L
    (LForm.smul dt (residual.labelMap isImplicitTerm (replaceSubject x0) drop))
  if residual.any (fun t => t.has hydrostatic) then
    LForm.sub L (residual.labelMap (fun t => t.has hydrostatic) (replaceSubject x0) drop)
  else L

/-- `Forcing.apply`, lines 826-849: `x_out = x_in + xF` where `massSolve` solves the
time-derivative form `a` against the right-hand side. [semi_implicit_quasi_newton.py] -/
def forcingApply [Add X] (massSolve : D → X) (L : X → LForm X D) (xIn xNl : X) : X :=
  xIn + massSolve (L xNl).eval

end forcing

/-! ### The linear solver's equation -/
section linear
variable {ι : Type*} [DecidableEq ι] {K : Type*} [Field K] {V : ι → Type*}
  [∀ i, AddCommGroup (V i)] [∀ i, Module K (V i)]

/-- `QuasiNewtonLinearSolver.__init__`, lines 930-966: row `i` of the bilinear form.  `mass i` is
the linearised time derivative of field `i`; `lin i` collects the linearised semi-implicit terms
of the equation of field `i`, `linImp i` the always-implicit ones; only the rows of solver
prognostics carry them. [semi_implicit_quasi_newton.py] -/
def linearForm (inSolver : ι → Bool) (mass : ∀ i, V i → V i) (lin linImp : ∀ i, (∀ j, V j) → V i)
    (tau : ι → K) (dt : K) (dy : ∀ j, V j) : ∀ i, V i := fun i =>
  if inSolver i then mass i (dy i) + (tau i * dt) • lin i dy + dt • linImp i dy else mass i (dy i)

/-- `zero_non_prognostics`, lines 1000-1015. [semi_implicit_quasi_newton.py] -/
def zeroNonPrognostics (inSolver : ι → Bool) (xrhs : ∀ j, V j) : ∀ i, V i := fun i =>
  if inSolver i then xrhs i else 0

/-- `Leqn` applied to the right-hand side, lines 967-970 and 980-983. [semi_implicit_quasi_newton.py] -/
def linearRhs (inSolver : ι → Bool) (mass : ∀ i, V i → V i) (xrhs : ∀ j, V j) : ∀ i, V i :=
  fun i => mass i (zeroNonPrognostics inSolver xrhs i)

end linear

/-! ### The semi-implicit quasi-Newton timestep -/
section siqn
variable {ι : Type*} [DecidableEq ι] {K : Type*} [Field K] [DecidableEq K] {V : ι → Type*}
  [∀ i, AddCommGroup (V i)] [∀ i, Module K (V i)]

/-- One entry of `active_transport`: the field names it advances and its map, which depends on
the transporting velocity and on the fields of `xstar` (semi_implicit_quasi_newton.py 464-513). -/
structure Transport (V : ι → Type*) (u : ι) where
  fields : List ι
  step : V u → (∀ i, V i) → (∀ i, V i)

/-- The ingredients of `SemiImplicitQuasiNewton` (constructor, lines 38-391). [semi_implicit_quasi_newton.py] -/
structure Siqn (K : Type*) (V : ι → Type*) where
  u : ι
  inSolver : ι → Bool
  numOuter : ℕ
  numInner : ℕ
  accelerator : Bool
  alphaU : K
  beta : K
  slow : List ((∀ i, V i) → ∀ i, V i)
  fast : List ((∀ i, V i) → ∀ i, V i)
  inner : List ((∀ i, V i) → ∀ i, V i)
  final : List ((∀ i, V i) → ∀ i, V i)
  forceE : (∀ i, V i) → ∀ i, V i
  forceI : (∀ i, V i) → ∀ i, V i
  transport : List (Transport V u)
  solve : (∀ i, V i) → ∀ i, V i
  bcs : (∀ i, V i) → ∀ i, V i

/-- `transporting_velocity`, lines 403-408. [semi_implicit_quasi_newton.py] -/
def ubar (m : Siqn K V) (xn xnp1 : ∀ i, V i) : V m.u := xn m.u + m.alphaU • (xnp1 m.u - xn m.u)

/-- The predictor branch of `transport_fields`, lines 490-499: `xstar + field_out - field_in`
with `field_in` the pre-multiplied field. [semi_implicit_quasi_newton.py] -/
def predictorStep {W : Type*} [AddCommGroup W] (premultiply scheme : W → W) (xstar : W) : W :=
  xstar + scheme (premultiply xstar) - premultiply xstar

/-- `transport_fields`, lines 464-513 (without the consistent metric branch): each scheme
overwrites its own fields of `xp`. [semi_implicit_quasi_newton.py] -/
def transportFields {u : ι} (ts : List (Transport V u)) (vel : V u) (xstar xp : ∀ i, V i) :
    ∀ i, V i :=
  ts.foldl (fun xp s => fun i => if i ∈ s.fields then s.step vel xstar i else xp i) xp

/-- A list of physics schemes applied one after the other in place (semi_implicit_quasi_newton.py 590-680). -/
def applyAll {X : Type*} (ss : List (X → X)) (x : X) : X := ss.foldl (fun y s => s y) x

/-- Lines 587-616: slow physics, explicit forcing and explicit inner physics: `xstar`.
[semi_implicit_quasi_newton.py] -/
def xstarOf (m : Siqn K V) (xn : ∀ i, V i) : ∀ i, V i :=
  let afterSlow := applyAll m.slow xn
  let xstar := afterSlow + m.forceE xn
  if m.beta - 1 ≠ 0 then
    m.inner.foldl (fun xs s => xs + (1 - m.beta) • (s xn - xn)) xstar
  else xstar

/-- Lines 639-656: `xrhs` of inner iteration `k` at the current `xnp1 = x`. [semi_implicit_quasi_newton.py] -/
def xrhsOf (m : Siqn K V) (xp phys : ∀ i, V i) (k : ℕ) (x : ∀ i, V i) : ∀ i, V i :=
  let xrhs := xp + m.forceI x + phys
  let xrhs : ∀ i, V i :=
    if k > 0 ∧ m.accelerator then (fun i => if i = m.u then xrhs i else x i) else xrhs
  let xrhs := if m.beta ≠ 0 then
    m.inner.foldl (fun r s => r + m.beta • (s x - x)) xrhs else xrhs
  xrhs - x

/-- One inner iteration, lines 637-666. [semi_implicit_quasi_newton.py] -/
def innerStep (m : Siqn K V) (xp phys : ∀ i, V i) (k : ℕ) (x : ∀ i, V i) : ∀ i, V i :=
  x + m.solve (xrhsOf m xp phys k x)

/-- `copy_active_tracers`, lines 450-462. [semi_implicit_quasi_newton.py] -/
def copyTracers (copied : ι → Bool) (xIn xOut : ∀ i, V i) : ∀ i, V i :=
  fun i => if copied i then xIn i else xOut i

/-- One outer iteration, lines 618-670: the new `(xp, xnp1)`. [semi_implicit_quasi_newton.py] -/
def outerStep (m : Siqn K V) (xn xstar : ∀ i, V i) (s : (∀ i, V i) × (∀ i, V i)) :
    (∀ i, V i) × (∀ i, V i) :=
  let xp := transportFields m.transport (ubar m xn s.2) xstar s.1
  let afterFast := applyAll m.fast xp
  let x := (List.range m.numInner).foldl (fun x k => innerStep m xp (afterFast - xp) k x) s.2
  (xp, m.bcs (copyTracers (fun i => !m.inSolver i) afterFast x))

/-- The outer loop of `timestep`, lines 609-670: starts from `xp = xstar`, `xnp1 = x0`.
[semi_implicit_quasi_newton.py] -/
def outerLoop (m : Siqn K V) (xn x0 : ∀ i, V i) : (∀ i, V i) × (∀ i, V i) :=
  (outerStep m xn (xstarOf m xn))^[m.numOuter] (xstarOf m xn, x0)

/-- `SemiImplicitQuasiNewton.timestep`, lines 563-685; diffusion schemes (lines 677-680) are the
first entries of `final`. [semi_implicit_quasi_newton.py] -/
def timestep (m : Siqn K V) (xn x0 : ∀ i, V i) : ∀ i, V i :=
  applyAll m.final (outerLoop m xn x0).2

end siqn

/-! ### Spin-up and reference profiles -/
section flags
variable {K : Type*}

/-- The off-centring parameters and the two flags, lines 150-161, 228-233. [semi_implicit_quasi_newton.py] -/
structure Spin (K : Type*) where
  alpha : K
  alphaU : K
  begun : Bool := false
  done : Bool := false

/-- Constructor values, lines 150, 156-161 and 228-233. [semi_implicit_quasi_newton.py] -/
def spinInit [Field K] (alpha : K) (offCentredU : Bool) : Spin K where
  alpha := alpha
  alphaU := if offCentredU then alpha else 1 / 2

/-- `start_spinup`/`finish_spinup` (lines 531-561) and the test in `timestep`, lines 580-585.
[semi_implicit_quasi_newton.py] -/
def spinStep [Field K] (alphaOriginal : K) (spinupSteps step : ℕ) (s : Spin K) : Spin K :=
  if step < spinupSteps + 1 ∧ s.begun = false then { s with alpha := 1, begun := true }
  else if step ≥ spinupSteps + 1 ∧ s.done = false then
    { s with alpha := alphaOriginal, done := true }
  else s

/-- State of the reference profile machinery: the time of the last update, the one-off flag, and
the profile itself (semi_implicit_quasi_newton.py 515-529). -/
structure Ref (K X : Type*) where
  last : Option K
  toUpdate : Bool
  profile : X
  solverProfile : X

/-- What `update_reference_profiles` can do; `typeError` is `float > None` (semi_implicit_quasi_newton.py 515-529). -/
inductive RefResult (K X : Type*)
  | ok (updated : Bool) (r : Ref K X)
  | typeError

/-- `update_reference_profiles`, semi_implicit_quasi_newton.py:515-529 and
tr_bdf2_quasi_newton.py:438-454. -/
def updateRef [Add K] [LT K] [DecidableLT K] {X : Type*} (freq : Option K) (t : K) (xn : X)
    (r : Ref K X) : RefResult K X :=
  match freq with
  | some f =>
    match r.last with
    | none => .typeError
    | some l =>
      if t + f > l then
        .ok true { r with last := some t, profile := xn, solverProfile := xn }
      else .ok false r
  | none =>
    if r.toUpdate then .ok true { r with solverProfile := r.profile, toUpdate := false }
    else .ok false r

/-- The preparation in `run`, semi_implicit_quasi_newton.py:697-707 (tr_bdf2: 630-640), followed
by the pick-up in `BaseTimestepper.run` (timestepper.py:215-224), which sets the time of the last
update to what the checkpoint holds.  `none` is the assertion error. -/
def prepareRef [Sub K] {X : Type*} (pickUp initialised : Bool) (freq : Option K) (t dt : K)
    (chkLast : Option K) (r : Ref K X) : Option (Ref K X) :=
  if !pickUp && freq.isNone && !initialised then none
  else
    let r := if !pickUp && freq.isSome then { r with last := some (t - dt) }
      else if !pickUp || (pickUp && freq.isNone) then { r with toUpdate := true }
      else r
    some (if pickUp then { r with last := chkLast } else r)

end flags

/-! ### TR-BDF2 -/
section trbdf2
variable {ι : Type*} [DecidableEq ι] {K : Type*} [Field K] [DecidableEq K] {V : ι → Type*}
  [∀ i, AddCommGroup (V i)] [∀ i, Module K (V i)]

/-- `gamma2`, tr_bdf2_quasi_newton.py:141. -/
def gamma2 (g : K) : K := (1 - 2 * g) / (2 - 2 * g)
/-- `gamma3`, tr_bdf2_quasi_newton.py:142. -/
def gamma3 (g : K) : K := (1 - gamma2 g) / (2 * g)

/-- The ingredients of `TRBDF2QuasiNewton` (constructor, lines 33-341).  `trE`, `trI`, `bdfI` are
the increments `xF` of the forcing objects of lines 326-327.  `copied` are the active tracers
(lines 278-281). [tr_bdf2_quasi_newton.py] -/
structure TrBdf2 (K : Type*) (V : ι → Type*) where
  gamma : K
  u : ι
  copied : ι → Bool
  nOuterTr : ℕ
  nInnerTr : ℕ
  nOuterBdf : ℕ
  nInnerBdf : ℕ
  slow : List ((∀ i, V i) → ∀ i, V i)
  final : List ((∀ i, V i) → ∀ i, V i)
  trE : (∀ i, V i) → ∀ i, V i
  trI : (∀ i, V i) → ∀ i, V i
  bdfI : (∀ i, V i) → ∀ i, V i
  transport : List (Transport V u)
  trSolve : (∀ i, V i) → ∀ i, V i
  bdfSolve : (∀ i, V i) → ∀ i, V i
  bcs : (∀ i, V i) → ∀ i, V i

/-- Inner iteration of either stage, lines 512-533 and 585-604 (always accelerated; fast physics
cannot be used: the constructor raises NotImplementedError, lines 191-197). [tr_bdf2_quasi_newton.py] -/
def trInner (u : ι) (force solve : (∀ i, V i) → ∀ i, V i) (xp : ∀ i, V i) (k : ℕ)
    (x : ∀ i, V i) : ∀ i, V i :=
  let xrhs := xp + force x
  let xrhs : ∀ i, V i := if k > 0 then (fun i => if i = u then xrhs i else x i) else xrhs
  x + solve (xrhs - x)

/-- `update_transporting_velocity`, lines 354-357. [tr_bdf2_quasi_newton.py] -/
def trUbar {u : ι} (uk ukp1 : V u) (factor : K) : V u := (factor * (1 / 2)) • (uk + ukp1)

/-- Outer iteration of the TR stage, lines 493-539. [tr_bdf2_quasi_newton.py] -/
def trOuter (m : TrBdf2 K V) (xn xstar : ∀ i, V i) (s : (∀ i, V i) × (∀ i, V i)) :
    (∀ i, V i) × (∀ i, V i) :=
  let xp := transportFields m.transport (trUbar (xn m.u) (s.2 m.u) (2 * m.gamma)) xstar s.1
  let x := (List.range m.nInnerTr).foldl (fun x k => trInner m.u m.trI m.trSolve xp k x) s.2
  (xp, m.bcs (copyTracers m.copied xp x))

/-- The TR stage, lines 471-539: `xm`. [tr_bdf2_quasi_newton.py] -/
def trStage (m : TrBdf2 K V) (xn : ∀ i, V i) : ∀ i, V i :=
  let xstar := applyAll m.slow xn + m.trE xn
  ((trOuter m xn xstar)^[m.nOuterTr] (xstar, xn)).2

/-- State of the BDF stage's outer loop (tr_bdf2_quasi_newton.py 456-618). -/
structure BdfState (V : ι → Type*) where
  xp : ∀ i, V i
  xpm : ∀ i, V i
  x : ∀ i, V i

/-- Outer iteration of the BDF stage, lines 551-608. [tr_bdf2_quasi_newton.py] -/
def bdfOuter (m : TrBdf2 K V) (xn xm : ∀ i, V i) (s : BdfState V) : BdfState V :=
  let xpm := transportFields m.transport
    (trUbar (s.x m.u) (s.x m.u) (1 - 2 * m.gamma)) xm s.xpm
  let xp := transportFields m.transport (trUbar (s.x m.u) (s.x m.u) (1 : K)) xn s.xp
  let xp := (1 - gamma3 m.gamma) • xp + gamma3 m.gamma • xpm
  let x := (List.range m.nInnerBdf).foldl
    (fun x k => trInner m.u m.bdfI m.bdfSolve xp k x) s.x
  ⟨xp, xpm, m.bcs (copyTracers m.copied xp x)⟩

/-- The BDF stage, lines 543-608: starts from `xp = xn`, `xpm = xm`, `xnp1 = xn`. [tr_bdf2_quasi_newton.py] -/
def bdfStage (m : TrBdf2 K V) (xn xm : ∀ i, V i) : BdfState V :=
  (bdfOuter m xn xm)^[m.nOuterBdf] ⟨xn, xm, xn⟩

/-- `TRBDF2QuasiNewton.timestep`, lines 456-618. [tr_bdf2_quasi_newton.py] -/
def trBdf2Step (m : TrBdf2 K V) (xn : ∀ i, V i) : ∀ i, V i :=
  applyAll m.final (bdfStage m xn (trStage m xn)).x

end trbdf2

end Gusto.QN
