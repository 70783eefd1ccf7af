import Verif.Model.QuasiNewton
import Mathlib.Logic.Function.Basic

set_option autoImplicit false

/-!
# The consistent metric term of the quasi-Newton timesteppers

The branch of `transport_fields` which transports a height field first and corrects the wind which transports the potential
temperature (semi_implicit_quasi_newton.py:242-267, 380-391, 432-437, 464-513; tr_bdf2_quasi_newton.py:219-244, 333-341, 374-379,
404-436).  Functions of the transporting schemes and of finite element interpolation and projection are maps.
-/

namespace Gusto.ConsistentMetric
open Gusto

section
variable {ι : Type*} [DecidableEq ι] {K : Type*} [Field K] {V : ι → Type*}
  [∀ i, AddCommGroup (V i)] [∀ i, Module K (V i)] {S W : Type*} [AddCommGroup S] [Module K S] [AddCommGroup W] [Module K W]

/-- An entry of `active_transport` (semi_implicit_quasi_newton.py 269-295): a field with the map of its scheme, or a list of
fields transported simultaneously, the scheme acting on the mixed function.  The first argument is the transporting velocity. -/
inductive Entry (V : ι → Type*) (u : ι) where
  | one (i : ι) (step : V u → V i → V i)
  | many (l : List ι) (step : V u → (∀ i, V i) → (∀ i, V i))

/-- What `transport_fields` reads of the timestepper (semi_implicit_quasi_newton.py 144-161, 261-267, 370-391).  `W` holds the vector
expressions, `S` the scalar ones: `emb` reads a velocity as an expression, `dotk` is the product with the vertical vector, `kmul`
multiplies it by a scalar, `interp` interpolates into the theta space, `project` is `Projector(...).project()` (with the boundary
conditions), `premultiply` the interpolation of the predictor, `height` the interpolation of the vertical coordinate. -/
structure Metric (K : Type*) (V : ι → Type*) (S W : Type*) where
  u : ι
  z : ι
  theta : ι
  consistent : Bool
  predictor : Option ι
  dt : K
  height : V z
  interp : V z → S
  emb : V u → W
  dotk : W → S
  kmul : S → W
  project : W → V u
  premultiply : ∀ i, V i → V i

/-- The fields changed by `transport_fields`: `xstar`, `xp`, `adv_z`, `consistent_wind` (semi_implicit_quasi_newton.py 464-513). -/
structure State (V : ι → Type*) (u : ι) (S : Type*) where
  xstar : ∀ i, V i
  xp : ∀ i, V i
  advZ : S
  wind : V u

/-- The expression projected into `consistent_wind`: `ubar + k*(dot(ubar, k) - adv_z)` (semi_implicit_quasi_newton.py 388). -/
def windExpr (m : Metric K V S W) (ubar : V m.u) (adv : S) : W :=
  m.emb ubar + m.kmul (m.dotk (m.emb ubar) - adv)

/-- The transporting velocity `setup_scheme` puts into the scheme of a single field (semi_implicit_quasi_newton.py 434-439): the
`consistent_wind` function, read when the scheme is applied, for theta; `transporting_velocity` for the others. -/
def schemeWind (m : Metric K V S W) (ubar wind : V m.u) (i : ι) : V m.u :=
  if m.consistent && decide (i = m.theta) then wind else ubar

/-- `scheme.apply(xp(name), xstar(name))` of the three branches for a single field, given the velocity
(semi_implicit_quasi_newton.py 489-513). -/
def applyOne (m : Metric K V S W) (i : ι) (step : V m.u → V i → V i) (w : V m.u) (xstar : ∀ i, V i) : V i :=
  if m.predictor = some i then xstar i + step w (m.premultiply i (xstar i)) - m.premultiply i (xstar i)
  else step w (xstar i)

/-- One pass of the loop of `transport_fields` (semi_implicit_quasi_newton.py 476-513).  A list of fields keeps the standard
velocity: `field_name == 'theta'` is false for a list (line 436). -/
def entryStep (m : Metric K V S W) (ubar : V m.u) (s : State V m.u S) : Entry V m.u → State V m.u S
  | .many l step => { s with xp := fun i => if i ∈ l then step ubar s.xstar i else s.xp i }
  | .one i step =>
    if m.predictor ≠ some i ∧ m.consistent = true ∧ i = m.z then
      let xstar := Function.update s.xstar m.z m.height
      let xp := Function.update s.xp i (applyOne m i step (schemeWind m ubar s.wind i) xstar)
      let adv := m.interp (m.dt⁻¹ • (xstar m.z - xp m.z))
      { xstar := xstar, xp := xp, advZ := adv, wind := m.project (windExpr m ubar adv) }
    else { s with xp := Function.update s.xp i (applyOne m i step (schemeWind m ubar s.wind i) s.xstar) }

/-- `SemiImplicitQuasiNewton.transport_fields` (semi_implicit_quasi_newton.py 464-513). -/
def transportFields (m : Metric K V S W) (ts : List (Entry V m.u)) (ubar : V m.u) (s : State V m.u S) : State V m.u S :=
  ts.foldl (entryStep m ubar) s

/-- The fields of an entry (semi_implicit_quasi_newton.py 476-487). -/
def Entry.fields {u : ι} : Entry V u → List ι
  | .one i _ => [i]
  | .many l _ => l

/-- One outer iteration (semi_implicit_quasi_newton.py 618-670) of a timestepper with the consistent metric term: as
`QN.outerStep`, with the state of `transport_fields` kept between the calls. -/
def outerStep [DecidableEq K] (m : Metric K V S W) (ts : List (Entry V m.u)) (q : QN.Siqn K V) (hu : q.u = m.u) (xn : ∀ i, V i)
    (s : State V m.u S × (∀ i, V i)) : State V m.u S × (∀ i, V i) :=
  let t := transportFields m ts (hu ▸ QN.ubar q xn s.2) s.1
  let afterFast := QN.applyAll q.fast t.xp
  let x := (List.range q.numInner).foldl (fun x k => QN.innerStep q t.xp (afterFast - t.xp) k x) s.2
  (t, q.bcs (QN.copyTracers (fun i => !q.inSolver i) afterFast x))

/-- `SemiImplicitQuasiNewton.timestep` with the consistent metric term (semi_implicit_quasi_newton.py 563-685); `adv`, `w` are the
values left in `adv_z` and `consistent_wind` by the last timestep. -/
def timestep [DecidableEq K] (m : Metric K V S W) (ts : List (Entry V m.u)) (q : QN.Siqn K V) (hu : q.u = m.u) (adv : S) (w : V m.u)
    (xn x0 : ∀ i, V i) : ∀ i, V i :=
  QN.applyAll q.final
    ((outerStep m ts q hu xn)^[q.numOuter] (⟨QN.xstarOf q xn, QN.xstarOf q xn, adv, w⟩, x0)).2

/-- Python's AttributeError (tr_bdf2_quasi_newton.py 427). -/
inductive Err where
  | attribute
  deriving DecidableEq, Repr

/-- One pass of the loop of `TRBDF2QuasiNewton.transport_fields` (tr_bdf2_quasi_newton.py 417-436).  `trueAdvZ` says whether the
object has the attribute `true_adv_z_projection` read on line 427: no line of the class, or of its parents, sets it. -/
def trEntry (m : Metric K V S W) (trueAdvZ : Bool) (factor : K) (ubar : V m.u) (s : State V m.u S) (i : ι)
    (step : V m.u → V i → V i) : Except Err (State V m.u S) :=
  if m.consistent = true ∧ i = m.z then
    if trueAdvZ then
      let xstar := Function.update s.xstar m.z m.height
      let xp := Function.update s.xp i (step (schemeWind m ubar s.wind i) (xstar i))
      let adv := m.interp ((m.dt * factor)⁻¹ • (xstar m.z - xp m.z))
      .ok { xstar := xstar, xp := xp, advZ := adv, wind := m.project (windExpr m ubar adv) }
    else .error .attribute
  else .ok { s with xp := Function.update s.xp i (step (schemeWind m ubar s.wind i) (s.xstar i)) }

/-- `TRBDF2QuasiNewton.transport_fields` (tr_bdf2_quasi_newton.py 404-436). -/
def trTransport (m : Metric K V S W) (trueAdvZ : Bool) (factor : K) (ubar : V m.u) :
    List ((i : ι) × (V m.u → V i → V i)) → State V m.u S → Except Err (State V m.u S)
  | [], s => .ok s
  | e :: es, s =>
    match trEntry m trueAdvZ factor ubar s e.1 e.2 with
    | .error err => .error err
    | .ok s' => trTransport m trueAdvZ factor ubar es s'

end

end Gusto.ConsistentMetric
