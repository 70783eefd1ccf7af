import Verif.Model.TimeDisc

set_option autoImplicit false

/-!
# `gusto/time_discretisation/explicit_runge_kutta.py`

The three formulations of an explicit Runge-Kutta scheme, with limiter, physics sources and
subcycling.  Not modelled: wrappers, augmentation (so `augmentation.update/limit` are absent),
boundary conditions (C142, C143), and the mixed-space `split_form` of the all-but-last form.
Python lists of Functions become functions `ℕ → X` updated with `Function.update`.
-/

namespace Gusto
open LForm TimeDisc
variable {K X D : Type*} [Field K] [AddCommGroup X] [Module K X] [AddCommGroup D] [Module K D]

/-- The settings held by the scheme object (`__init__`, explicit_runge_kutta.py:89-127, and
`setup`).  `evals j x dt` is the value that the `evaluate` method of the `j`-th physics scheme
writes into that scheme's `source` Function; `nphys = len(evaluate_source)`. -/
structure RKScheme (K X D : Type*) where
  R : LForm X D
  A : ℕ → ℕ → K
  nStages : ℕ
  dt : K
  originalDt : K
  limiter : Option (X → X)
  nphys : ℕ
  evals : ℕ → X → K → X
  solve : Solver X D

/-- The mutable Functions held by the scheme (`setup`, 129-150; base setup). [explicit_runge_kutta.py] -/
structure RKState (X : Type*) where
  x0 : X
  x1 : X
  xOut : X
  src : ℕ → X
  k : ℕ → X
  field : ℕ → X
  source : ℕ → X
  fieldLhs : ℕ → X
  fieldRhs : X

namespace RK

/-- `t.has_label(source_label)` (explicit_runge_kutta.py 211, 240, 260). -/
def isSource (t : Term X D) : Bool := t.has .source

/-- The subject of a source term is the `source` Function of its physics scheme, which `evaluate`
overwrites in place (physics_parametrisation.py:115-117,138-159): before a residual is assembled,
source terms therefore refer to the current contents `src`. -/
def withSources (src : ℕ → X) (R : LForm X D) : LForm X D :=
  R.labelMap isSource (fun t => replaceSubject (src (t.physIdx.getD 0)) t) keep

/-- `if self.limiter is not None: self.limiter.apply(x)`
(explicit_runge_kutta.py 328-329, 342-343, 354-355, 367-368, 393-394, 418-419, 426-427, 447-448). -/
def limit (S : RKScheme K X D) (x : X) : X :=
  match S.limiter with
  | none => x
  | some L => L x

/-- `for evaluate in self.evaluate_source: evaluate(x, dt)` (explicit_runge_kutta.py 327, 392, 417). -/
def evalSources (S : RKScheme K X D) (x : X) (dt : K) (src : ℕ → X) : ℕ → X :=
  fun j => if j < S.nphys then S.evals j x dt else src j

/-- `for evaluate in self.evaluate_source: evaluate(x, dt, x_out=out)`: every scheme assigns its
own source to the same output Function, so the last one wins (explicit_runge_kutta.py 358). -/
def evalSourcesInto (S : RKScheme K X D) (x : X) (dt : K) (out : X) : X :=
  (List.range S.nphys).foldl (fun _ j => S.evals j x dt) out

/-- `res` for the increment formulation, explicit_runge_kutta.py:205-230. -/
def incRes (K : Type*) [Field K] [Module K D] (R : LForm X D) (xOut x1 : X) : LForm X D :=
  let residual := R.labelMap isTD (replaceSubject xOut) drop
  let r := R.labelMap (fun t => !isSource t) (replaceSubject x1) keep
  let residual := add residual (r.labelMap isTD drop keep)
  if r.length = 0 then
    add residual (LForm.smul (0 : K) (R.labelMap isTD keep drop))
  else residual

/-- `res[stage]` for the predictor formulation, explicit_runge_kutta.py:232-267; `y` is the
unknown `field_i[stage+1]`. -/
def predRes (R : LForm X D) (A : ℕ → ℕ → K) (dt : K) (stage : ℕ) (field source : ℕ → X)
    (y : X) : LForm X D :=
  let residual := R.labelMap isTD (replaceSubject y) drop
  let r := R.labelMap (fun t => !isSource t) (replaceSubject (field 0)) drop
  let residual := sub residual (r.labelMap isTD keep (scaleTerm (-(A stage 0) * dt)))
  let residual := (List.range' 1 stage).foldl (fun residual i =>
    let ri := R.labelMap (fun t => isTD t || isSource t) drop (replaceSubject (field i))
    add residual (LForm.smul (A stage i * dt) ri)) residual
  (List.range (stage + 1)).foldl (fun residual i =>
    let rs := R.labelMap isSource (replaceSubject (source i)) drop
    add residual (LForm.smul (A stage i * dt) rs)) residual

/-- Replace the form of a term by the form in its `all_but_last` label,
explicit_runge_kutta.py:295-300 (`KeyError` cannot occur: the label is present). -/
def toAllButLast (t : Term X D) : LForm X D :=
  match t.getForm .allButLast with
  | some f => [{ t with op := f }]
  | none => [t]

/-- `res` for the linear formulation, explicit_runge_kutta.py:269-313, second component (last
stage) when `last`, first component (all-but-last) otherwise; `y` is the unknown `x1`. -/
def linRes (R : LForm X D) (dt : K) (last : Bool) (x0 fieldRhs y : X) : LForm X D :=
  let timeTerm := R.labelMap isTD (replaceSubject y) drop
  let R' := if last then R else R.labelMap (fun t => t.has .allButLast) toAllButLast keep
  let r := R'.labelMap isTD (replaceSubject x0) (replaceSubject fieldRhs)
  let r := r.labelMap isTD keep (scaleTerm (-dt))
  sub timeTerm r

/-- `solve_stage`, increment formulation, explicit_runge_kutta.py:322-344. -/
def incStage (S : RKScheme K X D) (x0 : X) (st : RKState X) (stage : ℕ) : RKState X :=
  let x1 := (List.range stage).foldl
    (fun x i => x + (S.dt * S.A (stage - 1) i) • st.k i) x0
  let src := evalSources S x1 S.dt st.src
  let x1 := limit S x1
  let guess := if stage > 0 then st.k (stage - 1) else st.xOut
  let xOut := S.solve (fun y => (incRes K (withSources src S.R) y x1).eval) guess
  let k := Function.update st.k stage xOut
  let x1 := if stage = S.nStages - 1 then
      limit S ((List.range S.nStages).foldl (fun x i => x + (S.dt * S.A stage i) • k i) x0)
    else x1
  { st with x1 := x1, src := src, xOut := xOut, k := k }

/-- `solve_stage`, predictor formulation, explicit_runge_kutta.py:346-369. -/
def predStage (S : RKScheme K X D) (x0 : X) (st : RKState X) (stage : ℕ) : RKState X :=
  let field := if stage = 0 then Function.update st.field 0 x0 else st.field
  let guess := field stage
  let field := Function.update field stage (limit S (field stage))
  let source := Function.update st.source stage
    (evalSourcesInto S (field stage) S.dt (st.source stage))
  let src := evalSources S (field stage) S.dt st.src
  let y := S.solve (fun y => (predRes S.R S.A S.dt stage field source y).eval) guess
  let field := Function.update field (stage + 1) y
  let x1 := if stage = S.nStages - 1 then limit S (field (stage + 1)) else st.x1
  { st with x1 := x1, src := src, field := field, source := source }

/-- `solve_stage`, linear formulation, explicit_runge_kutta.py:371-427; `idx = subcycle_idx`. -/
def linStage (S : RKScheme K X D) (ncycles idx : ℕ) (x0 : X) (st : RKState X) (stage : ℕ) :
    RKState X :=
  let cs := S.nStages * idx + stage
  let fieldLhs := if stage = 0 ∧ idx = 0 then Function.update (fun _ => (0 : X)) 0 x0
    else st.fieldLhs
  if cs + 1 < ncycles * S.nStages then
    let rhs := (List.range (stage + 1)).foldl
      (fun a i => a + S.A stage i • fieldLhs (S.nStages * idx + i)) (0 : X)
    let src := evalSources S rhs S.dt st.src
    let rhs := limit S rhs
    let x1 := S.solve (fun y => (linRes S.R S.dt false x0 rhs y).eval) (fieldLhs cs)
    { st with x1 := x1, src := src, fieldRhs := rhs,
              fieldLhs := Function.update fieldLhs (cs + 1) x1 }
  else
    let rhs := (List.range (ncycles * S.nStages)).foldl
      (fun a i => a + S.A (S.nStages - 1) (i % S.nStages) • fieldLhs i) (0 : X)
    let src := evalSources S rhs S.originalDt st.src
    let rhs := limit S rhs
    let x1 := S.solve (fun y => (linRes S.R S.dt true x0 rhs y).eval) x0
    { st with x1 := limit S x1, src := src, fieldRhs := rhs, fieldLhs := fieldLhs }

/-- `RungeKuttaFormulation`, explicit_runge_kutta.py:23-44. -/
inductive Formulation | increment | predictor | linear
  deriving DecidableEq

/-- `solve_stage`, explicit_runge_kutta.py:320-432. -/
def solveStage (f : Formulation) (S : RKScheme K X D) (ncycles idx : ℕ) (x0 : X)
    (st : RKState X) (stage : ℕ) : RKState X :=
  match f with
  | .increment => incStage S x0 st stage
  | .predictor => predStage S x0 st stage
  | .linear => linStage S ncycles idx x0 st stage

/-- `apply_cycle(self.x1, self.x0)`, explicit_runge_kutta.py:434-454.  The limiter acts in place
on `x_in`, which is the scheme's own `x0`. -/
def applyCycle (f : Formulation) (S : RKScheme K X D) (ncycles idx : ℕ) (st : RKState X) :
    RKState X :=
  let x0 := limit S st.x0
  let st := { st with x0 := x0, x1 := x0 }
  (List.range S.nStages).foldl (solveStage f S ncycles idx x0) st

/-- `ExplicitTimeDiscretisation.apply` for a Runge-Kutta scheme,
time_discretisation.py:592-607 with explicit_runge_kutta.py:434-454. -/
def apply (f : Formulation) (S : RKScheme K X D) (ncycles : ℕ) (st : RKState X) (xIn : X) : X :=
  ((List.range ncycles).foldl (fun st idx =>
    let st := applyCycle f S ncycles idx st
    { st with x0 := st.x1 }) { st with x0 := xIn }).x1

end RK
end Gusto
