import Verif.Model.ExplicitRK
import Verif.Model.Limiters

set_option autoImplicit false

/-!
# Augmentations

Model of `gusto/spatial_methods/augmentation.py` (interface, `MeanMixingRatio`, and the data flow of
`VorticityTransport`) and of the places where the time discretisations call them:
`wrapper_apply` (time_discretisation.py:33-61), `ThetaMethod.apply` (855-874), the `apply` of the implicit schemes
(718-734), `ExplicitTimeDiscretisation.apply` (593-609) and `ExplicitRungeKutta.apply_cycle` / `solve_stage`
(explicit_runge_kutta.py:349-368, 434-454).

Simplifications: Functions are values; the forms of `VorticityTransport` and its vorticity solve are parameters.
-/

namespace Gusto.Aug

/-! ### The interface and its callers -/

/-- An augmentation of an equation on `U` to a mixed state `X`, augmentation.py:25-62.  `pre u x` is `x_in` after
`pre_apply(u)` if it was `x` before, `post` reads the result from `x_out`, `update y x` is `x_in` after `update(y)`
if it was `x`. -/
structure Augmentation (U X : Type*) where
  pre : U → X → X
  post : X → U
  update : X → X → X
  limit : X → X

/-- `VorticityTransport`, augmentation.py:216-247: `vort` is the vorticity solve. -/
def vorticity {U Z : Type*} (vort : U → Z) : Augmentation U (U × Z) where
  pre u x := (u, x.2)
  post x := x.1
  update y x :=
    let x := (y.1, x.2)
    let z := vort x.1
    (x.1, z)
  limit x := x

variable {U X : Type*}

/-- The loop over the cycles, e.g. time_discretisation.py:728-732, `n` cycles from `x0`. -/
def cycles (step : X → X) : ℕ → X → X
  | 0, x => x
  | n + 1, x => cycles step n (step x)

/-- `ThetaMethod.apply` with an augmentation, time_discretisation.py:39-45, 864-874; `update` gets `x_in` itself.
Returns the output and the new `x_in` of the augmentation. -/
def applyTheta (a : Augmentation U X) (step : X → X) (n : ℕ) (xin : X) (u : U) : U × X :=
  let xin := a.pre u xin
  let xin := a.update xin xin
  let x0 := xin
  let x1 := cycles step n x0
  (a.post x1, xin)

/-- `apply` of the other implicit schemes with an augmentation (`BackwardEuler`, time_discretisation.py:718-734; the
implicit and IMEX Runge-Kutta schemes and `TR_BDF2` likewise): `update` is not called. -/
def applyPlain (a : Augmentation U X) (step : X → X) (n : ℕ) (xin : X) (u : U) : U × X :=
  let xin := a.pre u xin
  let x0 := xin
  let x1 := cycles step n x0
  (a.post x1, xin)

/-- The cycles of an explicit Runge-Kutta scheme, time_discretisation.py:603-609, explicit_runge_kutta.py:443-444:
`update` gets the scheme's own `x0` but changes the `x_in` of the augmentation.  Returns `(x1, x_in)`. -/
def erkCycles (a : Augmentation U X) (cycle : X → X) : ℕ → X → X → X × X
  | 0, x0, xin => (x0, xin)
  | n + 1, x0, xin =>
    let xin := a.update x0 xin
    let x1 := cycle x0
    erkCycles a cycle n x1 xin

/-- `ExplicitTimeDiscretisation.apply` of a Runge-Kutta scheme with an augmentation
(time_discretisation.py 592-607; explicit_runge_kutta.py 434-454). -/
def applyERK (a : Augmentation U X) (cycle : X → X) (n : ℕ) (xin : X) (u : U) : U × X :=
  let xin := a.pre u xin
  let x0 := xin
  let r := erkCycles a cycle n x0 xin
  (a.post r.1, r.2)

/-- The states from which the cycles of a sequence of steps start: the step is applied to the output of the one
before; `first` is the first cycle's starting state of each step
(time_discretisation.py 592-607 called once per step). -/
def starts (ap : X → U → U × X) (first : X → U → X) : ℕ → X → U → List (U × X)
  | 0, _, _ => []
  | n + 1, xin, u =>
    let r := ap xin u
    (u, first xin u) :: starts ap first n r.2 r.1

/-! ### Limiting in the Runge-Kutta schemes -/

variable {K D : Type*} [Field K] [AddCommGroup X] [Module K X] [AddCommGroup D] [Module K D]

/-- The choice of the limiter in the predictor formulation, explicit_runge_kutta.py:352-355, 365-368: every
augmentation has the method `limit` (augmentation.py:55-60). -/
def stageLimiter (augLimit limiter : Option (X → X)) : Option (X → X) :=
  match augLimit with
  | some l => some l
  | none => limiter

/-- `apply_cycle`, explicit_runge_kutta.py:434-454, with an augmentation (`augLimit` is its method `limit`). -/
def applyCycleAug (f : RK.Formulation) (S : RKScheme K X D) (augLimit : Option (X → X)) (ncycles idx : ℕ)
    (st : RKState X) : RKState X :=
  let x0 := RK.limit S st.x0
  let st := { st with x0 := x0, x1 := x0 }
  (List.range S.nStages).foldl
    (match f with
      | .predictor => RK.predStage { S with limiter := stageLimiter augLimit S.limiter } x0
      | .increment => RK.incStage S x0
      | .linear => RK.linStage S ncycles idx x0) st

/-- `apply` of an explicit Runge-Kutta scheme with an augmentation whose `update` does nothing (such as
`MeanMixingRatio`) (time_discretisation.py 592-607 with explicit_runge_kutta.py 434-454; augmentation.py 372-382). -/
def applyRK (f : RK.Formulation) (S : RKScheme K X D) (augLimit : Option (X → X)) (ncycles : ℕ) (st : RKState X)
    (xIn : X) : X :=
  ((List.range ncycles).foldl (fun st idx =>
    let st := applyCycleAug f S augLimit ncycles idx st
    { st with x0 := st.x1 }) { st with x0 := xIn }).x1

/-! ### MeanMixingRatio -/

/-- The loop over the active tracers, augmentation.py:303-312, for one mixing ratio: the indices appended to
`rho_idxs`.  A tracer is its name and the name of its density (or None). -/
def rhoLoop (fieldNames : List String) (mX : String) : List (String × Option String) → Except String (List ℕ)
  | [] => .ok []
  | (name, density) :: rest =>
    if name = mX then
      match density with
      | none => .error "ValueError"
      | some d =>
        if d ∈ fieldNames then
          match rhoLoop fieldNames mX rest with
          | .ok l => .ok (fieldNames.idxOf d :: l)
          | .error e => .error e
        else .error "ValueError"
    else rhoLoop fieldNames mX rest

/-- The loop of `MeanMixingRatio.__init__`, augmentation.py:291-312: `(mX_idxs, rho_idxs)`. -/
def construct (fieldNames : List String) (tracers : List (String × Option String)) :
    List String → Except String (List ℕ × List ℕ)
  | [] => .ok ([], [])
  | mX :: rest =>
    if mX ∈ fieldNames then
      match rhoLoop fieldNames mX tracers with
      | .error e => .error e
      | .ok l =>
        match construct fieldNames tracers rest with
        | .error e => .error e
        | .ok (ms, rs) => .ok (fieldNames.idxOf mX :: ms, l ++ rs)
    else .error "ValueError"

variable {C F : Type*} [Field F] [LinearOrder F]

/-- A mixed Function: the value of field `k` in cell `c` at node `j` of the equispaced DG1 element
(the Functions of augmentation.py 269-341, limited at 384-421). -/
abbrev Mixed (C F : Type*) := ℕ → C → ℕ → F

/-- First loop of `limit`, augmentation.py:397-414: the pairs of field index and clipped mean.  `solve rho m` is the
conservative projection to DG0 with density `rho` on both sides. -/
def meansLoop (solve : (C → ℕ → F) → (C → ℕ → F) → C → F) (x : Mixed C F) :
    List ℕ → List ℕ → Except String (List (ℕ × (C → F)))
  | [], _ => .ok []
  | _ :: _, [] => .error "IndexError"
  | m :: ms, r :: rs =>
    let mean := fun c => max (solve (x r) (x m) c) 0
    match meansLoop solve x ms rs with
    | .error e => .error e
    | .ok l => .ok ((m, mean) :: l)

/-- `MeanMixingRatio.limit`, augmentation.py:381-422, with `MeanLimiter.apply` (limiters.py:319-349) on Functions
that are parts of `x_in_mixed` itself: the blending weights of a cell come from all the fields, then each field is
overwritten.  `n` is the number of nodes of a cell. -/
def mmrLimit (n : ℕ) (solve : (C → ℕ → F) → (C → ℕ → F) → C → F) (ms rs : List ℕ) (x : Mixed C F) :
    Except String (Mixed C F) :=
  match meansLoop solve x ms rs with
  | .error e => .error e
  | .ok l =>
    let lamda := fun c => Limiters.meanLamda n (l.map fun p => (x p.1 c, p.2 c))
    .ok (l.foldl (fun x p => Function.update x p.1 fun c j =>
      (1 - lamda c) * x p.1 c j + lamda c * p.2 c) x)

end Gusto.Aug
