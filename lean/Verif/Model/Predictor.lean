import Verif.Model.QuasiNewton

set_option autoImplicit false

/-!
# The divergence predictor of `SemiImplicitQuasiNewton`

The `predictor` option of timestepping/semi_implicit_quasi_newton.py: which entries of the list of active transport schemes
it changes, and what it does to them.  The interpolation of `q * div(u)` into the DG space is a given map `divMul`; the predicted
field is taken to live in that space, so that interpolating `q` alone returns `q`.
-/

namespace Gusto.QN

section predictor
variable {ι : Type*} [DecidableEq ι] {K : Type*} [Field K] [DecidableEq K] {V : ι → Type*}
  [∀ i, AddCommGroup (V i)] [∀ i, Module K (V i)]

/-- An element `(name, scheme)` of `active_transport`: `name` is a list of names for simultaneous transport, or one name
(semi_implicit_quasi_newton.py 236-283 and 476-513). -/
inductive Active (V : ι → Type*) (u : ι)
  | many (names : List ι) (step : V u → (∀ i, V i) → ∀ i, V i)
  | one (name : ι) (step : V u → V name → V name)

/-- `predictor_interpolate`, semi_implicit_quasi_newton.py 371-378: the field times
`1 - (1 - alpha)*dt*div(x.n('u'))`, interpolated into DG. -/
def premultiply {W U : Type*} [AddCommGroup W] [Module K W] (alpha dt : K) (divMul : U → W → W) (un : U) (q : W) : W :=
  q - ((1 - alpha) * dt) • divMul un q

/-- One pass of the loop of `transport_fields`, semi_implicit_quasi_newton.py 476-513 (without the consistent metric branch):
a list of names is transported simultaneously and never compared with the predictor; a single name that equals it takes the
predictor branch. -/
def resolve {u : ι} (pred : Option ι) (alpha dt : K) (divMul : ∀ i, V u → V i → V i) (un : V u) : Active V u → Transport V u
  | .many names step => ⟨names, step⟩
  | .one name step => ⟨[name], fun vel xs => Function.update xs name
      (if pred = some name then predictorStep (premultiply alpha dt (divMul name) un) (step vel) (xs name)
       else step vel (xs name))⟩

/-- The timestepper with its `predictor` option, seen from a step that starts at `xn`
(semi_implicit_quasi_newton.py 371-378 and 464-513). -/
def withPredictor (m : Siqn K V) (active : List (Active V m.u)) (pred : Option ι) (alpha dt : K)
    (divMul : ∀ i, V m.u → V i → V i) (xn : ∀ i, V i) : Siqn K V :=
  { m with transport := active.map (resolve pred alpha dt divMul (xn m.u)) }

/-- `SemiImplicitQuasiNewton.timestep` with the `predictor` option, semi_implicit_quasi_newton.py 563-685. -/
def predictorTimestep (m : Siqn K V) (active : List (Active V m.u)) (pred : Option ι) (alpha dt : K)
    (divMul : ∀ i, V m.u → V i → V i) (xn x0 : ∀ i, V i) : ∀ i, V i :=
  timestep (withPredictor m active pred alpha dt divMul xn) xn x0

/-- The time loop, timestepper.py 226-250, with the off-centring `alpha j` in force in step `j` (spin-up changes it,
semi_implicit_quasi_newton.py 531-561); the rest of the timestepper of step `j` is `m j`, as its forcing and its linear solver
contain `alpha` too. -/
def predictorRun (u : ι) (m : ℕ → Siqn K V) (hu : ∀ j, (m j).u = u) (active : List (Active V u)) (pred : Option ι) (alpha : ℕ → K)
    (dt : K) (divMul : ∀ i, V u → V i → V i) (x : ∀ i, V i) : ℕ → ∀ i, V i
  | 0 => x
  | j + 1 => let y := predictorRun u m hu active pred alpha dt divMul x j
    predictorTimestep (m j) (hu j ▸ active) pred (alpha j) dt (fun i => hu j ▸ divMul i) y y

end predictor
end Gusto.QN
