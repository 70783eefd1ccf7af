import Mathlib.Algebra.Algebra.Basic
import Mathlib.Algebra.Algebra.Bilinear
import Mathlib.Algebra.Module.Submodule.Basic

set_option autoImplicit false

/-!
# Conservative projection, reversible and conservative recovery

Model of `gusto/core/conservative_projection.py` and `gusto/recovery/reversible_recovery.py`.

Scalar fields are elements of a commutative algebra `A` over the field `K` of real numbers (pointwise
product of functions on the mesh); `int : A →ₗ[K] K` is integration over the domain (`assemble(. * dx)`)
and a function space is a subspace of `A`.  A linear variational solver is a parameter: the theorems
assume that it returns a solution of the variational problem it was built for.  (Vector-valued mixing
ratios are excluded: `m_source - self.m_mean` is a UFL shape error for them.)
-/

namespace Gusto.Projection
variable {K A : Type*} [Field K] [CommRing A] [Algebra K A]

/-- The type and shape checks in `__init__`, conservative_projection.py:51-65.  An argument is `none`
if it is neither a UFL expression nor a Function, else its shape. -/
def initCheck (rhoS rhoT mS : Option (List ℕ)) (mT : List ℕ) : Except String Unit :=
  match rhoS with
  | none => .error "ValueError"
  | some rs =>
    match rhoT with
    | none => .error "ValueError"
    | some rt =>
      match mS with
      | none => .error "ValueError"
      | some ms =>
        if ms ≠ mT then .error "RuntimeError"
        else if rs ≠ rt then .error "RuntimeError"
        else .ok ()

/-- `eqn`, conservative_projection.py:79-80: the functional of the test function that is set to
zero. -/
def eqn (int : A →ₗ[K] K) (rhoS rhoT mS : A) (mean : K) (trial test : A) : K :=
  int (rhoS * (test * (mS - algebraMap K A mean))) - int (rhoT * (test * (trial - algebraMap K A mean)))

/-- The attributes of a `ConservativeProjector` that are not Functions shared with the caller
(conservative_projection.py 26-82). -/
structure Projector (K : Type*) where
  subtractMean : Bool
  mean : K
  volume : K

/-- `__init__`, conservative_projection.py:49, 72-75. -/
def init (int : A →ₗ[K] K) (subtractMean : Bool) : Projector K where
  subtractMean := subtractMean
  mean := 0
  volume := int 1

/-- `project`, conservative_projection.py:84-94: returns the object and the new target.  `solve` is
the LinearVariationalSolver of line 82; it reads the current values of the Functions and of
`m_mean`. -/
def project (int : A →ₗ[K] K) (solve : A → A → A → K → A) (p : Projector K) (rhoS rhoT mS : A) :
    Projector K × A :=
  let p := if p.subtractMean then { p with mean := int mS / p.volume } else p
  (p, solve rhoS rhoT mS p.mean)

/-! ### ReversibleRecoverer -/

/-- The three operators of the constructor (reversible_recovery.py:44-90) available for one of the
transfers: the `Recoverer`, the `Projector` and the interpolation between two spaces. -/
structure Ops (S T : Type*) where
  recover : S → T
  project : S → T
  interpolate : S → T

/-- reversible_recovery.py:47-59, 63-75, 80-90: selection of an operator by its name. -/
def selectOp {S T : Type*} (ops : Ops S T) (method : String) : Except String (S → T) :=
  if method = "recover" then .ok ops.recover
  else if method = "project" then .ok ops.project
  else if method = "interpolate" then .ok ops.interpolate
  else .error "ValueError"

/-- Operators chosen by the constructor (reversible_recovery.py 25-90). -/
structure Chosen (L R H : Type*) where
  recoverer : L → R
  high : R → H
  low : H → L
  injector : L → H

/-- `ReversibleRecoverer.__init__`, reversible_recovery.py:25-90.  The operators of the injection and
of the projection to the low-order space are different objects (boundary method or not). -/
def chooseOps {L R H : Type*} (recoverer : L → R) (highOps : Ops R H) (lowOps : Ops H L)
    (injOps : Ops L H) (highM lowM injM : String) : Except String (Chosen L R H) :=
  match selectOp highOps highM with
  | .error e => .error e
  | .ok high =>
    match selectOp lowOps lowM with
    | .error e => .error e
    | .ok low =>
      match selectOp injOps injM with
      | .error e => .error e
      | .ok injector => .ok ⟨recoverer, high, low, injector⟩

/-- The Functions of a recoverer (reversible_recovery.py:30-35, 122-127). -/
structure Fields (L R H : Type*) where
  low : L
  recovered : R
  recHigh : H
  corrLow : L
  corrHigh : H
  high : H

/-- `ReversibleRecoverer.project`, reversible_recovery.py:92-98, statement by statement. -/
def reversibleProject {L R H : Type*} [Sub L] [Add H] (c : Chosen L R H) (s : Fields L R H) :
    Fields L R H :=
  let s := { s with recovered := c.recoverer s.low }
  let s := { s with recHigh := c.high s.recovered }
  let s := { s with corrLow := c.low s.recHigh }
  let s := { s with corrLow := s.low - s.corrLow }
  let s := { s with corrHigh := c.injector s.corrLow }
  { s with high := s.corrHigh + s.recHigh }

/-! ### ConservativeRecoverer -/

/-- The projectors of a `ConservativeRecoverer`, reversible_recovery.py:139-150: the second one is
called with the densities swapped and `subtract_mean=True`. -/
structure ConsState (K A R : Type*) where
  low : Projector K
  injector : Projector K
  f : Fields A R A

/-- `ConservativeRecoverer.__init__` (reversible_recovery.py 116-150). -/
def consInit {R : Type*} (int : A →ₗ[K] K) (f : Fields A R A) : ConsState K A R where
  low := init int true
  injector := init int false
  f := f

/-- `ConservativeRecoverer.project`, reversible_recovery.py:152-158.  `solveLow`, `solveHigh` are the
solvers of the two conservative projectors; `rhoLow`, `rhoHigh` are `source_density` and
`target_density`. -/
def conservativeProject {R : Type*} (int : A →ₗ[K] K) (recoverer : A → R) (high : R → A)
    (solveLow solveHigh : A → A → A → K → A) (rhoLow rhoHigh : A) (s : ConsState K A R) :
    ConsState K A R :=
  let f := { s.f with recovered := recoverer s.f.low }
  let f := { f with recHigh := high f.recovered }
  let q := project int solveLow s.low rhoHigh rhoLow f.recHigh
  let f := { f with corrLow := q.2 }
  let f := { f with corrLow := f.low - f.corrLow }
  let r := project int solveHigh s.injector rhoLow rhoHigh f.corrLow
  let f := { f with corrHigh := r.2 }
  let f := { f with high := f.corrHigh + f.recHigh }
  { low := q.1, injector := r.1, f := f }

end Gusto.Projection
