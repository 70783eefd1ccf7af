import Verif.Model.FML

set_option autoImplicit false

/-!
# What a labelled residual means

Independent reading of a residual: its mass (time-derivative) part and its remaining part, as
functions of the state.
-/

namespace Gusto.Spec
open Gusto
variable {X D : Type*} [AddCommMonoid D]

/-- Sum of the terms of `R` selected by `p`, all evaluated at the state `x`. -/
def part (p : Term X D → Prop) [DecidablePred p] (R : LForm X D) (x : X) : D :=
  ((R.filter fun t => decide (p t)).map fun t => t.op x).sum

/-- The mass part `M(x)`: the terms labelled as time derivatives. -/
def mass (R : LForm X D) (x : X) : D := part (fun t => Label.timeDerivative ∈ t.labels) R x

/-- The other part `F(x)`: all terms that are not time derivatives.  The equation is
`d/dt M(x) + F(x) = 0`. -/
def rest (R : LForm X D) (x : X) : D := part (fun t => Label.timeDerivative ∉ t.labels) R x

/-- A solver is exact if it returns a root whenever there is exactly one. -/
def ExactSolver (s : Solver X D) : Prop :=
  ∀ (r : X → D) (guess : X), (∃! x, r x = 0) → r (s r guess) = 0

end Gusto.Spec

namespace Gusto.Spec
open Gusto
variable {X D : Type*} [AddCommMonoid D]

/-- The tendency terms that depend on the state (neither mass nor physics-source terms). -/
def restNoSource (R : LForm X D) (x : X) : D :=
  part (fun t => Label.timeDerivative ∉ t.labels ∧ Label.source ∉ t.labels) R x

/-- The physics-source terms, each evaluated at its own scheme's source `S j`. -/
def sourcePart (R : LForm X D) (S : ℕ → X) : D :=
  ((R.filter fun t => decide (Label.timeDerivative ∉ t.labels ∧ Label.source ∈ t.labels)).map
    fun t => t.op (S (t.physIdx.getD 0))).sum

/-- No term is both a time derivative and a physics source. -/
def WellLabelled (R : LForm X D) : Prop :=
  ∀ t ∈ R, Label.timeDerivative ∈ t.labels → Label.source ∉ t.labels

end Gusto.Spec
