import Verif.Spec.LocalOrder
import Verif.Spec.FML

set_option autoImplicit false

/-!
# Convergence for right-hand sides that are smooth, but not globally Lipschitz continuous

The products in the equations of fluid dynamics are Lipschitz continuous on bounded sets only, and an implicit equation may
then have further solutions far from the state: the solver is only required to find the one near its initial guess.
-/

namespace Gusto.Convergence
open Gusto

variable {E D : Type*} [NormedAddCommGroup E] [NormedSpace ℝ E] [AddCommGroup D]

/-- What is needed of the right-hand side for the order `p`: Lipschitz continuity on bounded sets, and for `p ≥ 2` continuous
derivatives up to the order `p`. -/
structure LocalRHS (f : E → E) (p : ℕ) : Prop where
  lip : LocalLip f
  diff : 2 ≤ p → ContDiff ℝ p f

/-- A solver that finds a root near its initial guess: if there is exactly one at the distance `δ` or less, it returns that
one. -/
def NearbySolver (δ : ℝ) (s : Solver E D) : Prop :=
  ∀ (r : E → D) (guess : E), (∃! x, ‖x - guess‖ ≤ δ ∧ r x = 0) → ‖s r guess - guess‖ ≤ δ ∧ r (s r guess) = 0

end Gusto.Convergence
