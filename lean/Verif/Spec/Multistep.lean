import Mathlib.Algebra.Polynomial.Derivative
import Mathlib.Algebra.Polynomial.Eval.Degree

set_option autoImplicit false

/-!
# Linear multistep formulae (textbook)

A formula with weights `w 0` (oldest) … `w (n-1)` (newest, at time `t`) and implicit weight `wi`
(at time `t + dt`) for `y' = f`:
`y(t+dt) = y(t) + dt * (wi f(t+dt) + ∑ₖ w k f(t - (n-1-k) dt))`.
-/

namespace Gusto.Spec
open Polynomial Finset

/-- The formula is exact for the polynomial `y`, at every time and for every step. -/
def MultistepExact (wi : ℚ) (w : List ℚ) (y : ℚ[X]) : Prop :=
  ∀ t dt : ℚ, y.eval (t + dt) = y.eval t + dt * (wi * (derivative y).eval (t + dt)
    + ∑ k ∈ range w.length, w.getD k 0 * (derivative y).eval (t - ((w.length : ℚ) - 1 - k) * dt))

/-- The formula has order `p`: it is exact for every polynomial of degree at most `p`. -/
def MultistepOrder (wi : ℚ) (w : List ℚ) (p : ℕ) : Prop :=
  ∀ y : ℚ[X], y.natDegree ≤ p → MultistepExact wi w y

end Gusto.Spec
