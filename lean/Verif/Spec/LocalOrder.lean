import Verif.Spec.Convergence
import Mathlib.Topology.Order.LeftRightNhds

set_option autoImplicit false

/-!
# Families of maps depending on a timestep, on bounded sets

Like `Stable`, `FirstOrder` and `SecondOrder` of `Spec/Splitting.lean`, but all the constants may depend on a bound of the
states: quadratic terms, such as the transport of the wind by itself, are Lipschitz continuous on bounded sets only.
`∀ᶠ h in 𝓝[≥] 0` reads "for all small enough `h ≥ 0`".
-/

namespace Gusto.Convergence
open Topology Filter

variable {E F : Type*} [NormedAddCommGroup E] [NormedSpace ℝ E] [NormedAddCommGroup F] [NormedSpace ℝ F]

/-- The maps `q h` are bounded and Lipschitz continuous on every bounded set, uniformly in small `h`. -/
def UL (q : ℝ → E → F) : Prop :=
  ∀ B : ℝ, ∃ c : ℝ, 0 ≤ c ∧ ∀ᶠ h in 𝓝[≥] (0 : ℝ), ∀ x z, ‖x‖ ≤ B → ‖z‖ ≤ B →
    ‖q h x‖ ≤ c ∧ ‖q h x - q h z‖ ≤ c * ‖x - z‖

/-- `q h` and `r h` differ by `O(h^p)` on every bounded set. -/
def Near (p : ℕ) (q r : ℝ → E → F) : Prop :=
  ∀ B : ℝ, ∃ c : ℝ, 0 ≤ c ∧ ∀ᶠ h in 𝓝[≥] (0 : ℝ), ∀ x, ‖x‖ ≤ B → ‖q h x - r h x‖ ≤ c * h ^ p

/-- A step of `φ` adds `h` times a family that is Lipschitz continuous on bounded sets and differs from `a h` by `O(h^p)`:
for `a h = f` and `p = 1` a method of the first order for `x' = f(x)`, for `a h = f + h/2 f' f` and `p = 2` one of the second. -/
def StepOf (p : ℕ) (φ : ℝ → E → E) (a : ℝ → E → E) : Prop :=
  ∃ q : ℝ → E → E, UL q ∧ Near p q a ∧ ∀ᶠ h in 𝓝[≥] (0 : ℝ), ∀ x, φ h x = x + h • q h x

/-- `f` is bounded and Lipschitz continuous on bounded sets. -/
def LocalLip (f : E → F) : Prop :=
  ∀ B : ℝ, ∃ c : ℝ, 0 ≤ c ∧ ∀ x z, ‖x‖ ≤ B → ‖z‖ ≤ B → ‖f x - f z‖ ≤ c * ‖x - z‖

/-- `f'` is the derivative of `f`, and is Lipschitz continuous on bounded sets. -/
structure LocalSmooth (f : E → F) (f' : E → E →L[ℝ] F) : Prop where
  deriv : ∀ x, HasFDerivAt f (f' x) x
  lip : LocalLip f'

end Gusto.Convergence
