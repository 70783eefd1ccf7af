import Verif.Spec.Convergence

set_option autoImplicit false

/-!
# Methods of the first and the second order

A one-step method is a map `φ h x`: the state after one step of length `h` from the state `x`.
-/

namespace Gusto.Convergence

variable {E : Type*} [NormedAddCommGroup E] [NormedSpace ℝ E]

/-- `φ` is stable for the steps up to `H`: two states move apart by at most a factor `1 + c h`. -/
def Stable (φ : ℝ → E → E) (H : ℝ) : Prop :=
  ∃ c, 0 ≤ c ∧ ∀ h, 0 ≤ h → h ≤ H → ∀ x z, ‖φ h x - φ h z‖ ≤ (1 + h * c) * ‖x - z‖

/-- `φ` is a stable method of the first order for `x' = f(x)`: for small steps and bounded states, a step differs from
`x + h f(x)` by `O(h²)`. -/
def FirstOrder (φ : ℝ → E → E) (f : E → E) : Prop :=
  ∃ H, 0 < H ∧ Stable φ H ∧
    ∀ B, ∃ c, 0 ≤ c ∧ ∀ h, 0 ≤ h → h ≤ H → ∀ x, ‖x‖ ≤ B → ‖φ h x - (x + h • f x)‖ ≤ c * h ^ 2

/-- `φ` is a stable method of the second order for `x' = f(x)`, where `f'` is the derivative of `f`: for small steps and bounded
states, a step differs from `x + h f(x) + h²/2 f'(x) f(x)` by `O(h³)`. -/
def SecondOrder (φ : ℝ → E → E) (f : E → E) (f' : E → E →L[ℝ] E) : Prop :=
  ∃ H, 0 < H ∧ Stable φ H ∧
    ∀ B, ∃ c, 0 ≤ c ∧ ∀ h, 0 ≤ h → h ≤ H → ∀ x, ‖x‖ ≤ B →
      ‖φ h x - (x + h • f x + (h ^ 2 / 2) • f' x (f x))‖ ≤ c * h ^ 3

end Gusto.Convergence
