import Verif.Spec.Convergence
import Verif.Spec.Collocation

set_option autoImplicit false

/-!
# Quadrature tables and accurate predictors for the deferred correction schemes

The tables are those of the unit interval: the schemes multiply them by the timestep.
-/

namespace Gusto.Convergence
open Finset

variable {E : Type*} [NormedAddCommGroup E] [NormedSpace ℝ E]

/-- The nodes `c 1, …, c n` lie in order in `[0, 1]`; `c 0 = 0` is the start of the step. -/
structure NodesOK (c : ℕ → ℝ) (n : ℕ) : Prop where
  zero : c 0 = 0
  le_one : ∀ m ≤ n, c m ≤ 1
  mono : ∀ m < n, c m ≤ c (m + 1)

/-- Row `m` of the matrix `q` integrates the polynomials of degree less than `p`, given by their values at the nodes, exactly from
the start of the step (zero to node) or from the previous node (node to node) to the node `m + 1`. -/
def IntegratesNodes (z2n : Bool) (c : ℕ → ℝ) (q : ℕ → ℕ → ℝ) (n p : ℕ) : Prop :=
  ∀ m < n, ∀ j < p, ∑ k ∈ range n, q m k * c (k + 1) ^ j
    = (c (m + 1) ^ (j + 1) - (if z2n then 0 else c m) ^ (j + 1)) / (j + 1)

/-- The weights `w` integrate the polynomials of degree less than `s` exactly over the whole step. -/
def IntegratesStep (c w : ℕ → ℝ) (n s : ℕ) : Prop :=
  ∀ j < s, ∑ k ∈ range n, w k * c (k + 1) ^ j = 1 / (j + 1)

/-- Row `m` of the matrix `q` integrates the polynomials of degree at most `l`, given by their values at `0, 1/l, …, 1`, exactly from
`(m - 1)/l` to `m/l`. -/
def IntegratesEquidistant (q : ℕ → ℕ → ℝ) (l : ℕ) : Prop :=
  ∀ m < l, ∀ j ≤ l, ∑ k ∈ range (l + 1), q (m + 1) k * ((k : ℝ) / l) ^ j
    = (((m + 1 : ℕ) / l : ℝ) ^ (j + 1) - ((m : ℝ) / l) ^ (j + 1)) / (j + 1)

/-- `φ` is a stable one-step method whose local error along the trajectory `y` is of the order `h^(b+1)`. -/
def AccurateAlong (φ : ℝ → E → E) (y : ℝ → E) (T : ℝ) (b : ℕ) : Prop :=
  ∃ H C lam, 0 < H ∧ 0 ≤ C ∧ 0 ≤ lam ∧ ∀ k, 0 ≤ k → k ≤ H → ∀ t, 0 ≤ t → t + k ≤ T → ∀ x,
    ‖φ k x - y (t + k)‖ ≤ (1 + k * lam) * ‖x - y t‖ + C * k ^ (b + 1)

/-- The steps of `B` are no larger than a multiple of the timestep, near the solution `y`, whatever the two timesteps up to `h` that it
uses. -/
def ModerateSteps (B : ℝ → ℝ → E → E) (y : ℝ → E) (T : ℝ) : Prop :=
  ∃ H C, 0 < H ∧ 0 ≤ C ∧ ∀ h, 0 ≤ h → h ≤ H → ∀ a k, 0 ≤ a → a ≤ h → 0 ≤ k → k ≤ h → ∀ t, 0 ≤ t → t ≤ T → ∀ x,
    ‖B a k x - x‖ ≤ C * h * (1 + ‖x - y t‖)

end Gusto.Convergence
