import Mathlib.Algebra.Module.Basic
import Mathlib.Algebra.BigOperators.Group.Finset.Basic
import Mathlib.Algebra.Module.BigOperators
import Mathlib.Algebra.BigOperators.Fin

set_option autoImplicit false

/-!
# Textbook Runge-Kutta methods
-/

namespace Gusto.Spec
open Finset
variable {K X : Type*} [Field K] [AddCommGroup X] [Module K X]

/-- `y` is the result of one step of the explicit Runge-Kutta method with strictly lower
triangular matrix `a` and weights `b` for `x' = f(x)` from `x`:
`k_i = f(x + dt Σ_{j<i} a_ij k_j)`, `y = x + dt Σ_j b_j k_j`. -/
def IsRKStep (a : ℕ → ℕ → K) (b : ℕ → K) (s : ℕ) (f : X → X) (dt : K) (x y : X) : Prop :=
  ∃ k : ℕ → X, (∀ i < s, k i = f (x + dt • ∑ j ∈ range i, a i j • k j)) ∧
    y = x + dt • ∑ j ∈ range s, b j • k j

/-- gusto stores an explicit tableau as one square matrix: row `i` holds the coefficients of
stage `i+1`, the last row holds the weights. -/
def stageCoeffs (A : ℕ → ℕ → K) : ℕ → ℕ → K := fun i j => A (i - 1) j
def weights (A : ℕ → ℕ → K) (s : ℕ) : ℕ → K := fun j => A (s - 1) j

/-- The result of a Runge-Kutta step is determined. -/
theorem IsRKStep.unique {a : ℕ → ℕ → K} {b : ℕ → K} {s : ℕ} {f : X → X} {dt : K} {x y y' : X}
    (h : IsRKStep a b s f dt x y) (h' : IsRKStep a b s f dt x y') : y = y' := by
  obtain ⟨k, hk, rfl⟩ := h
  obtain ⟨k', hk', rfl⟩ := h'
  have : ∀ i < s, k i = k' i := by
    intro i
    induction i using Nat.strong_induction_on with
    | _ i ih =>
      intro hi
      rw [hk i hi, hk' i hi]
      congr 3
      apply sum_congr rfl
      intro j hj
      rw [ih j (mem_range.1 hj) ((mem_range.1 hj).trans hi)]
  congr 2
  apply sum_congr rfl
  intro j hj
  rw [this j (mem_range.1 hj)]

/-- The stage tendencies of an explicit Runge-Kutta method, computed one after another. -/
def rkK (a : ℕ → ℕ → K) (f : X → X) (dt : K) (x : X) (i : ℕ) : X :=
  f (x + dt • ∑ j : Fin i, a i j • rkK a f dt x j)
termination_by i
decreasing_by exact j.2

/-- One step of the explicit Runge-Kutta method as a function. -/
def rkStep (a : ℕ → ℕ → K) (b : ℕ → K) (s : ℕ) (f : X → X) (dt : K) (x : X) : X :=
  x + dt • ∑ j ∈ range s, b j • rkK a f dt x j

theorem rkStep_isRKStep (a : ℕ → ℕ → K) (b : ℕ → K) (s : ℕ) (f : X → X) (dt : K) (x : X) :
    IsRKStep a b s f dt x (rkStep a b s f dt x) := by
  refine ⟨rkK a f dt x, fun i _ => ?_, rfl⟩
  rw [rkK, Finset.sum_range]

end Gusto.Spec
