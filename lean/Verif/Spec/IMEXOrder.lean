import Mathlib.Algebra.BigOperators.Group.Finset.Basic
import Mathlib.Data.Real.Basic

set_option autoImplicit false

/-!
# Order conditions of additive (implicit-explicit) Runge-Kutta methods

`A ν` and `b ν` are the table and weights of part `ν` (`true` = implicit, `false` = explicit).
For order `p ≤ 3` the conditions are those of the single parts plus all coupling conditions.
-/

namespace Gusto.Spec
open Finset

variable (A : Bool → ℕ → ℕ → ℝ) (b : Bool → ℕ → ℝ) (s : ℕ)

/-- abscissae of part `ν` -/
def absc (ν : Bool) (i : ℕ) : ℝ := ∑ j ∈ range s, A ν i j

def AdditiveOrder1 : Prop := ∀ ν, ∑ i ∈ range s, b ν i = 1
def AdditiveOrder2 : Prop :=
  AdditiveOrder1 b s ∧ ∀ ν μ, ∑ i ∈ range s, b ν i * absc A s μ i = 1 / 2
def AdditiveOrder3 : Prop :=
  AdditiveOrder2 A b s ∧
    (∀ ν μ κ, ∑ i ∈ range s, b ν i * absc A s μ i * absc A s κ i = 1 / 3) ∧
    (∀ ν μ κ, ∑ i ∈ range s, ∑ j ∈ range s, b ν i * A μ i j * absc A s κ j = 1 / 6)

/-- Both parts evaluate stage `i` at the same abscissa. -/
def MatchingRowSums : Prop := ∀ i < s, absc A s true i = absc A s false i

/-- The implicit table is lower triangular, the explicit table strictly lower triangular. -/
def IMEXTriangular : Prop :=
  (∀ i < s, ∀ j < s, i < j → A true i j = 0) ∧ (∀ i < s, ∀ j < s, i ≤ j → A false i j = 0)

end Gusto.Spec
