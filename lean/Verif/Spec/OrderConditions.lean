import Mathlib.Algebra.BigOperators.Group.Finset.Basic
import Mathlib.Algebra.Field.Rat

set_option autoImplicit false

/-!
# Classical order conditions (Butcher) for a tableau `(a, b)` with `s` stages, `c_i = Σ_j a_ij`.
`residuals p` lists (left side - right side) of all the conditions of order at most `p ≤ 4`.
-/

namespace Gusto.Spec
open Finset

variable (a : ℕ → ℕ → ℚ) (b : ℕ → ℚ) (s : ℕ)

def nodes (i : ℕ) : ℚ := ∑ j ∈ range s, a i j

def ocOrder1 : List ℚ := [(∑ i ∈ range s, b i) - 1]
def ocOrder2 : List ℚ := [(∑ i ∈ range s, b i * nodes a s i) - 1 / 2]
def ocOrder3 : List ℚ :=
  [(∑ i ∈ range s, b i * nodes a s i ^ 2) - 1 / 3,
   (∑ i ∈ range s, ∑ j ∈ range s, b i * a i j * nodes a s j) - 1 / 6]
def ocOrder4 : List ℚ :=
  [(∑ i ∈ range s, b i * nodes a s i ^ 3) - 1 / 4,
   (∑ i ∈ range s, ∑ j ∈ range s, b i * nodes a s i * a i j * nodes a s j) - 1 / 8,
   (∑ i ∈ range s, ∑ j ∈ range s, b i * a i j * nodes a s j ^ 2) - 1 / 12,
   (∑ i ∈ range s, ∑ j ∈ range s, ∑ k ∈ range s, b i * a i j * a j k * nodes a s k) - 1 / 24]

/-- All condition residuals up to order `p` (`p ≤ 4`). -/
def ocUpTo (p : ℕ) : List ℚ :=
  (if 1 ≤ p then ocOrder1 b s else []) ++ (if 2 ≤ p then ocOrder2 a b s else [])
    ++ (if 3 ≤ p then ocOrder3 a b s else []) ++ (if 4 ≤ p then ocOrder4 a b s else [])

/-- The method has (at least) order `p`, up to an error `tol` in each condition. -/
def HasOrder (p : ℕ) (tol : ℚ) : Prop := ∀ r ∈ ocUpTo a b s p, |r| ≤ tol

/-- A square explicit tableau stored the gusto way has zero entries right of the diagonal:
row `i` only uses stages `0..i`. -/
def LowerTriangular (A : ℕ → ℕ → ℚ) (s : ℕ) : Prop := ∀ i < s, ∀ j < s, i < j → A i j = 0

end Gusto.Spec
