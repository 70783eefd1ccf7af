import Mathlib.Algebra.Order.Field.Basic
import Mathlib.Algebra.BigOperators.Group.List.Basic
import Mathlib.Algebra.BigOperators.Group.Finset.Basic

set_option autoImplicit false

/-! # Specification: averages and polynomial spaces of the recovery operators (C30-C32) -/

namespace Gusto.Spec.Recovery
variable {K : Type*} [Field K] {ι : Type*} [DecidableEq ι]

/-- The values of a broken field at all the local degrees of freedom that sit at the continuous degree
of freedom `x`. -/
def coinciding (n : ℕ) (cells : List ((ℕ → ι) × (ℕ → K))) (x : ι) : List K :=
  cells.flatMap fun c => ((List.range n).filter fun i => c.1 i = x).map c.2

/-- Arithmetic mean of a list. -/
def mean (l : List K) : K := l.sum / l.length

/-- The lowest-order cells: interval, triangle, quadrilateral, triangular prism, hexahedron. -/
inductive Cell where
  | interval | triangle | quad | prism | hex

/-- Dimension of the cell. -/
def Cell.dim : Cell → ℕ
  | .interval => 1
  | .triangle => 2
  | .quad => 2
  | .prism => 3
  | .hex => 3

/-- Number of vertices. -/
def Cell.vertices : Cell → ℕ
  | .interval => 2
  | .triangle => 3
  | .quad => 4
  | .prism => 6
  | .hex => 8

/-- Monomials spanning the polynomial space of degree one of each cell. -/
def Cell.monomials (x : ℕ → K) : Cell → List K
  | .interval => [1, x 0]
  | .triangle => [1, x 0, x 1]
  | .quad => [1, x 0, x 1, x 0 * x 1]
  | .prism => [1, x 0, x 1, x 2, x 0 * x 2, x 1 * x 2]
  | .hex => [1, x 0, x 1, x 0 * x 1, x 2, x 0 * x 2, x 1 * x 2, x 0 * x 1 * x 2]

/-- The polynomial with coefficients `b`. -/
def Cell.poly (c : Cell) (b : List K) (x : ℕ → K) : K := (List.zipWith (· * ·) b (c.monomials x)).sum

/-- The only polynomial that vanishes at the given points (as many as the cell has vertices) is 0. -/
def Cell.Unisolvent (c : Cell) (pts : ℕ → ℕ → K) : Prop :=
  ∀ b : List K, b.length = c.vertices → (∀ i < c.vertices, c.poly b (pts i) = 0) →
    b = List.replicate c.vertices 0

end Gusto.Spec.Recovery
