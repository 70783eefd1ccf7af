import Verif.Spec.ImplicitRK

set_option autoImplicit false

/-!
# Collocation and deferred-correction equations, for `d/dt M(x) + F(x) = 0`
-/

namespace Gusto.Spec
open Gusto Finset
variable {K X D : Type*} [Field K] [AddCommGroup X] [Module K X] [AddCommGroup D] [Module K D]

/-- The value a node is integrated from: the old state (zero to node) or the previous node
(node to node). -/
def startNode (z2n : Bool) (U : ℕ → X) (m : ℕ) : X := if z2n then U 0 else U m

/-- `U 1, …, U n` satisfy the collocation equations with integration matrix `Q`, starting from
`U 0`. -/
def IsCollocation (z2n : Bool) (Q : ℕ → ℕ → K) (n : ℕ) (M F : X → D) (U : ℕ → X) : Prop :=
  ∀ m < n, M (U (m + 1)) = M (startNode z2n U m) - ∑ k ∈ range n, Q m k • F (U (k + 1))

/-- One sweep of spectral deferred correction takes the node values `U` to `V`: `I` is the
implicit and `E` the explicit tendency, `qi`, `qe` the approximate integration matrices. -/
def IsSweep (z2n : Bool) (Q qi qe : ℕ → ℕ → K) (n : ℕ) (M I E : X → D) (U V : ℕ → X) : Prop :=
  V 0 = U 0 ∧ ∀ m < n,
    M (V (m + 1)) = M (startNode z2n V m)
      - (∑ i ∈ range (m + 1), qi m i • (I (V (i + 1)) - I (U (i + 1))))
      - (∑ i ∈ range m, qe m i • (E (V (i + 1)) - E (U (i + 1))))
      - ∑ k ∈ range n, Q m k • (I (U (k + 1)) + E (U (k + 1)))

/-- A map is linear (stated without bundling). -/
def IsLin (K : Type*) [Field K] [Module K X] [Module K D] (M : X → D) : Prop :=
  (∀ x y, M (x + y) = M x + M y) ∧ ∀ (c : K) x, M (c • x) = c • M x

/-- The quadrature of RIDC over the `m`-th subinterval with a stencil of `l+1` nodes: row `m+1` of
the matrix on the first `l` subintervals, then the last row on the `l+1` most recent nodes. -/
def ridcQuad (q : ℕ → ℕ → K) (l : ℕ) (F : ℕ → D) (m : ℕ) : D :=
  if m < l then ∑ j ∈ range (l + 1), q (m + 1) j • F j
  else ∑ j ∈ range (l + 1), q l j • F (m + 1 - l + j)

/-- One RIDC correction takes the node values `U` to `V`; `e` is an error committed in the first
subinterval (zero for the documented scheme). -/
def IsRIDCSweep (q : ℕ → ℕ → K) (l n : ℕ) (dt : K) (M I E : X → D) (e : D) (U V : ℕ → X) : Prop :=
  V 0 = U 0 ∧ ∀ m < n,
    M (V (m + 1)) = M (V m) - dt • (I (V (m + 1)) - I (U (m + 1)))
      - dt • (E (V m) - E (U m)) - (if m = 0 then dt • e else 0)
      - ridcQuad q l (fun j => I (U j) + E (U j)) m

end Gusto.Spec
