import Verif.Spec.FML
import Mathlib.Algebra.BigOperators.Group.Finset.Basic
import Mathlib.Algebra.Module.BigOperators

set_option autoImplicit false

/-!
# Textbook diagonally implicit and IMEX Runge-Kutta steps, for `d/dt M(x) + F(x) = 0`
-/

namespace Gusto.Spec
open Gusto Finset
variable {K X D : Type*} [Field K] [AddCommGroup X] [Module K X] [AddCommGroup D] [Module K D]

/-- DIRK step in terms of tendencies: `M(k_i) = -F(x + dt Σ_{j≤i} a_ij k_j)`,
`y = x + dt Σ_j b_j k_j`. -/
def IsDIRKStepK (a : ℕ → ℕ → K) (b : ℕ → K) (s : ℕ) (M F : X → D) (dt : K) (x y : X) : Prop :=
  ∃ k : ℕ → X, (∀ i < s, M (k i) = - F (x + dt • ∑ j ∈ range (i + 1), a i j • k j)) ∧
    y = x + dt • ∑ j ∈ range s, b j • k j

/-- DIRK step in terms of stage values: `M(Y_i) = M(x) - dt Σ_{j≤i} a_ij F(Y_j)`,
`M(y) = M(x) - dt Σ_j b_j F(Y_j)`. -/
def IsDIRKStepY (a : ℕ → ℕ → K) (b : ℕ → K) (s : ℕ) (M F : X → D) (dt : K) (x y : X) : Prop :=
  ∃ Y : ℕ → X, (∀ i < s, M (Y i) = M x - dt • ∑ j ∈ range (i + 1), a i j • F (Y j)) ∧
    M y = M x - dt • ∑ j ∈ range s, b j • F (Y j)

/-- IMEX step with implicit tendency `F` (table `a`, weights `b`) and explicit tendency `G`
(table `d`, weights `e`). -/
def IsIMEXStep (a : ℕ → ℕ → K) (b : ℕ → K) (d : ℕ → ℕ → K) (e : ℕ → K) (s : ℕ)
    (M F G : X → D) (dt : K) (x y : X) : Prop :=
  ∃ Y : ℕ → X,
    (∀ i < s, M (Y i) = M x - dt • ∑ j ∈ range (i + 1), a i j • F (Y j)
      - dt • ∑ j ∈ range i, d i j • G (Y j)) ∧
    M y = M x - dt • ∑ j ∈ range s, b j • F (Y j) - dt • ∑ j ∈ range s, e j • G (Y j)

/-- Sum of the terms labelled implicit (resp. explicit, resp. physics source). -/
def implPart (R : LForm X D) (x : X) : D := part (fun t => Label.implicit ∈ t.labels) R x
def explPart (R : LForm X D) (x : X) : D := part (fun t => Label.explicit ∈ t.labels) R x
def srcPart (R : LForm X D) (x : X) : D := part (fun t => Label.source ∈ t.labels) R x

/-- Time derivative terms carry none of the labels implicit, explicit, source. -/
def TDClean (R : LForm X D) : Prop :=
  ∀ t ∈ R, Label.timeDerivative ∈ t.labels →
    Label.implicit ∉ t.labels ∧ Label.explicit ∉ t.labels ∧ Label.source ∉ t.labels

/-- Each other term carries exactly one of the labels implicit, explicit, source. -/
def ExactlyOneKind (R : LForm X D) : Prop :=
  ∀ t ∈ R, Label.timeDerivative ∉ t.labels →
    (Label.implicit ∈ t.labels ∧ Label.explicit ∉ t.labels ∧ Label.source ∉ t.labels) ∨
    (Label.implicit ∉ t.labels ∧ Label.explicit ∈ t.labels ∧ Label.source ∉ t.labels) ∨
    (Label.implicit ∉ t.labels ∧ Label.explicit ∉ t.labels ∧ Label.source ∈ t.labels)

end Gusto.Spec
