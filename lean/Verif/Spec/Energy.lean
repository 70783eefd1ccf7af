import Verif.Spec.FML
import Verif.Spec.Collocation
import Mathlib.LinearAlgebra.BilinearMap
import Mathlib.Algebra.Order.Field.Basic

set_option autoImplicit false

/-!
# Energy of `d/dt M(x) + F(x) = 0`
-/

namespace Gusto.Spec
open Gusto
variable {K X D : Type*} [Field K] [LinearOrder K] [AddCommGroup X] [Module K X] [AddCommGroup D] [Module K D]

/-- A quadratic energy `B(x, x)`: `B` is bilinear, symmetric and non-negative. -/
structure IsEnergy (B : X →ₗ[K] X →ₗ[K] K) : Prop where
  symm : ∀ x y, B x y = B y x
  nonneg : ∀ x, 0 ≤ B x x

/-- The equation `M(x') = -F(x)` never increases the energy: the rate of change `2 B(x, x')` is never positive. -/
def Dissipates (B : X →ₗ[K] X →ₗ[K] K) (R : LForm X D) : Prop := ∀ x x', mass R x' = -rest R x → B x x' ≤ 0

/-- The equation keeps the energy: the rate of change `2 B(x, x')` vanishes. -/
def KeepsEnergy (B : X →ₗ[K] X →ₗ[K] K) (R : LForm X D) : Prop := ∀ x x', mass R x' = -rest R x → B x x' = 0

end Gusto.Spec
