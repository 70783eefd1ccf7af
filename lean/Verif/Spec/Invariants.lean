import Verif.Spec.FML
import Mathlib.Algebra.Module.LinearMap.Defs

set_option autoImplicit false

/-!
# Conserved totals and steady states of `d/dt M(x) + F(x) = 0`
-/

namespace Gusto.Spec
open Gusto
variable {K X D : Type*} [Field K] [AddCommGroup D] [Module K D]

/-- The total of the state `x` measured by the linear functional `μ` on the mass part (for instance:
test with the function one, i.e. integrate over the domain). -/
def total (μ : D →ₗ[K] K) (R : LForm X D) (x : X) : K := μ (mass R x)

/-- The equation conserves the total measured by `μ`: its tendency has total zero at every state. -/
def EqConserves (μ : D →ₗ[K] K) (R : LForm X D) : Prop := ∀ x, μ (rest R x) = 0

/-- `x` is a steady state of the equation. -/
def Steady (R : LForm X D) (x : X) : Prop := rest R x = 0

end Gusto.Spec
