import Mathlib.Algebra.Algebra.Basic
import Mathlib.Algebra.Module.Submodule.Basic

set_option autoImplicit false

/-!
# Specification: density-weighted projections

`int` is integration over the domain, `V` the target function space; see the claims C28 and C29.
-/

namespace Gusto.Spec.Projection
variable {K A : Type*} [Field K] [CommRing A] [Algebra K A]

/-- Mass of a mixing ratio `m` with density `rho`. -/
def mass (int : A →ₗ[K] K) (rho m : A) : K := int (rho * m)

/-- `m ∈ V` has the same moments against every test function of `V` as the source. -/
def SameMoments (int : A →ₗ[K] K) (V : Submodule K A) (rhoS mS rhoT m : A) : Prop :=
  m ∈ V ∧ ∀ test ∈ V, mass int rhoS (test * mS) = mass int rhoT (test * m)

/-- The mass matrix of `V` weighted by `rho` is invertible (here: injective). -/
def Invertible (int : A →ₗ[K] K) (V : Submodule K A) (rho : A) : Prop :=
  ∀ v ∈ V, (∀ test ∈ V, mass int rho (test * v) = 0) → v = 0

/-- The two densities have the same moments against `V`. -/
def SameDensity (int : A →ₗ[K] K) (V : Submodule K A) (rhoS rhoT : A) : Prop :=
  ∀ test ∈ V, mass int rhoS test = mass int rhoT test

end Gusto.Spec.Projection
