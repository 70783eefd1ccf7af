import Mathlib.Analysis.Convex.Basic
import Verif.Model.Tableaux

set_option autoImplicit false

/-!
# Strong stability

Strong stability (Shu and Osher): every convex bound that one forward Euler step of length `h` keeps is kept by a step of the
scheme of length `r·h`, where `r` is the strong-stability coefficient of the scheme.  The coefficients of the optimal schemes are
taken from the literature (Spiteri and Ruuth 2002; Gottlieb, Ketcheson and Shu 2009, tables 2.1 and 2.2), rounded down.
-/

namespace Gusto.Spec
open Gusto.Tableaux

/-- Strong-stability coefficients of the schemes that gusto names "strong-stability-preserving", and of forward Euler. -/
inductive SSPCoeff : Option Table → ℚ → Prop
  | forwardEuler : SSPCoeff (some forwardEuler) 1
  | heun : SSPCoeff heun 1
  | ssprk2_2 : SSPCoeff (ssprk2 2) 1
  | ssprk2_3 : SSPCoeff (ssprk2 3) 2
  | ssprk2_4 : SSPCoeff (ssprk2 4) 3
  | ssprk3_3 : SSPCoeff (ssprk3 3) 1
  | ssprk3_4 : SSPCoeff (ssprk3 4) 2
  | ssprk3_5 : SSPCoeff (ssprk3 5) (265 / 100)
  | ssprk4_5 : SSPCoeff (ssprk4 5) (1508 / 1000)

variable {K X : Type*} [Field K] [LinearOrder K] [AddCommGroup X] [Module K X]

/-- One forward Euler step of length `h` for `x' = f(x)` does not leave the set `C`. -/
def EulerKeeps (f : X → X) (h : K) (C : Set X) : Prop := ∀ y ∈ C, y + h • f y ∈ C

end Gusto.Spec
