import Verif.Model.Tableaux
import Mathlib.Analysis.Calculus.ContDiff.Defs
import Mathlib.Analysis.Calculus.Deriv.Basic
import Mathlib.Analysis.Normed.Operator.Basic

set_option autoImplicit false

/-!
# Convergence of a time discretisation

What it means that a function of the time solves `y' = f(y)`, how smooth the right-hand side has to be, and the orders that
gusto's documentation gives to its explicit schemes.
-/

namespace Gusto.Convergence
open Set Gusto.Tableaux

variable {E : Type*} [NormedAddCommGroup E] [NormedSpace ℝ E]

/-- `y` solves `y' = f(y)` on `[0, T]` (with one-sided derivatives at the ends). -/
def IsSol (f : E → E) (y : ℝ → E) (T : ℝ) : Prop :=
  ∀ t ∈ Icc 0 T, HasDerivWithinAt y (f (y t)) (Icc 0 T) t

/-- Lipschitz continuity with the constant `L`. -/
def Lip (f : E → E) (L : ℝ) : Prop := 0 ≤ L ∧ ∀ x y, ‖f x - f y‖ ≤ L * ‖x - y‖

/-- What is needed of the right-hand side for the order `p`: Lipschitz continuity, and for `p ≥ 2` continuous derivatives up to
the order `p`, the first of which is Lipschitz continuous. -/
structure SmoothRHS (f : E → E) (p : ℕ) (L : ℝ) : Prop where
  lip : Lip f L
  diff : 2 ≤ p → ContDiff ℝ p f
  dlip : 2 ≤ p → ∃ L2, 0 ≤ L2 ∧ ∀ x z, ‖fderiv ℝ f x - fderiv ℝ f z‖ ≤ L2 * ‖x - z‖

/-- The orders in the names and docstrings of the explicit schemes (explicit_runge_kutta.py 457-835), for the tables
that are consistent. -/
inductive AdvertisedOrder : Option Table → ℕ → Prop
  | forwardEuler : AdvertisedOrder (some forwardEuler) 1
  | heun : AdvertisedOrder heun 2
  | ssprk2_2 : AdvertisedOrder (ssprk2 2) 2
  | ssprk2_3 : AdvertisedOrder (ssprk2 3) 2
  | ssprk2_4 : AdvertisedOrder (ssprk2 4) 2
  | ssprk3_3 : AdvertisedOrder (ssprk3 3) 3
  | ssprk3_4 : AdvertisedOrder (ssprk3 4) 3
  | rk4 : AdvertisedOrder (some rk4) 4

end Gusto.Convergence
