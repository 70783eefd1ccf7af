import Verif.Model.Multilevel

set_option autoImplicit false

/-!
# The argument `limiter` of the implicit one-step and of the multi-level schemes

The constructors store the limiter in the object (time_discretisation.py:100); the methods that compute a step do not read it.
-/

namespace Gusto.LimiterArgs
open Gusto LForm TimeDisc
variable {K X D : Type*} [Field K] [AddCommGroup X] [Module K X] [AddCommGroup D] [Module K D]

/-- The attributes of a `BackwardEuler` object after the constructor (time_discretisation.py:617-649, 64-101) and `setup`
(651-672), with `ncycles` cycles of length `dt`. -/
structure BackwardEuler (K X D : Type*) where
  R : LForm X D
  dt : K
  ncycles : ℕ
  solve : Solver X D
  limiter : Option (X → X)

/-- `BackwardEuler.apply_cycle`, time_discretisation.py:698-714, with `res` 674-696; without physics sources. -/
def BackwardEuler.cycle (S : BackwardEuler K X D) (xIn : X) : X := implicitCycle S.solve (fun y x => backwardEulerRes S.R S.dt y x) xIn

/-- `BackwardEuler.apply`, time_discretisation.py:716-730: the loop over the cycles; `x1init` is what `x1` holds before the call. -/
def BackwardEuler.apply (S : BackwardEuler K X D) (xIn x1init : X) : X :=
  applyLoop (fun _ => S.cycle) S.ncycles xIn x1init

/-- A multi-level scheme with the limiter that its constructor stores (multi_level_schemes.py:19-45). -/
structure Multi (X D : Type*) where
  scheme : Multilevel.Scheme X D
  limiter : Option (X → X)

/-- `apply` of the four multi-level schemes (multi_level_schemes.py:139-158, 233-253, 386-406, 551-571). -/
def Multi.apply (S : Multi X D) (solve : Solver X D) (initialTimesteps : ℕ) (x : ℕ → X) : X × ℕ :=
  S.scheme.apply solve initialTimesteps x

end Gusto.LimiterArgs
