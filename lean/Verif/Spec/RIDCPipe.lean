import Verif.Lemmas.DeferredCorrection
import Verif.Model.ParallelDC

set_option autoImplicit false

/-!
# Specification of the RIDC pipeline without source terms

The values at the nodes of one time interval, level by level: level 0 is the predictor, level `r`
the values after `r` corrections.  `x r` is the value at the start of the interval that is used on
level `r`; in the serial scheme all `x r` are equal.
-/

namespace Gusto.ParallelRIDC
open Gusto LForm TimeDisc Spec RIDC
variable {K X D : Type*} [Field K] [AddCommGroup X] [Module K X] [AddCommGroup D] [Module K D]

/-- The time derivative at `u`: the solution of the linear problem with the mass form. -/
def rhsVal (S : Scheme K X D) (u : X) : X :=
  S.solve (fun y => mass S.R y - restNoSource S.R u) 0

/-- The corrected value at a node: backward Euler for the implicit part and forward Euler for the
explicit part of the correction, plus the quadrature `q`; `v` is the new value at the previous node,
`u1` and `u0` the old values at the node and at the previous node. -/
def nodeVal (S : Scheme K X D) (q v u1 u0 : X) : X :=
  limit S (S.solve (fun y => mass S.R y - mass S.R v
    + S.dt • (implPart S.R y - implPart S.R u1)
    + S.dt • (explPart S.R v - explPart S.R u0) + mass S.R q) 0)

/-- The old values used in correction `r`: those of level `r-1`, except at the start. -/
def oldAt (x : ℕ → X) (r : ℕ) (prev : ℕ → X) (j : ℕ) : X := if j = 0 then x r else prev j

/-- The predictor. -/
def baseLevel (S : Scheme K X D) (x : X) : ℕ → X
  | 0 => x
  | j + 1 => S.base S.dt (baseLevel S x j)

/-- One correction. -/
def nextLevel (S : Scheme K X D) (x : ℕ → X) (r : ℕ) (prev : ℕ → X) : ℕ → X
  | 0 => x r
  | m + 1 => nodeVal S (quadAt S r (fun j => rhsVal S (oldAt x r prev j)) m)
      (nextLevel S x r prev m) (oldAt x r prev (m + 1)) (oldAt x r prev m)

/-- The values at the nodes after `r` corrections. -/
def level (S : Scheme K X D) (x : ℕ → X) : ℕ → ℕ → X
  | 0 => baseLevel S (x 0)
  | r + 1 => nextLevel S x (r + 1) (level S x r)

/-- The field on rank `r` after step number `step`: the fully corrected one if the pipe is flushed,
otherwise the one after `r` corrections. -/
def endVal (S : Scheme K X D) (P : Params) (step : ℕ) (x : ℕ → X) (r : ℕ) : X :=
  if flushes P step = true then level S x S.Kc S.M else level S x r S.M

/-- The field on each rank after `N` time steps. -/
def pipeline (S : Scheme K X D) (P : Params) (g : ℕ → X → X) (x0 : ℕ → X) : ℕ → ℕ → X
  | 0 => x0
  | N + 1 => endVal S P (N + 1) fun r => g N (pipeline S P g x0 N r)

end Gusto.ParallelRIDC
