import Verif.Spec.Intertwine
import Verif.Spec.ConstrainedSchemes
import Verif.Model.DeferredCorrection
import Verif.Model.ExplicitRK
import Verif.Model.Multilevel

set_option autoImplicit false

/-!
# Scheme objects for two equations, one carried to the other

Two scheme objects agree: the same coefficients and options, and `ι`, `ρ` carry the equation, the solver, the limiter and
the physics of the second to those of the first.
-/

namespace Gusto.Intertwine
open Gusto Gusto.Spec
variable {K X X₀ D D₀ : Type*} [Field K] [AddCommGroup D] [Module K D] [AddCommGroup D₀] [Module K D₀]
variable [AddCommGroup X] [Module K X] [AddCommGroup X₀] [Module K X₀]

/-- The scheme object `S₀` is carried to `S` by `ι` and `ρ`. -/
structure RKRel (ι : X₀ →ₗ[K] X) (ρ : D₀ →ₗ[K] D) (S : RKScheme K X D) (S₀ : RKScheme K X₀ D₀) : Prop where
  R : Intertwines ι (fun d => ρ d) S.R S₀.R
  A : S.A = S₀.A
  nStages : S.nStages = S₀.nStages
  dt : S.dt = S₀.dt
  originalDt : S.originalDt = S₀.originalDt
  limiter : IntertwinesLimiter ι S.limiter S₀.limiter
  nphys : S.nphys = S₀.nphys
  evals : ∀ j x dt, S.evals j (ι x) dt = ι (S₀.evals j x dt)
  solve : IntertwinesSolver ι (fun d => ρ d) S.solve S₀.solve

 
/-- The scheme object `S₀` is carried to `S` by `ι` and `ρ`. -/
structure IMEXRel (ι : X₀ →ₗ[K] X) (ρ : D₀ →ₗ[K] D) (S : IMEX.Scheme K X D) (S₀ : IMEX.Scheme K X₀ D₀) : Prop where
  R : Intertwines ι (fun d => ρ d) S.R S₀.R
  imp : S.imp = S₀.imp
  exp : S.exp = S₀.exp
  nStages : S.nStages = S₀.nStages
  dt : S.dt = S₀.dt
  limiter : IntertwinesLimiter ι S.limiter S₀.limiter
  evaluate : List.Forall₂ (fun e e₀ => ∀ x, e (ι x) = ι (e₀ x)) S.evaluate S₀.evaluate
  solve : IntertwinesSolver ι (fun d => ρ d) S.solve S₀.solve

 
/-- The scheme object `S₀` is carried to `S` by `ι` and `ρ`. -/
structure SDCRel (ι : X₀ →ₗ[K] X) (ρ : D₀ →ₗ[K] D) (S : SDC.Scheme K X D) (S₀ : SDC.Scheme K X₀ D₀) : Prop where
  R : Intertwines ι (fun d => ρ d) S.R S₀.R
  M : S.M = S₀.M
  maxk : S.maxk = S₀.maxk
  z2n : S.z2n = S₀.z2n
  Q : S.Q = S₀.Q
  Qfin : S.Qfin = S₀.Qfin
  Qe : S.Qe = S₀.Qe
  dtau : S.dtau = S₀.dtau
  base : ∀ c x, S.base c (ι x) = ι (S₀.base c x)
  baseFlag : S.baseFlag = S₀.baseFlag
  finalUpdate : S.finalUpdate = S₀.finalUpdate
  flex : S.flex = S₀.flex
  limiter : IntertwinesLimiter ι S.limiter S₀.limiter
  evaluate : List.Forall₂ (fun e e₀ => ∀ c x, e c (ι x) = ι (e₀ c x)) S.evaluate S₀.evaluate
  solve : IntertwinesSolver ι (fun d => ρ d) S.solve S₀.solve

 
/-- The scheme object `S₀` is carried to `S` by `ι` and `ρ`. -/
structure RIDCRel (ι : X₀ →ₗ[K] X) (ρ : D₀ →ₗ[K] D) (S : RIDC.Scheme K X D) (S₀ : RIDC.Scheme K X₀ D₀) : Prop where
  R : Intertwines ι (fun d => ρ d) S.R S₀.R
  M : S.M = S₀.M
  Kc : S.Kc = S₀.Kc
  reduced : S.reduced = S₀.reduced
  Q : S.Q = S₀.Q
  dt : S.dt = S₀.dt
  base : ∀ c x, S.base c (ι x) = ι (S₀.base c x)
  limiter : IntertwinesLimiter ι S.limiter S₀.limiter
  evaluate : List.Forall₂ (fun e e₀ => ∀ c x, e c (ι x) = ι (e₀ c x)) S.evaluate S₀.evaluate
  solve : IntertwinesSolver ι (fun d => ρ d) S.solve S₀.solve

 
end Gusto.Intertwine
