import Verif.Spec.Constrained
import Verif.Model.DeferredCorrection
import Verif.Model.ExplicitRK
import Verif.Model.Multilevel

set_option autoImplicit false

/-!
# Scheme objects for an equation and for its restriction

Two scheme objects agree: the same coefficients and options, the equation, the solver, the limiter and the physics of
the first are those of the second on fields `ι y`.
-/

namespace Gusto.Constrained
open Gusto Gusto.Spec
variable {K X X₀ D D₀ : Type*} [Field K] [AddCommGroup D] [Module K D] [AddCommGroup D₀] [Module K D₀]
variable [AddCommGroup X] [Module K X] [AddCommGroup X₀] [Module K X₀]

/-- The scheme object `S₀` is `S` for the restricted equation. -/
structure RKRel (ι : X₀ →ₗ[K] X) (ρ : D →ₗ[K] D₀) (S : RKScheme K X D) (S₀ : RKScheme K X₀ D₀) : Prop where
  R : Restricts ι (fun d => ρ d) S.R S₀.R
  A : S.A = S₀.A
  nStages : S.nStages = S₀.nStages
  dt : S.dt = S₀.dt
  originalDt : S.originalDt = S₀.originalDt
  limiter : RestrictsLimiter ι S.limiter S₀.limiter
  nphys : S.nphys = S₀.nphys
  evals : ∀ j x dt, S.evals j (ι x) dt = ι (S₀.evals j x dt)
  solve : RestrictsSolver ι (fun d => ρ d) S.solve S₀.solve

/-- all Functions of a scheme -/
def mapRK (ι : X₀ → X) (t : RKState X₀) : RKState X where
  x0 := ι t.x0
  x1 := ι t.x1
  xOut := ι t.xOut
  src := fun j => ι (t.src j)
  k := fun j => ι (t.k j)
  field := fun j => ι (t.field j)
  source := fun j => ι (t.source j)
  fieldLhs := fun j => ι (t.fieldLhs j)
  fieldRhs := ι t.fieldRhs


/-- The scheme object `S₀` is `S` for the restricted equation. -/
structure IMEXRel (ι : X₀ →ₗ[K] X) (ρ : D →ₗ[K] D₀) (S : IMEX.Scheme K X D) (S₀ : IMEX.Scheme K X₀ D₀) : Prop where
  R : Restricts ι (fun d => ρ d) S.R S₀.R
  imp : S.imp = S₀.imp
  exp : S.exp = S₀.exp
  nStages : S.nStages = S₀.nStages
  dt : S.dt = S₀.dt
  limiter : RestrictsLimiter ι S.limiter S₀.limiter
  evaluate : List.Forall₂ (fun e e₀ => ∀ x, e (ι x) = ι (e₀ x)) S.evaluate S₀.evaluate
  solve : RestrictsSolver ι (fun d => ρ d) S.solve S₀.solve

/-- all Functions of a scheme -/
def mapIMEX (ι : X₀ → X) (t : IMEX.State X₀) : IMEX.State X where
  xOut := ι t.xOut
  xs := fun j => ι (t.xs j)
  source := fun j => ι (t.source j)


/-- The scheme object `S₀` is `S` for the restricted equation. -/
structure SDCRel (ι : X₀ →ₗ[K] X) (ρ : D →ₗ[K] D₀) (S : SDC.Scheme K X D) (S₀ : SDC.Scheme K X₀ D₀) : Prop where
  R : Restricts ι (fun d => ρ d) S.R S₀.R
  M : S.M = S₀.M
  maxk : S.maxk = S₀.maxk
  z2n : S.z2n = S₀.z2n
  Q : S.Q = S₀.Q
  Qfin : S.Qfin = S₀.Qfin
  Qe : S.Qe = S₀.Qe
  dtau : S.dtau = S₀.dtau
  base : ∀ c x, S.base c (ι x) = ι (S₀.base c x)
  baseFlag : S.baseFlag = S₀.baseFlag
  finalUpdate : S.finalUpdate = S₀.finalUpdate
  flex : S.flex = S₀.flex
  limiter : RestrictsLimiter ι S.limiter S₀.limiter
  evaluate : List.Forall₂ (fun e e₀ => ∀ c x, e c (ι x) = ι (e₀ c x)) S.evaluate S₀.evaluate
  solve : RestrictsSolver ι (fun d => ρ d) S.solve S₀.solve

/-- all Functions of a scheme -/
def mapSDC (ι : X₀ → X) (t : SDC.State K X₀) : SDC.State K X where
  U := fun j => ι (t.U j)
  U1 := fun j => ι (t.U1 j)
  f := fun j => ι (t.f j)
  quad := fun j => ι (t.quad j)
  sU := fun j => ι (t.sU j)
  sU1 := fun j => ι (t.sU1 j)
  uDC := ι t.uDC
  uStart := ι t.uStart
  un := ι t.un
  q_ := ι t.q_
  quadFinal := ι t.quadFinal
  uFin := ι t.uFin
  uRhs := ι t.uRhs
  uIn := ι t.uIn
  sIn := ι t.sIn
  baseDt := t.baseDt
  qdeltaImp := t.qdeltaImp
  solvers := t.solvers


/-- The scheme object `S₀` is `S` for the restricted equation. -/
structure RIDCRel (ι : X₀ →ₗ[K] X) (ρ : D →ₗ[K] D₀) (S : RIDC.Scheme K X D) (S₀ : RIDC.Scheme K X₀ D₀) : Prop where
  R : Restricts ι (fun d => ρ d) S.R S₀.R
  M : S.M = S₀.M
  Kc : S.Kc = S₀.Kc
  reduced : S.reduced = S₀.reduced
  Q : S.Q = S₀.Q
  dt : S.dt = S₀.dt
  base : ∀ c x, S.base c (ι x) = ι (S₀.base c x)
  limiter : RestrictsLimiter ι S.limiter S₀.limiter
  evaluate : List.Forall₂ (fun e e₀ => ∀ c x, e c (ι x) = ι (e₀ c x)) S.evaluate S₀.evaluate
  solve : RestrictsSolver ι (fun d => ρ d) S.solve S₀.solve

/-- all Functions of a scheme -/
def mapRIDC (ι : X₀ → X) (t : RIDC.State K X₀) : RIDC.State K X where
  U := fun j => ι (t.U j)
  U1 := fun j => ι (t.U1 j)
  f := fun j => ι (t.f j)
  sU := fun j => ι (t.sU j)
  sU1 := fun j => ι (t.sU1 j)
  uDC := ι t.uDC
  uStart := ι t.uStart
  un := ι t.un
  q_ := ι t.q_
  uRhs := ι t.uRhs
  uIn := ι t.uIn
  sIn := ι t.sIn
  sU1m := ι t.sU1m
  sUm := ι t.sUm
  ukmp1 := ι t.ukmp1
  ukm := ι t.ukm
  ukp1m := ι t.ukp1m
  baseDt := t.baseDt


end Gusto.Constrained
