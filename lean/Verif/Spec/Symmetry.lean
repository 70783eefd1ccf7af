import Verif.Spec.ConstrainedSchemes
import Verif.Model.QuasiNewton
import Mathlib.Algebra.Module.Equiv.Basic

set_option autoImplicit false

/-!
# Symmetries and relabelling

A linear map `σ` of fields and a linear map `ρ` of assembled forms relate two problems when every form of the first,
evaluated at `σ x` and read through `ρ`, is the form of the second at `x` (`Spec.Restricts`).  If `σ` is invertible this
is a relabelling (a different numbering of the degrees of freedom, a different partition of the mesh, other units); if the
two problems are the same, `σ` is a symmetry of the equation (translation, rotation, reflection of the mesh).
-/

namespace Gusto.Spec
open Gusto
variable {K X X₀ D D₀ : Type*} [Field K] [AddCommGroup X] [Module K X] [AddCommGroup X₀] [Module K X₀]
variable [AddCommGroup D] [Module K D] [AddCommGroup D₀] [Module K D₀]

/-- `n` iterations of Newton's method with a fixed (approximate) inverse Jacobian `J`. -/
def newton (J : D → X) (n : ℕ) : Solver X D := fun r x => (fun y => y - J (r y))^[n] x

/-- A solver that returns the solution whenever the equations have exactly one. -/
def Exact (s : Solver X D) : Prop := ∀ (r : X → D) (x y : X), r y = 0 → (∀ z, r z = 0 → z = y) → s r x = y

/-- The equation, the terms and the subjects after relabelling: `e` renumbers fields, `ρ` assembled forms. -/
def relabelTerm (e : X₀ ≃ₗ[K] X) (ρ : D ≃ₗ[K] D₀) (t : Term X₀ D₀) : Term X D where
  labels := t.labels
  op := fun x => ρ.symm (t.op (e.symm x))
  subj := e t.subj
  attached := t.attached.map fun a => (a.1, fun x => ρ.symm (a.2 (e.symm x)))

/-- The relabelled equation. -/
def relabel (e : X₀ ≃ₗ[K] X) (ρ : D ≃ₗ[K] D₀) (R : LForm X₀ D₀) : LForm X D := R.map (relabelTerm e ρ)

/-- The solver that works in the old numbering. -/
def relabelSolver (e : X₀ ≃ₗ[K] X) (ρ : D ≃ₗ[K] D₀) (s : Solver X₀ D₀) : Solver X D :=
  fun r x => e (s (fun y => ρ (r (e y))) (e.symm x))

/-! ### The quasi-Newton timesteppers -/
section quasiNewton
open QN
variable {ι : Type*} [DecidableEq ι] [DecidableEq K] {V V₀ : ι → Type*}
  [∀ i, AddCommGroup (V i)] [∀ i, Module K (V i)] [∀ i, AddCommGroup (V₀ i)] [∀ i, Module K (V₀ i)]

/-- a linear map for each field -/
def mapF (φ : ∀ i, V₀ i →ₗ[K] V i) (x : ∀ i, V₀ i) : ∀ i, V i := fun i => φ i (x i)

/-- Two maps of mixed states commute with `φ`. -/
def Commutes (φ : ∀ i, V₀ i →ₗ[K] V i) (s : (∀ i, V i) → ∀ i, V i) (s₀ : (∀ i, V₀ i) → ∀ i, V₀ i) : Prop :=
  ∀ x, s (mapF φ x) = mapF φ (s₀ x)

/-- Two semi-implicit quasi-Newton timesteppers with the same parameters; forcing, transport, physics and solver commute
with `φ`. -/
structure SiqnRel (φ : ∀ i, V₀ i →ₗ[K] V i) (m : Siqn K V) (m₀ : Siqn K V₀) : Prop where
  u : m.u = m₀.u
  inSolver : m.inSolver = m₀.inSolver
  numOuter : m.numOuter = m₀.numOuter
  numInner : m.numInner = m₀.numInner
  accelerator : m.accelerator = m₀.accelerator
  alphaU : m.alphaU = m₀.alphaU
  beta : m.beta = m₀.beta
  slow : List.Forall₂ (Commutes φ) m.slow m₀.slow
  fast : List.Forall₂ (Commutes φ) m.fast m₀.fast
  inner : List.Forall₂ (Commutes φ) m.inner m₀.inner
  final : List.Forall₂ (Commutes φ) m.final m₀.final
  forceE : Commutes φ m.forceE m₀.forceE
  forceI : Commutes φ m.forceI m₀.forceI
  transport : List.Forall₂ (fun t t₀ => t.fields = t₀.fields ∧
    ∀ y x, t.step (mapF φ y m.u) (mapF φ x) = mapF φ (t₀.step (y m₀.u) x)) m.transport m₀.transport
  solve : Commutes φ m.solve m₀.solve
  bcs : Commutes φ m.bcs m₀.bcs

/-- Two TR-BDF2 quasi-Newton timesteppers with the same parameters; forcing, transport, physics and solver commute
with `φ`. -/
structure TrBdf2Rel (φ : ∀ i, V₀ i →ₗ[K] V i) (m : TrBdf2 K V) (m₀ : TrBdf2 K V₀) : Prop where
  gamma : m.gamma = m₀.gamma
  u : m.u = m₀.u
  copied : m.copied = m₀.copied
  nOuterTr : m.nOuterTr = m₀.nOuterTr
  nInnerTr : m.nInnerTr = m₀.nInnerTr
  nOuterBdf : m.nOuterBdf = m₀.nOuterBdf
  nInnerBdf : m.nInnerBdf = m₀.nInnerBdf
  slow : List.Forall₂ (Commutes φ) m.slow m₀.slow
  final : List.Forall₂ (Commutes φ) m.final m₀.final
  trE : Commutes φ m.trE m₀.trE
  trI : Commutes φ m.trI m₀.trI
  bdfI : Commutes φ m.bdfI m₀.bdfI
  transport : List.Forall₂ (fun t t₀ => t.fields = t₀.fields ∧
    ∀ y x, t.step (mapF φ y m.u) (mapF φ x) = mapF φ (t₀.step (y m₀.u) x)) m.transport m₀.transport
  trSolve : Commutes φ m.trSolve m₀.trSolve
  bdfSolve : Commutes φ m.bdfSolve m₀.bdfSolve
  bcs : Commutes φ m.bcs m₀.bcs
end quasiNewton

end Gusto.Spec
