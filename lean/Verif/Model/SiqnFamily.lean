import Verif.Model.QuasiNewton
import Mathlib.Data.Real.Basic

set_option autoImplicit false

/-!
# The semi-implicit quasi-Newton timestepper for every timestep

The same model run with different timesteps `h`: the ingredients of `SemiImplicitQuasiNewton` (semi_implicit_quasi_newton.py:38-391)
that do not depend on the timestep, and those that do as functions of it.
Simplified: boundary conditions are identities (zero conditions change nothing: C143_siqn) and the hydrostatic switch is off.
-/

namespace Gusto.QN
open Gusto

variable {ι : Type*} [DecidableEq ι] {V : ι → Type*} [∀ i, AddCommGroup (V i)] [∀ i, Module ℝ (V i)]

/-- A model for all timesteps, semi_implicit_quasi_newton.py:38-391.  `F` and `Fi` are the tendencies of the ordinary and of the
always implicit forcing (`C22_forcing`); an entry of `transport` is a list of fields and a scheme, whose step depends on the timestep, the
transporting velocity and the state. -/
structure SiqnFamily (V : ι → Type*) [∀ i, AddCommGroup (V i)] [∀ i, Module ℝ (V i)] where
  u : ι
  inSolver : ι → Bool
  numOuter : ℕ
  numInner : ℕ
  accelerator : Bool
  alpha : ℝ
  alphaU : ℝ
  beta : ℝ
  slow : List (ℝ → (∀ i, V i) → ∀ i, V i)
  fast : List (ℝ → (∀ i, V i) → ∀ i, V i)
  inner : List (ℝ → (∀ i, V i) → ∀ i, V i)
  final : List (ℝ → (∀ i, V i) → ∀ i, V i)
  F : (∀ i, V i) → ∀ i, V i
  Fi : (∀ i, V i) → ∀ i, V i
  transport : List (List ι × (ℝ → V u → (∀ i, V i) → ∀ i, V i))
  solve : ℝ → (∀ i, V i) → ∀ i, V i

/-- The timestepper with the timestep `h` (semi_implicit_quasi_newton.py 38-391; the weights of the forcing are those of lines
760-780). -/
noncomputable def SiqnFamily.at (d : SiqnFamily V) (h : ℝ) : Siqn ℝ V where
  u := d.u
  inSolver := d.inSolver
  numOuter := d.numOuter
  numInner := d.numInner
  accelerator := d.accelerator
  alphaU := d.alphaU
  beta := d.beta
  slow := d.slow.map fun s => s h
  fast := d.fast.map fun s => s h
  inner := d.inner.map fun s => s h
  final := d.final.map fun s => s h
  forceE := fun x => ((1 - d.alpha) * h) • d.F x
  forceI := fun x => (d.alpha * h) • d.F x + h • d.Fi x
  transport := d.transport.map fun s => ⟨s.1, s.2 h⟩
  solve := d.solve h
  bcs := id

/-- One timestep from `x`: `x.np1` starts from the old state (core/fields.py 291-310, semi_implicit_quasi_newton.py 563-685). -/
noncomputable def SiqnFamily.step (d : SiqnFamily V) (h : ℝ) (x : ∀ i, V i) : ∀ i, V i := timestep (d.at h) x x

/-- A run of `N` timesteps (timestepper.py 226-275, semi_implicit_quasi_newton.py 687-711). -/
noncomputable def SiqnFamily.run (d : SiqnFamily V) (h : ℝ) (N : ℕ) (x : ∀ i, V i) : ∀ i, V i := (d.step h)^[N] x

end Gusto.QN
