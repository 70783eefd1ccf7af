import Verif.Model.QuasiNewton
import Mathlib.Data.Real.Basic

set_option autoImplicit false

/-!
# The TR-BDF2 quasi-Newton timestepper for every timestep

The ingredients of `TRBDF2QuasiNewton` (tr_bdf2_quasi_newton.py:33-341) that do not depend on the timestep, and those that do as functions
of it.  Simplified: boundary conditions are identities (zero conditions change nothing: C143_trbdf2) and the hydrostatic switch is off.
-/

namespace Gusto.QN
open Gusto

variable {ι : Type*} [DecidableEq ι] {V : ι → Type*} [∀ i, AddCommGroup (V i)] [∀ i, Module ℝ (V i)]

/-- A model for all timesteps, tr_bdf2_quasi_newton.py:33-341.  `F` and `Fi` are the tendencies of the ordinary and of the always
implicit forcing; an entry of `transport` is a list of fields and a scheme, whose step depends on the timestep, the transporting velocity
and the state. -/
structure TrBdf2Family (V : ι → Type*) [∀ i, AddCommGroup (V i)] [∀ i, Module ℝ (V i)] where
  gamma : ℝ
  u : ι
  copied : ι → Bool
  nOuterTr : ℕ
  nInnerTr : ℕ
  nOuterBdf : ℕ
  nInnerBdf : ℕ
  slow : List (ℝ → (∀ i, V i) → ∀ i, V i)
  final : List (ℝ → (∀ i, V i) → ∀ i, V i)
  F : (∀ i, V i) → ∀ i, V i
  Fi : (∀ i, V i) → ∀ i, V i
  transport : List (List ι × (ℝ → V u → (∀ i, V i) → ∀ i, V i))
  trSolve : ℝ → (∀ i, V i) → ∀ i, V i
  bdfSolve : ℝ → (∀ i, V i) → ∀ i, V i

/-- The timestepper with the timestep `h`; the forcing objects have `alpha = 1/2` with `2 gamma dt` and `alpha = 1` with `gamma2 dt`
(tr_bdf2_quasi_newton.py 326-327; weights of semi_implicit_quasi_newton.py 760-780). -/
noncomputable def TrBdf2Family.at (d : TrBdf2Family V) (h : ℝ) : TrBdf2 ℝ V where
  gamma := d.gamma
  u := d.u
  copied := d.copied
  nOuterTr := d.nOuterTr
  nInnerTr := d.nInnerTr
  nOuterBdf := d.nOuterBdf
  nInnerBdf := d.nInnerBdf
  slow := d.slow.map fun s => s h
  final := d.final.map fun s => s h
  trE := fun x => ((1 - 1 / 2) * (2 * d.gamma * h)) • d.F x
  trI := fun x => (1 / 2 * (2 * d.gamma * h)) • d.F x + (2 * d.gamma * h) • d.Fi x
  bdfI := fun x => (1 * (gamma2 d.gamma * h)) • d.F x + (gamma2 d.gamma * h) • d.Fi x
  transport := d.transport.map fun s => ⟨s.1, s.2 h⟩
  trSolve := d.trSolve h
  bdfSolve := d.bdfSolve h
  bcs := id

/-- A run of `N` timesteps (timestepper.py 226-275, tr_bdf2_quasi_newton.py 456-645). -/
noncomputable def TrBdf2Family.run (d : TrBdf2Family V) (h : ℝ) (N : ℕ) (x : ∀ i, V i) : ∀ i, V i := (trBdf2Step (d.at h))^[N] x

end Gusto.QN
