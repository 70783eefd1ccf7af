import Mathlib.Algebra.Polynomial.Eval.SMul
import Mathlib.LinearAlgebra.BilinearMap
import Verif.Model.ShallowWater1d

set_option autoImplicit false

/-!
# Hydrostatic balance of the Boussinesq equations

Model of `boussinesq_hydrostatic_balance`, hydrostatic_initialisation.py:20-93.

`V` is the space of vertical velocities with the boundary condition imposed (`bcs`, lines 52, 69), `Q` the space `DG`.
Solving is a relation between the right-hand side and the solution: exact solvers; the solver parameters (lines 77-89) are
left out.  `p0.project(pprime)` (line 93) is the identity, `p0` being in `DG`.
-/

namespace Gusto.BouBalance

/-- The forms: `mass w v = inner(w, v)*dx`, `divp w p = div(w)*p*dx`, `buoy w = inner(domain.k, w)*b0*dx`
(hydrostatic_initialisation.py 48-66). -/
structure Forms (V Q : Type*) [AddCommGroup V] [Module ℝ V] [AddCommGroup Q] [Module ℝ Q] where
  mass : V →ₗ[ℝ] V →ₗ[ℝ] ℝ
  divp : V →ₗ[ℝ] Q →ₗ[ℝ] ℝ
  buoy : V →ₗ[ℝ] ℝ

variable {V Q : Type*} [AddCommGroup V] [Module ℝ V] [AddCommGroup Q] [Module ℝ Q]

/-- `solve(a == L, F, bcs=bcs)`, hydrostatic_initialisation.py:54-58. -/
def SolvesF (P : Forms V Q) (F : V) : Prop := ∀ w, P.mass w F = P.buoy w

/-- `solve(a == L, w1, bcs=bcs, ...)`, hydrostatic_initialisation.py:71-75, 91. -/
def SolvesMixed (P : Forms V Q) (F v : V) (p : Q) : Prop :=
  ∀ w phi, P.mass w v + P.divp w p + P.divp v phi = P.divp F phi

/-- The pressures the function may put into `p0` (hydrostatic_initialisation.py 68-94). -/
def Result (P : Forms V Q) (p : Q) : Prop := ∃ F v, SolvesF P F ∧ SolvesMixed P F v p

/-! ### One column

The spaces over one column of cells: `domain.k` points up, `div` is the derivative, the vertical velocities are continuous
with degree at most `k + 1` (`Vu.ufl_element()._elements[-1]`, line 45), `DG` has degree at most `k`. -/

open Gusto.SW1 Polynomial

/-- The space `DG` of a column (the space `DG` of hydrostatic_initialisation.py 40-50). -/
def dgSpace (M : Mesh1) (k : ℕ) : Submodule ℝ Fn where
  carrier := {q | (∀ i, q i ∈ degreeLT ℝ (k + 1)) ∧ ∀ i, M.n < i → q i = 0}
  add_mem' ha hb := ⟨fun i => Submodule.add_mem _ (ha.1 i) (hb.1 i), fun i hi => by
    simp [ha.2 i hi, hb.2 i hi]⟩
  zero_mem' := ⟨fun _ => Submodule.zero_mem _, fun _ _ => rfl⟩
  smul_mem' c _ ha := ⟨fun i => Submodule.smul_mem _ c (ha.1 i), fun i hi => by simp [ha.2 i hi]⟩

/-- The boundary condition `DirichletBC(Vv, 0.0, bstring)`, hydrostatic_initialisation.py:47-52. -/
noncomputable def bcValue (M : Mesh1) (top : Bool) (q : Fn) : ℝ := if top then M.atR q M.n else M.atL q 0

/-- The space of vertical velocities of a column with the boundary condition (hydrostatic_initialisation.py 48-62). -/
def velSpace (M : Mesh1) (k : ℕ) (top : Bool) : Submodule ℝ Fn where
  carrier := {q | q ∈ dgSpace M (k + 1) ∧ (∀ i < M.n, M.atR q i = M.atL q (i + 1)) ∧ bcValue M top q = 0}
  add_mem' := by
    rintro a b ⟨ha, hac, hab⟩ ⟨hb, hbc, hbb⟩
    refine ⟨Submodule.add_mem _ ha hb, fun i hi => ?_, ?_⟩
    · have h1 := hac i hi
      have h2 := hbc i hi
      simp only [Mesh1.atR, Mesh1.atL, Pi.add_apply, eval_add] at *
      rw [h1, h2]
    · unfold bcValue at *
      cases top <;> simp_all [Mesh1.atR, Mesh1.atL]
  zero_mem' := by
    refine ⟨Submodule.zero_mem _, fun i _ => ?_, ?_⟩
    · simp [Mesh1.atR, Mesh1.atL]
    · unfold bcValue; cases top <;> simp [Mesh1.atR, Mesh1.atL]
  smul_mem' := by
    rintro c a ⟨ha, hac, hab⟩
    refine ⟨Submodule.smul_mem _ c ha, fun i hi => ?_, ?_⟩
    · have h1 := hac i hi
      simp only [Mesh1.atR, Mesh1.atL, Pi.smul_apply, eval_smul] at *
      rw [h1]
    · unfold bcValue at *
      cases top <;> simp_all [Mesh1.atR, Mesh1.atL]

/-- What it takes for forms on a column to be the forms of the function with the buoyancy `b0`
(specification: hydrostatic_initialisation.py 48-66 on one column). -/
structure IsColumn (M : Mesh1) (k : ℕ) (top : Bool) (b0 : Fn) (P : Forms (velSpace M k top) (dgSpace M k)) : Prop where
  mass : ∀ w v, P.mass w v = integ M fun i => w.1 i * v.1 i
  divp : ∀ w p, P.divp w p = integ M fun i => dx0 w.1 i * p.1 i
  buoy : ∀ w, P.buoy w = integ M fun i => w.1 i * b0 i

end Gusto.BouBalance
