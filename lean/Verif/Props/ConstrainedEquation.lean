import Verif.Lemmas.ConstrainedDC
import Verif.Model.BoundaryConditions
import Verif.Model.QuasiNewton
import Mathlib.LinearAlgebra.Prod
import Mathlib.Data.Rat.Init
import Mathlib.Algebra.Order.Ring.Rat
import Mathlib.Tactic.Ring
import Mathlib.Tactic.Linarith

set_option autoImplicit false
set_option linter.unusedSectionVars false
set_option linter.unusedSimpArgs false

/-!
# C143: a scheme with boundary conditions is the same scheme for the constrained equation

A field is a pair `(y, g)` of interior degrees of freedom `y` and boundary degrees of freedom.  `R` is the residual of the
whole equation, `R₀` its restriction to fields with boundary values `g` and to interior test functions
(`Spec.Restricts`).
-/

namespace Gusto.Props.ConstrainedProps
open Gusto Gusto.Spec Gusto.Constrained Gusto.BC TimeDisc
variable {K I B D D₀ : Type*} [Field K] [AddCommGroup D] [Module K D] [AddCommGroup D₀] [Module K D₀]

/-- A solver that is given the boundary values `g` solves the restricted equations for the interior values. -/
theorem C143_solver (ρ : D →ₗ[K] D₀) (core : Solver I D₀) (g : B) :
    RestrictsSolver (fun y => (y, g)) (fun d => ρ d) (solveWith (fun d => ρ d) core g) core :=
  fun _ _ => rfl

/-- Backward Euler, the theta method (and the trapezium rule) and TR-BDF2, any number of steps, any boundary values. -/
theorem C143_implicit (ρ : D →ₗ[K] D₀) (core : Solver I D₀) (g : B) (R : LForm (I × B) D) (R₀ : LForm I D₀)
    (hR : Restricts (fun y => (y, g)) (fun d => ρ d) R R₀) (dt theta gamma : K) (n : ℕ) (y : I) :
    (implicitCycle (solveWith (fun d => ρ d) core g) (backwardEulerRes R dt))^[n] (y, g)
        = ((implicitCycle core (backwardEulerRes R₀ dt))^[n] y, g) ∧
      (implicitCycle (solveWith (fun d => ρ d) core g) (thetaRes R dt theta))^[n] (y, g)
        = ((implicitCycle core (thetaRes R₀ dt theta))^[n] y, g) ∧
      (trBdf2Apply (solveWith (fun d => ρ d) core g) R dt gamma)^[n] (y, g)
        = ((trBdf2Apply core R₀ dt gamma)^[n] y, g) := by
  have hs := C143_solver (K := K) ρ core g
  have it : ∀ (f : I × B → I × B) (f₀ : I → I), (∀ y, f (y, g) = (f₀ y, g)) → f^[n] (y, g) = (f₀^[n] y, g) := by
    intro f f₀ h
    induction n generalizing y with
    | zero => rfl
    | succ n ih => simp only [Function.iterate_succ, Function.comp_apply, h, ih]
  refine ⟨it _ _ fun y => ?_, it _ _ fun y => ?_, it _ _ fun y => ?_⟩
  · exact implicitCycle_rel hs _ _ (fun y x => backwardEulerRes_rel hR dt y x) y
  · exact implicitCycle_rel hs _ _ (fun y x => thetaRes_rel hR dt theta y x) y
  · exact trBdf2_rel hs hR dt gamma y

/-- The multi-level schemes: BDF2, Leapfrog, Adams-Bashforth and Adams-Moulton, in the start-up steps and afterwards, when
all earlier levels have the boundary values. -/
theorem C143_multilevel (ρ : D →ₗ[K] D₀) (core : Solver I D₀) (g : B) (R : LForm (I × B) D) (R₀ : LForm I D₀)
    (hR : Restricts (fun y => (y, g)) (fun d => ρ d) R R₀) (dt bl : K) (b : List K) (n : ℕ) (y : ℕ → I) :
    (Multilevel.bdf2 R dt).apply (solveWith (fun d => ρ d) core g) n (fun i => (y i, g))
        = ((((Multilevel.bdf2 R₀ dt).apply core n y).1, g), ((Multilevel.bdf2 R₀ dt).apply core n y).2) ∧
      (Multilevel.leapfrog R dt).apply (solveWith (fun d => ρ d) core g) n (fun i => (y i, g))
        = ((((Multilevel.leapfrog R₀ dt).apply core n y).1, g), ((Multilevel.leapfrog R₀ dt).apply core n y).2) ∧
      (Multilevel.adamsBashforth R dt b).apply (solveWith (fun d => ρ d) core g) n (fun i => (y i, g))
        = ((((Multilevel.adamsBashforth R₀ dt b).apply core n y).1, g),
          ((Multilevel.adamsBashforth R₀ dt b).apply core n y).2) ∧
      (Multilevel.adamsMoulton R dt bl b).apply (solveWith (fun d => ρ d) core g) n (fun i => (y i, g))
        = ((((Multilevel.adamsMoulton R₀ dt bl b).apply core n y).1, g),
          ((Multilevel.adamsMoulton R₀ dt bl b).apply core n y).2) := by
  have hs := C143_solver (K := K) ρ core g
  exact ⟨multilevel_rel hs (bdf2_rel hR dt) n y, multilevel_rel hs (leapfrog_rel hR dt) n y,
    multilevel_rel hs (adamsBashforth_rel hR dt b) n y, multilevel_rel hs (adamsMoulton_rel hR dt bl b) n y⟩

section linear
variable [AddCommGroup I] [Module K I] [AddCommGroup B] [Module K B]

/-- Implicit Runge-Kutta schemes in the predictor formulation, any boundary values: result and stage values. -/
theorem C143_irk_predictor (ρ : D →ₗ[K] D₀) (core : Solver I D₀) (g : B) (R : LForm (I × B) D) (R₀ : LForm I D₀)
    (hR : Restricts (fun y => (y, g)) (fun d => ρ d) R R₀) (A : ℕ → ℕ → K) (s : ℕ) (dt : K) (x₀ : I) (k : ℕ → I × B)
    (k₀ xs : ℕ → I) (c c₀ : Option K) (y : I) :
    (IRK.applyPred ⟨R, A, s, dt, solveWith (fun d => ρ d) core g⟩ ⟨(x₀, g), k, fun i => (xs i, g), c⟩ (y, g)).1
        = ((IRK.applyPred ⟨R₀, A, s, dt, core⟩ ⟨x₀, k₀, xs, c₀⟩ y).1, g) ∧
      (IRK.applyPred ⟨R, A, s, dt, solveWith (fun d => ρ d) core g⟩ ⟨(x₀, g), k, fun i => (xs i, g), c⟩ (y, g)).2.xs
        = fun i => ((IRK.applyPred ⟨R₀, A, s, dt, core⟩ ⟨x₀, k₀, xs, c₀⟩ y).2.xs i, g) :=
  irkPredApply_rel (ι := fun y : I => (y, g)) (ρ := ρ) (S := ⟨R, A, s, dt, solveWith (fun d => ρ d) core g⟩)
    (S₀ := ⟨R₀, A, s, dt, core⟩) hR rfl rfl rfl (C143_solver ρ core g) _ _ rfl y

/-- Implicit Runge-Kutta schemes in the increment formulation, zero boundary values: result, stage increments and the
diagonal coefficient kept for the next call. -/
theorem C143_irk_increment (ρ : D →ₗ[K] D₀) (core : Solver I D₀) (R : LForm (I × B) D) (R₀ : LForm I D₀)
    (hR : Restricts (fun y => (y, (0 : B))) (fun d => ρ d) R R₀) (A : ℕ → ℕ → K) (s : ℕ) (dt : K) (x₀ : I)
    (k : ℕ → I) (xs : ℕ → I × B) (xs₀ : ℕ → I) (c : Option K) (y : I) :
    (IRK.applyInc ⟨R, A, s, dt, solveWith (fun d => ρ d) core 0⟩ ⟨(x₀, 0), fun i => (k i, 0), xs, c⟩ (y, 0)).1
        = ((IRK.applyInc ⟨R₀, A, s, dt, core⟩ ⟨x₀, k, xs₀, c⟩ y).1, 0) ∧
      (IRK.applyInc ⟨R, A, s, dt, solveWith (fun d => ρ d) core 0⟩ ⟨(x₀, 0), fun i => (k i, 0), xs, c⟩ (y, 0)).2.k
        = (fun i => ((IRK.applyInc ⟨R₀, A, s, dt, core⟩ ⟨x₀, k, xs₀, c⟩ y).2.k i, 0)) ∧
      (IRK.applyInc ⟨R, A, s, dt, solveWith (fun d => ρ d) core 0⟩ ⟨(x₀, 0), fun i => (k i, 0), xs, c⟩ (y, 0)).2.cachedDiag
        = (IRK.applyInc ⟨R₀, A, s, dt, core⟩ ⟨x₀, k, xs₀, c⟩ y).2.cachedDiag :=
  irkIncApply_rel (ι := LinearMap.inl K I B) (ρ := ρ) (S := ⟨R, A, s, dt, solveWith (fun d => ρ d) core 0⟩)
    (S₀ := ⟨R₀, A, s, dt, core⟩) hR rfl rfl rfl (C143_solver ρ core 0) _ ⟨x₀, k, xs₀, c⟩ rfl rfl y

/-- Explicit Runge-Kutta schemes in each of the three formulations, with limiters, physics and any number of subcycles,
zero boundary values: all Functions of the scheme may hold values left by earlier calls, as long as these vanish on the
boundary (new Functions are zero). -/
theorem C143_explicit_rk (ρ : D →ₗ[K] D₀) (S : RKScheme K (I × B) D) (S₀ : RKScheme K I D₀)
    (h : RKRel (LinearMap.inl K I B) ρ S S₀) (f : RK.Formulation) (ncycles : ℕ) (st : RKState I) (y : I) :
    RK.apply f S ncycles (mapRK (fun y => (y, 0)) st) (y, 0) = (RK.apply f S₀ ncycles st y, 0) :=
  rkApply_rel h f ncycles st y

/-- IMEX Runge-Kutta schemes, zero boundary values. -/
theorem C143_imex [DecidableEq K] (ρ : D →ₗ[K] D₀) (S : IMEX.Scheme K (I × B) D) (S₀ : IMEX.Scheme K I D₀)
    (h : IMEXRel (LinearMap.inl K I B) ρ S S₀) (st : IMEX.State I) (y : I) :
    IMEX.apply S (mapIMEX (fun y => (y, 0)) st) (y, 0) = (IMEX.apply S₀ st y, 0) :=
  imexApply_rel h st y

/-- Spectral deferred correction, zero boundary values: result, and everything kept for the next call. -/
theorem C143_sdc (ρ : D →ₗ[K] D₀) (S : SDC.Scheme K (I × B) D) (S₀ : SDC.Scheme K I D₀)
    (h : SDCRel (LinearMap.inl K I B) ρ S S₀) (st : SDC.State K I) (y : I) :
    SDC.apply S (mapSDC (fun y => (y, 0)) st) (y, 0)
      = (mapSDC (fun y => (y, 0)) (SDC.apply S₀ st y).1, ((SDC.apply S₀ st y).2, 0)) :=
  sdcApply_rel h st y

/-- Revisionist integral deferred correction, zero boundary values. -/
theorem C143_ridc (ρ : D →ₗ[K] D₀) (S : RIDC.Scheme K (I × B) D) (S₀ : RIDC.Scheme K I D₀)
    (h : RIDCRel (LinearMap.inl K I B) ρ S S₀) (st : RIDC.State K I) (y : I) :
    RIDC.apply S (mapRIDC (fun y => (y, 0)) st) (y, 0)
      = (RIDC.apply S₀ st y).map fun p => (mapRIDC (fun y => (y, 0)) p.1, (p.2, 0)) :=
  ridcApply_rel h st y

end linear

/-! ### The quasi-Newton timesteppers -/
section quasiNewton
open QN
variable {ι : Type*} [DecidableEq ι] {K : Type*} [Field K] [DecidableEq K] {V : ι → Type*}
  [∀ i, AddCommGroup (V i)] [∀ i, Module K (V i)] {B : Type*} [AddCommGroup B] [Module K B]

theorem applyAll_keeps {X : Type*} (P : X → Prop) (ss : List (X → X)) (h : ∀ s ∈ ss, ∀ x, P x → P (s x)) (x : X)
    (hx : P x) : P (applyAll ss x) := by
  unfold applyAll
  induction ss generalizing x with
  | nil => exact hx
  | cons a l ih => exact ih (fun s hs => h s (List.mem_cons_of_mem _ hs)) _ (h a (by simp) x hx)

theorem foldl_keeps {X α : Type*} (P : X → Prop) (l : List α) (f : X → α → X) (h : ∀ a ∈ l, ∀ x, P x → P (f x a)) (x : X)
    (hx : P x) : P (l.foldl f x) := by
  induction l generalizing x with
  | nil => exact hx
  | cons a l ih => exact ih (fun a ha => h a (List.mem_cons_of_mem _ ha)) _ (h a (by simp) x hx)

theorem transport_keeps {u : ι} (γ : V u →ₗ[K] B) (ts : List (Transport V u))
    (h : ∀ t ∈ ts, ∀ vel x, γ (x u) = 0 → γ (t.step vel x u) = 0) (vel : V u) (xstar xp : ∀ i, V i)
    (hs : γ (xstar u) = 0) (hp : γ (xp u) = 0) : γ (transportFields ts vel xstar xp u) = 0 := by
  unfold transportFields
  refine foldl_keeps (fun x : ∀ i, V i => γ (x u) = 0) ts _ (fun t ht x hx => ?_) xp hp
  split
  · exact h t ht vel xstar hs
  · exact hx

/-- `SemiImplicitQuasiNewton` with zero conditions on the velocity: if the forcing and linear solves give increments without
boundary values and transport and physics keep zero boundary values, then imposing the conditions after every outer
iteration changes nothing: a timestep from a state that satisfies the conditions is the timestep without conditions. -/
theorem C143_siqn (m : Siqn K V) (γ : V m.u →ₗ[K] B) (hb : ∀ x, γ (x m.u) = 0 → m.bcs x = x)
    (hE : ∀ x, γ (m.forceE x m.u) = 0) (hI : ∀ x, γ (m.forceI x m.u) = 0) (hS : ∀ r, γ (m.solve r m.u) = 0)
    (hT : ∀ t ∈ m.transport, ∀ vel x, γ (x m.u) = 0 → γ (t.step vel x m.u) = 0)
    (hP : ∀ s ∈ m.slow ++ m.fast ++ m.inner, ∀ x, γ (x m.u) = 0 → γ (s x m.u) = 0)
    (xn x0 : ∀ i, V i) (hn : γ (xn m.u) = 0) (h0 : γ (x0 m.u) = 0) :
    timestep m xn x0 = timestep { m with bcs := fun x => x } xn x0 := by
  have hstar : γ (xstarOf m xn m.u) = 0 := by
    unfold xstarOf
    have h1 : γ ((applyAll m.slow xn + m.forceE xn) m.u) = 0 := by
      rw [Pi.add_apply, map_add, hE, add_zero]
      exact applyAll_keeps (fun x : ∀ i, V i => γ (x m.u) = 0) m.slow (fun s hs => hP s (by simp [hs])) xn hn
    split
    · refine foldl_keeps (fun x : ∀ i, V i => γ (x m.u) = 0) m.inner _ (fun s hs x hx => ?_) _ h1
      simp only [Pi.add_apply, Pi.smul_apply, Pi.sub_apply, map_add, map_smul, map_sub]
      rw [hx, hP s (by simp [hs]) xn hn, hn]
      simp
    · exact h1
  have hout : ∀ s : (∀ i, V i) × (∀ i, V i), γ (s.1 m.u) = 0 → γ (s.2 m.u) = 0 →
      outerStep m xn (xstarOf m xn) s = outerStep { m with bcs := fun x => x } xn (xstarOf m xn) s ∧
      γ ((outerStep m xn (xstarOf m xn) s).1 m.u) = 0 ∧ γ ((outerStep m xn (xstarOf m xn) s).2 m.u) = 0 := by
    intro s h1 h2
    have hxp := transport_keeps γ m.transport hT (ubar m xn s.2) (xstarOf m xn) s.1 hstar h1
    have hfast := applyAll_keeps (fun x : ∀ i, V i => γ (x m.u) = 0) m.fast (fun s hs => hP s (by simp [hs])) _ hxp
    have hx := foldl_keeps (fun x : ∀ i, V i => γ (x m.u) = 0) (List.range m.numInner)
      (fun x k => innerStep m (transportFields m.transport (ubar m xn s.2) (xstarOf m xn) s.1)
        (applyAll m.fast (transportFields m.transport (ubar m xn s.2) (xstarOf m xn) s.1)
          - transportFields m.transport (ubar m xn s.2) (xstarOf m xn) s.1) k x)
      (fun k _ x hx => by
        unfold innerStep
        rw [Pi.add_apply, map_add, hS, hx, add_zero]) s.2 h2
    have hc : γ (copyTracers (fun i => !m.inSolver i)
        (applyAll m.fast (transportFields m.transport (ubar m xn s.2) (xstarOf m xn) s.1))
        ((List.range m.numInner).foldl (fun x k => innerStep m
          (transportFields m.transport (ubar m xn s.2) (xstarOf m xn) s.1)
          (applyAll m.fast (transportFields m.transport (ubar m xn s.2) (xstarOf m xn) s.1)
            - transportFields m.transport (ubar m xn s.2) (xstarOf m xn) s.1) k x) s.2) m.u) = 0 := by
      unfold copyTracers
      simp only
      split
      · exact hfast
      · exact hx
    have e := hb _ hc
    refine ⟨?_, hxp, ?_⟩
    · exact Prod.ext rfl e
    · exact (congrArg (fun x : ∀ i, V i => γ (x m.u)) e).trans hc
  have hiter : ∀ n, (outerStep m xn (xstarOf m xn))^[n] (xstarOf m xn, x0)
      = (outerStep { m with bcs := fun x => x } xn (xstarOf m xn))^[n] (xstarOf m xn, x0) ∧
      γ (((outerStep m xn (xstarOf m xn))^[n] (xstarOf m xn, x0)).1 m.u) = 0 ∧
      γ (((outerStep m xn (xstarOf m xn))^[n] (xstarOf m xn, x0)).2 m.u) = 0 := by
    intro n
    induction n with
    | zero => exact ⟨rfl, hstar, h0⟩
    | succ n ih =>
      obtain ⟨i1, i2, i3⟩ := ih
      obtain ⟨o1, o2, o3⟩ := hout _ i2 i3
      rw [Function.iterate_succ_apply', Function.iterate_succ_apply']
      exact ⟨by rw [o1, i1], o2, o3⟩
  unfold timestep outerLoop
  exact congrArg (fun s : (∀ i, V i) × (∀ i, V i) => applyAll m.final s.2) (hiter m.numOuter).1

/-- `TRBDF2QuasiNewton` with zero conditions on the velocity: the same. -/
theorem C143_trbdf2 (m : TrBdf2 K V) (γ : V m.u →ₗ[K] B) (hb : ∀ x, γ (x m.u) = 0 → m.bcs x = x)
    (hE : ∀ x, γ (m.trE x m.u) = 0) (hS : ∀ r, γ (m.trSolve r m.u) = 0) (hS' : ∀ r, γ (m.bdfSolve r m.u) = 0)
    (hT : ∀ t ∈ m.transport, ∀ vel x, γ (x m.u) = 0 → γ (t.step vel x m.u) = 0)
    (hP : ∀ s ∈ m.slow, ∀ x, γ (x m.u) = 0 → γ (s x m.u) = 0) (xn : ∀ i, V i) (hn : γ (xn m.u) = 0) :
    trBdf2Step m xn = trBdf2Step { m with bcs := fun x => x } xn := by
  have inner : ∀ (force solve : (∀ i, V i) → ∀ i, V i) (xp : ∀ i, V i) (n : ℕ) (x : ∀ i, V i),
      (∀ r, γ (solve r m.u) = 0) → γ (x m.u) = 0 →
      γ (((List.range n).foldl (fun x k => trInner m.u force solve xp k x) x) m.u) = 0 := by
    intro force solve xp n x hs hx
    refine foldl_keeps (fun x : ∀ i, V i => γ (x m.u) = 0) _ _ (fun k _ x hx => ?_) x hx
    unfold trInner
    rw [Pi.add_apply, map_add, hs, hx, add_zero]
  have copy : ∀ (a b : ∀ i, V i), γ (a m.u) = 0 → γ (b m.u) = 0 → γ (copyTracers m.copied a b m.u) = 0 := by
    intro a b ha hb'
    unfold copyTracers
    split
    · exact ha
    · exact hb'
  have hstar : γ ((applyAll m.slow xn + m.trE xn) m.u) = 0 := by
    rw [Pi.add_apply, map_add, hE, add_zero]
    exact applyAll_keeps (fun x : ∀ i, V i => γ (x m.u) = 0) m.slow hP xn hn
  have htr : ∀ n xstar, γ (xstar m.u) = 0 →
      (trOuter m xn xstar)^[n] (xstar, xn) = (trOuter { m with bcs := fun x => x } xn xstar)^[n] (xstar, xn) ∧
      γ (((trOuter m xn xstar)^[n] (xstar, xn)).1 m.u) = 0 ∧ γ (((trOuter m xn xstar)^[n] (xstar, xn)).2 m.u) = 0 := by
    intro n xstar hxs
    induction n with
    | zero => exact ⟨rfl, hxs, hn⟩
    | succ n ih =>
      obtain ⟨i1, i2, i3⟩ := ih
      rw [Function.iterate_succ_apply', Function.iterate_succ_apply', ← i1]
      generalize (trOuter m xn xstar)^[n] (xstar, xn) = s at i2 i3
      have hxp := transport_keeps γ m.transport hT (trUbar (xn m.u) (s.2 m.u) (2 * m.gamma)) xstar s.1 hxs i2
      have hc := copy _ _ hxp (inner m.trI m.trSolve
        (transportFields m.transport (trUbar (xn m.u) (s.2 m.u) (2 * m.gamma)) xstar s.1) m.nInnerTr s.2 hS i3)
      have e := hb _ hc
      exact ⟨Prod.ext rfl e, hxp, (congrArg (fun x : ∀ i, V i => γ (x m.u)) e).trans hc⟩
  have hm : trStage m xn = trStage { m with bcs := fun x => x } xn ∧ γ (trStage m xn m.u) = 0 := by
    obtain ⟨i1, -, i3⟩ := htr m.nOuterTr _ hstar
    exact ⟨congrArg Prod.snd i1, i3⟩
  have hbdf : ∀ xm, γ (xm m.u) = 0 → ∀ n,
      (bdfOuter m xn xm)^[n] ⟨xn, xm, xn⟩ = (bdfOuter { m with bcs := fun x => x } xn xm)^[n] ⟨xn, xm, xn⟩ ∧
      γ (((bdfOuter m xn xm)^[n] ⟨xn, xm, xn⟩).xp m.u) = 0 ∧ γ (((bdfOuter m xn xm)^[n] ⟨xn, xm, xn⟩).xpm m.u) = 0 ∧
      γ (((bdfOuter m xn xm)^[n] ⟨xn, xm, xn⟩).x m.u) = 0 := by
    intro xm hxm n
    induction n with
    | zero => exact ⟨rfl, hn, hxm, hn⟩
    | succ n ih =>
      obtain ⟨i1, i2, i3, i4⟩ := ih
      rw [Function.iterate_succ_apply', Function.iterate_succ_apply', ← i1]
      generalize (bdfOuter m xn xm)^[n] ⟨xn, xm, xn⟩ = s at i2 i3 i4
      have hpm := transport_keeps γ m.transport hT (trUbar (s.x m.u) (s.x m.u) (1 - 2 * m.gamma)) xm s.xpm hxm i3
      have hp0 := transport_keeps γ m.transport hT (trUbar (s.x m.u) (s.x m.u) (1 : K)) xn s.xp hn i2
      have hp : γ (((1 - gamma3 m.gamma) • transportFields m.transport (trUbar (s.x m.u) (s.x m.u) (1 : K)) xn s.xp
          + gamma3 m.gamma • transportFields m.transport (trUbar (s.x m.u) (s.x m.u) (1 - 2 * m.gamma)) xm s.xpm) m.u)
          = 0 := by
        simp only [Pi.add_apply, Pi.smul_apply, map_add, map_smul]
        rw [hp0, hpm]
        simp
      have hc := copy _ _ hp (inner m.bdfI m.bdfSolve
        ((1 - gamma3 m.gamma) • transportFields m.transport (trUbar (s.x m.u) (s.x m.u) (1 : K)) xn s.xp
          + gamma3 m.gamma • transportFields m.transport (trUbar (s.x m.u) (s.x m.u) (1 - 2 * m.gamma)) xm s.xpm)
        m.nInnerBdf s.x hS' i4)
      have e := hb _ hc
      refine ⟨?_, hp, hpm, (congrArg (fun x : ∀ i, V i => γ (x m.u)) e).trans hc⟩
      unfold bdfOuter
      simp only [BdfState.mk.injEq]
      exact ⟨trivial, trivial, e⟩
  unfold trBdf2Step bdfStage
  rw [← hm.1]
  exact congrArg (fun s : BdfState V => applyAll m.final s.x) (hbdf _ hm.2 m.nOuterBdf).1

/-- Two fields on one interior and one boundary node, the velocity `true`, with forcing, damping physics and a linear solve
that leave the boundary alone. -/
def twoFields (alphaU beta : ℚ) : Siqn ℚ (fun _ : Bool => ℚ × ℚ) where
  u := true
  inSolver := fun _ => true
  numOuter := 2
  numInner := 2
  accelerator := true
  alphaU := alphaU
  beta := beta
  slow := [fun x i => (1 / 2 : ℚ) • x i]
  fast := []
  inner := []
  final := [fun x i => x (!i)]
  forceE := fun x i => ((x (!i)).1, 0)
  forceI := fun x i => ((x (!i)).1 ^ 2, 0)
  transport := [⟨[false, true], fun vel x i => ((x i).1 * vel.1, (x i).2)⟩]
  solve := fun r i => ((r i).1, 0)
  bcs := fun x i => if i = true then ((x i).1, 0) else x i

example (alphaU beta : ℚ) (xn x0 : Bool → ℚ × ℚ) (hn : (xn true).2 = 0) (h0 : (x0 true).2 = 0) :
    timestep (twoFields alphaU beta) xn x0 = timestep { twoFields alphaU beta with bcs := fun x => x } xn x0 := by
  refine C143_siqn (twoFields alphaU beta) (LinearMap.snd ℚ ℚ ℚ) (fun x hx => ?_) (fun _ => rfl) (fun _ => rfl)
    (fun _ => rfl) (fun t ht vel x hx => ?_) (fun s hs x hx => ?_) xn x0 hn h0
  · funext i
    cases i
    · rfl
    · exact Prod.ext rfl hx.symm
  · obtain rfl := List.eq_of_mem_singleton
      (a := t) (b := (⟨[false, true], fun vel x i => ((x i).1 * vel.1, (x i).2)⟩ : Transport (fun _ => ℚ × ℚ) true)) ht
    exact hx
  · simp only [twoFields, List.append_nil, List.mem_singleton] at hs
    subst hs
    change (1 / 2 : ℚ) * (x true).2 = 0
    rw [show (x true).2 = 0 from hx, mul_zero]
end quasiNewton

/-! ### The heat equation on one interior and two boundary nodes -/
section heat

/-- the three components of the residual: interior, left and right boundary -/
abbrev Node3 := ℚ × ℚ × ℚ

/-- Mass and stiffness terms of the heat equation on three nodes; a field is `(interior, left, right)`. -/
def heat : LForm Node3 Node3 :=
  [⟨[.timeDerivative], fun x => x, 0, []⟩,
   ⟨[.diffusion], fun x => (2 * x.1 - x.2.1 - x.2.2, x.2.1 - x.1, x.2.2 - x.1), 0, []⟩]

/-- The equation of the interior node, with values `a` and `b` at the ends. -/
def heatInterior (a b : ℚ) : LForm ℚ ℚ :=
  [⟨[.timeDerivative], fun x => x, 0, []⟩, ⟨[.diffusion], fun x => 2 * x - a - b, 0, []⟩]

/-- the interior test function -/
def interior : Node3 →ₗ[ℚ] ℚ := LinearMap.fst ℚ ℚ (ℚ × ℚ)

/-- With the ends held at zero, the interior equation is the restriction. -/
theorem heat_restricts : Restricts (fun y => (y, ((0, 0) : ℚ × ℚ))) (fun d => interior d) heat (heatInterior 0 0) := by
  refine List.Forall₂.cons ⟨rfl, rfl, fun x => rfl, List.Forall₂.nil⟩
    (List.Forall₂.cons ⟨rfl, rfl, fun x => ?_, List.Forall₂.nil⟩ List.Forall₂.nil)
  rfl

/-- solves scalar affine equations -/
def affineSolve : Solver ℚ ℚ := fun r _ => - r 0 / (r 1 - r 0)

/-- Backward Euler from 3 with zero ends: the middle value is `3 / (1 + 2 dt)`. -/
example : implicitCycle (solveWith (fun d => interior d) affineSolve ((0, 0) : ℚ × ℚ)) (backwardEulerRes heat (1 / 2 : ℚ))
    (3, (0, 0)) = (3 / 2, (0, 0)) := by
  have h := (C143_implicit interior affineSolve ((0, 0) : ℚ × ℚ) heat (heatInterior 0 0) heat_restricts (1 / 2) 0 0 1 3).1
  simp only [Function.iterate_one] at h
  have hne : ¬ (Label.timeDerivative = Label.diffusion) := by decide
  rw [h]
  norm_num [implicitCycle, affineSolve, backwardEulerRes, heatInterior, LForm.eval, LForm.labelMap, LForm.sub,
    LForm.replaceSubject, LForm.keep, LForm.drop, LForm.scaleTerm, LForm.allTerms, isTD, Term.has, Term.eval, hne]

/-- Explicit Runge-Kutta for the heat equation: the two scheme objects agree. -/
example (A : ℕ → ℕ → ℚ) (s : ℕ) (dt : ℚ) :
    RKRel (LinearMap.inl ℚ ℚ (ℚ × ℚ)) interior
      { R := heat, A := A, nStages := s, dt := dt, originalDt := dt, limiter := none, nphys := 0,
        evals := fun _ _ _ => 0, solve := solveWith (fun d => interior d) affineSolve (0, 0) }
      { R := heatInterior 0 0, A := A, nStages := s, dt := dt, originalDt := dt, limiter := none, nphys := 0,
        evals := fun _ _ _ => 0, solve := affineSolve } :=
  ⟨heat_restricts, rfl, rfl, rfl, rfl, Option.Rel.none, rfl, fun _ _ _ => rfl, C143_solver interior affineSolve (0, 0)⟩

end heat
end Gusto.Props.ConstrainedProps
