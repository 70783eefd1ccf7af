import Verif.Spec.Constrained
import Verif.Model.BoundaryConditions
import Verif.Model.DeferredCorrection
import Verif.Model.ExplicitRK
import Verif.Model.Multilevel
import Verif.Model.QuasiNewton
import Verif.Model.Projection
import Verif.Lemmas.FML
import Mathlib.LinearAlgebra.Prod
import Mathlib.Algebra.BigOperators.Group.Finset.Basic
import Mathlib.Algebra.Polynomial.AlgebraMap
import Mathlib.Data.Rat.Init
import Mathlib.Algebra.Order.Ring.Rat
import Mathlib.Tactic.Ring
import Mathlib.Tactic.Module
import Mathlib.Tactic.Linarith
import Mathlib.Tactic.LinearCombination

set_option autoImplicit false
set_option linter.unusedSectionVars false
set_option linter.unusedSimpArgs false

/-!
# C142: Dirichlet conditions hold after every step

`γ x` are the boundary values of a field `x`, `g` the prescribed ones.
-/

namespace Gusto.Props.BCProps
open Gusto Gusto.Spec Gusto.BC TimeDisc

/-! ### Schemes that solve for fields -/
section fields
variable {K X D B : Type*} [Field K] [AddCommGroup D] [Module K D]

/-- A solver that is given the conditions enforces them. -/
theorem C142_solver {I D₀ : Type*} (ρ : D → D₀) (core : Solver I D₀) (g : B) :
    Enforces (fun x : I × B => x.2) g (solveWith ρ core g) := fun _ _ => rfl

/-- The equations of the interior test functions hold at the result, with the prescribed boundary values in place: if the interior solve
finds a zero of the system it is given, then from every guess, also one with other boundary values, the result is a zero of the
interior equations of the scheme. -/
theorem C142_solves {I D₀ : Type*} [Zero D₀] (ρ : D → D₀) (core : Solver I D₀) (g : B) (hc : ∀ (r : I → D₀) y, (∃ z, r z = 0) → r (core r y) = 0)
    (r : I × B → D) (x : I × B) (hz : ∃ z, ρ (r (z, g)) = 0) :
    ρ (r (solveWith ρ core g r x)) = 0 ∧ (solveWith ρ core g r x).2 = g :=
  ⟨hc (fun y => ρ (r (y, g))) x.1 hz, rfl⟩

/-- The same for a step of backward Euler, of the theta method, and for both stages of TR-BDF2, from a state with any boundary values. -/
theorem C142_implicit_solves {I D₀ : Type*} [Zero D₀] (ρ : D → D₀) (core : Solver I D₀) (g : B)
    (hc : ∀ (r : I → D₀) y, (∃ z, r z = 0) → r (core r y) = 0) (R : LForm (I × B) D) (dt theta gamma : K) (x : I × B)
    (h1 : ∃ z, ρ (backwardEulerRes R dt (z, g) x).eval = 0) (h2 : ∃ z, ρ (thetaRes R dt theta (z, g) x).eval = 0)
    (h3 : ∃ z, ρ (trRes R dt gamma (z, g) x).eval = 0)
    (h4 : ∀ m, ∃ z, ρ (bdf2StageRes R dt gamma (z, g) (m, g) x).eval = 0) :
    ρ (backwardEulerRes R dt (implicitCycle (solveWith ρ core g) (backwardEulerRes R dt) x) x).eval = 0 ∧
      ρ (thetaRes R dt theta (implicitCycle (solveWith ρ core g) (thetaRes R dt theta) x) x).eval = 0 ∧
      ∃ m, m.2 = g ∧ ρ (trRes R dt gamma m x).eval = 0 ∧
        ρ (bdf2StageRes R dt gamma (trBdf2Apply (solveWith ρ core g) R dt gamma x) m x).eval = 0 := by
  refine ⟨(C142_solves ρ core g hc (fun y => (backwardEulerRes R dt y x).eval) x h1).1,
    (C142_solves ρ core g hc (fun y => (thetaRes R dt theta y x).eval) x h2).1,
    solveWith ρ core g (fun y => (trRes R dt gamma y x).eval) x, rfl,
    (C142_solves ρ core g hc (fun y => (trRes R dt gamma y x).eval) x h3).1, ?_⟩
  exact (C142_solves ρ core g hc (fun y => (bdf2StageRes R dt gamma y _ x).eval) _ (h4 _)).1

open Classical in
/-- A solver that finds a zero whenever there is one meets the hypothesis; the guess has boundary value 5, the condition is 1. -/
example : ∃ core : Solver ℚ ℚ, (∀ (r : ℚ → ℚ) y, (∃ z, r z = 0) → r (core r y) = 0) ∧
    (fun d : ℚ × ℚ => d.1) ((fun x : ℚ × ℚ => (2 * x.1 - x.2, x.2)) (solveWith (fun d : ℚ × ℚ => d.1) core 1
      (fun x : ℚ × ℚ => (2 * x.1 - x.2, x.2)) (3, 5))) = 0 := by
  have hc : ∀ (r : ℚ → ℚ) (y : ℚ), (∃ z, r z = 0) → r ((fun (r : ℚ → ℚ) (y : ℚ) => if h : ∃ z, r z = 0 then h.choose else y) r y) = 0 := by
    intro r y h
    simp only [dif_pos h]
    exact h.choose_spec
  exact ⟨_, hc, (C142_solves (fun d : ℚ × ℚ => d.1) _ (1 : ℚ) hc (fun x : ℚ × ℚ => (2 * x.1 - x.2, x.2)) (3, 5) ⟨1 / 2, by norm_num⟩).1⟩

/-- Backward Euler, theta method, TR-BDF2 and all multi-level schemes: from any state, the result has the prescribed
values. -/
theorem C142_implicit (γ : X → B) (g : B) (solve : Solver X D) (h : Enforces γ g solve) (R : LForm X D)
    (dt theta gamma : K) (x : X) (S : Multilevel.Scheme X D) (n : ℕ) (levels : ℕ → X) :
    γ (implicitCycle solve (backwardEulerRes R dt) x) = g ∧ γ (implicitCycle solve (thetaRes R dt theta) x) = g ∧
      γ (trBdf2Apply solve R dt gamma x) = g ∧ γ (S.apply solve n levels).1 = g := by
  refine ⟨h _ _, h _ _, h _ _, ?_⟩
  unfold Multilevel.Scheme.apply
  split <;> exact h _ _

variable [AddCommGroup X] [Module K X]

theorem limitRK {γ : X → B} {g : B} {S : RKScheme K X D} (hl : KeepsValues γ g S.limiter) (x : X) (hx : γ x = g) :
    γ (RK.limit S x) = g := by
  unfold RK.limit
  cases hL : S.limiter with
  | none => exact hx
  | some l => exact hl l hL x hx

theorem limitIMEX {γ : X → B} {g : B} {S : IMEX.Scheme K X D} (hl : KeepsValues γ g S.limiter) (x : X) (hx : γ x = g) :
    γ (IMEX.limit S x) = g := by
  unfold IMEX.limit
  cases hL : S.limiter with
  | none => exact hx
  | some l => exact hl l hL x hx

theorem limitSDC {γ : X → B} {g : B} {S : SDC.Scheme K X D} (hl : KeepsValues γ g S.limiter) (x : X) (hx : γ x = g) :
    γ (SDC.limit S x) = g := by
  unfold SDC.limit
  cases hL : S.limiter with
  | none => exact hx
  | some l => exact hl l hL x hx

theorem limitRIDC {γ : X → B} {g : B} {S : RIDC.Scheme K X D} (hl : KeepsValues γ g S.limiter) (x : X) (hx : γ x = g) :
    γ (RIDC.limit S x) = g := by
  unfold RIDC.limit
  cases hL : S.limiter with
  | none => exact hx
  | some l => exact hl l hL x hx

/-- Implicit Runge-Kutta (predictor), IMEX Runge-Kutta and explicit Runge-Kutta in the predictor and linear
formulations, with any number of subcycles. -/
theorem C142_runge_kutta [DecidableEq K] (γ : X → B) (g : B) :
    (∀ (S : IRK.Scheme K X D) (_ : Enforces γ g S.solve) (st : IRK.State K X) (x : X),
      γ (IRK.applyPred S st x).1 = g) ∧
    (∀ (S : IMEX.Scheme K X D) (_ : Enforces γ g S.solve) (_ : KeepsValues γ g S.limiter) (st : IMEX.State X) (x : X),
      γ (IMEX.apply S st x) = g) ∧
    (∀ (S : RKScheme K X D) (_ : Enforces γ g S.solve) (_ : KeepsValues γ g S.limiter) (_ : 0 < S.nStages)
      (f : RK.Formulation) (_ : f = .predictor ∨ f = .linear) (ncycles : ℕ) (_ : 0 < ncycles) (st : RKState X) (x : X),
      γ (RK.apply f S ncycles st x) = g) := by
  refine ⟨fun S h st x => h _ _, fun S h hl st x => ?_, fun S h hl hn f hf ncycles hc st x => ?_⟩
  · unfold IMEX.apply
    exact limitIMEX hl _ (h _ _)
  · obtain ⟨c, rfl⟩ : ∃ c, ncycles = c + 1 := ⟨ncycles - 1, by omega⟩
    obtain ⟨s, hs⟩ : ∃ s, S.nStages = s + 1 := ⟨S.nStages - 1, by omega⟩
    unfold RK.apply
    rw [List.range_succ, List.foldl_append]
    simp only [List.foldl_cons, List.foldl_nil]
    generalize List.foldl _ _ (List.range c) = st1
    unfold RK.applyCycle
    rw [hs, List.range_succ, List.foldl_append]
    simp only [List.foldl_cons, List.foldl_nil]
    generalize List.foldl _ _ (List.range s) = st2
    rcases hf with rfl | rfl
    · unfold RK.solveStage RK.predStage
      simp only [hs, Nat.add_sub_cancel, if_true, Function.update_self]
      exact limitRK hl _ (h _ _)
    · unfold RK.solveStage RK.linStage
      simp only [hs]
      have hlt : ¬ ((s + 1) * c + s + 1 < (c + 1) * (s + 1)) := by
        have : (s + 1) * c + s + 1 = (c + 1) * (s + 1) := by ring
        omega
      rw [if_neg hlt]
      exact limitRK hl _ (h _ _)

/-- a loop whose steps make the entries `m + 1` of an array right and leave the other ones alone -/
theorem loop_right {σ : Type*} (U : σ → ℕ → X) (γ : X → B) (g : B) (f : σ → ℕ → σ)
    (hset : ∀ s m, γ (U (f s m) (m + 1)) = g) (hkeep : ∀ s m j, j ≠ m + 1 → U (f s m) j = U s j) (l : List ℕ) (s : σ)
    (P : ℕ → Prop) (hP : ∀ m, P m → γ (U s (m + 1)) = g) :
    ∀ m, m ∈ l ∨ P m → γ (U (l.foldl f s) (m + 1)) = g := by
  induction l generalizing s P with
  | nil => intro m hm; exact hP m (by simpa using hm)
  | cons a l ih =>
    intro m hm
    simp only [List.foldl_cons]
    refine ih (f s a) (fun m => m = a ∨ P m) ?_ m ?_
    · intro m hm
      by_cases hma : m = a
      · subst hma; exact hset s m
      · rw [hkeep s a (m + 1) (by omega)]
        exact hP m (hm.resolve_left hma)
    · simp only [List.mem_cons] at hm
      tauto

/-- Spectral deferred correction with at least one correction sweep: the result has the prescribed values. -/
theorem C142_sdc (γ : X → B) (g : B) (S : SDC.Scheme K X D) (h : Enforces γ g S.solve)
    (hl : KeepsValues γ g S.limiter) (hM : 0 < S.M) (hk : 0 < S.maxk) (st : SDC.State K X) (x : X) :
    γ (SDC.apply S st x).2 = g := by
  obtain ⟨k, hkk⟩ : ∃ k, S.maxk = k + 1 := ⟨S.maxk - 1, by omega⟩
  obtain ⟨M, hMM⟩ : ∃ M, S.M = M + 1 := ⟨S.M - 1, by omega⟩
  have hsweep : ∀ qi st k, γ ((SDC.sweep S qi st k).U S.M) = g := by
    intro qi st k
    unfold SDC.sweep
    simp only
    have hnode := fun st0 : SDC.State K X => loop_right (fun s : SDC.State K X => s.U1) γ g (SDC.nodeBody S qi)
      (fun s m => by
        unfold SDC.nodeBody
        simp only [Function.update_self]
        exact limitSDC hl _ (h _ _))
      (fun s m j hj => by
        unfold SDC.nodeBody
        cases S.z2n <;> simp [Function.update_of_ne hj])
      (List.range S.M) st0 (fun _ => False) (fun _ hf => hf.elim)
    generalize hst1 : List.foldl (SDC.nodeBody S qi) _ (List.range S.M) = st1
    have h1 : ∀ m, m < S.M → γ (st1.U1 (m + 1)) = g := by
      intro m hm
      rw [← hst1]
      exact hnode _ m (Or.inl (List.mem_range.mpr hm))
    clear hst1 hnode
    have hcopy : ∀ (n : ℕ), ((List.range n).foldl (fun st i =>
        ({ st with U := Function.update st.U (i + 1) (st.U1 (i + 1)),
                   sU := Function.update st.sU (i + 1) (st.sU1 (i + 1)) } : SDC.State K X)) st1).U1 = st1.U1 := by
      intro n
      induction n with
      | zero => rfl
      | succ n ih => rw [List.range_succ, List.foldl_append]; exact ih
    rw [hMM, List.range_succ, List.foldl_append]
    simp only [List.foldl_cons, List.foldl_nil, Function.update_self]
    rw [hcopy M]
    exact h1 M (by omega)
  unfold SDC.apply SDC.finish
  rw [if_pos (by omega)]
  split
  · exact limitSDC hl _ (h _ _)
  · unfold SDC.sweeps
    rw [hkk, List.range_succ, List.foldl_append]
    exact hsweep _ _ _

/-- Revisionist integral deferred correction with at least one correction: the result has the prescribed values. -/
theorem C142_ridc (γ : X → B) (g : B) (S : RIDC.Scheme K X D) (h : Enforces γ g S.solve)
    (hl : KeepsValues γ g S.limiter) (hk : 0 < S.Kc) (st st' : RIDC.State K X) (x y : X)
    (hy : RIDC.apply S st x = some (st', y)) : γ y = g := by
  have hsweep : ∀ st k, 0 < S.M → γ ((RIDC.sweep S st k).U S.M) = g := by
    intro st k hM
    unfold RIDC.sweep
    simp only
    have hset : ∀ (s : RIDC.State K X) m, γ ((RIDC.nodeSolve S s m).U1 (m + 1)) = g := by
      intro s m
      unfold RIDC.nodeSolve
      simp only [Function.update_self]
      exact limitRIDC hl _ (h _ _)
    have hkeep : ∀ (s : RIDC.State K X) m j, j ≠ m + 1 → (RIDC.nodeSolve S s m).U1 j = s.U1 j := by
      intro s m j hj
      unfold RIDC.nodeSolve
      simp [Function.update_of_ne hj]
    have hhead := fun st0 : RIDC.State K X => loop_right (fun s : RIDC.State K X => s.U1) γ g (RIDC.headBody S k)
      (fun s m => hset _ m) (fun s m j hj => hkeep _ m j hj) (List.range (RIDC.stencil S k)) st0 (fun _ => False)
      (fun _ hf => hf.elim)
    have htail := fun (st0 : RIDC.State K X) (P : ℕ → Prop) (hP : ∀ m, P m → γ (st0.U1 (m + 1)) = g) =>
      loop_right (fun s : RIDC.State K X => s.U1) γ g (RIDC.tailBody S k)
      (fun s m => hset _ m) (fun s m j hj => hkeep _ m j hj) ((List.range S.M).drop (RIDC.stencil S k)) st0 P hP
    generalize List.foldl (RIDC.rhsBody S) st _ = st0
    generalize ({ st0 with U1 := _, sU := _ } : RIDC.State K X) = st1
    generalize hst2 : List.foldl (RIDC.tailBody S k) _ _ = st2
    have h2 : γ (st2.U1 S.M) = g := by
      have hm := htail (List.foldl (RIDC.headBody S k) st1 (List.range (RIDC.stencil S k)))
        (fun m => m ∈ List.range (RIDC.stencil S k)) (fun m hm => hhead st1 m (Or.inl hm)) (S.M - 1) (by
          by_cases hlt : S.M - 1 < RIDC.stencil S k
          · exact Or.inr (List.mem_range.mpr hlt)
          · left
            rw [List.mem_drop_iff_getElem]
            refine ⟨S.M - 1 - RIDC.stencil S k, by simp; omega, ?_⟩
            simp; omega)
      rw [hst2, Nat.sub_add_cancel hM] at hm
      exact hm
    have hcopy : ∀ (n : ℕ), ((List.range n).foldl (fun st i =>
        ({ st with U := Function.update st.U i (st.U1 i),
                   sU := Function.update st.sU i (st.sU1 i) } : RIDC.State K X)) st2).U1 = st2.U1 := by
      intro n
      induction n with
      | zero => rfl
      | succ n ih => rw [List.range_succ, List.foldl_append]; exact ih
    rw [List.range_succ, List.foldl_append]
    simp only [List.foldl_cons, List.foldl_nil, Function.update_self]
    rw [hcopy S.M]
    exact h2
  unfold RIDC.apply at hy
  split at hy
  · cases hy
  · obtain ⟨k, hkk⟩ : ∃ k, S.Kc = k + 1 := ⟨S.Kc - 1, by omega⟩
    simp only [Option.some.injEq, Prod.mk.injEq] at hy
    rw [← hy.2]
    unfold RIDC.sweeps
    rw [hkk, List.range_succ, List.foldl_append]
    exact hsweep _ _ (by omega)
end fields

/-! ### Schemes that solve for increments -/
section increments
variable {K X D B : Type*} [Field K] [AddCommGroup D] [Module K D] [AddCommGroup X] [Module K X] [AddCommGroup B]
  [Module K B]

theorem sum_values (γ : X →ₗ[K] B) (g : B) (c : ℕ → K) (k : ℕ → X) (n : ℕ) (hk : ∀ j < n, γ (k j) = g) (x : X) :
    γ ((List.range n).foldl (fun x i => x + c i • k i) x) = γ x + (∑ i ∈ Finset.range n, c i) • g := by
  induction n with
  | zero => simp
  | succ n ih =>
    rw [List.range_succ, List.foldl_append, Finset.sum_range_succ]
    simp only [List.foldl_cons, List.foldl_nil, map_add, map_smul]
    rw [ih fun j hj => hk j (by omega), hk n (by omega), add_smul, add_assoc]

/-- Explicit Runge-Kutta in the increment formulation: the conditions are imposed on the *increments*, so that `n`
subcycles change the boundary values by `n dt (Σ b) g` and never set them to `g`. -/
theorem C142_increment_rk (γ : X →ₗ[K] B) (g : B) (S : RKScheme K X D) (h : Enforces (fun x => γ x) g S.solve)
    (hl : S.limiter = none) (hn : 0 < S.nStages) (ncycles : ℕ) (hc : 0 < ncycles) (st : RKState X) (x : X) :
    γ (RK.apply .increment S ncycles st x)
      = γ x + ((ncycles : K) * ∑ i ∈ Finset.range S.nStages, S.dt * S.A (S.nStages - 1) i) • g := by
  have hlim : ∀ x, RK.limit S x = x := by intro x; unfold RK.limit; rw [hl]
  have hk : ∀ (x0 : X) (n : ℕ) (st : RKState X) (j : ℕ), j < n →
      γ (((List.range n).foldl (RK.solveStage .increment S ncycles 0 x0) st).k j) = g := by
    intro x0 n
    induction n with
    | zero => intro st j hj; omega
    | succ n ih =>
      intro st j hj
      rw [List.range_succ, List.foldl_append]
      simp only [List.foldl_cons, List.foldl_nil, RK.solveStage, RK.incStage]
      by_cases hjn : j = n
      · subst hjn; rw [Function.update_self]; exact h _ _
      · rw [Function.update_of_ne hjn]; exact ih st j (by omega)
  have hidx : ∀ idx, RK.solveStage .increment S ncycles idx = RK.solveStage .increment S ncycles 0 := fun _ => rfl
  have hcycle : ∀ idx (st : RKState X), γ (RK.applyCycle .increment S ncycles idx st).x1
      = γ st.x0 + (∑ i ∈ Finset.range S.nStages, S.dt * S.A (S.nStages - 1) i) • g := by
    intro idx st
    obtain ⟨s, hs⟩ : ∃ s, S.nStages = s + 1 := ⟨S.nStages - 1, by omega⟩
    unfold RK.applyCycle
    simp only [hlim, hidx]
    have hk' := hk st.x0 (s + 1) { st with x0 := st.x0, x1 := st.x0 }
    rw [hs]
    rw [List.range_succ, List.foldl_append] at hk' ⊢
    simp only [List.foldl_cons, List.foldl_nil] at hk' ⊢
    generalize List.foldl _ _ (List.range s) = st1 at hk' ⊢
    simp only [RK.solveStage, RK.incStage, hs, Nat.add_sub_cancel, if_true, hlim] at hk' ⊢
    exact sum_values γ g _ _ _ hk' _
  have hall : ∀ n (st : RKState X), γ (((List.range n).foldl (fun st idx =>
      let st := RK.applyCycle .increment S ncycles idx st
      { st with x0 := st.x1 }) st).x0)
      = γ st.x0 + ((n : K) * ∑ i ∈ Finset.range S.nStages, S.dt * S.A (S.nStages - 1) i) • g := by
    intro n
    induction n with
    | zero => intro st; simp
    | succ n ih =>
      intro st
      rw [List.range_succ, List.foldl_append]
      simp only [List.foldl_cons, List.foldl_nil]
      rw [hcycle, ih, Nat.cast_succ]
      module
  obtain ⟨c, rfl⟩ : ∃ c, ncycles = c + 1 := ⟨ncycles - 1, by omega⟩
  have hx := hall (c + 1) { st with x0 := x }
  unfold RK.apply
  rw [List.range_succ, List.foldl_append] at hx ⊢
  exact hx

/-- Implicit Runge-Kutta in the increment formulation: the same. -/
theorem C142_increment_irk (γ : X →ₗ[K] B) (g : B) (S : IRK.Scheme K X D) (h : Enforces (fun x => γ x) g S.solve)
    (st : IRK.State K X) (x : X) :
    γ (IRK.applyInc S st x).1 = γ x + (∑ i ∈ Finset.range S.nStages, S.A S.nStages i * S.dt) • g := by
  unfold IRK.applyInc
  refine sum_values γ g _ _ _ ?_ x
  generalize ({ st with xOut := x } : IRK.State K X) = st0
  generalize S.nStages = n
  induction n with
  | zero => intro j hj; omega
  | succ n ih =>
    intro j hj
    rw [List.range_succ, List.foldl_append]
    simp only [List.foldl_cons, List.foldl_nil, IRK.incStage]
    by_cases hjn : j = n
    · subst hjn; rw [Function.update_self]; exact h _ _
    · rw [Function.update_of_ne hjn]; exact ih j (by omega)

/-- With zero conditions an increment scheme keeps zero boundary values, over any number of steps. -/
theorem C142_increment_zero (γ : X →ₗ[K] B) (S : RKScheme K X D) (T : IRK.Scheme K X D)
    (h : Enforces (fun x => γ x) 0 S.solve) (h' : Enforces (fun x => γ x) 0 T.solve) (hl : S.limiter = none)
    (hn : 0 < S.nStages) (ncycles : ℕ) (hc : 0 < ncycles) (st : RKState X) (st' : IRK.State K X) (x : X) (hx : γ x = 0)
    (n : ℕ) : γ ((RK.apply .increment S ncycles st)^[n] x) = 0 ∧ γ ((fun x => (IRK.applyInc T st' x).1)^[n] x) = 0 := by
  refine ⟨?_, ?_⟩ <;> induction n generalizing x with
  | zero => exact hx
  | succ n ih =>
    rw [Function.iterate_succ, Function.comp_apply]
    refine ih _ ?_
    simp [C142_increment_rk γ 0 S h hl hn ncycles hc, C142_increment_irk γ 0 T h', hx]

/-- **Refuted**: forward Euler (the increment formulation is the default) with a condition: a field that starts with the
prescribed value 1 has the value `1 + n dt` after `n` steps; a field that starts with value 1 under the condition 0
keeps the value 1.  The predictor formulation gives the prescribed value in both cases. -/
theorem C142_increment_refuted (R : LForm (ℚ × ℚ) D) [Module ℚ D] (core : Solver ℚ D) (dt : ℚ) (hdt : 0 < dt) (n : ℕ)
    (hn : 0 < n) (st : RKState (ℚ × ℚ)) (y : ℚ) :
    let S (g : ℚ) : RKScheme ℚ (ℚ × ℚ) D :=
      { R := R, A := fun _ _ => 1, nStages := 1, dt := dt, originalDt := dt, limiter := none, nphys := 0,
        evals := fun _ _ _ => 0, solve := solveWith id core g }
    ((RK.apply .increment (S 1) 1 st)^[n] (y, 1)).2 = 1 + n * dt ∧ ((RK.apply .increment (S 1) 1 st)^[n] (y, 1)).2 ≠ 1 ∧
      ((RK.apply .increment (S 0) 1 st)^[n] (y, 1)).2 = 1 ∧
      ((RK.apply .predictor (S 1) 1 st)^[n] (y, 1)).2 = 1 ∧ ((RK.apply .predictor (S 0) 1 st)^[n] (y, 1)).2 = 0 := by
  intro S
  have step : ∀ g x, (RK.apply .increment (S g) 1 st x).2 = x.2 + dt * g := by
    intro g x
    have := C142_increment_rk (LinearMap.snd ℚ ℚ ℚ) g (S g) (fun _ _ => rfl) rfl Nat.one_pos 1 Nat.one_pos st x
    simpa [S] using this
  have iter : ∀ g n x, ((RK.apply .increment (S g) 1 st)^[n] x).2 = x.2 + n * (dt * g) := by
    intro g n
    induction n with
    | zero => intro x; simp
    | succ n ih =>
      intro x
      rw [Function.iterate_succ, Function.comp_apply, ih, step]
      push_cast; ring
  have pred : ∀ g, ((RK.apply .predictor (S g) 1 st)^[n] (y, 1)).2 = g := by
    intro g
    obtain ⟨m, rfl⟩ : ∃ m, n = m + 1 := ⟨n - 1, by omega⟩
    rw [Function.iterate_succ_apply']
    exact (C142_runge_kutta (K := ℚ) (D := D) (fun x : ℚ × ℚ => x.2) g).2.2 (S g) (fun _ _ => rfl)
      (fun l hl => by cases hl) Nat.one_pos .predictor (Or.inl rfl) 1 Nat.one_pos st _
  have e1 := iter 1 n (y, 1)
  have hp : 0 < (n : ℚ) * dt := by positivity
  refine ⟨by rw [e1]; ring, by rw [e1]; simp only; intro hcon; linarith, ?_, pred 1, pred 0⟩
  have e0 := iter 0 n (y, 1)
  rw [e0]; ring
end increments

/-! ### Which conditions a scheme is given -/
section choice

/-- The value and the part of the boundary of a condition. -/
def what (c : Cond) : ℚ × String := (c.value, c.part)

/-- Without augmentation a scheme uses the conditions of its field: unchanged without wrapper and with SUPG, on the space
of the wrapper for embedded DG and recovery; and with mixed options exactly the conditions of every component, each on
the space of that component. -/
theorem C142_conditions (eq : Dict) (field : String) (l : List Cond) (hl : eq field = some l) :
    schemeBcs eq field true .none none = .ok (some l) ∧ schemeBcs eq field true .supg none = .ok (some l) ∧
    (∀ space, ∃ l', schemeBcs eq field true (.single space) none = .ok (some l') ∧ l'.map what = l.map what ∧
      ∀ c ∈ l', c.space = space) ∧
    (∀ (names : List String) (sub : ℕ → String), (∀ n ∈ names, (eq n).isSome) →
      ∃ l', schemeBcs eq field true (.mixed names sub) none = .ok (some l') ∧
        ∀ c, c ∈ l' ↔ ∃ (i : ℕ) (hi : i < names.length) (ln : List Cond) (c' : Cond), eq names[i] = some ln ∧ c' ∈ ln ∧
          what c = what c' ∧ c.space = sub i) := by
  refine ⟨by simp [schemeBcs, hl], by simp [schemeBcs, hl], fun space => ?_, fun names sub hn => ?_⟩
  · refine ⟨l.map fun c => { c with space := space }, by simp [schemeBcs, hl], ?_, ?_⟩
    · simp [what, Function.comp_def]
    · intro c hc
      obtain ⟨c', -, rfl⟩ := List.mem_map.mp hc
      rfl
  · have key : ∀ (names : List String) (k : ℕ) (acc : List Cond), (∀ n ∈ names, (eq n).isSome) →
        ∃ l', (names.zipIdx k).foldlM (m := Except String) (fun (acc : List Cond) (p : String × ℕ) => match eq p.1 with
          | some l => Except.ok (acc ++ l.map fun c => { c with space := sub p.2 })
          | none => Except.error "KeyError") acc = Except.ok l' ∧
        ∀ c, c ∈ l' ↔ c ∈ acc ∨ ∃ (i : ℕ) (hi : i < names.length) (ln : List Cond) (c' : Cond), eq names[i] = some ln ∧
          c' ∈ ln ∧ what c = what c' ∧ c.space = sub (k + i) := by
      intro names
      induction names with
      | nil =>
        intro k acc _
        refine ⟨acc, rfl, fun c => ?_⟩
        simp
      | cons a names ih =>
        intro k acc hn
        obtain ⟨la, hla⟩ := Option.isSome_iff_exists.mp (hn a (by simp))
        obtain ⟨l', h1, h2⟩ := ih (k + 1) (acc ++ la.map fun c => { c with space := sub k })
          (fun n hn' => hn n (List.mem_cons_of_mem _ hn'))
        refine ⟨l', ?_, fun c => ?_⟩
        · rw [List.zipIdx_cons, List.foldlM_cons]
          simp only [hla]
          exact h1
        · rw [h2, List.mem_append, or_assoc]
          refine or_congr_right ?_
          constructor
          · rintro (hc | ⟨i, hi, ln, c', e1, e2, e3, e4⟩)
            · obtain ⟨c', hc', rfl⟩ := List.mem_map.mp hc
              exact ⟨0, by simp, la, c', hla, hc', rfl, rfl⟩
            · exact ⟨i + 1, by simpa using hi, ln, c', by simpa using e1, e2, e3, by rw [e4]; congr 1; omega⟩
          · rintro ⟨i, hi, ln, c', e1, e2, e3, e4⟩
            cases i with
            | zero =>
              left
              simp only [List.getElem_cons_zero] at e1
              rw [hla] at e1
              cases e1
              refine List.mem_map.mpr ⟨c', e2, ?_⟩
              cases c; cases c'
              simp_all [what]
            | succ i =>
              right
              exact ⟨i, by simpa using hi, ln, c', by simpa using e1, e2, e3, by rw [e4]; congr 1; omega⟩
    obtain ⟨l', h1, h2⟩ := key names 0 [] hn
    refine ⟨l', ?_, fun c => ?_⟩
    · simp only [schemeBcs, hl, Bool.not_true, Bool.false_eq_true, if_false]
      exact congrArg (Except.map some) h1
    · rw [h2]; simp

/-- With the vorticity augmentation a scheme uses the conditions of the velocity, on the augmented space. -/
theorem C142_vorticity (eq : Dict) (field space : String) (l : List Cond) (hl : eq "u" = some l) :
    ∃ l', schemeBcs eq field true .none (some ((Augmentation.vorticityTransport space).bcs eq)) = .ok (some l') ∧
      l'.map what = l.map what ∧ ∀ c ∈ l', c.space = space := by
  refine ⟨l.map fun c => { c with space := space }, by simp [schemeBcs, Augmentation.bcs, hl], ?_, ?_⟩
  · simp [what, Function.comp_def]
  · intro c hc
    obtain ⟨c', -, rfl⟩ := List.mem_map.mp hc
    rfl

/-- Every role but one is given the equation's conditions. -/
theorem C142_roles (eq : Dict) (field : String) (l : List Cond) (hl : eq field = some l) (r : Role)
    (hr : r ≠ .splitPhysics) : schemeBcs eq field r.applyBcs .none none = .ok (some l) := by
  cases r <;> first | exact absurd rfl hr | simp [schemeBcs, hl, Role.applyBcs]

/-- **Refuted**: whatever the conditions are, a scheme with the `MeanMixingRatio` augmentation uses none of them (and
cannot be set up with embedded DG or recovery), and the physics schemes of the split timesteppers use none. -/
theorem C142_conditions_refuted (eq : Dict) (field space : String) (l : List Cond) (hl : eq field = some l) :
    schemeBcs eq field true .none (some (Augmentation.meanMixingRatio.bcs eq)) = .ok none ∧
      schemeBcs eq field true (.single space) (some (Augmentation.meanMixingRatio.bcs eq)) = .error "TypeError" ∧
      schemeBcs eq field Role.splitPhysics.applyBcs .none none = .ok none := by
  refine ⟨rfl, rfl, by simp [schemeBcs, hl, Role.applyBcs]⟩

/-- **Refuted**: a step of a physics scheme without conditions (an explicit source `(1, 1)`, backward Euler with the mass
matrix `1`): the boundary value of a field that vanishes on the boundary becomes `dt`. -/
theorem C142_split_physics_refuted (dt y : ℚ) (hdt : 0 < dt) :
    let R : LForm (ℚ × ℚ) (ℚ × ℚ) := [⟨[.timeDerivative], fun x => x, 0, []⟩, ⟨[.physics 0], fun _ => (-1, -1), 0, []⟩]
    let solve : Solver (ℚ × ℚ) (ℚ × ℚ) := fun r _ => - r 0
    (∀ (r : ℚ × ℚ → ℚ × ℚ) (x : ℚ × ℚ), (∀ z, r z = z + r 0) → r (solve r x) = 0) ∧
    implicitCycle solve (backwardEulerRes R dt) (y, 0) = (y + dt, dt) ∧
      (implicitCycle solve (backwardEulerRes R dt) (y, 0)).2 ≠ 0 := by
  intro R solve
  have e : implicitCycle solve (backwardEulerRes R dt) (y, 0) = (y + dt, dt) := by
    have hne : ¬ (Label.timeDerivative = Label.physics 0) := by decide
    simp [R, solve, implicitCycle, backwardEulerRes, LForm.eval, LForm.labelMap, LForm.sub, LForm.replaceSubject,
      LForm.keep, LForm.drop, LForm.scaleTerm, LForm.allTerms, isTD, Term.has, Term.eval, hne]
  refine ⟨fun r x hr => ?_, e, ?_⟩
  · rw [hr]; simp [solve]
  · rw [e]; exact hdt.ne'

/-- Two conditions, of which one has a value, and a scheme that gets both. -/
example : ∃ l', schemeBcs (fun n => if n = "u" then some [⟨"Vu", 0, "bottom"⟩, ⟨"Vu", 3, "top"⟩] else some []) "u" true
    (.single "DG1") none = .ok (some l') ∧ l' = [⟨"DG1", 0, "bottom"⟩, ⟨"DG1", 3, "top"⟩] := ⟨_, rfl, rfl⟩
end choice

/-! ### Quasi-Newton timesteppers -/
section quasiNewton
open QN
variable {ι : Type*} [DecidableEq ι] {K : Type*} [Field K] [DecidableEq K] {V : ι → Type*}
  [∀ i, AddCommGroup (V i)] [∀ i, Module K (V i)] {B : Type*} [AddCommGroup B] [Module K B]

theorem applyAll_keeps {X : Type*} (P : X → Prop) (ss : List (X → X)) (h : ∀ s ∈ ss, ∀ x, P x → P (s x)) (x : X)
    (hx : P x) : P (applyAll ss x) := by
  unfold applyAll
  induction ss generalizing x with
  | nil => exact hx
  | cons a l ih =>
    exact ih (fun s hs => h s (List.mem_cons_of_mem _ hs)) _ (h a (by simp) x hx)

/-- `SemiImplicitQuasiNewton`: the conditions on the velocity hold after the timestep, and every velocity by which fields
are transported satisfies them, if the final diffusion and physics schemes keep them. -/
theorem C142_siqn (m : Siqn K V) (γ : V m.u →ₗ[K] B) (g : B) (hb : ∀ x, γ (m.bcs x m.u) = g) (ho : 0 < m.numOuter)
    (hf : ∀ s ∈ m.final, ∀ x, γ (x m.u) = g → γ (s x m.u) = g) (xn x0 : ∀ i, V i) :
    γ (timestep m xn x0 m.u) = g ∧
      (γ (xn m.u) = g → γ (x0 m.u) = g → ∀ j < m.numOuter,
        γ (ubar m xn ((outerStep m xn (xstarOf m xn))^[j] (xstarOf m xn, x0)).2) = g) := by
  have hit : ∀ j, 0 < j → γ (((outerStep m xn (xstarOf m xn))^[j] (xstarOf m xn, x0)).2 m.u) = g := by
    intro j hj
    obtain ⟨k, rfl⟩ : ∃ k, j = k + 1 := ⟨j - 1, by omega⟩
    rw [Function.iterate_succ_apply']
    exact hb _
  refine ⟨applyAll_keeps (fun x => γ (x m.u) = g) m.final hf _ (hit _ ho), fun hxn hx0 j _ => ?_⟩
  have hj : γ (((outerStep m xn (xstarOf m xn))^[j] (xstarOf m xn, x0)).2 m.u) = g := by
    rcases Nat.eq_zero_or_pos j with rfl | hj
    · exact hx0
    · exact hit j hj
  unfold ubar
  rw [map_add, map_smul, map_sub, hxn, hj, sub_self, smul_zero, add_zero]

/-- `TRBDF2QuasiNewton`: the same for the result, and for zero conditions (no normal flow) for the velocities that
transport in both stages. -/
theorem C142_trbdf2 (m : TrBdf2 K V) (γ : V m.u →ₗ[K] B) (g : B) (hb : ∀ x, γ (m.bcs x m.u) = g)
    (ho : 0 < m.nOuterBdf) (hf : ∀ s ∈ m.final, ∀ x, γ (x m.u) = g → γ (s x m.u) = g) (xn : ∀ i, V i) :
    γ (trBdf2Step m xn m.u) = g ∧ (0 < m.nOuterTr → γ (trStage m xn m.u) = g) ∧
      (g = 0 → γ (xn m.u) = 0 →
        (∀ xstar j, γ (trUbar (xn m.u) (((trOuter m xn xstar)^[j] (xstar, xn)).2 m.u) (2 * m.gamma)) = 0) ∧
        (∀ (xm : ∀ i, V i) (j : ℕ) (c : K), γ (trUbar (((bdfOuter m xn xm)^[j] ⟨xn, xm, xn⟩).x m.u) (((bdfOuter m xn xm)^[j] ⟨xn, xm, xn⟩).x m.u) c) = 0)) := by
  refine ⟨?_, ?_, ?_⟩
  · refine applyAll_keeps (fun x => γ (x m.u) = g) m.final hf _ ?_
    unfold bdfStage
    obtain ⟨k, hk⟩ : ∃ k, m.nOuterBdf = k + 1 := ⟨m.nOuterBdf - 1, by omega⟩
    rw [hk, Function.iterate_succ_apply']
    exact hb _
  · intro ht
    unfold trStage
    obtain ⟨k, hk⟩ : ∃ k, m.nOuterTr = k + 1 := ⟨m.nOuterTr - 1, by omega⟩
    rw [hk, Function.iterate_succ_apply']
    exact hb _
  · intro hg hxn
    refine ⟨fun xstar j => ?_, fun xm j c => ?_⟩
    · have : γ (((trOuter m xn xstar)^[j] (xstar, xn)).2 m.u) = 0 := by
        cases j with
        | zero => exact hxn
        | succ j => rw [Function.iterate_succ_apply', ← hg]; exact hb _
      unfold trUbar
      rw [map_smul, map_add, hxn, this, add_zero, smul_zero]
    · have : γ (((bdfOuter m xn xm)^[j] ⟨xn, xm, xn⟩).x m.u) = 0 := by
        cases j with
        | zero => exact hxn
        | succ j => rw [Function.iterate_succ_apply', ← hg]; exact hb _
      unfold trUbar
      rw [map_smul, map_add, this, add_zero, smul_zero]

/-- Setting the boundary component of the velocity to `g` gives the condition. -/
example (g : ℚ) (x : Bool → ℚ × ℚ) :
    LinearMap.snd ℚ ℚ ℚ ((fun (x : Bool → ℚ × ℚ) i => if i = true then ((x i).1, g) else x i) x true) = g := by simp
end quasiNewton

/-! ### The way back from the space of a wrapper -/
section back
open Polynomial Projection

/-- A way back that is given the conditions is a solve with prescribed values; only `project` is. -/
theorem C142_back (b : Back) : b.usesBcs = true ↔ b = .project := by cases b <;> simp [Back.usesBcs]

/-- Continuous piecewise linear functions on the cells [0,1] and [1,2], with nodal values `a`, `b`, `c`; on each cell a
polynomial in the distance from its left end. -/
noncomputable def hat (a b c : ℚ) : ℚ[X] × ℚ[X] := (C a + C (b - a) * X, C b + C (c - b) * X)

theorem eqn_hat (int : ℚ[X] × ℚ[X] →ₗ[ℚ] ℚ)
    (hint : ∀ (n : ℕ) (a b : ℚ), int (C a * X ^ n, C b * X ^ n) = (a + b) / (n + 1)) (mean a b c a' b' c' : ℚ) :
    eqn int 1 1 (X, 0) mean (hat a b c) (hat a' b' c')
      = ((-a * a' - b * b') + (-(a' * (b - a - 1) + (b' - a') * a) - (b' * (c - b) + (c' - b') * b)) / 2
        + (-((b' - a') * (b - a - 1)) - (c' - b') * (c - b)) / 3) := by
  have hq : ((1 : ℚ[X] × ℚ[X]) * (hat a' b' c' * ((X, 0) - algebraMap ℚ (ℚ[X] × ℚ[X]) mean))
      - 1 * (hat a' b' c' * (hat a b c - algebraMap ℚ (ℚ[X] × ℚ[X]) mean)))
      = (C (-a * a') * X ^ 0, C (- b * b') * X ^ 0)
        + (C (-(a' * (b - a - 1) + (b' - a') * a)) * X ^ 1, C (-(b' * (c - b) + (c' - b') * b)) * X ^ 1)
        + (C (-((b' - a') * (b - a - 1))) * X ^ 2, C (-((c' - b') * (c - b))) * X ^ 2) := by
    unfold hat
    refine Prod.ext ?_ ?_
    · simp only [Prod.fst_mul, Prod.fst_sub, Prod.fst_add, Prod.fst_one, map_neg, map_mul, map_add, map_sub, map_one]
      ring
    · simp only [Prod.snd_mul, Prod.snd_sub, Prod.snd_add, Prod.snd_one, map_neg, map_mul, map_add, map_sub, map_one]
      ring
  unfold eqn
  rw [← map_sub, hq, map_add, map_add, hint, hint, hint]
  push_cast
  ring

/-- **Refuted**: the way back `conservative_project`, with densities 1, for the discontinuous field that is linear from 0 to 1
on the first cell and zero on the second: the field vanishes at both ends of the domain, the result has the
value 1/4 at the left end. `int` is the integral. -/
theorem C142_conservative_back_refuted (int : ℚ[X] × ℚ[X] →ₗ[ℚ] ℚ)
    (hint : ∀ (n : ℕ) (a b : ℚ), int (C a * X ^ n, C b * X ^ n) = (a + b) / (n + 1)) (mean a b c : ℚ)
    (h : ∀ a' b' c', eqn int 1 1 (X, 0) mean (hat a b c) (hat a' b' c') = 0) :
    (X : ℚ[X]).eval 0 = 0 ∧ (hat a b c).1.eval 0 = 1 / 4 := by
  refine ⟨by simp, ?_⟩
  have key := eqn_hat int hint mean a b c
  have h1 := (key 1 0 0).symm.trans (h 1 0 0)
  have h2 := (key 0 1 0).symm.trans (h 0 1 0)
  have h3 := (key 0 0 1).symm.trans (h 0 0 1)
  have : (hat a b c).1.eval 0 = a := by simp [hat]
  rw [this]
  linarith

/-- The integral over the two cells, and the result of the projection: the hypotheses can be met. -/
noncomputable def cellInt : ℚ[X] × ℚ[X] →ₗ[ℚ] ℚ :=
  LinearMap.coprod (Polynomial.lsum fun n => LinearMap.lsmul ℚ ℚ (1 / ((n : ℚ) + 1)))
    (Polynomial.lsum fun n => LinearMap.lsmul ℚ ℚ (1 / ((n : ℚ) + 1)))

theorem cellInt_monomial (n : ℕ) (a b : ℚ) : cellInt (C a * X ^ n, C b * X ^ n) = (a + b) / (n + 1) := by
  simp only [cellInt, LinearMap.coprod_apply, C_mul_X_pow_eq_monomial]
  simp [Polynomial.lsum_apply, Polynomial.sum_monomial_index]
  ring

example (mean a' b' c' : ℚ) : eqn cellInt 1 1 (X, 0) mean (hat (1 / 4) (1 / 2) (-1 / 4)) (hat a' b' c') = 0 := by
  rw [eqn_hat cellInt cellInt_monomial]
  ring

end back
end Gusto.Props.BCProps
