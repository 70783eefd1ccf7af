import Verif.Lemmas.IntertwineDC
import Verif.Spec.Superposition
import Verif.Props.Steady
import Verif.Props.Symmetry
import Mathlib.Tactic.Module
import Mathlib.Data.Rat.Init
import Mathlib.Algebra.Order.Ring.Rat
import Mathlib.Tactic.Ring
import Mathlib.Tactic.Linarith

set_option autoImplicit false
set_option linter.unusedSectionVars false
set_option linter.unusedSimpArgs false
set_option linter.unusedVariables false

/-!
# C147: superposition

For a linear equation the result of every scheme is linear in the initial field; tracers that are transported by the same
wind and are linearly related stay so.
-/

namespace Gusto.Props.SuperpositionProps
open Gusto Gusto.Spec Gusto.Intertwine TimeDisc
open Gusto.Constrained (mapRK mapIMEX mapSDC mapRIDC)
variable {K X D : Type*} [Field K] [AddCommGroup X] [Module K X] [AddCommGroup D] [Module K D]

/-! ### Two copies of an equation -/

/-- `(x, y) ↦ a x + b y` -/
def comb {Y : Type*} [AddCommGroup Y] [Module K Y] (a b : K) : Y × Y →ₗ[K] Y := a • LinearMap.fst K Y Y + b • LinearMap.snd K Y Y

theorem comb_apply {Y : Type*} [AddCommGroup Y] [Module K Y] (a b : K) (p : Y × Y) : comb a b p = a • p.1 + b • p.2 := rfl

/-- two copies of a map -/
def two {Y Z : Type*} (f : Y → Z) (p : Y × Y) : Z × Z := (f p.1, f p.2)

/-- two copies of a term -/
def twoTerm (t : Term X D) : Term (X × X) (D × D) where
  labels := t.labels
  op := two t.op
  subj := (t.subj, t.subj)
  attached := t.attached.map fun f => (f.1, two f.2)

/-- two copies of an equation -/
def twoForm (R : LForm X D) : LForm (X × X) (D × D) := R.map twoTerm

theorem two_form (ι : X × X → X) (ρ : D × D → D) (R : LForm X D) (hι : ∀ t ∈ R, t.subj = ι (t.subj, t.subj))
    (ho : ∀ t ∈ R, ∀ p, t.op (ι p) = ρ (two t.op p)) (ha : ∀ t ∈ R, ∀ f ∈ t.attached, ∀ p, f.2 (ι p) = ρ (two f.2 p)) :
    Intertwines ι ρ R (twoForm R) := by
  unfold Intertwines twoForm
  rw [List.forall₂_map_right_iff, List.forall₂_same]
  intro t ht
  refine ⟨rfl, hι t ht, ho t ht, ?_⟩
  unfold twoTerm
  rw [List.forall₂_map_right_iff, List.forall₂_same]
  exact fun f hf => ⟨rfl, ha t ht f hf⟩

theorem fst_form (R : LForm X D) : Intertwines (LinearMap.fst K X X) (fun d => LinearMap.fst K D D d) R (twoForm R) :=
  two_form _ _ R (fun _ _ => rfl) (fun _ _ _ => rfl) (fun _ _ _ _ _ => rfl)

theorem snd_form (R : LForm X D) : Intertwines (LinearMap.snd K X X) (fun d => LinearMap.snd K D D d) R (twoForm R) :=
  two_form _ _ R (fun _ _ => rfl) (fun _ _ _ => rfl) (fun _ _ _ _ _ => rfl)

theorem comb_form {a b : K} {R : LForm X D} (h : SuperposesForm a b R) :
    Intertwines (comb (Y := X) a b) (fun d => comb (Y := D) a b d) R (twoForm R) :=
  two_form _ _ R (fun t ht => (h t ht).subj) (fun t ht p => (h t ht).op p.1 p.2)
    (fun t ht f hf p => (h t ht).attached f hf p.1 p.2)

theorem newton_rel {X₀ D₀ : Type*} [AddCommGroup X₀] [Module K X₀] [AddCommGroup D₀] [Module K D₀] (ι : X₀ →ₗ[K] X)
    (ρ : D₀ → D) (J : D → X) (J₀ : D₀ → X₀) (h : ∀ d, J (ρ d) = ι (J₀ d)) (n : ℕ) :
    IntertwinesSolver ι ρ (newton J n) (newton J₀ n) := by
  intro r r₀ hr g
  unfold newton
  induction n generalizing g with
  | zero => rfl
  | succ n ih => rw [Function.iterate_succ_apply, Function.iterate_succ_apply, ← ih, map_sub, hr, h]

theorem fst_solver (J : D →ₗ[K] X) (n : ℕ) : IntertwinesSolver (LinearMap.fst K X X) (fun d => LinearMap.fst K D D d)
    (newton J n) (newton (two J) n) :=
  newton_rel (LinearMap.fst K X X) (fun d => LinearMap.fst K D D d) J (two J) (fun _ => rfl) n

theorem snd_solver (J : D →ₗ[K] X) (n : ℕ) : IntertwinesSolver (LinearMap.snd K X X) (fun d => LinearMap.snd K D D d)
    (newton J n) (newton (two J) n) :=
  newton_rel (LinearMap.snd K X X) (fun d => LinearMap.snd K D D d) J (two J) (fun _ => rfl) n

theorem comb_solver (a b : K) (J : D →ₗ[K] X) (n : ℕ) : IntertwinesSolver (comb (Y := X) a b)
    (fun d => comb (Y := D) a b d) (newton J n) (newton (two J) n) :=
  newton_rel _ _ _ _ (fun d => by simp [comb_apply, two]) n

/-- Three relations at once. -/
theorem three {f : X → X} {f₀ : X × X → X × X} {a b : K} (hc : ∀ p, f (comb a b p) = comb a b (f₀ p))
    (h1 : ∀ p, f (LinearMap.fst K X X p) = LinearMap.fst K X X (f₀ p))
    (h2 : ∀ p, f (LinearMap.snd K X X p) = LinearMap.snd K X X (f₀ p)) : Superposes a b f := by
  intro x y
  have h := hc (x, y)
  have e1 := h1 (x, y)
  have e2 := h2 (x, y)
  simp only [comb_apply, LinearMap.fst_apply, LinearMap.snd_apply] at h e1 e2
  rw [h, e1, e2]

theorem iterate_superposes {f : X → X} {a b : K} (h : Superposes a b f) (n : ℕ) : Superposes a b f^[n] := by
  intro x y
  induction n generalizing x y with
  | zero => rfl
  | succ n ih => rw [Function.iterate_succ_apply, Function.iterate_succ_apply, Function.iterate_succ_apply, h, ih]

/-! ### The time discretisations -/

/-- Backward Euler, the theta method and TR-BDF2, any number of steps, any number of Newton iterations. -/
theorem C147_implicit (a b : K) (R : LForm X D) (hR : SuperposesForm a b R) (J : D →ₗ[K] X) (its : ℕ)
    (dt theta gamma : K) (n : ℕ) :
    Superposes a b (implicitCycle (newton J its) (backwardEulerRes R dt))^[n] ∧
      Superposes a b (implicitCycle (newton J its) (thetaRes R dt theta))^[n] ∧
      Superposes a b (trBdf2Apply (newton J its) R dt gamma)^[n] := by
  refine ⟨iterate_superposes ?_ n, iterate_superposes ?_ n, iterate_superposes ?_ n⟩
  · exact three
      (implicitCycle_rel (comb_solver a b J its) _ _ fun y x => backwardEulerRes_rel (comb_form hR) dt y x)
      (implicitCycle_rel (fst_solver J its) _ _ fun y x => backwardEulerRes_rel (fst_form R) dt y x)
      (implicitCycle_rel (snd_solver J its) _ _ fun y x => backwardEulerRes_rel (snd_form R) dt y x)
  · exact three
      (implicitCycle_rel (comb_solver a b J its) _ _ fun y x => thetaRes_rel (comb_form hR) dt theta y x)
      (implicitCycle_rel (fst_solver J its) _ _ fun y x => thetaRes_rel (fst_form R) dt theta y x)
      (implicitCycle_rel (snd_solver J its) _ _ fun y x => thetaRes_rel (snd_form R) dt theta y x)
  · exact three (trBdf2_rel (comb_solver a b J its) (comb_form hR) dt gamma)
      (trBdf2_rel (fst_solver J its) (fst_form R) dt gamma) (trBdf2_rel (snd_solver J its) (snd_form R) dt gamma)

theorem multilevel_superposes {a b : K} {J : D →ₗ[K] X} {its : ℕ} {S : Multilevel.Scheme X D}
    {S₀ : Multilevel.Scheme (X × X) (D × D)} (hc : MLRel (comb (Y := X) a b) (comb (Y := D) a b) S S₀)
    (h1 : MLRel (LinearMap.fst K X X) (LinearMap.fst K D D) S S₀)
    (h2 : MLRel (LinearMap.snd K X X) (LinearMap.snd K D D) S S₀) (n : ℕ) (x y : ℕ → X) :
    (S.apply (newton J its) n fun i => a • x i + b • y i).1
      = a • (S.apply (newton J its) n x).1 + b • (S.apply (newton J its) n y).1 := by
  have e := congrArg Prod.fst (multilevel_rel (comb_solver a b J its) hc n fun i => (x i, y i))
  have e1 := congrArg Prod.fst (multilevel_rel (fst_solver J its) h1 n fun i => (x i, y i))
  have e2 := congrArg Prod.fst (multilevel_rel (snd_solver J its) h2 n fun i => (x i, y i))
  simp only [comb_apply, LinearMap.fst_apply, LinearMap.snd_apply] at e e1 e2
  rw [e, e1, e2]

/-- The multi-level schemes, in the start-up steps and afterwards. -/
theorem C147_multilevel (a b : K) (R : LForm X D) (hR : SuperposesForm a b R) (J : D →ₗ[K] X) (its : ℕ) (dt bl : K)
    (c : List K) (n : ℕ) (x y : ℕ → X) :
    ∀ S ∈ [Multilevel.bdf2 R dt, Multilevel.leapfrog R dt, Multilevel.adamsBashforth R dt c,
      Multilevel.adamsMoulton R dt bl c],
      (S.apply (newton J its) n fun i => a • x i + b • y i).1
        = a • (S.apply (newton J its) n x).1 + b • (S.apply (newton J its) n y).1 := by
  intro S hS
  simp only [List.mem_cons, List.not_mem_nil, or_false] at hS
  rcases hS with rfl | rfl | rfl | rfl
  · exact multilevel_superposes (bdf2_rel (comb_form hR) dt) (bdf2_rel (fst_form R) dt) (bdf2_rel (snd_form R) dt) n x y
  · exact multilevel_superposes (leapfrog_rel (comb_form hR) dt) (leapfrog_rel (fst_form R) dt)
      (leapfrog_rel (snd_form R) dt) n x y
  · exact multilevel_superposes (adamsBashforth_rel (comb_form hR) dt c) (adamsBashforth_rel (fst_form R) dt c)
      (adamsBashforth_rel (snd_form R) dt c) n x y
  · exact multilevel_superposes (adamsMoulton_rel (comb_form hR) dt bl c) (adamsMoulton_rel (fst_form R) dt bl c)
      (adamsMoulton_rel (snd_form R) dt bl c) n x y

/-- Implicit Runge-Kutta schemes, both formulations, with the stages kept from the call before. -/
theorem C147_irk (a b : K) (S : IRK.Scheme K X D) (hR : SuperposesForm a b S.R) (J : D →ₗ[K] X) (its : ℕ)
    (hs : S.solve = newton J its) (x₀ y₀ : X) (k l xs ys : ℕ → X) (c : Option K) (x y : X) :
    (IRK.applyPred S ⟨a • x₀ + b • y₀, fun i => a • k i + b • l i, fun i => a • xs i + b • ys i, c⟩ (a • x + b • y)).1
        = a • (IRK.applyPred S ⟨x₀, k, xs, c⟩ x).1 + b • (IRK.applyPred S ⟨y₀, l, ys, c⟩ y).1 ∧
      (IRK.applyInc S ⟨a • x₀ + b • y₀, fun i => a • k i + b • l i, fun i => a • xs i + b • ys i, c⟩ (a • x + b • y)).1
        = a • (IRK.applyInc S ⟨x₀, k, xs, c⟩ x).1 + b • (IRK.applyInc S ⟨y₀, l, ys, c⟩ y).1 := by
  obtain ⟨R, A, nS, dt, s⟩ := S
  simp only at hs hR
  subst hs
  constructor
  · have e := (irkPredApply_rel (S := ⟨R, A, nS, dt, newton J its⟩) (S₀ := ⟨twoForm R, A, nS, dt, newton (two J) its⟩)
      (comb_form hR) rfl rfl rfl (comb_solver a b J its)
      ⟨a • x₀ + b • y₀, fun i => a • k i + b • l i, fun i => a • xs i + b • ys i, c⟩
      ⟨(x₀, y₀), fun i => (k i, l i), fun i => (xs i, ys i), c⟩ rfl (x, y)).1
    have e1 := (irkPredApply_rel (S := ⟨R, A, nS, dt, newton J its⟩) (S₀ := ⟨twoForm R, A, nS, dt, newton (two J) its⟩)
      (fst_form R) rfl rfl rfl (fst_solver J its) ⟨x₀, k, xs, c⟩
      ⟨(x₀, y₀), fun i => (k i, l i), fun i => (xs i, ys i), c⟩ rfl (x, y)).1
    have e2 := (irkPredApply_rel (S := ⟨R, A, nS, dt, newton J its⟩) (S₀ := ⟨twoForm R, A, nS, dt, newton (two J) its⟩)
      (snd_form R) rfl rfl rfl (snd_solver J its) ⟨y₀, l, ys, c⟩
      ⟨(x₀, y₀), fun i => (k i, l i), fun i => (xs i, ys i), c⟩ rfl (x, y)).1
    simp only [comb_apply, LinearMap.fst_apply, LinearMap.snd_apply] at e e1 e2
    rw [e, e1, e2]
  · have e := (irkIncApply_rel (S := ⟨R, A, nS, dt, newton J its⟩) (S₀ := ⟨twoForm R, A, nS, dt, newton (two J) its⟩)
      (comb_form hR) rfl rfl rfl (comb_solver a b J its)
      ⟨a • x₀ + b • y₀, fun i => a • k i + b • l i, fun i => a • xs i + b • ys i, c⟩
      ⟨(x₀, y₀), fun i => (k i, l i), fun i => (xs i, ys i), c⟩ rfl rfl (x, y)).1
    have e1 := (irkIncApply_rel (S := ⟨R, A, nS, dt, newton J its⟩) (S₀ := ⟨twoForm R, A, nS, dt, newton (two J) its⟩)
      (fst_form R) rfl rfl rfl (fst_solver J its) ⟨x₀, k, xs, c⟩
      ⟨(x₀, y₀), fun i => (k i, l i), fun i => (xs i, ys i), c⟩ rfl rfl (x, y)).1
    have e2 := (irkIncApply_rel (S := ⟨R, A, nS, dt, newton J its⟩) (S₀ := ⟨twoForm R, A, nS, dt, newton (two J) its⟩)
      (snd_form R) rfl rfl rfl (snd_solver J its) ⟨y₀, l, ys, c⟩
      ⟨(x₀, y₀), fun i => (k i, l i), fun i => (xs i, ys i), c⟩ rfl rfl (x, y)).1
    simp only [comb_apply, LinearMap.fst_apply, LinearMap.snd_apply] at e e1 e2
    rw [e, e1, e2]

/-- two copies of a Runge-Kutta scheme -/
def twoRK (S : RKScheme K X D) (s₀ : Solver (X × X) (D × D)) : RKScheme K (X × X) (D × D) where
  R := twoForm S.R
  A := S.A
  nStages := S.nStages
  dt := S.dt
  originalDt := S.originalDt
  limiter := none
  nphys := S.nphys
  evals := fun j p dt => two (fun x => S.evals j x dt) p
  solve := s₀

/-- two states -/
def pairRK (s t : RKState X) : RKState (X × X) where
  x0 := (s.x0, t.x0)
  x1 := (s.x1, t.x1)
  xOut := (s.xOut, t.xOut)
  src := fun j => (s.src j, t.src j)
  k := fun j => (s.k j, t.k j)
  field := fun j => (s.field j, t.field j)
  source := fun j => (s.source j, t.source j)
  fieldLhs := fun j => (s.fieldLhs j, t.fieldLhs j)
  fieldRhs := (s.fieldRhs, t.fieldRhs)

/-- Explicit Runge-Kutta schemes, all formulations, with physics and subcycles, whatever the Functions of the scheme hold. -/
theorem C147_runge_kutta (a b : K) (S : RKScheme K X D) (hR : SuperposesForm a b S.R) (J : D →ₗ[K] X) (its : ℕ)
    (hs : S.solve = newton J its) (hl : S.limiter = none) (he : ∀ j dt, Superposes a b fun x => S.evals j x dt)
    (f : RK.Formulation) (ncycles : ℕ) (st st' : RKState X) (x y : X) :
    RK.apply f S ncycles (combRK a b st st') (a • x + b • y)
      = a • RK.apply f S ncycles st x + b • RK.apply f S ncycles st' y := by
  have hrel : ∀ (ι : X × X →ₗ[K] X) (ρ : D × D →ₗ[K] D), Intertwines ι (fun d => ρ d) S.R (twoForm S.R) →
      IntertwinesSolver ι (fun d => ρ d) (newton J its) (newton (two J) its) →
      (∀ j p dt, S.evals j (ι p) dt = ι (two (fun x => S.evals j x dt) p)) → RKRel ι ρ S (twoRK S (newton (two J) its)) := by
    intro ι ρ h1 h2 h3
    exact ⟨h1, rfl, rfl, rfl, rfl, by rw [hl]; exact Option.Rel.none, rfl, h3, by rw [hs]; exact h2⟩
  have e := rkApply_rel (hrel (comb a b) (comb a b) (comb_form hR) (comb_solver a b J its)
    fun j p dt => he j dt p.1 p.2) f ncycles (pairRK st st') (x, y)
  have e1 := rkApply_rel (hrel _ _ (fst_form S.R) (fst_solver J its) fun _ _ _ => rfl) f ncycles (pairRK st st') (x, y)
  have e2 := rkApply_rel (hrel _ _ (snd_form S.R) (snd_solver J its) fun _ _ _ => rfl) f ncycles (pairRK st st') (x, y)
  have hc : mapRK (comb a b) (pairRK st st') = combRK a b st st' := rfl
  have h1 : mapRK (LinearMap.fst K X X) (pairRK st st') = st := rfl
  have h2 : mapRK (LinearMap.snd K X X) (pairRK st st') = st' := rfl
  rw [hc] at e
  rw [h1] at e1
  rw [h2] at e2
  simp only [comb_apply, LinearMap.fst_apply, LinearMap.snd_apply] at e e1 e2
  rw [e, e1, e2]

/-- IMEX Runge-Kutta schemes. -/
theorem C147_imex [DecidableEq K] (a b : K) (S : IMEX.Scheme K X D) (hR : SuperposesForm a b S.R) (J : D →ₗ[K] X) (its : ℕ)
    (hs : S.solve = newton J its) (hl : S.limiter = none) (he : ∀ e ∈ S.evaluate, Superposes a b e)
    (st st' : IMEX.State X) (x y : X) :
    IMEX.apply S (combIMEX a b st st') (a • x + b • y) = a • IMEX.apply S st x + b • IMEX.apply S st' y := by
  let S₀ : IMEX.Scheme K (X × X) (D × D) := { R := twoForm S.R, imp := S.imp, exp := S.exp, nStages := S.nStages, dt := S.dt, solve := newton (two J) its, limiter := none, evaluate := S.evaluate.map two }
  have hrel : ∀ (ι : X × X →ₗ[K] X) (ρ : D × D →ₗ[K] D), Intertwines ι (fun d => ρ d) S.R (twoForm S.R) →
      IntertwinesSolver ι (fun d => ρ d) (newton J its) (newton (two J) its) →
      (∀ e ∈ S.evaluate, ∀ p, e (ι p) = ι (two e p)) → IMEXRel ι ρ S S₀ := by
    intro ι ρ h1 h2 h3
    refine ⟨h1, rfl, rfl, rfl, rfl, by rw [hl]; exact Option.Rel.none, ?_, by rw [hs]; exact h2⟩
    show List.Forall₂ _ S.evaluate (S.evaluate.map two)
    rw [List.forall₂_map_right_iff, List.forall₂_same]
    exact h3
  let p : IMEX.State (X × X) := ⟨(st.xOut, st'.xOut), fun i => (st.xs i, st'.xs i), fun i => (st.source i, st'.source i)⟩
  have e := imexApply_rel (hrel (comb a b) (comb a b) (comb_form hR) (comb_solver a b J its)
    fun e h p => he e h p.1 p.2) p (x, y)
  have e1 := imexApply_rel (hrel _ _ (fst_form S.R) (fst_solver J its) fun _ _ _ => rfl) p (x, y)
  have e2 := imexApply_rel (hrel _ _ (snd_form S.R) (snd_solver J its) fun _ _ _ => rfl) p (x, y)
  have hc : mapIMEX (comb a b) p = combIMEX a b st st' := rfl
  have h1 : mapIMEX (LinearMap.fst K X X) p = st := rfl
  have h2 : mapIMEX (LinearMap.snd K X X) p = st' := rfl
  rw [hc] at e
  rw [h1] at e1
  rw [h2] at e2
  simp only [comb_apply, LinearMap.fst_apply, LinearMap.snd_apply] at e e1 e2
  rw [e, e1, e2]

/-- Spectral deferred correction: the result and all Functions of the scheme, so all later results too. -/
theorem C147_sdc (a b : K) (S : SDC.Scheme K X D) (hR : SuperposesForm a b S.R) (J : D →ₗ[K] X) (its : ℕ)
    (hs : S.solve = newton J its) (hl : S.limiter = none) (hb : ∀ c, Superposes a b (S.base c))
    (he : ∀ e ∈ S.evaluate, ∀ c, Superposes a b (e c)) (st st' : SDC.State K X) (hdt : st'.baseDt = st.baseDt)
    (hq : st'.qdeltaImp = st.qdeltaImp) (hso : st'.solvers = st.solvers) (x y : X) :
    SDC.apply S (combSDC a b st st') (a • x + b • y)
      = (combSDC a b (SDC.apply S st x).1 (SDC.apply S st' y).1, a • (SDC.apply S st x).2 + b • (SDC.apply S st' y).2) := by
  let S₀ : SDC.Scheme K (X × X) (D × D) := { R := twoForm S.R, M := S.M, maxk := S.maxk, z2n := S.z2n, Q := S.Q, Qfin := S.Qfin, Qi := S.Qi, Qe := S.Qe, dtau := S.dtau, dt0 := S.dt0, base := fun c => two (S.base c), baseFlag := S.baseFlag, finalUpdate := S.finalUpdate, flex := S.flex, solve := newton (two J) its, limiter := none, evaluate := S.evaluate.map fun e c => two (e c) }
  have hrel : ∀ (ι : X × X →ₗ[K] X) (ρ : D × D →ₗ[K] D), Intertwines ι (fun d => ρ d) S.R (twoForm S.R) →
      IntertwinesSolver ι (fun d => ρ d) (newton J its) (newton (two J) its) → (∀ c p, S.base c (ι p) = ι (two (S.base c) p)) →
      (∀ e ∈ S.evaluate, ∀ c p, e c (ι p) = ι (two (e c) p)) → SDCRel ι ρ S S₀ := by
    intro ι ρ h1 h2 h3 h4
    refine ⟨h1, rfl, rfl, rfl, rfl, rfl, rfl, rfl, h3, rfl, rfl, rfl, by rw [hl]; exact Option.Rel.none, ?_,
      by rw [hs]; exact h2⟩
    show List.Forall₂ _ S.evaluate (S.evaluate.map _)
    rw [List.forall₂_map_right_iff, List.forall₂_same]
    exact h4
  let p : SDC.State K (X × X) := { U := fun i => (st.U i, st'.U i), U1 := fun i => (st.U1 i, st'.U1 i), f := fun i => (st.f i, st'.f i), quad := fun i => (st.quad i, st'.quad i), sU := fun i => (st.sU i, st'.sU i), sU1 := fun i => (st.sU1 i, st'.sU1 i), uDC := (st.uDC, st'.uDC), uStart := (st.uStart, st'.uStart), un := (st.un, st'.un), q_ := (st.q_, st'.q_), quadFinal := (st.quadFinal, st'.quadFinal), uFin := (st.uFin, st'.uFin), uRhs := (st.uRhs, st'.uRhs), uIn := (st.uIn, st'.uIn), sIn := (st.sIn, st'.sIn), baseDt := st.baseDt, qdeltaImp := st.qdeltaImp, solvers := st.solvers }
  have e := sdcApply_rel (hrel (comb a b) (comb a b) (comb_form hR) (comb_solver a b J its)
    (fun c p => hb c p.1 p.2) fun e h c p => he e h c p.1 p.2) p (x, y)
  have e1 := sdcApply_rel (hrel _ _ (fst_form S.R) (fst_solver J its) (fun _ _ => rfl) fun _ _ _ _ => rfl) p (x, y)
  have e2 := sdcApply_rel (hrel _ _ (snd_form S.R) (snd_solver J its) (fun _ _ => rfl) fun _ _ _ _ => rfl) p (x, y)
  have hc : mapSDC (comb a b) p = combSDC a b st st' := rfl
  have h1 : mapSDC (LinearMap.fst K X X) p = st := rfl
  have h2 : mapSDC (LinearMap.snd K X X) p = st' := by
    obtain ⟨⟩ := st'
    simp only at hdt hq hso
    subst hdt hq hso
    rfl
  rw [hc] at e
  rw [h1] at e1
  rw [h2] at e2
  simp only [comb_apply, LinearMap.fst_apply, LinearMap.snd_apply] at e e1 e2
  rw [e, e1, e2]
  rfl

/-- Revisionist integral deferred correction: the same. -/
theorem C147_ridc (a b : K) (S : RIDC.Scheme K X D) (hR : SuperposesForm a b S.R) (J : D →ₗ[K] X) (its : ℕ)
    (hs : S.solve = newton J its) (hl : S.limiter = none) (hb : ∀ c, Superposes a b (S.base c))
    (he : ∀ e ∈ S.evaluate, ∀ c, Superposes a b (e c)) (st st' : RIDC.State K X) (hdt : st'.baseDt = st.baseDt) (x y : X) :
    (RIDC.apply S st x = none ∧ RIDC.apply S st' y = none ∧ RIDC.apply S (combRIDC a b st st') (a • x + b • y) = none) ∨
      ∃ p q, RIDC.apply S st x = some p ∧ RIDC.apply S st' y = some q ∧
        RIDC.apply S (combRIDC a b st st') (a • x + b • y) = some (combRIDC a b p.1 q.1, a • p.2 + b • q.2) := by
  let S₀ : RIDC.Scheme K (X × X) (D × D) := { R := twoForm S.R, M := S.M, Kc := S.Kc, reduced := S.reduced, Q := S.Q, dt := S.dt, base := fun c => two (S.base c), solve := newton (two J) its, limiter := none, evaluate := S.evaluate.map fun e c => two (e c) }
  have hrel : ∀ (ι : X × X →ₗ[K] X) (ρ : D × D →ₗ[K] D), Intertwines ι (fun d => ρ d) S.R (twoForm S.R) →
      IntertwinesSolver ι (fun d => ρ d) (newton J its) (newton (two J) its) → (∀ c p, S.base c (ι p) = ι (two (S.base c) p)) →
      (∀ e ∈ S.evaluate, ∀ c p, e c (ι p) = ι (two (e c) p)) → RIDCRel ι ρ S S₀ := by
    intro ι ρ h1 h2 h3 h4
    refine ⟨h1, rfl, rfl, rfl, rfl, rfl, h3, by rw [hl]; exact Option.Rel.none, ?_, by rw [hs]; exact h2⟩
    show List.Forall₂ _ S.evaluate (S.evaluate.map _)
    rw [List.forall₂_map_right_iff, List.forall₂_same]
    exact h4
  let p : RIDC.State K (X × X) := { U := fun i => (st.U i, st'.U i), U1 := fun i => (st.U1 i, st'.U1 i), f := fun i => (st.f i, st'.f i), sU := fun i => (st.sU i, st'.sU i), sU1 := fun i => (st.sU1 i, st'.sU1 i), uDC := (st.uDC, st'.uDC), uStart := (st.uStart, st'.uStart), un := (st.un, st'.un), q_ := (st.q_, st'.q_), uRhs := (st.uRhs, st'.uRhs), uIn := (st.uIn, st'.uIn), sIn := (st.sIn, st'.sIn), sU1m := (st.sU1m, st'.sU1m), sUm := (st.sUm, st'.sUm), ukmp1 := (st.ukmp1, st'.ukmp1), ukm := (st.ukm, st'.ukm), ukp1m := (st.ukp1m, st'.ukp1m), baseDt := st.baseDt }
  have e := ridcApply_rel (hrel (comb a b) (comb a b) (comb_form hR) (comb_solver a b J its)
    (fun c p => hb c p.1 p.2) fun e h c p => he e h c p.1 p.2) p (x, y)
  have e1 := ridcApply_rel (hrel _ _ (fst_form S.R) (fst_solver J its) (fun _ _ => rfl) fun _ _ _ _ => rfl) p (x, y)
  have e2 := ridcApply_rel (hrel _ _ (snd_form S.R) (snd_solver J its) (fun _ _ => rfl) fun _ _ _ _ => rfl) p (x, y)
  have hc : mapRIDC (comb a b) p = combRIDC a b st st' := rfl
  have h1 : mapRIDC (LinearMap.fst K X X) p = st := rfl
  have h2 : mapRIDC (LinearMap.snd K X X) p = st' := by
    obtain ⟨⟩ := st'
    simp only at hdt
    subst hdt
    rfl
  rw [hc] at e
  rw [h1] at e1
  rw [h2] at e2
  simp only [comb_apply, LinearMap.fst_apply, LinearMap.snd_apply] at e e1 e2
  rw [e, e1, e2]
  cases RIDC.apply S₀ p (x, y) with
  | none => left; exact ⟨rfl, rfl, rfl⟩
  | some r => right; exact ⟨_, _, rfl, rfl, rfl⟩

/-! ### Exact solvers -/

theorem part_superposes {a b : K} (p : Term X D → Prop) [DecidablePred p] {R : LForm X D} (h : SuperposesForm a b R) :
    Superposes a b (part p R) := by
  intro x y
  unfold part
  induction R with
  | nil => simp
  | cons t R ih =>
    have ih := ih fun t ht => h t (List.mem_cons_of_mem _ ht)
    rw [List.filter_cons]
    split
    · simp only [List.map_cons, List.sum_cons, ih, (h t (List.mem_cons_self ..)).op x y, smul_add]
      abel
    · exact ih

/-- A residual that respects the combination, solved exactly. -/
theorem exact_superposes {a b : K} {s : Solver X D} (hs : ExactSolver s) (r r₁ r₂ : X → D)
    (hr : ∀ u v, r (a • u + b • v) = a • r₁ u + b • r₂ v) (hu : ∃! y, r y = 0) (h1 : ∃! y, r₁ y = 0)
    (h2 : ∃! y, r₂ y = 0) (g g₁ g₂ : X) : s r g = a • s r₁ g₁ + b • s r₂ g₂ := by
  refine hu.unique (hs r g hu) ?_
  rw [hr, hs r₁ g₁ h1, hs r₂ g₂ h2]
  simp

/-- Backward Euler, the theta method and TR-BDF2 with solvers that find the solution, any number of steps. -/
theorem C147_implicit_exact (a b : K) (R : LForm X D) (hR : SuperposesForm a b R) (s : Solver X D) (hs : ExactSolver s)
    (dt theta gamma : K)
    (hu : ∀ c ∈ [dt, theta * dt, 1 / 2 * gamma * dt, (1 - gamma) / (2 - gamma) * dt], ∀ d : D,
      ∃! y, mass R y + c • rest R y = d) (n : ℕ) :
    Superposes a b (implicitCycle s (backwardEulerRes R dt))^[n] ∧
      Superposes a b (implicitCycle s (thetaRes R dt theta))^[n] ∧
      Superposes a b (trBdf2Apply s R dt gamma)^[n] := by
  have hm : Superposes a b (mass R) := part_superposes _ hR
  have hf : Superposes a b (rest R) := part_superposes _ hR
  have sub : ∀ (c : K), c ∈ [dt, theta * dt, 1 / 2 * gamma * dt, (1 - gamma) / (2 - gamma) * dt] →
      ∀ (d : D), ∃! y, mass R y + c • rest R y - d = 0 := by
    intro c hc d
    simp only [sub_eq_zero]
    exact hu c hc d
  have hbe : ∀ x, ∃! y, (backwardEulerRes R dt y x).eval = 0 := fun x => by
    simp only [eval_backwardEulerRes]; exact sub _ (by simp) _
  have hth : ∀ x, ∃! y, (thetaRes R dt theta y x).eval = 0 := fun x => by
    simp only [eval_thetaRes]; exact sub _ (by simp) _
  have htr : ∀ x, ∃! y, (trRes R dt gamma y x).eval = 0 := fun x => by
    simp only [eval_trRes]; exact sub _ (by simp) _
  have hbd : ∀ x z, ∃! y, (bdf2StageRes R dt gamma y x z).eval = 0 := fun x z => by
    simp only [eval_bdf2StageRes]; exact sub _ (by simp) _
  refine ⟨iterate_superposes ?_ n, iterate_superposes ?_ n, iterate_superposes ?_ n⟩
  · intro x y
    exact exact_superposes hs (fun z => (backwardEulerRes R dt z (a • x + b • y)).eval)
      (fun z => (backwardEulerRes R dt z x).eval) (fun z => (backwardEulerRes R dt z y).eval) (fun u v => by
      simp only [eval_backwardEulerRes, hm u v, hm x y, hf u v]; module) (hbe _) (hbe _) (hbe _) _ _ _
  · intro x y
    exact exact_superposes hs (fun z => (thetaRes R dt theta z (a • x + b • y)).eval)
      (fun z => (thetaRes R dt theta z x).eval) (fun z => (thetaRes R dt theta z y).eval) (fun u v => by
      simp only [eval_thetaRes, hm u v, hm x y, hf u v, hf x y]; module) (hth _) (hth _) (hth _) _ _ _
  · intro x y
    unfold trBdf2Apply
    simp only
    have e1 := exact_superposes (a := a) (b := b) hs (fun z => (trRes R dt gamma z (a • x + b • y)).eval)
      (fun z => (trRes R dt gamma z x).eval) (fun z => (trRes R dt gamma z y).eval) (fun u v => by
      simp only [eval_trRes, hm u v, hm x y, hf u v, hf x y]
      generalize 1 / 2 * gamma * dt = c
      module) (htr _) (htr _) (htr _) (a • x + b • y) x y
    rw [e1]
    generalize s (fun z => (trRes R dt gamma z x).eval) x = x'
    generalize s (fun z => (trRes R dt gamma z y).eval) y = y'
    exact exact_superposes (a := a) (b := b) hs (fun z => (bdf2StageRes R dt gamma z (a • x' + b • y') (a • x + b • y)).eval)
      (fun z => (bdf2StageRes R dt gamma z x' x).eval) (fun z => (bdf2StageRes R dt gamma z y' y).eval) (fun u v => by
      simp only [eval_bdf2StageRes, hm u v, hm x y, hm x' y', hf u v]
      generalize (1 - gamma) / (2 - gamma) * dt = c1
      generalize 1 / (gamma * (2 - gamma)) = c2
      generalize (1 - gamma) ^ 2 / (gamma * (2 - gamma)) = c3
      module) (hbd _ _) (hbd _ _) (hbd _ _) _ _ _

/-- The multi-level schemes with solvers that find the solution: one application, in the start-up steps and afterwards. -/
theorem C147_multilevel_exact (a b : K) (R : LForm X D) (hR : SuperposesForm a b R) (s : Solver X D) (hs : ExactSolver s)
    (dt bl : K) (c : List K) (n : ℕ) (x y : ℕ → X) :
    ∀ S ∈ [Multilevel.bdf2 R dt, Multilevel.leapfrog R dt, Multilevel.adamsBashforth R dt c,
      Multilevel.adamsMoulton R dt bl c],
      (∀ z, (∃! y, (S.res0 z y).eval = 0) ∧ ∃! y, (S.res z y).eval = 0) →
        (S.apply s n fun i => a • x i + b • y i).1 = a • (S.apply s n x).1 + b • (S.apply s n y).1 := by
  have key : ∀ (S : Multilevel.Scheme X D) (S₀ : Multilevel.Scheme (X × X) (D × D)),
      MLRel (comb (Y := X) a b) (comb (Y := D) a b) S S₀ → MLRel (LinearMap.fst K X X) (LinearMap.fst K D D) S S₀ →
      MLRel (LinearMap.snd K X X) (LinearMap.snd K D D) S S₀ →
      (∀ z, (∃! y, (S.res0 z y).eval = 0) ∧ ∃! y, (S.res z y).eval = 0) →
        (S.apply s n fun i => a • x i + b • y i).1 = a • (S.apply s n x).1 + b • (S.apply s n y).1 := by
    intro S S₀ hc h1 h2 hu
    unfold Multilevel.Scheme.apply
    split
    · refine exact_superposes hs _ _ _ (fun u v => ?_) (hu _).1 (hu _).1 (hu _).1 _ _ _
      have e := FR.eval (hc.res0 (fun i => (x i, y i)) (u, v))
      have e1 := FR.eval (h1.res0 (fun i => (x i, y i)) (u, v))
      have e2 := FR.eval (h2.res0 (fun i => (x i, y i)) (u, v))
      simp only [comb_apply, LinearMap.fst_apply, LinearMap.snd_apply] at e e1 e2
      rw [e, e1, e2]
    · refine exact_superposes hs _ _ _ (fun u v => ?_) (hu _).2 (hu _).2 (hu _).2 _ _ _
      have e := FR.eval (hc.res (fun i => (x i, y i)) (u, v))
      have e1 := FR.eval (h1.res (fun i => (x i, y i)) (u, v))
      have e2 := FR.eval (h2.res (fun i => (x i, y i)) (u, v))
      simp only [comb_apply, LinearMap.fst_apply, LinearMap.snd_apply] at e e1 e2
      rw [e, e1, e2]
  intro S hS
  simp only [List.mem_cons, List.not_mem_nil, or_false] at hS
  rcases hS with rfl | rfl | rfl | rfl
  · exact key _ _ (bdf2_rel (comb_form hR) dt) (bdf2_rel (fst_form R) dt) (bdf2_rel (snd_form R) dt)
  · exact key _ _ (leapfrog_rel (comb_form hR) dt) (leapfrog_rel (fst_form R) dt) (leapfrog_rel (snd_form R) dt)
  · exact key _ _ (adamsBashforth_rel (comb_form hR) dt c) (adamsBashforth_rel (fst_form R) dt c)
      (adamsBashforth_rel (snd_form R) dt c)
  · exact key _ _ (adamsMoulton_rel (comb_form hR) dt bl c) (adamsMoulton_rel (fst_form R) dt bl c)
      (adamsMoulton_rel (snd_form R) dt bl c)

theorem textbook_superposes {a b : K} (S : RKScheme K X D) {f : X → X} (hf : Superposes a b f) :
    Superposes a b (textbook S f) := by
  intro x y
  have hk : ∀ i, rkK (stageCoeffs S.A) f S.dt (a • x + b • y) i
      = a • rkK (stageCoeffs S.A) f S.dt x i + b • rkK (stageCoeffs S.A) f S.dt y i := by
    intro i
    induction i using Nat.strong_induction_on with
    | _ i ih =>
      rw [rkK, rkK, rkK, ← hf]
      congr 1
      have e : ∑ j : Fin i, stageCoeffs S.A i j • rkK (stageCoeffs S.A) f S.dt (a • x + b • y) j
          = a • ∑ j : Fin i, stageCoeffs S.A i j • rkK (stageCoeffs S.A) f S.dt x j
            + b • ∑ j : Fin i, stageCoeffs S.A i j • rkK (stageCoeffs S.A) f S.dt y j := by
        rw [Finset.smul_sum, Finset.smul_sum, ← Finset.sum_add_distrib]
        exact Finset.sum_congr rfl fun j _ => by rw [ih j j.2]; module
      rw [e]
      module
  unfold textbook rkStep
  have e : ∑ j ∈ Finset.range S.nStages, weights S.A S.nStages j • rkK (stageCoeffs S.A) f S.dt (a • x + b • y) j
      = a • ∑ j ∈ Finset.range S.nStages, weights S.A S.nStages j • rkK (stageCoeffs S.A) f S.dt x j
        + b • ∑ j ∈ Finset.range S.nStages, weights S.A S.nStages j • rkK (stageCoeffs S.A) f S.dt y j := by
    rw [Finset.smul_sum, Finset.smul_sum, ← Finset.sum_add_distrib]
    exact Finset.sum_congr rfl fun j _ => by rw [hk]; module
  rw [e]
  module

/-- Explicit Runge-Kutta schemes with solvers that find the solution: any tableau, any number of subcycles, whatever the
Functions of the scheme hold. -/
theorem C147_runge_kutta_exact (a b : K) (S : RKScheme K X D) (M : X ≃ₗ[K] D) (h : Setting S M) (hl : S.limiter = none)
    (hns : ∀ t ∈ S.R, Label.source ∉ t.labels) (hR : SuperposesForm a b S.R) (n : ℕ) (hn : 0 < n) (st st' st'' : RKState X)
    (x y : X) (f : RK.Formulation) (hf : f = .increment ∨ f = .predictor) :
    RK.apply f S n st (a • x + b • y) = a • RK.apply f S n st' x + b • RK.apply f S n st'' y := by
  have ht : Superposes a b (tendency S.R M) := by
    intro x y
    have hr : Superposes a b (rest S.R) := part_superposes _ hR
    unfold tendency
    rw [hr x y]
    simp
    abel
  rcases hf with rfl | rfl
  · simp only [C02_increment S M h hl hns n hn]
    exact iterate_superposes (textbook_superposes S ht) n x y
  · simp only [C02_predictor S M h hl hns n hn]
    exact iterate_superposes (textbook_superposes S ht) n x y

/-! ### Related tracers -/

/-- A scheme that respects the combination and keeps the field `one` keeps the relation between two tracers. -/
theorem C147_related {a b : K} {f : X → X} (hf : Superposes a b f) {one : X} (h1 : f one = one) (n : ℕ) (q₁ q₂ : X)
    (h : q₂ = a • q₁ + b • one) : f^[n] q₂ = a • f^[n] q₁ + b • one := by
  rw [h, iterate_superposes hf n, Function.iterate_fixed h1]

theorem newton_fixed (J : D →ₗ[K] X) (its : ℕ) (r : X → D) (x : X) (hr : r x = 0) : newton J its r x = x := by
  unfold newton
  exact Function.iterate_fixed (by simp [hr]) its

/-- Two tracers transported by the same wind, `q₂ = a q₁ + b` at the start: the relation holds after any number of steps
of the implicit schemes, whether the iterations have converged or not. -/
theorem C147_tracers_implicit (a b : K) (R : LForm X D) (hR : SuperposesForm a b R) (J : D →ₗ[K] X) (its : ℕ)
    (dt theta gamma : K) (hg : gamma ≠ 0) (h2g : 2 - gamma ≠ 0) (one : X) (h1 : Steady R one) (n : ℕ) (q₁ q₂ : X)
    (h : q₂ = a • q₁ + b • one) :
    (implicitCycle (newton J its) (backwardEulerRes R dt))^[n] q₂
        = a • (implicitCycle (newton J its) (backwardEulerRes R dt))^[n] q₁ + b • one ∧
      (implicitCycle (newton J its) (thetaRes R dt theta))^[n] q₂
        = a • (implicitCycle (newton J its) (thetaRes R dt theta))^[n] q₁ + b • one ∧
      (trBdf2Apply (newton J its) R dt gamma)^[n] q₂ = a • (trBdf2Apply (newton J its) R dt gamma)^[n] q₁ + b • one := by
  obtain ⟨hb, ht, hd⟩ := C147_implicit a b R hR J its dt theta gamma 1
  simp only [Function.iterate_one] at hb ht hd
  obtain ⟨-, s1, s2, -⟩ := SteadyProps.C112_one_step R one h1 dt theta
  have h1' : rest R one = 0 := h1
  refine ⟨C147_related hb (newton_fixed J its _ one s1) n q₁ q₂ h, C147_related ht (newton_fixed J its _ one s2) n q₁ q₂ h,
    C147_related hd ?_ n q₁ q₂ h⟩
  have e1 : newton J its (fun y => (trRes R dt gamma y one).eval) one = one :=
    newton_fixed J its _ one (by simp only [eval_trRes, h1']; simp)
  have hc : (1 / (gamma * (2 - gamma)) : K) - (1 - gamma) ^ 2 / (gamma * (2 - gamma)) = 1 := by
    field_simp; ring
  have hm : (1 / (gamma * (2 - gamma)) : K) • mass R one - ((1 - gamma) ^ 2 / (gamma * (2 - gamma))) • mass R one
      = mass R one := by rw [← sub_smul, hc, one_smul]
  unfold trBdf2Apply
  simp only
  rw [e1]
  exact newton_fixed J its _ one (by simp only [eval_bdf2StageRes, h1', hm]; simp)

/-- The same for explicit Runge-Kutta schemes, any tableau and number of subcycles. -/
theorem C147_tracers_runge_kutta (a b : K) (S : RKScheme K X D) (M : X ≃ₗ[K] D) (h : Setting S M) (hl : S.limiter = none)
    (hns : ∀ t ∈ S.R, Label.source ∉ t.labels) (hR : SuperposesForm a b S.R) (one : X) (h1 : Steady S.R one) (n : ℕ)
    (hn : 0 < n) (st : RKState X) (f : RK.Formulation) (hf : f = .increment ∨ f = .predictor) (m : ℕ) (q₁ q₂ : X)
    (hq : q₂ = a • q₁ + b • one) :
    (RK.apply f S n st)^[m] q₂ = a • (RK.apply f S n st)^[m] q₁ + b • one := by
  refine C147_related (fun x y => C147_runge_kutta_exact a b S M h hl hns hR n hn st st st x y f hf) ?_ m q₁ q₂ hq
  have hlim : ∀ y, RK.limit S y = y := fun y => by simp [RK.limit, hl]
  have := SteadyProps.C112_explicit_rk S M h hns one h1 (hlim one) n hn st
  rcases hf with rfl | rfl
  · exact this.1
  · exact this.2 fun y => by simp only [hlim]

/-! ### Examples -/
section examples
open SymmetryProps
variable (N : ℕ) [NeZero N]

/-- Upwind transport around a ring respects every combination ... -/
theorem ring_superposes (a b : ℚ) : SuperposesForm a b (ringTransport N) := by
  intro t ht
  simp only [ringTransport, List.mem_cons, List.not_mem_nil, or_false] at ht
  rcases ht with rfl | rfl
  · exact ⟨by simp, fun x y => rfl, by simp⟩
  · refine ⟨by simp, fun x y => ?_, by simp⟩
    funext i
    simp only [Pi.add_apply, Pi.smul_apply, smul_eq_mul]
    ring

/-- ... and keeps constant fields. -/
theorem ring_steady (c : ℚ) : Steady (ringTransport N) fun _ => c := by
  unfold Steady rest part ringTransport
  funext i
  simp

/-- Two tracers going around the ring with `q₂ = 3 - 2 q₁` keep this relation in every cell, with any number of
iterations. -/
example (J : (Fin N → ℚ) →ₗ[ℚ] (Fin N → ℚ)) (its n : ℕ) (dt : ℚ) (q : Fin N → ℚ) (i : Fin N) :
    (implicitCycle (newton J its) (backwardEulerRes (ringTransport N) dt))^[n] (fun i => 3 - 2 * q i) i
      = 3 - 2 * (implicitCycle (newton J its) (backwardEulerRes (ringTransport N) dt))^[n] q i := by
  have h := (C147_tracers_implicit (-2) 3 (ringTransport N) (ring_superposes N _ _) J its dt 1 1 one_ne_zero (by norm_num)
    (fun _ => 1) (ring_steady N 1) n q (fun i => 3 - 2 * q i) (by
      funext i
      simp only [Pi.add_apply, Pi.smul_apply, smul_eq_mul]
      ring)).1
  rw [h]
  simp only [Pi.add_apply, Pi.smul_apply, smul_eq_mul]
  ring

/-- the Runge-Kutta schemes of C144 around the ring, SDC and RIDC -/
example (a b : ℚ) (A : ℕ → ℕ → ℚ) (s : ℕ) (dt : ℚ) (f : RK.Formulation) (n : ℕ) (st st' : RKState (Fin N → ℚ))
    (x y : Fin N → ℚ) : RK.apply f (ringRK N A s dt) n (combRK a b st st') (a • x + b • y)
      = a • RK.apply f (ringRK N A s dt) n st x + b • RK.apply f (ringRK N A s dt) n st' y :=
  C147_runge_kutta a b (ringRK N A s dt) (ring_superposes N a b) LinearMap.id 1 rfl rfl (fun _ _ _ _ => by simp [ringRK]) f n
    st st' x y

/-- An equation with a fixed source respects averages. -/
example (a b : ℚ) (hab : a + b = 1) (source : Fin N → ℚ) :
    SuperposesForm a b (ringTransport N ++ [⟨[.physics 0], fun _ => source, 0, []⟩]) := by
  intro t ht
  rw [List.mem_append] at ht
  rcases ht with ht | ht
  · exact ring_superposes N a b t ht
  · rw [List.mem_singleton] at ht
    subst ht
    exact ⟨by simp, fun x y => by rw [← add_smul, hab, one_smul], by simp⟩

/-- SDC and RIDC around the ring without sources -/
example (a b : ℚ) (M maxk : ℕ) (Q Qi Qe : ℕ → ℕ → ℚ) (Qfin dtau : ℕ → ℚ) (dt : ℚ) (st : SDC.State ℚ (Fin N → ℚ))
    (x y : Fin N → ℚ) :
    (SDC.apply { ringSDC N M maxk true true true Q Qi Qe Qfin dtau dt with evaluate := [] } (combSDC a b st st)
        (a • x + b • y)).2
      = a • (SDC.apply { ringSDC N M maxk true true true Q Qi Qe Qfin dtau dt with evaluate := [] } st x).2
        + b • (SDC.apply { ringSDC N M maxk true true true Q Qi Qe Qfin dtau dt with evaluate := [] } st y).2 :=
  congrArg Prod.snd (C147_sdc a b { ringSDC N M maxk true true true Q Qi Qe Qfin dtau dt with evaluate := [] }
    (ring_superposes N a b) LinearMap.id 2 rfl rfl (fun c x y => by
      funext i
      simp only [ringSDC, Pi.add_apply, Pi.smul_apply, smul_eq_mul]
      ring) (by simp) st st rfl rfl rfl x y)

example (a b : ℚ) (M Kc : ℕ) (hM : Kc ≤ M) (Q : ℕ → ℕ → ℕ → ℚ) (dt : ℚ) (st : RIDC.State ℚ (Fin N → ℚ)) (x y : Fin N → ℚ) :
    ∃ p q, RIDC.apply { ringRIDC N M Kc false Q dt with evaluate := [] } st x = some p ∧
      RIDC.apply { ringRIDC N M Kc false Q dt with evaluate := [] } st y = some q ∧
      (RIDC.apply { ringRIDC N M Kc false Q dt with evaluate := [] } (combRIDC a b st st) (a • x + b • y)).map Prod.snd
        = some (a • p.2 + b • q.2) := by
  rcases C147_ridc a b { ringRIDC N M Kc false Q dt with evaluate := [] } (ring_superposes N a b) LinearMap.id 2 rfl rfl
    (fun c x y => by
      funext i
      simp only [ringRIDC, Pi.add_apply, Pi.smul_apply, smul_eq_mul]
      ring) (by simp) st st rfl x y with ⟨h, -, -⟩ | ⟨p, q, h1, h2, h3⟩
  · simp [RIDC.apply, ringRIDC, Nat.not_lt.mpr hM] at h
  · exact ⟨p, q, h1, h2, by rw [h3]; rfl⟩

/-- decay, `q' + q = 0` -/
def decay : LForm ℚ ℚ := [⟨[.timeDerivative], fun q => q, 0, []⟩, ⟨[.physics 0], fun q => q, 0, []⟩]

/-- Exact solvers: all systems of the three schemes have exactly one solution. -/
example (s : Solver ℚ ℚ) (hs : ExactSolver s) (n : ℕ) (x y : ℚ) :
    (trBdf2Apply s decay (1 : ℚ) (1 / 2))^[n] ((2 : ℚ) • x + (3 : ℚ) • y)
      = (2 : ℚ) • (trBdf2Apply s decay (1 : ℚ) (1 / 2))^[n] x + (3 : ℚ) • (trBdf2Apply s decay (1 : ℚ) (1 / 2))^[n] y := by
  refine (C147_implicit_exact (2 : ℚ) 3 decay ?_ s hs 1 (1 / 2) (1 / 2) ?_ n).2.2 x y
  · intro t ht
    simp only [decay, List.mem_cons, List.not_mem_nil, or_false] at ht
    rcases ht with rfl | rfl <;> exact ⟨by simp, fun x y => rfl, by simp⟩
  · intro c hc d
    have hc' : 1 + c ≠ 0 := by
      simp only [List.mem_cons, List.not_mem_nil, or_false] at hc
      rcases hc with rfl | rfl | rfl | rfl <;> norm_num
    have e : ∀ y, mass decay y + c • rest decay y = (1 + c) * y := by
      intro y
      simp [mass, rest, part, decay]
      ring
    simp only [e]
    exact ⟨d / (1 + c), by field_simp, fun y hy => by rw [← hy]; field_simp⟩

/-- BDF2 for the decay with an exact solver -/
example (s : Solver ℚ ℚ) (hs : ExactSolver s) (n : ℕ) (x y : ℕ → ℚ) :
    ((Multilevel.bdf2 decay (1 : ℚ)).apply s n fun i => (2 : ℚ) • x i + (3 : ℚ) • y i).1
      = (2 : ℚ) • ((Multilevel.bdf2 decay (1 : ℚ)).apply s n x).1 + (3 : ℚ) • ((Multilevel.bdf2 decay (1 : ℚ)).apply s n y).1 := by
  refine C147_multilevel_exact (2 : ℚ) 3 decay ?_ s hs 1 1 [] n x y _ (by simp) fun z => ⟨?_, ?_⟩
  · intro t ht
    simp only [decay, List.mem_cons, List.not_mem_nil, or_false] at ht
    rcases ht with rfl | rfl <;> exact ⟨by simp, fun x y => rfl, by simp⟩
  · refine ⟨z 1 / 2, ?_, fun y hy => ?_⟩
    · simp [Multilevel.bdf2, Multilevel.eval_bdf2Res0, mass, rest, part, decay]
    · simp [Multilevel.bdf2, Multilevel.eval_bdf2Res0, mass, rest, part, decay] at hy
      linarith
  · refine ⟨(4 / 3 * z 1 - 1 / 3 * z 0) / (5 / 3), ?_, fun y hy => ?_⟩
    · simp [Multilevel.bdf2, Multilevel.eval_bdf2Res, mass, rest, part, decay]
      ring
    · simp [Multilevel.bdf2, Multilevel.eval_bdf2Res, mass, rest, part, decay] at hy
      linarith

/-- A limiter that clips negative values. -/
def clipped : RKScheme ℚ ℚ ℚ :=
  { R := [⟨[.timeDerivative], fun q => q, 0, []⟩], A := fun _ _ => 0, nStages := 1, dt := 1, originalDt := 1,
    limiter := some (max 0), nphys := 0, evals := fun _ _ _ => 0, solve := newton (fun d => d) 1 }

/-- Without the hypothesis on the limiter the claim is false. -/
theorem C147_limiter_refuted (st : RKState ℚ) :
    SuperposesForm (-1 : ℚ) 0 clipped.R ∧
      RK.apply .increment clipped 1 st ((-1 : ℚ) • 1 + (0 : ℚ) • 0)
        ≠ (-1 : ℚ) • RK.apply .increment clipped 1 st 1 + (0 : ℚ) • RK.apply .increment clipped 1 st 0 := by
  constructor
  · intro t ht
    simp only [clipped, List.mem_singleton] at ht
    subst ht
    exact ⟨by simp, fun x y => by simp, by simp⟩
  · have h : ∀ x : ℚ, RK.apply .increment clipped 1 st x = max 0 x := by
      intro x
      simp [RK.apply, RK.applyCycle, RK.solveStage, RK.incStage, RK.limit, clipped]
    simp only [h]
    norm_num

end examples
end Gusto.Props.SuperpositionProps
