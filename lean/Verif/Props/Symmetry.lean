import Verif.Lemmas.ConstrainedDC
import Verif.Spec.Symmetry
import Mathlib.LinearAlgebra.Pi
import Mathlib.Data.Rat.Init
import Mathlib.Algebra.Order.Ring.Rat
import Mathlib.Data.ZMod.Defs

set_option autoImplicit false
set_option linter.unusedSectionVars false
set_option linter.unusedSimpArgs false

/-!
# C144: symmetries and relabelling

Results do not depend on the numbering of the degrees of freedom, and symmetries of the problem are kept.
-/

namespace Gusto.Props.SymmetryProps
open Gusto Gusto.Spec Gusto.Constrained TimeDisc
variable {K X X₀ D D₀ : Type*} [Field K] [AddCommGroup X] [Module K X] [AddCommGroup X₀] [Module K X₀]
variable [AddCommGroup D] [Module K D] [AddCommGroup D₀] [Module K D₀]

/-! ### Solvers -/

/-- Any number of Newton iterations, converged or not, with Jacobians that are related. -/
theorem C144_newton (σ : X₀ →ₗ[K] X) (ρ : D →ₗ[K] D₀) (J : D → X) (J₀ : D₀ → X₀) (h : ∀ d, σ (J₀ (ρ d)) = J d) (n : ℕ) :
    RestrictsSolver σ (fun d => ρ d) (newton J n) (newton J₀ n) := by
  intro r g
  unfold newton
  induction n generalizing g with
  | zero => rfl
  | succ n ih => rw [Function.iterate_succ_apply, Function.iterate_succ_apply, ← ih, map_sub, h]

/-- Solvers that find the solution, for equations that have exactly one. -/
theorem C144_exact (σ : X₀ ≃ₗ[K] X) (ρ : D ≃ₗ[K] D₀) (s : Solver X D) (s₀ : Solver X₀ D₀) (hs : Exact s) (hs₀ : Exact s₀)
    (r : X → D) (hr : ∃! y, r y = 0) (g : X₀) : s r (σ g) = σ (s₀ (fun y => ρ (r (σ y))) g) := by
  obtain ⟨y, hy, hu⟩ := hr
  rw [hs r (σ g) y hy hu, hs₀ (fun y => ρ (r (σ y))) g (σ.symm y) (by simp [hy]) fun z hz => ?_]
  · simp
  · have hz' : r (σ z) = 0 := ρ.injective (by rw [map_zero]; exact hz)
    exact (σ.symm_apply_eq.mpr (hu _ hz').symm).symm

/-- A relabelled equation is related to the original one, and so are the solvers. -/
theorem C144_relabel (e : X₀ ≃ₗ[K] X) (ρ : D ≃ₗ[K] D₀) (R : LForm X₀ D₀) (s : Solver X₀ D₀) :
    Restricts (fun x => e x) (fun d => ρ d) (relabel e ρ R) R ∧
      RestrictsSolver (fun x => e x) (fun d => ρ d) (relabelSolver e ρ s) s := by
  refine ⟨?_, fun r g => by simp [relabelSolver]⟩
  unfold Restricts relabel
  induction R with
  | nil => exact List.Forall₂.nil
  | cons t R ih =>
    refine List.Forall₂.cons ⟨rfl, rfl, fun x => by simp [relabelTerm], ?_⟩ ih
    simp only [relabelTerm]
    generalize t.attached = l
    induction l with
    | nil => exact List.Forall₂.nil
    | cons a l ihl => exact List.Forall₂.cons ⟨rfl, fun x => by simp⟩ ihl

/-! ### The time discretisations -/

theorem iterate_rel {Y Y₀ : Type*} {f : Y → Y} {f₀ : Y₀ → Y₀} (σ : Y₀ → Y) (h : ∀ x, f (σ x) = σ (f₀ x)) (n : ℕ) (x : Y₀) :
    f^[n] (σ x) = σ (f₀^[n] x) := by
  induction n generalizing x with
  | zero => rfl
  | succ n ih => rw [Function.iterate_succ_apply, Function.iterate_succ_apply, h, ih]

/-- Backward Euler, the theta method (and the trapezium rule) and TR-BDF2, any number of steps. -/
theorem C144_implicit (σ : X₀ →ₗ[K] X) (ρ : D →ₗ[K] D₀) (s : Solver X D) (s₀ : Solver X₀ D₀) (R : LForm X D)
    (R₀ : LForm X₀ D₀) (hs : RestrictsSolver σ (fun d => ρ d) s s₀) (hR : Restricts σ (fun d => ρ d) R R₀)
    (dt theta gamma : K) (n : ℕ) (x : X₀) :
    (implicitCycle s (backwardEulerRes R dt))^[n] (σ x) = σ ((implicitCycle s₀ (backwardEulerRes R₀ dt))^[n] x) ∧
      (implicitCycle s (thetaRes R dt theta))^[n] (σ x) = σ ((implicitCycle s₀ (thetaRes R₀ dt theta))^[n] x) ∧
      (trBdf2Apply s R dt gamma)^[n] (σ x) = σ ((trBdf2Apply s₀ R₀ dt gamma)^[n] x) := by
  refine ⟨iterate_rel σ (fun y => ?_) n x, iterate_rel σ (fun y => ?_) n x, iterate_rel σ (fun y => ?_) n x⟩
  · exact implicitCycle_rel hs _ _ (fun y x => backwardEulerRes_rel hR dt y x) y
  · exact implicitCycle_rel hs _ _ (fun y x => thetaRes_rel hR dt theta y x) y
  · exact trBdf2_rel hs hR dt gamma y

/-- The multi-level schemes, in the start-up steps and afterwards. -/
theorem C144_multilevel (σ : X₀ →ₗ[K] X) (ρ : D →ₗ[K] D₀) (s : Solver X D) (s₀ : Solver X₀ D₀) (R : LForm X D)
    (R₀ : LForm X₀ D₀) (hs : RestrictsSolver σ (fun d => ρ d) s s₀) (hR : Restricts σ (fun d => ρ d) R R₀)
    (dt bl : K) (b : List K) (n : ℕ) (x : ℕ → X₀) :
    ((Multilevel.bdf2 R dt).apply s n (fun i => σ (x i))).1 = σ ((Multilevel.bdf2 R₀ dt).apply s₀ n x).1 ∧
      ((Multilevel.leapfrog R dt).apply s n (fun i => σ (x i))).1 = σ ((Multilevel.leapfrog R₀ dt).apply s₀ n x).1 ∧
      ((Multilevel.adamsBashforth R dt b).apply s n (fun i => σ (x i))).1
        = σ ((Multilevel.adamsBashforth R₀ dt b).apply s₀ n x).1 ∧
      ((Multilevel.adamsMoulton R dt bl b).apply s n (fun i => σ (x i))).1
        = σ ((Multilevel.adamsMoulton R₀ dt bl b).apply s₀ n x).1 := by
  rw [multilevel_rel hs (bdf2_rel hR dt) n x, multilevel_rel hs (leapfrog_rel hR dt) n x,
    multilevel_rel hs (adamsBashforth_rel hR dt b) n x, multilevel_rel hs (adamsMoulton_rel hR dt bl b) n x]
  exact ⟨rfl, rfl, rfl, rfl⟩

/-- Implicit Runge-Kutta schemes, both formulations, with the stages kept from the call before. -/
theorem C144_irk (σ : X₀ →ₗ[K] X) (ρ : D →ₗ[K] D₀) (s : Solver X D) (s₀ : Solver X₀ D₀) (R : LForm X D)
    (R₀ : LForm X₀ D₀) (hs : RestrictsSolver σ (fun d => ρ d) s s₀) (hR : Restricts σ (fun d => ρ d) R R₀)
    (A : ℕ → ℕ → K) (nStages : ℕ) (dt : K) (x₀ : X₀) (k xs : ℕ → X₀) (c : Option K) (x : X₀) :
    (IRK.applyPred ⟨R, A, nStages, dt, s⟩ ⟨σ x₀, fun i => σ (k i), fun i => σ (xs i), c⟩ (σ x)).1
        = σ (IRK.applyPred ⟨R₀, A, nStages, dt, s₀⟩ ⟨x₀, k, xs, c⟩ x).1 ∧
      (IRK.applyInc ⟨R, A, nStages, dt, s⟩ ⟨σ x₀, fun i => σ (k i), fun i => σ (xs i), c⟩ (σ x)).1
        = σ (IRK.applyInc ⟨R₀, A, nStages, dt, s₀⟩ ⟨x₀, k, xs, c⟩ x).1 :=
  ⟨(irkPredApply_rel (ι := σ) (ρ := ρ) (S := ⟨R, A, nStages, dt, s⟩) (S₀ := ⟨R₀, A, nStages, dt, s₀⟩) hR rfl rfl rfl hs
      _ ⟨x₀, k, xs, c⟩ rfl x).1,
    (irkIncApply_rel (ι := σ) (ρ := ρ) (S := ⟨R, A, nStages, dt, s⟩) (S₀ := ⟨R₀, A, nStages, dt, s₀⟩) hR rfl rfl rfl hs
      _ ⟨x₀, k, xs, c⟩ rfl rfl x).1⟩

/-- Explicit and IMEX Runge-Kutta schemes with limiters, physics and subcycles. -/
theorem C144_runge_kutta [DecidableEq K] (σ : X₀ →ₗ[K] X) (ρ : D →ₗ[K] D₀) (S : RKScheme K X D) (S₀ : RKScheme K X₀ D₀)
    (h : RKRel σ ρ S S₀) (T : IMEX.Scheme K X D) (T₀ : IMEX.Scheme K X₀ D₀) (hT : IMEXRel σ ρ T T₀) (f : RK.Formulation)
    (ncycles : ℕ) (st : RKState X₀) (st' : IMEX.State X₀) (x : X₀) :
    RK.apply f S ncycles (mapRK σ st) (σ x) = σ (RK.apply f S₀ ncycles st x) ∧
      IMEX.apply T (mapIMEX σ st') (σ x) = σ (IMEX.apply T₀ st' x) :=
  ⟨rkApply_rel h f ncycles st x, imexApply_rel hT st' x⟩

/-- Spectral and revisionist integral deferred correction. -/
theorem C144_deferred (σ : X₀ →ₗ[K] X) (ρ : D →ₗ[K] D₀) (S : SDC.Scheme K X D) (S₀ : SDC.Scheme K X₀ D₀)
    (h : SDCRel σ ρ S S₀) (T : RIDC.Scheme K X D) (T₀ : RIDC.Scheme K X₀ D₀) (hT : RIDCRel σ ρ T T₀)
    (st : SDC.State K X₀) (st' : RIDC.State K X₀) (x : X₀) :
    SDC.apply S (mapSDC σ st) (σ x) = (mapSDC σ (SDC.apply S₀ st x).1, σ (SDC.apply S₀ st x).2) ∧
      RIDC.apply T (mapRIDC σ st') (σ x) = (RIDC.apply T₀ st' x).map fun p => (mapRIDC σ p.1, σ p.2) :=
  ⟨sdcApply_rel h st x, ridcApply_rel hT st' x⟩

/-! ### Symmetric states stay symmetric -/

/-- A state that is unchanged by a symmetry of the equation stays unchanged by it: implicit schemes, any number of steps. -/
theorem C144_symmetric_implicit (σ : X →ₗ[K] X) (ρ : D →ₗ[K] D) (s : Solver X D) (R : LForm X D)
    (hs : RestrictsSolver σ (fun d => ρ d) s s) (hR : Restricts σ (fun d => ρ d) R R) (dt theta gamma : K) (n : ℕ) (x : X)
    (hx : σ x = x) :
    σ ((implicitCycle s (backwardEulerRes R dt))^[n] x) = (implicitCycle s (backwardEulerRes R dt))^[n] x ∧
      σ ((implicitCycle s (thetaRes R dt theta))^[n] x) = (implicitCycle s (thetaRes R dt theta))^[n] x ∧
      σ ((trBdf2Apply s R dt gamma)^[n] x) = (trBdf2Apply s R dt gamma)^[n] x := by
  obtain ⟨h1, h2, h3⟩ := C144_implicit σ ρ s s R R hs hR dt theta gamma n x
  rw [← h1, ← h2, ← h3, hx]
  exact ⟨rfl, rfl, rfl⟩

/-- The Functions of a new Runge-Kutta scheme. -/
def freshRK : RKState X := ⟨0, 0, 0, fun _ => 0, fun _ => 0, fun _ => 0, fun _ => 0, fun _ => 0, 0⟩

/-- Explicit Runge-Kutta schemes (new Functions): the same. -/
theorem C144_symmetric_rk (σ : X →ₗ[K] X) (ρ : D →ₗ[K] D) (S : RKScheme K X D) (h : RKRel σ ρ S S) (f : RK.Formulation)
    (ncycles : ℕ) (x : X) (hx : σ x = x) :
    σ (RK.apply f S ncycles freshRK x) = RK.apply f S ncycles freshRK x := by
  have h0 := rkApply_rel h f ncycles freshRK x
  have hf : mapRK σ freshRK = (freshRK : RKState X) := by simp [mapRK, freshRK]
  rw [hf, hx] at h0
  exact h0.symm

/-- Deferred correction: result and Functions stay symmetric, so all later results do. -/
theorem C144_symmetric_deferred (σ : X →ₗ[K] X) (ρ : D →ₗ[K] D) (S : SDC.Scheme K X D) (h : SDCRel σ ρ S S)
    (T : RIDC.Scheme K X D) (hT : RIDCRel σ ρ T T) (st : SDC.State K X) (hst : mapSDC σ st = st) (st' : RIDC.State K X)
    (hst' : mapRIDC σ st' = st') (x : X) (hx : σ x = x) :
    mapSDC σ (SDC.apply S st x).1 = (SDC.apply S st x).1 ∧ σ (SDC.apply S st x).2 = (SDC.apply S st x).2 ∧
      ∀ p, RIDC.apply T st' x = some p → mapRIDC σ p.1 = p.1 ∧ σ p.2 = p.2 := by
  have h1 := sdcApply_rel h st x
  have h2 := ridcApply_rel hT st' x
  rw [hst, hx] at h1
  rw [hst', hx] at h2
  refine ⟨(congrArg Prod.fst h1).symm, (congrArg Prod.snd h1).symm, fun p hp => ?_⟩
  rw [hp] at h2
  have h3 := Option.some.inj h2
  exact ⟨(congrArg Prod.fst h3).symm, (congrArg Prod.snd h3).symm⟩

/-! ### The quasi-Newton timesteppers -/
section quasiNewton
open QN
variable {ι : Type*} [DecidableEq ι] [DecidableEq K] {V V₀ : ι → Type*}
  [∀ i, AddCommGroup (V i)] [∀ i, Module K (V i)] [∀ i, AddCommGroup (V₀ i)] [∀ i, Module K (V₀ i)]

theorem mapF_add (φ : ∀ i, V₀ i →ₗ[K] V i) (x y : ∀ i, V₀ i) : mapF φ x + mapF φ y = mapF φ (x + y) := by
  funext i; simp [mapF]

theorem mapF_sub (φ : ∀ i, V₀ i →ₗ[K] V i) (x y : ∀ i, V₀ i) : mapF φ x - mapF φ y = mapF φ (x - y) := by
  funext i; simp [mapF]

theorem mapF_smul (φ : ∀ i, V₀ i →ₗ[K] V i) (c : K) (x : ∀ i, V₀ i) : c • mapF φ x = mapF φ (c • x) := by
  funext i; simp [mapF]

theorem applyAll_rel {φ : ∀ i, V₀ i →ₗ[K] V i} {l : List ((∀ i, V i) → ∀ i, V i)}
    {l₀ : List ((∀ i, V₀ i) → ∀ i, V₀ i)} (h : List.Forall₂ (Commutes φ) l l₀) (x : ∀ i, V₀ i) :
    applyAll l (mapF φ x) = mapF φ (applyAll l₀ x) := by
  unfold applyAll
  induction h generalizing x with
  | nil => rfl
  | cons h1 _ ih => rw [List.foldl_cons, List.foldl_cons, h1, ih]

theorem incr_rel {φ : ∀ i, V₀ i →ₗ[K] V i} {l : List ((∀ i, V i) → ∀ i, V i)}
    {l₀ : List ((∀ i, V₀ i) → ∀ i, V₀ i)} (h : List.Forall₂ (Commutes φ) l l₀) (c : K) (x r : ∀ i, V₀ i) :
    l.foldl (fun r s => r + c • (s (mapF φ x) - mapF φ x)) (mapF φ r)
      = mapF φ (l₀.foldl (fun r s => r + c • (s x - x)) r) := by
  induction h generalizing r with
  | nil => rfl
  | cons h1 _ ih => rw [List.foldl_cons, List.foldl_cons, h1, mapF_sub, mapF_smul, mapF_add, ih]

theorem transport_rel {u u₀ : ι} {φ : ∀ i, V₀ i →ₗ[K] V i} {l : List (Transport V u)} {l₀ : List (Transport V₀ u₀)}
    (h : List.Forall₂ (fun t t₀ => t.fields = t₀.fields ∧
      ∀ y x, t.step (mapF φ y u) (mapF φ x) = mapF φ (t₀.step (y u₀) x)) l l₀) (y xstar xp : ∀ i, V₀ i) :
    transportFields l (mapF φ y u) (mapF φ xstar) (mapF φ xp) = mapF φ (transportFields l₀ (y u₀) xstar xp) := by
  unfold transportFields
  induction h generalizing xp with
  | nil => rfl
  | cons h1 _ ih =>
    rw [List.foldl_cons, List.foldl_cons, ← ih]
    congr 1
    funext i
    rw [h1.1, h1.2]
    simp only [mapF]
    split <;> rfl

theorem copy_rel {φ : ∀ i, V₀ i →ₗ[K] V i} (c : ι → Bool) (x y : ∀ i, V₀ i) :
    copyTracers c (mapF φ x) (mapF φ y) = mapF φ (copyTracers c x y) := by
  funext i
  simp only [copyTracers, mapF]
  split <;> rfl

theorem only_rel {φ : ∀ i, V₀ i →ₗ[K] V i} (u : ι) (x y : ∀ i, V₀ i) :
    (fun i => if i = u then mapF φ x i else mapF φ y i) = mapF φ (fun i => if i = u then x i else y i) := by
  funext i
  simp only [mapF]
  split <;> rfl

/-- `SemiImplicitQuasiNewton`: a timestep commutes with everything forcing, transport, physics and solver commute with. -/
theorem C144_siqn (φ : ∀ i, V₀ i →ₗ[K] V i) (m : Siqn K V) (m₀ : Siqn K V₀) (h : SiqnRel φ m m₀) (xn x0 : ∀ i, V₀ i) :
    timestep m (mapF φ xn) (mapF φ x0) = mapF φ (timestep m₀ xn x0) := by
  have hstar : xstarOf m (mapF φ xn) = mapF φ (xstarOf m₀ xn) := by
    unfold xstarOf
    simp only [applyAll_rel h.slow, h.forceE xn, mapF_add, h.beta]
    split
    · exact incr_rel h.inner _ _ _
    · rfl
  have hinner : ∀ xp phys k x, innerStep m (mapF φ xp) (mapF φ phys) k (mapF φ x) = mapF φ (innerStep m₀ xp phys k x) := by
    intro xp phys k x
    have hr : xrhsOf m (mapF φ xp) (mapF φ phys) k (mapF φ x) = mapF φ (xrhsOf m₀ xp phys k x) := by
      unfold xrhsOf
      simp only [h.forceI x, mapF_add, h.accelerator, h.beta, h.u, only_rel]
      rw [← mapF_sub]
      congr 1
      split <;> split <;> first | rfl | exact incr_rel h.inner _ _ _
    unfold innerStep
    rw [hr, h.solve, mapF_add]
  have hout : ∀ s : (∀ i, V₀ i) × (∀ i, V₀ i), outerStep m (mapF φ xn) (mapF φ (xstarOf m₀ xn)) (mapF φ s.1, mapF φ s.2)
      = (mapF φ (outerStep m₀ xn (xstarOf m₀ xn) s).1, mapF φ (outerStep m₀ xn (xstarOf m₀ xn) s).2) := by
    intro s
    have hb : ubar m (mapF φ xn) (mapF φ s.2) = mapF φ (xn + m₀.alphaU • (s.2 - xn)) m.u := by
      unfold ubar mapF
      simp [h.alphaU]
    have hb₀ : ubar m₀ xn s.2 = (xn + m₀.alphaU • (s.2 - xn)) m₀.u := rfl
    unfold outerStep
    simp only
    rw [hb, hb₀, transport_rel h.transport, applyAll_rel h.fast, mapF_sub, h.numInner, h.inSolver]
    refine Prod.ext rfl ?_
    simp only
    rw [← h.bcs, ← copy_rel]
    congr 2
    exact foldl_rel (fun (a : ∀ i, V i) (b : ∀ i, V₀ i) => a = mapF φ b) _ rfl
      fun k _ a b hab => by rw [hab]; exact hinner _ _ _ _
  have hit : ∀ n, (outerStep m (mapF φ xn) (mapF φ (xstarOf m₀ xn)))^[n] (mapF φ (xstarOf m₀ xn), mapF φ x0)
      = (mapF φ ((outerStep m₀ xn (xstarOf m₀ xn))^[n] (xstarOf m₀ xn, x0)).1,
        mapF φ ((outerStep m₀ xn (xstarOf m₀ xn))^[n] (xstarOf m₀ xn, x0)).2) := by
    intro n
    induction n with
    | zero => rfl
    | succ n ih => rw [Function.iterate_succ_apply', Function.iterate_succ_apply', ih, hout]
  unfold timestep outerLoop
  rw [hstar, h.numOuter, hit, applyAll_rel h.final]

/-- `TRBDF2QuasiNewton`: the same. -/
theorem C144_trbdf2 (φ : ∀ i, V₀ i →ₗ[K] V i) (m : TrBdf2 K V) (m₀ : TrBdf2 K V₀) (h : TrBdf2Rel φ m m₀)
    (xn : ∀ i, V₀ i) : trBdf2Step m (mapF φ xn) = mapF φ (trBdf2Step m₀ xn) := by
  have hvel : ∀ (x y : ∀ i, V₀ i) (c : K), trUbar (mapF φ x m.u) (mapF φ y m.u) c = mapF φ ((c * (1 / 2)) • (x + y)) m.u := by
    intro x y c
    unfold trUbar mapF
    simp
  have hvel₀ : ∀ (x y : ∀ i, V₀ i) (c : K), trUbar (x m₀.u) (y m₀.u) c = ((c * (1 / 2)) • (x + y)) m₀.u :=
    fun _ _ _ => rfl
  have hinner : ∀ (F S : (∀ i, V i) → ∀ i, V i) (F₀ S₀ : (∀ i, V₀ i) → ∀ i, V₀ i), Commutes φ F F₀ → Commutes φ S S₀ →
      ∀ (xp : ∀ i, V₀ i) (n : ℕ) (x : ∀ i, V₀ i),
      (List.range n).foldl (fun x k => trInner m.u F S (mapF φ xp) k x) (mapF φ x)
        = mapF φ ((List.range n).foldl (fun x k => trInner m₀.u F₀ S₀ xp k x) x) := by
    intro F S F₀ S₀ hF hS xp n x
    refine foldl_rel (fun (a : ∀ i, V i) (b : ∀ i, V₀ i) => a = mapF φ b) _ rfl fun k _ a b hab => ?_
    subst hab
    unfold trInner
    simp only [hF b, mapF_add, h.u, only_rel]
    split
    · rw [mapF_sub, hS, mapF_add]
    · rw [mapF_sub, hS, mapF_add]
  have htr : trStage m (mapF φ xn) = mapF φ (trStage m₀ xn) := by
    unfold trStage
    simp only [applyAll_rel h.slow, h.trE xn, mapF_add, h.nOuterTr]
    generalize applyAll m₀.slow xn + m₀.trE xn = xstar
    refine (iterate_rel (fun s : (∀ i, V₀ i) × (∀ i, V₀ i) => (mapF φ s.1, mapF φ s.2)) (fun s => ?_) m₀.nOuterTr
      (xstar, xn) |> congrArg Prod.snd)
    unfold trOuter
    simp only
    rw [hvel, hvel₀, transport_rel h.transport, h.gamma, h.nInnerTr, hinner m.trI m.trSolve m₀.trI m₀.trSolve h.trI h.trSolve,
      h.copied, copy_rel, h.bcs]
  have hbdf : ∀ xm, bdfStage m (mapF φ xn) (mapF φ xm)
      = (fun s : BdfState V₀ => (⟨mapF φ s.xp, mapF φ s.xpm, mapF φ s.x⟩ : BdfState V)) (bdfStage m₀ xn xm) := by
    intro xm
    unfold bdfStage
    rw [h.nOuterBdf]
    refine iterate_rel (Y := BdfState V) (Y₀ := BdfState V₀) (fun s => ⟨mapF φ s.xp, mapF φ s.xpm, mapF φ s.x⟩) (fun s => ?_) m₀.nOuterBdf ⟨xn, xm, xn⟩
    unfold bdfOuter
    simp only
    rw [hvel, hvel, hvel₀, hvel₀, transport_rel h.transport, transport_rel h.transport, h.gamma, mapF_smul, mapF_smul,
      mapF_add, h.nInnerBdf, hinner m.bdfI m.bdfSolve m₀.bdfI m₀.bdfSolve h.bdfI h.bdfSolve, h.copied, copy_rel, h.bcs]
  unfold trBdf2Step
  rw [htr, hbdf, applyAll_rel h.final]

/-- A state that is unchanged by a symmetry stays so, over any number of timesteps of either timestepper. -/
theorem C144_symmetric_quasi_newton (φ : ∀ i, V i →ₗ[K] V i) (m : Siqn K V) (h : SiqnRel φ m m) (m' : TrBdf2 K V)
    (h' : TrBdf2Rel φ m' m') (x : ∀ i, V i) (hx : mapF φ x = x) (n : ℕ) :
    mapF φ ((fun x => timestep m x x)^[n] x) = (fun x => timestep m x x)^[n] x ∧
      mapF φ ((trBdf2Step m')^[n] x) = (trBdf2Step m')^[n] x := by
  constructor
  · have := iterate_rel (f := fun x => timestep m x x) (mapF φ) (fun y => C144_siqn φ m m h y y) n x
    rw [hx] at this
    exact this.symm
  · have := iterate_rel (f := trBdf2Step m') (mapF φ) (fun y => C144_trbdf2 φ m' m' h' y) n x
    rw [hx] at this
    exact this.symm

end quasiNewton

/-! ### Upwind transport on a periodic ring of cells -/
section ring
variable (N : ℕ) [NeZero N]

/-- `∂q/∂t + ∂q/∂x = 0` on `N` cells around a ring, upwind. -/
def ringTransport : LForm (Fin N → ℚ) (Fin N → ℚ) :=
  [⟨[.timeDerivative], fun q => q, 0, []⟩, ⟨[.transport], fun q i => q i - q (i - 1), 0, []⟩]

/-- Rotation of the ring by `a` cells. -/
def rotate (a : Fin N) : (Fin N → ℚ) →ₗ[ℚ] (Fin N → ℚ) := LinearMap.funLeft ℚ ℚ fun i => i + a

/-- Every rotation is a symmetry. -/
theorem ring_symmetry (a : Fin N) :
    Restricts (rotate N a) (fun d => rotate N (-a) d) (ringTransport N) (ringTransport N) := by
  refine List.Forall₂.cons ⟨rfl, ?_, fun q => ?_, List.Forall₂.nil⟩
    (List.Forall₂.cons ⟨rfl, ?_, fun q => ?_, List.Forall₂.nil⟩ List.Forall₂.nil)
  · exact (map_zero (rotate N a)).symm
  · funext i
    simp [rotate, LinearMap.funLeft_apply]
  · exact (map_zero (rotate N a)).symm
  · funext i
    simp only [rotate, LinearMap.funLeft_apply]
    rw [show i + -a + a = i by abel, show i + -a - 1 + a = i - 1 by abel]

/-- One Newton step with the mass matrix commutes with rotations. -/
theorem ring_solver (a : Fin N) (n : ℕ) : RestrictsSolver (rotate N a) (fun d => rotate N (-a) d)
    (newton (fun d : Fin N → ℚ => d) n) (newton (fun d : Fin N → ℚ => d) n) :=
  C144_newton (rotate N a) (rotate N (-a)) _ _ (fun d => by
    funext i
    simp only [rotate, LinearMap.funLeft_apply]
    rw [show i + a + -a = i by abel]) n

/-- Any explicit Runge-Kutta scheme for transport around the ring. -/
def ringRK (A : ℕ → ℕ → ℚ) (s : ℕ) (dt : ℚ) : RKScheme ℚ (Fin N → ℚ) (Fin N → ℚ) :=
  { R := ringTransport N, A := A, nStages := s, dt := dt, originalDt := dt, limiter := none, nphys := 0,
    evals := fun _ _ _ => 0, solve := newton (fun d => d) 1 }

theorem ringRK_symmetry (A : ℕ → ℕ → ℚ) (s : ℕ) (dt : ℚ) (a : Fin N) :
    RKRel (rotate N a) (rotate N (-a)) (ringRK N A s dt) (ringRK N A s dt) where
  R := ring_symmetry N a
  A := rfl
  nStages := rfl
  dt := rfl
  originalDt := rfl
  limiter := Option.Rel.none
  nphys := rfl
  evals := fun _ _ _ => (map_zero (rotate N a)).symm
  solve := ring_solver N a 1

/-- Transporting a rotated field gives the rotated result. -/
example (a : Fin N) (A : ℕ → ℕ → ℚ) (s : ℕ) (dt : ℚ) (f : RK.Formulation) (ncycles : ℕ) (st : RKState (Fin N → ℚ))
    (q : Fin N → ℚ) :
    RK.apply f (ringRK N A s dt) ncycles (mapRK (rotate N a) st) (rotate N a q)
      = rotate N a (RK.apply f (ringRK N A s dt) ncycles st q) :=
  rkApply_rel (ringRK_symmetry N A s dt a) f ncycles st q

/-- A field with period `a` keeps it. -/
example (a : Fin N) (A : ℕ → ℕ → ℚ) (s : ℕ) (dt : ℚ) (f : RK.Formulation) (ncycles : ℕ) (q : Fin N → ℚ)
    (hq : ∀ i, q (i + a) = q i) (i : Fin N) :
    RK.apply f (ringRK N A s dt) ncycles freshRK q (i + a) = RK.apply f (ringRK N A s dt) ncycles freshRK q i :=
  congrFun (C144_symmetric_rk (rotate N a) (rotate N (-a)) _ (ringRK_symmetry N A s dt a) f ncycles q (funext hq)) i

/-- SDC around the ring with any nodes and matrices, the product of neighbouring values as source, forward Euler as base scheme. -/
def ringSDC (M maxk : ℕ) (z2n baseFlag finalUpdate : Bool) (Q Qi Qe : ℕ → ℕ → ℚ) (Qfin dtau : ℕ → ℚ) (dt : ℚ) :
    SDC.Scheme ℚ (Fin N → ℚ) (Fin N → ℚ) where
  R := ringTransport N
  M := M
  maxk := maxk
  z2n := z2n
  Q := Q
  Qfin := Qfin
  Qi := Qi
  Qe := Qe
  dtau := dtau
  dt0 := dt
  base := fun c q i => q i - c * (q i - q (i - 1))
  baseFlag := baseFlag
  finalUpdate := finalUpdate
  solve := newton (fun d => d) 2
  evaluate := [fun _ q i => q i * q (i + 1)]

/-- RIDC likewise. -/
def ringRIDC (M Kc : ℕ) (reduced : Bool) (Q : ℕ → ℕ → ℕ → ℚ) (dt : ℚ) : RIDC.Scheme ℚ (Fin N → ℚ) (Fin N → ℚ) where
  R := ringTransport N
  M := M
  Kc := Kc
  reduced := reduced
  Q := Q
  dt := dt
  base := fun c q i => q i - c * (q i - q (i - 1))
  solve := newton (fun d => d) 2
  evaluate := [fun _ q i => q i * q (i + 1)]

theorem ring_base (a : Fin N) (c : ℚ) (q : Fin N → ℚ) :
    (fun i => rotate N a q i - c * (rotate N a q i - rotate N a q (i - 1)))
      = rotate N a (fun i => q i - c * (q i - q (i - 1))) := by
  funext i
  simp only [rotate, LinearMap.funLeft_apply]
  rw [show i - 1 + a = i + a - 1 by abel]

theorem ring_source (a : Fin N) (q : Fin N → ℚ) :
    (fun i => rotate N a q i * rotate N a q (i + 1)) = rotate N a (fun i => q i * q (i + 1)) := by
  funext i
  simp only [rotate, LinearMap.funLeft_apply]
  rw [show i + 1 + a = i + a + 1 by abel]

theorem ringSDC_symmetry (M maxk : ℕ) (z2n baseFlag finalUpdate : Bool) (Q Qi Qe : ℕ → ℕ → ℚ) (Qfin dtau : ℕ → ℚ) (dt : ℚ)
    (a : Fin N) :
    SDCRel (rotate N a) (rotate N (-a)) (ringSDC N M maxk z2n baseFlag finalUpdate Q Qi Qe Qfin dtau dt)
      (ringSDC N M maxk z2n baseFlag finalUpdate Q Qi Qe Qfin dtau dt) where
  R := ring_symmetry N a
  M := rfl
  maxk := rfl
  z2n := rfl
  Q := rfl
  Qfin := rfl
  Qe := rfl
  dtau := rfl
  base := ring_base N a
  baseFlag := rfl
  finalUpdate := rfl
  flex := rfl
  limiter := Option.Rel.none
  evaluate := List.Forall₂.cons (fun _ q => ring_source N a q) List.Forall₂.nil
  solve := ring_solver N a 2

theorem ringRIDC_symmetry (M Kc : ℕ) (reduced : Bool) (Q : ℕ → ℕ → ℕ → ℚ) (dt : ℚ) (a : Fin N) :
    RIDCRel (rotate N a) (rotate N (-a)) (ringRIDC N M Kc reduced Q dt) (ringRIDC N M Kc reduced Q dt) where
  R := ring_symmetry N a
  M := rfl
  Kc := rfl
  reduced := rfl
  Q := rfl
  dt := rfl
  base := ring_base N a
  limiter := Option.Rel.none
  evaluate := List.Forall₂.cons (fun _ q => ring_source N a q) List.Forall₂.nil
  solve := ring_solver N a 2

example (M maxk : ℕ) (Q Qi Qe : ℕ → ℕ → ℚ) (Qfin dtau : ℕ → ℚ) (Q' : ℕ → ℕ → ℕ → ℚ) (dt : ℚ) (a : Fin N)
    (st : SDC.State ℚ (Fin N → ℚ)) (st' : RIDC.State ℚ (Fin N → ℚ)) (q : Fin N → ℚ) :
    (SDC.apply (ringSDC N M maxk true true true Q Qi Qe Qfin dtau dt) (mapSDC (rotate N a) st) (rotate N a q)).2
        = rotate N a (SDC.apply (ringSDC N M maxk true true true Q Qi Qe Qfin dtau dt) st q).2 ∧
      (RIDC.apply (ringRIDC N M maxk false Q' dt) (mapRIDC (rotate N a) st') (rotate N a q)).map Prod.snd
        = (RIDC.apply (ringRIDC N M maxk false Q' dt) st' q).map fun p => rotate N a p.2 := by
  obtain ⟨h1, h2⟩ := C144_deferred (rotate N a) (rotate N (-a)) _ _
    (ringSDC_symmetry N M maxk true true true Q Qi Qe Qfin dtau dt a) _ _ (ringRIDC_symmetry N M maxk false Q' dt a) st st' q
  exact ⟨congrArg Prod.snd h1, by rw [h2, Option.map_map]; rfl⟩

/-- An IMEX Runge-Kutta scheme around the ring. -/
def ringIMEX (A B : ℕ → ℕ → ℚ) (s : ℕ) (dt : ℚ) : IMEX.Scheme ℚ (Fin N → ℚ) (Fin N → ℚ) where
  R := ringTransport N
  imp := A
  exp := B
  nStages := s
  dt := dt
  solve := newton (fun d => d) 2
  evaluate := [fun q i => q i * q (i + 1)]

theorem ringIMEX_symmetry (A B : ℕ → ℕ → ℚ) (s : ℕ) (dt : ℚ) (a : Fin N) :
    IMEXRel (rotate N a) (rotate N (-a)) (ringIMEX N A B s dt) (ringIMEX N A B s dt) where
  R := ring_symmetry N a
  imp := rfl
  exp := rfl
  nStages := rfl
  dt := rfl
  limiter := Option.Rel.none
  evaluate := List.Forall₂.cons (fun q => ring_source N a q) List.Forall₂.nil
  solve := ring_solver N a 2

example (A B : ℕ → ℕ → ℚ) (s : ℕ) (dt : ℚ) (a : Fin N) (st : RKState (Fin N → ℚ)) (st' : IMEX.State (Fin N → ℚ))
    (q : Fin N → ℚ) :
    IMEX.apply (ringIMEX N A B s dt) (mapIMEX (rotate N a) st') (rotate N a q)
      = rotate N a (IMEX.apply (ringIMEX N A B s dt) st' q) :=
  (C144_runge_kutta (rotate N a) (rotate N (-a)) _ _ (ringRK_symmetry N A s dt a) _ _ (ringIMEX_symmetry N A B s dt a)
    .increment 1 st st' q).2

/-- A constant field stays constant under backward Euler. -/
example (c dt : ℚ) (n m : ℕ) (a : Fin N) :
    rotate N a ((implicitCycle (newton (fun d : Fin N → ℚ => d) m) (backwardEulerRes (ringTransport N) dt))^[n] fun _ => c)
      = (implicitCycle (newton (fun d : Fin N → ℚ => d) m) (backwardEulerRes (ringTransport N) dt))^[n] fun _ => c :=
  (C144_symmetric_implicit (rotate N a) (rotate N (-a)) _ _ (ring_solver N a m) (ring_symmetry N a) dt 0 0 n _ rfl).1

/-- Two fields on the ring: depth (`false`) driven by velocity (`true`). -/
def ringFlow (outer inner : ℕ) : QN.Siqn ℚ (fun _ : Bool => Fin N → ℚ) where
  u := true
  inSolver := fun _ => true
  numOuter := outer
  numInner := inner
  accelerator := true
  alphaU := 1 / 2
  beta := 0
  slow := []
  fast := [fun x i j => x i j * x i j]
  inner := []
  final := []
  forceE := fun x i j => x (!i) (j + 1) - x (!i) j
  forceI := fun x i j => x (!i) (j + 1) - x (!i) j
  transport := [⟨[false], fun vel x i j => vel j * (x i j - x i (j - 1))⟩]
  solve := fun r => r
  bcs := fun x => x

example (a : Fin N) (outer inner : ℕ) (x : Bool → Fin N → ℚ) :
    QN.timestep (ringFlow N outer inner) (mapF (fun _ => rotate N a) x) (mapF (fun _ => rotate N a) x)
      = mapF (fun _ => rotate N a) (QN.timestep (ringFlow N outer inner) x x) := by
  refine C144_siqn (fun _ => rotate N a) (ringFlow N outer inner) (ringFlow N outer inner)
    ⟨rfl, rfl, rfl, rfl, rfl, rfl, rfl, List.Forall₂.nil, List.Forall₂.cons (fun x => rfl) List.Forall₂.nil,
      List.Forall₂.nil, List.Forall₂.nil, fun x => ?_, fun x => ?_,
      List.Forall₂.cons ⟨rfl, fun y x => ?_⟩ List.Forall₂.nil, fun x => rfl, fun x => rfl⟩ x x
  · funext i j
    simp only [ringFlow, mapF, rotate, LinearMap.funLeft_apply, add_right_comm]
  · funext i j
    simp only [ringFlow, mapF, rotate, LinearMap.funLeft_apply, add_right_comm]
  · funext i j
    simp only [mapF, rotate, LinearMap.funLeft_apply]
    rw [show j - 1 + a = j + a - 1 by abel]

end ring
end Gusto.Props.SymmetryProps
