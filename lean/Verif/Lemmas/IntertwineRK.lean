import Verif.Lemmas.IntertwineSchemes

set_option autoImplicit false
set_option linter.unusedSectionVars false
set_option linter.unusedSimpArgs false

/-! Explicit and IMEX Runge-Kutta schemes with prescribed zero boundary values. -/

namespace Gusto.Intertwine
open Gusto Gusto.Spec LForm TimeDisc
open Gusto.Constrained (mapRK mapIMEX mapSDC mapRIDC)
variable {K X X₀ D D₀ : Type*} [Field K] [AddCommGroup D] [Module K D] [AddCommGroup D₀] [Module K D₀]
variable [AddCommGroup X] [Module K X] [AddCommGroup X₀] [Module K X₀]
variable {ι : X₀ →ₗ[K] X} {ρ : D₀ →ₗ[K] D}

variable {S : RKScheme K X D} {S₀ : RKScheme K X₀ D₀}

theorem rkLimit_rel (h : RKRel ι ρ S S₀) (x : X₀) : RK.limit S (ι x) = ι (RK.limit S₀ x) := by
  unfold RK.limit
  have hl := h.limiter
  unfold IntertwinesLimiter at hl
  revert hl
  generalize S.limiter = L
  generalize S₀.limiter = L₀
  rintro (_ | hf)
  · rename_i hf; exact hf x
  · rfl

theorem evalSources_rel (h : RKRel ι ρ S S₀) (x : X₀) (dt : K) (src : ℕ → X₀) :
    RK.evalSources S (ι x) dt (fun j => ι (src j)) = fun j => ι (RK.evalSources S₀ x dt src j) := by
  funext j
  unfold RK.evalSources
  rw [h.nphys]
  split
  · exact h.evals j x dt
  · rfl

theorem evalSourcesInto_rel (h : RKRel ι ρ S S₀) (x : X₀) (dt : K) (out : X₀) :
    RK.evalSourcesInto S (ι x) dt (ι out) = ι (RK.evalSourcesInto S₀ x dt out) := by
  unfold RK.evalSourcesInto
  rw [h.nphys]
  exact foldl_rel (fun (s : X) (t : X₀) => s = ι t) (List.range S₀.nphys) rfl fun a _ s t _ => h.evals a x dt

theorem incStage_rel (h : RKRel ι ρ S S₀) (x : X₀) (t : RKState X₀) (stage : ℕ) :
    RK.incStage S (ι x) (mapRK ι t) stage = mapRK ι (RK.incStage S₀ x t stage) := by
  have hsol := fun (a b : X₀) (src : ℕ → X₀) => solve_rel h.solve
    (fun y => RK.incRes K (RK.withSources (fun j => ι (src j)) S.R) y (ι a))
    (fun y => RK.incRes K (RK.withSources src S₀.R) y a)
    (fun y => incRes_rel (withSources_rel h.R src) y a) b
  unfold RK.incStage mapRK
  simp only [h.A, h.dt, h.nStages, foldl_lin, evalSources_rel h, rkLimit_rel h, ← apply_ite ι, hsol, ← comp_update]

theorem predStage_rel (h : RKRel ι ρ S S₀) (x : X₀) (t : RKState X₀) (stage : ℕ) :
    RK.predStage S (ι x) (mapRK ι t) stage = mapRK ι (RK.predStage S₀ x t stage) := by
  have hsol := fun (field source : ℕ → X₀) (b : X₀) => solve_rel h.solve
    (fun y => RK.predRes S.R S₀.A S₀.dt stage (fun i => ι (field i)) (fun i => ι (source i)) y)
    (fun y => RK.predRes S₀.R S₀.A S₀.dt stage field source y)
    (fun y => predRes_rel h.R S₀.A S₀.dt stage field source y) b
  have hif : ∀ f : ℕ → X₀, (if stage = 0 then fun i => ι (Function.update f 0 x i) else fun j => ι (f j))
      = fun i => ι ((if stage = 0 then Function.update f 0 x else f) i) := by
    intro f; split <;> rfl
  unfold RK.predStage mapRK
  simp only [h.A, h.dt, h.nStages, ← comp_update, hif, evalSources_rel h, evalSourcesInto_rel h, rkLimit_rel h, hsol,
    ← apply_ite ι]

theorem foldl_lin0 {α : Type*} (l : List α) (c : α → K) (k : α → X₀) :
    l.foldl (fun x i => x + c i • ι (k i)) 0 = ι (l.foldl (fun x i => x + c i • k i) 0) := by
  have := foldl_lin (ι := ι) l c k 0
  rwa [map_zero] at this

theorem linStage_rel (h : RKRel ι ρ S S₀) (n idx : ℕ) (x : X₀) (t : RKState X₀) (stage : ℕ) :
    RK.linStage S n idx (ι x) (mapRK ι t) stage = mapRK ι (RK.linStage S₀ n idx x t stage) := by
  have hsol := fun (last : Bool) (z b : X₀) => solve_rel h.solve
    (fun y => RK.linRes S.R S₀.dt last (ι x) (ι z) y) (fun y => RK.linRes S₀.R S₀.dt last x z y)
    (fun y => linRes_rel h.R S₀.dt last x z y) b
  have hif : (if stage = 0 ∧ idx = 0 then Function.update (fun _ => (0 : X)) 0 (ι x) else fun j => ι (t.fieldLhs j))
      = fun i => ι ((if stage = 0 ∧ idx = 0 then Function.update (fun _ => (0 : X₀)) 0 x else t.fieldLhs) i) := by
    split
    · rw [comp_update]; simp
    · rfl
  unfold RK.linStage
  simp only [mapRK, h.A, h.dt, h.originalDt, h.nStages, hif, foldl_lin0, evalSources_rel h, rkLimit_rel h, hsol,
    ← comp_update]
  split <;> rfl

theorem solveStage_rel (h : RKRel ι ρ S S₀) (f : RK.Formulation) (n idx : ℕ) (x : X₀) (t : RKState X₀) (stage : ℕ) :
    RK.solveStage f S n idx (ι x) (mapRK ι t) stage = mapRK ι (RK.solveStage f S₀ n idx x t stage) := by
  cases f
  · exact incStage_rel h x t stage
  · exact predStage_rel h x t stage
  · exact linStage_rel h n idx x t stage

theorem applyCycle_rel (h : RKRel ι ρ S S₀) (f : RK.Formulation) (n idx : ℕ) (t : RKState X₀) :
    RK.applyCycle f S n idx (mapRK ι t) = mapRK ι (RK.applyCycle f S₀ n idx t) := by
  unfold RK.applyCycle
  have hx : RK.limit S (mapRK ι t).x0 = ι (RK.limit S₀ t.x0) := rkLimit_rel h t.x0
  simp only [hx, h.nStages]
  exact foldl_rel (fun (s : RKState X) (t : RKState X₀) => s = mapRK ι t) (List.range S₀.nStages) rfl
    fun a _ s t hst => by subst hst; exact solveStage_rel h f n idx _ t a

theorem rkApply_rel (h : RKRel ι ρ S S₀) (f : RK.Formulation) (n : ℕ) (t : RKState X₀) (x : X₀) :
    RK.apply f S n (mapRK ι t) (ι x) = ι (RK.apply f S₀ n t x) := by
  unfold RK.apply
  refine congrArg RKState.x1 (foldl_rel (fun (s : RKState X) (t : RKState X₀) => s = mapRK ι t) (List.range n)
    (s := { mapRK ι t with x0 := ι x }) (t := { t with x0 := x }) rfl fun a _ s t hst => ?_)
  subst hst
  simp only [applyCycle_rel h]
  rfl

/-! ## IMEX -/

theorem imexEval_rel {S : IMEX.Scheme K X D} {S₀ : IMEX.Scheme K X₀ D₀} (h : IMEXRel ι ρ S S₀) (i : ℕ)
    (t : IMEX.State X₀) : IMEX.evalInto S i (mapIMEX ι t) = mapIMEX ι (IMEX.evalInto S₀ i t) := by
  unfold IMEX.evalInto
  have := h.evaluate
  revert this
  generalize S.evaluate = l
  generalize S₀.evaluate = l₀
  intro hl
  induction hl generalizing t with
  | nil => rfl
  | @cons e e₀ l l₀ he _ ih =>
    simp only [List.foldl_cons]
    rw [← ih]
    congr 1
    simp only [mapIMEX, comp_update, he]

theorem imexLimit_rel {S : IMEX.Scheme K X D} {S₀ : IMEX.Scheme K X₀ D₀} (h : IMEXRel ι ρ S S₀) (x : X₀) :
    IMEX.limit S (ι x) = ι (IMEX.limit S₀ x) := by
  unfold IMEX.limit
  have hl := h.limiter
  unfold IntertwinesLimiter at hl
  revert hl
  generalize S.limiter = L
  generalize S₀.limiter = L₀
  rintro (_ | hf)
  · rename_i hf; exact hf x
  · rfl

theorem imexApply_rel [DecidableEq K] {S : IMEX.Scheme K X D} {S₀ : IMEX.Scheme K X₀ D₀} (h : IMEXRel ι ρ S S₀)
    (t : IMEX.State X₀) (x : X₀) : IMEX.apply S (mapIMEX ι t) (ι x) = ι (IMEX.apply S₀ t x) := by
  have hstart : IMEX.startStage S = IMEX.startStage S₀ := by
    unfold IMEX.startStage; rw [h.nStages, h.imp]
  have hloop := foldl_rel (fun (s : IMEX.State X) (t : IMEX.State X₀) => s = mapIMEX ι t)
    ((List.range S₀.nStages).drop (IMEX.startStage S₀)) (f := IMEX.stageBody S (ι x)) (g := IMEX.stageBody S₀ x)
    (s := { mapIMEX ι t with xOut := ι x, xs := Function.update (fun j => ι (t.xs j)) 0 (ι x) })
    (t := { t with xOut := x, xs := Function.update t.xs 0 x })
    (by simp only [mapIMEX, comp_update]) (by
      intro a _ s t hst
      subst hst
      unfold IMEX.stageBody
      simp only [h.nStages, imexEval_rel h]
      generalize IMEX.evalInto S₀ _ t = t'
      have hsol := solve_rel h.solve
        (fun y => IMEX.res S (fun i => ι (t'.xs i)) (fun i => ι (t'.source i)) (ι x) a y)
        (fun y => IMEX.res S₀ t'.xs t'.source x a y)
        (fun y => imexRes_rel S S₀ h.R h.imp h.exp h.dt t'.xs t'.source x y a) t'.xOut
      simp only [mapIMEX, hsol, imexLimit_rel h, comp_update])
  unfold IMEX.apply
  simp only [hstart, h.nStages]
  have hl2 : List.foldl (IMEX.stageBody S (ι x)) { mapIMEX ι t with xOut := ι x, xs := Function.update (mapIMEX ι t).xs 0 (ι x) }
      ((List.range S₀.nStages).drop (IMEX.startStage S₀)) = _ := hloop
  simp only at hl2
  simp only [hl2, imexEval_rel h]
  generalize IMEX.evalInto S₀ _ _ = t'
  have hsol := solve_rel h.solve
    (fun y => IMEX.finalRes S (fun i => ι (t'.xs i)) (fun i => ι (t'.source i)) (ι x) y)
    (fun y => IMEX.finalRes S₀ t'.xs t'.source x y)
    (fun y => imexFinal_rel S S₀ h.R h.imp h.exp h.dt h.nStages t'.xs t'.source x y) t'.xOut
  simp only [mapIMEX, hsol, imexLimit_rel h]

end Gusto.Intertwine
