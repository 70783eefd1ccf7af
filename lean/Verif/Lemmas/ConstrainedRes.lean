import Verif.Lemmas.Constrained

set_option autoImplicit false
set_option linter.unusedSectionVars false
set_option linter.unusedSimpArgs false
/-! The residuals of all schemes restrict to the residuals of the restricted scheme. -/

namespace Gusto.Constrained
open Gusto Gusto.Spec LForm TimeDisc
variable {K X X₀ D D₀ : Type*} [Field K] [AddCommGroup D] [Module K D] [AddCommGroup D₀] [Module K D₀]
section
variable {ι : X₀ → X} {ρ : D →ₗ[K] D₀} {R : LForm X D} {R₀ : LForm X₀ D₀}

theorem baseRes_rel (hR : FR ι ρ R R₀) (dt : K) (y x : X₀) :
    FR ι ρ (baseRes R dt (ι y) (ι x)) (baseRes R₀ dt y x) := by
  unfold baseRes; rel

theorem backwardEulerRes_rel (hR : FR ι ρ R R₀) (dt : K) (y x : X₀) :
    FR ι ρ (backwardEulerRes R dt (ι y) (ι x)) (backwardEulerRes R₀ dt y x) := by
  unfold backwardEulerRes; rel

theorem thetaRes_rel (hR : FR ι ρ R R₀) (dt theta : K) (y x : X₀) :
    FR ι ρ (thetaRes R dt theta (ι y) (ι x)) (thetaRes R₀ dt theta y x) := by
  unfold thetaRes; rel

theorem trRes_rel (hR : FR ι ρ R R₀) (dt c : K) (y x : X₀) :
    FR ι ρ (trRes R dt c (ι y) (ι x)) (trRes R₀ dt c y x) := by
  unfold trRes; rel

theorem bdf2StageRes_rel (hR : FR ι ρ R R₀) (dt c : K) (y x z : X₀) :
    FR ι ρ (bdf2StageRes R dt c (ι y) (ι x) (ι z)) (bdf2StageRes R₀ dt c y x z) := by
  unfold bdf2StageRes; rel

open Multilevel
theorem bdf2Res0_rel (hR : FR ι ρ R R₀) (dt : K) (y x : X₀) :
    FR ι ρ (bdf2Res0 R dt (ι y) (ι x)) (bdf2Res0 R₀ dt y x) := by
  unfold bdf2Res0; rel
theorem bdf2Res_rel (hR : FR ι ρ R R₀) (dt : K) (y x z : X₀) :
    FR ι ρ (bdf2Res R dt (ι y) (ι x) (ι z)) (bdf2Res R₀ dt y x z) := by
  unfold bdf2Res; rel
theorem leapfrogRes0_rel (hR : FR ι ρ R R₀) (dt : K) (y x : X₀) :
    FR ι ρ (leapfrogRes0 R dt (ι y) (ι x)) (leapfrogRes0 R₀ dt y x) := by
  unfold leapfrogRes0; rel
theorem abRes0_rel (hR : FR ι ρ R R₀) (dt : K) (y x : X₀) :
    FR ι ρ (abRes0 R dt (ι y) (ι x)) (abRes0 R₀ dt y x) := by
  unfold abRes0; rel
theorem amRes0_rel (hR : FR ι ρ R R₀) (dt : K) (y x : X₀) :
    FR ι ρ (amRes0 R dt (ι y) (ι x)) (amRes0 R₀ dt y x) := by
  unfold amRes0; rel
theorem abRes_rel (hR : FR ι ρ R R₀) (dt : K) (b : List K) (y : X₀) (x : ℕ → X₀) :
    FR ι ρ (abRes R dt b (ι y) (fun i => ι (x i))) (abRes R₀ dt b y x) := by
  unfold abRes adamsLoop; rel
theorem amRes_rel (hR : FR ι ρ R R₀) (dt bl : K) (b : List K) (y : X₀) (x : ℕ → X₀) :
    FR ι ρ (amRes R dt bl b (ι y) (fun i => ι (x i))) (amRes R₀ dt bl b y x) := by
  unfold amRes adamsLoop; rel

theorem irkPred_rel (S : IRK.Scheme K X D) (S₀ : IRK.Scheme K X₀ D₀) (hR : FR ι ρ S.R S₀.R) (hA : S.A = S₀.A)
    (hdt : S.dt = S₀.dt) (xs : ℕ → X₀) (x y : X₀) (stage : ℕ) :
    FR ι ρ (IRK.predRes S (fun i => ι (xs i)) (ι x) stage (ι y)) (IRK.predRes S₀ xs x stage y) := by
  unfold IRK.predRes; rw [hA, hdt]; rel

theorem irkFinal_rel (S : IRK.Scheme K X D) (S₀ : IRK.Scheme K X₀ D₀) (hR : FR ι ρ S.R S₀.R) (hA : S.A = S₀.A)
    (hdt : S.dt = S₀.dt) (hn : S.nStages = S₀.nStages) (xs : ℕ → X₀) (x y : X₀) :
    FR ι ρ (IRK.finalRes S (fun i => ι (xs i)) (ι x) (ι y)) (IRK.finalRes S₀ xs x y) := by
  unfold IRK.finalRes; rw [hA, hdt, hn]; rel
end

section
variable [AddCommGroup X] [Module K X] [AddCommGroup X₀] [Module K X₀]
variable {ι : X₀ →ₗ[K] X} {ρ : D →ₗ[K] D₀} {R : LForm X D} {R₀ : LForm X₀ D₀}

theorem withSources_rel (hR : FR ι ρ R R₀) (src : ℕ → X₀) :
    FR ι ρ (RK.withSources (fun j => ι (src j)) R) (RK.withSources src R₀) := by
  unfold RK.withSources
  refine FR.labelMap hR (by labels) (fun t t₀ h => ?_) (fun t t₀ h => FR.keep h)
  rw [TR.physIdx h]
  exact FR.replaceSubject rfl h

theorem incRes_rel (hR : FR ι ρ R R₀) (y x : X₀) :
    FR ι ρ (RK.incRes K R (ι y) (ι x)) (RK.incRes K R₀ y x) := by
  unfold RK.incRes
  have h1 : FR ι ρ (R.labelMap (fun t => !RK.isSource t) (replaceSubject (ι x)) keep)
    (R₀.labelMap (fun t => !RK.isSource t) (replaceSubject x) keep) := by rel
  simp only [FR.length h1]
  split <;> rel

theorem predRes_rel (hR : FR ι ρ R R₀) (A : ℕ → ℕ → K) (dt : K) (stage : ℕ) (field source : ℕ → X₀) (y : X₀) :
    FR ι ρ (RK.predRes R A dt stage (fun i => ι (field i)) (fun i => ι (source i)) (ι y))
      (RK.predRes R₀ A dt stage field source y) := by
  unfold RK.predRes; rel

theorem linRes_rel (hR : FR ι ρ R R₀) (dt : K) (last : Bool) (x z y : X₀) :
    FR ι ρ (RK.linRes R dt last (ι x) (ι z) (ι y)) (RK.linRes R₀ dt last x z y) := by
  unfold RK.linRes
  cases last <;> simp only [if_true, Bool.false_eq_true, if_false] <;> rel

theorem irkInc_rel (hR : FR ι ρ R R₀) (x y : X₀) : FR ι ρ (IRK.incRes R (ι x) (ι y)) (IRK.incRes R₀ x y) := by
  unfold IRK.incRes; rel

theorem addStage_rel (hR : FR ι ρ R R₀) (dt a b : K) (x s : X₀) {G : LForm X D} {G₀ : LForm X₀ D₀}
    (hG : FR ι ρ G G₀) : FR ι ρ (IMEX.addStage R dt a b (ι x) (ι s) G) (IMEX.addStage R₀ dt a b x s G₀) := by
  unfold IMEX.addStage; rel

theorem imexRes_rel (S : IMEX.Scheme K X D) (S₀ : IMEX.Scheme K X₀ D₀) (hR : FR ι ρ S.R S₀.R) (hi : S.imp = S₀.imp)
    (he : S.exp = S₀.exp) (hdt : S.dt = S₀.dt) (xs source : ℕ → X₀) (x y : X₀) (stage : ℕ) :
    FR ι ρ (IMEX.res S (fun i => ι (xs i)) (fun i => ι (source i)) (ι x) stage (ι y))
      (IMEX.res S₀ xs source x stage y) := by
  unfold IMEX.res; rw [hi, he, hdt]
  apply FR.add _ (by rel)
  apply FR.foldl _ (by rel)
  intro _ _ _ h
  exact addStage_rel hR _ _ _ _ _ h

theorem imexFinal_rel (S : IMEX.Scheme K X D) (S₀ : IMEX.Scheme K X₀ D₀) (hR : FR ι ρ S.R S₀.R) (hi : S.imp = S₀.imp)
    (he : S.exp = S₀.exp) (hdt : S.dt = S₀.dt) (hn : S.nStages = S₀.nStages) (xs source : ℕ → X₀) (x y : X₀) :
    FR ι ρ (IMEX.finalRes S (fun i => ι (xs i)) (fun i => ι (source i)) (ι x) (ι y))
      (IMEX.finalRes S₀ xs source x y) := by
  unfold IMEX.finalRes; rw [hi, he, hdt, hn]
  apply FR.foldl _ (by rel)
  intro _ _ _ h
  exact addStage_rel hR _ _ _ _ _ h

theorem resRhs_rel (hR : FR ι ρ R R₀) (x s y : X₀) :
    FR ι ρ (SDC.resRhs R (ι x) (ι s) (ι y)) (SDC.resRhs R₀ x s y) := by
  unfold SDC.resRhs; rel

theorem resFin_rel (hR : FR ι ρ R R₀) (x s y : X₀) :
    FR ι ρ (SDC.resFin R (ι x) (ι s) (ι y)) (SDC.resFin R₀ x s y) := by
  unfold SDC.resFin; rel

theorem diffPart_rel (hR : FR ι ρ R R₀) {p : Term X D → Bool} {p₀ : Term X₀ D₀ → Bool}
    (hp : ∀ t t₀, TR ι ρ t t₀ → p t = p₀ t₀) (c : K) (x s : X₀) {G : LForm X D} {G₀ : LForm X₀ D₀}
    (hG : FR ι ρ G G₀) : FR ι ρ (SDC.diffPart R p c (ι x) (ι s) G) (SDC.diffPart R₀ p₀ c x s G₀) := by
  unfold SDC.diffPart; rel
end
end Gusto.Constrained
