import Verif.Model.TimeDisc
import Verif.Lemmas.FML

set_option autoImplicit false

set_option linter.unusedSectionVars false

namespace Gusto
open LForm
variable {K X D : Type*} [Field K] [AddCommGroup D] [Module K D]

namespace TimeDisc
open Spec

/-- unfolds everything about one term -/
macro "fml_step" : tactic => `(tactic|
  simp only [labelMap_cons, labelMap_append, mass_cons, rest_cons, isTD, Term.has,
    LForm.allTerms, LForm.keep, LForm.drop, LForm.replaceSubject, LForm.scaleTerm,
    eval_append, eval_cons, eval_nil, Term.eval, decide_eq_true_eq, if_true,
    List.nil_append, labelMap_nil])

theorem eval_massAt (R : LForm X D) (x : X) :
    (R.labelMap isTD (replaceSubject x) drop).eval = mass R x := by
  induction R with
  | nil => rfl
  | cons t R ih =>
    fml_step; rw [ih]
    by_cases h : Label.timeDerivative ∈ t.labels <;> simp [h, Term.eval]

theorem eval_restAt (R : LForm X D) (x : X) :
    (R.labelMap isTD drop (replaceSubject x)).eval = rest R x := by
  induction R with
  | nil => rfl
  | cons t R ih =>
    fml_step; rw [ih]
    by_cases h : Label.timeDerivative ∈ t.labels <;> simp [h, Term.eval]

theorem eval_allAt (R : LForm X D) (x : X) (c : K) :
    ((R.labelMap allTerms (replaceSubject x) keep).labelMap isTD keep (scaleTerm c)).eval
      = mass R x + c • rest R x := by
  induction R with
  | nil => simp [labelMap_nil, mass_nil, rest_nil]
  | cons t R ih =>
    rw [labelMap_cons, labelMap_append, eval_append, ih]
    fml_step
    by_cases h : Label.timeDerivative ∈ t.labels <;> simp [h, Term.eval] <;> abel

theorem eval_baseRes (R : LForm X D) (dt : K) (xOut x1 : X) :
    (baseRes R dt xOut x1).eval = mass R xOut - (mass R x1 - dt • rest R x1) := by
  simp only [baseRes, eval_sub, eval_massAt, eval_allAt]; module

theorem eval_backwardEulerRes (R : LForm X D) (dt : K) (xOut x1 : X) :
    (backwardEulerRes R dt xOut x1).eval = mass R xOut + dt • rest R xOut - mass R x1 := by
  simp only [backwardEulerRes, eval_sub, eval_massAt, eval_allAt]

theorem eval_thetaRes (R : LForm X D) (dt th : K) (xOut x1 : X) :
    (thetaRes R dt th xOut x1).eval
      = mass R xOut + (th * dt) • rest R xOut - (mass R x1 - ((1 - th) * dt) • rest R x1) := by
  simp only [thetaRes, eval_sub, eval_allAt]; module

theorem eval_trRes (R : LForm X D) (dt g : K) (xOut x1 : X) :
    (trRes R dt g xOut x1).eval
      = mass R xOut + (1 / 2 * g * dt) • rest R xOut
        - (mass R x1 - (1 / 2 * g * dt) • rest R x1) := by
  simp only [trRes, eval_sub, eval_allAt]; module

theorem eval_bdf2StageRes (R : LForm X D) (dt g : K) (xOut xnpg xn : X) :
    (bdf2StageRes R dt g xOut xnpg xn).eval
      = mass R xOut + ((1 - g) / (2 - g) * dt) • rest R xOut
        - ((1 / (g * (2 - g))) • mass R xnpg - ((1 - g) ^ 2 / (g * (2 - g))) • mass R xn) := by
  simp only [bdf2StageRes, eval_sub, eval_smul, eval_massAt, eval_allAt]

end TimeDisc
end Gusto
