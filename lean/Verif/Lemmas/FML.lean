import Verif.Model.FML
import Verif.Spec.FML
import Mathlib.Tactic.Module
import Mathlib.Tactic.Abel

set_option autoImplicit false

/-! Evaluation lemmas for label maps. -/

set_option linter.unusedSectionVars false

namespace Gusto
open LForm
variable {K X D : Type*} [Field K] [AddCommGroup D] [Module K D]

namespace LForm

@[simp] theorem eval_nil : eval ([] : LForm X D) = 0 := rfl
@[simp] theorem eval_cons (t : Term X D) (F : LForm X D) :
    eval (t :: F) = t.eval + eval F := by simp [eval]
@[simp] theorem eval_append (F G : LForm X D) : eval (F ++ G) = eval F + eval G := by
  simp [eval]
@[simp] theorem eval_add (F G : LForm X D) : eval (add F G) = eval F + eval G := by
  simp [add]
@[simp] theorem eval_sub (F G : LForm X D) : eval (sub F G) = eval F - eval G := by
  rw [sub, eval_append, sub_eq_add_neg]
  congr 1
  induction G with
  | nil => simp
  | cons t G ih => simp only [List.map_cons, eval_cons, ih]; simp [Term.eval]; abel
@[simp] theorem eval_smul (c : K) (F : LForm X D) : eval (LForm.smul c F) = c • eval F := by
  induction F with
  | nil => simp [LForm.smul]
  | cons t F ih =>
    have : LForm.smul c (t :: F) = scaleTerm c t ++ LForm.smul c F := by simp [LForm.smul]
    rw [this, eval_append, ih]; simp [scaleTerm, Term.eval]

/-- Value of a label map: sum over the terms. -/
theorem eval_labelMap (F : LForm X D) (p : Term X D → Bool) (f g : Term X D → LForm X D) :
    eval (F.labelMap p f g) = (F.map fun t => if p t then eval (f t) else eval (g t)).sum := by
  induction F with
  | nil => rfl
  | cons t F ih =>
    have : labelMap (t :: F) p f g = (if p t then f t else g t) ++ labelMap F p f g := by
      simp [labelMap]
    rw [this, eval_append, ih]; simp only [List.map_cons, List.sum_cons]
    split <;> rfl

theorem labelMap_nil (p : Term X D → Bool) (f g : Term X D → LForm X D) :
    labelMap [] p f g = [] := rfl
theorem labelMap_cons (t : Term X D) (F : LForm X D) (p : Term X D → Bool)
    (f g : Term X D → LForm X D) :
    labelMap (t :: F) p f g = (if p t then f t else g t) ++ labelMap F p f g := by
  simp [labelMap]
theorem labelMap_append (F G : LForm X D) (p : Term X D → Bool)
    (f g : Term X D → LForm X D) :
    labelMap (F ++ G) p f g = labelMap F p f g ++ labelMap G p f g := by
  simp [labelMap]

end LForm

namespace Spec
theorem part_nil (p : Term X D → Prop) [DecidablePred p] (x : X) : part p [] x = 0 := rfl
theorem part_cons (p : Term X D → Prop) [DecidablePred p] (t : Term X D) (F : LForm X D) (x : X) :
    part p (t :: F) x = (if p t then t.op x else 0) + part p F x := by
  simp only [part, List.filter_cons]
  by_cases h : p t <;> simp [h]

theorem mass_nil (x : X) : mass ([] : LForm X D) x = 0 := rfl
theorem rest_nil (x : X) : rest ([] : LForm X D) x = 0 := rfl
theorem mass_cons (t : Term X D) (F : LForm X D) (x : X) :
    mass (t :: F) x = (if Label.timeDerivative ∈ t.labels then t.op x else 0) + mass F x :=
  part_cons _ _ _ _
theorem rest_cons (t : Term X D) (F : LForm X D) (x : X) :
    rest (t :: F) x = (if Label.timeDerivative ∈ t.labels then 0 else t.op x) + rest F x := by
  rw [rest, part_cons]; by_cases h : Label.timeDerivative ∈ t.labels <;> simp [h, rest]
end Spec

end Gusto
