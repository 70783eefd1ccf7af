import Verif.Model.ImplicitRK
import Verif.Spec.ImplicitRK
import Verif.Lemmas.TimeDisc

set_option autoImplicit false

set_option linter.unusedSectionVars false
set_option linter.unusedSimpArgs false

namespace Gusto
open LForm TimeDisc Spec Finset
variable {K X D : Type*} [Field K] [AddCommGroup X] [Module K X] [AddCommGroup D] [Module K D]

macro "fml_simp" : tactic => `(tactic|
  simp only [isTD, Term.has, decide_true, decide_false, if_true, if_false,
    Bool.false_eq_true, allTerms, keep, drop, replaceSubject, labelMap_cons, labelMap_nil, scaleTerm,
    List.append_nil, List.nil_append, eval_cons, eval_nil, mass_cons, rest_cons, part_cons,
    Term.eval, add_zero, zero_add,
    *])

theorem eval_sel (R : LForm X D) (p : Term X D → Bool) (x : X) :
    (R.labelMap p (replaceSubject x) drop).eval = part (fun t => p t = true) R x := by
  induction R with
  | nil => rfl
  | cons t R ih =>
    rw [labelMap_cons, eval_append, ih, part_cons]
    by_cases h : p t <;> simp [h, replaceSubject, drop, Term.eval]

theorem eval_massKeep (R : LForm X D) (x : X) :
    ((R.labelMap isTD keep drop).labelMap allTerms (replaceSubject x) keep).eval = mass R x := by
  induction R with
  | nil => rfl
  | cons t R ih =>
    rw [labelMap_cons, labelMap_append, eval_append, ih, mass_cons]
    by_cases h : Label.timeDerivative ∈ t.labels <;> fml_simp

theorem eval_selScaledAll (R : LForm X D) (p : Term X D → Bool) (x : X) (c : K) :
    ((R.labelMap p (replaceSubject x) drop).labelMap allTerms (scaleTerm c) keep).eval
      = c • part (fun t => p t = true) R x := by
  induction R with
  | nil => simp [labelMap_nil, part_nil]
  | cons t R ih =>
    rw [labelMap_cons, labelMap_append, eval_append, ih, part_cons, smul_add]
    by_cases h : p t <;> simp [h, replaceSubject, drop, Term.eval, labelMap, allTerms, scaleTerm]

theorem eval_selScaledNTD (R : LForm X D) (p : Term X D → Bool) (x : X) (c : K)
    (hp : ∀ t ∈ R, Label.timeDerivative ∈ t.labels → p t = false) :
    ((R.labelMap p (replaceSubject x) drop).labelMap isTD keep (scaleTerm c)).eval
      = c • part (fun t => p t = true) R x := by
  induction R with
  | nil => simp [labelMap_nil, part_nil]
  | cons t R ih =>
    rw [labelMap_cons, labelMap_append, eval_append, part_cons, smul_add,
      ih fun t ht => hp t (List.mem_cons_of_mem _ ht)]
    by_cases h : p t
    · have h' : Label.timeDerivative ∉ t.labels := fun hc => by
        have := hp t List.mem_cons_self hc; simp [h] at this
      simp [h, replaceSubject, Term.eval, labelMap, isTD, Term.has, h', scaleTerm]
    · simp [h, drop, labelMap]

theorem part_congr (R : LForm X D) (p q : Term X D → Prop) [DecidablePred p] [DecidablePred q]
    (h : ∀ t ∈ R, p t ↔ q t) (x : X) : part p R x = part q R x := by
  unfold part
  congr 2
  apply List.filter_congr
  intro t ht; simp [h t ht]

theorem part_notTD (R : LForm X D) (x : X) :
    part (fun t => (!isTD t) = true) R x = rest R x := by
  unfold rest
  exact part_congr R _ _ (fun t _ => by simp [isTD, Term.has]) x

theorem foldl_add_sum (g : ℕ → X) (c : ℕ → K) (dt : K) (n : ℕ) (x : X) :
    (List.range n).foldl (fun x1 i => x1 + (c i * dt) • g i) x
      = x + dt • ∑ i ∈ range n, c i • g i := by
  induction n with
  | zero => simp
  | succ n ih =>
    rw [List.range_succ, List.foldl_append, ih, sum_range_succ]
    simp only [List.foldl_cons, List.foldl_nil]; module

namespace IRK

theorem eval_incRes (R : LForm X D) (xnph y : X) :
    (incRes R xnph y).eval = rest R xnph + mass R y := by
  simp only [incRes, eval_add, eval_massKeep, eval_restAt]

theorem foldl_addRest (R : LForm X D) (c : ℕ → K) (dt : K) (xs : ℕ → X) (n : ℕ) (r : LForm X D) :
    ((List.range n).foldl (fun residual i =>
      add residual ((R.labelMap (fun t => !isTD t) (replaceSubject (xs i)) drop).labelMap allTerms
        (scaleTerm (c i * dt)) keep)) r).eval
      = r.eval + dt • ∑ i ∈ range n, c i • rest R (xs i) := by
  induction n with
  | zero => simp
  | succ n ih =>
    rw [List.range_succ, List.foldl_append, sum_range_succ]
    simp only [List.foldl_cons, List.foldl_nil, eval_add, ih, eval_selScaledAll, part_notTD]
    module

theorem eval_predRes (S : Scheme K X D) (xs : ℕ → X) (x1 : X) (stage : ℕ) (y : X) :
    (predRes S xs x1 stage y).eval = mass S.R y - mass S.R x1
      + S.dt • (∑ i ∈ range stage, S.A stage i • rest S.R (xs i))
      + (S.dt * S.A stage stage) • rest S.R y := by
  simp only [predRes, eval_add, foldl_addRest, eval_sub, eval_massKeep, eval_selScaledAll,
    part_notTD]
  module

theorem eval_finalRes (S : Scheme K X D) (xs : ℕ → X) (x1 y : X) :
    (finalRes S xs x1 y).eval = mass S.R y - mass S.R x1
      + S.dt • (∑ i ∈ range S.nStages, S.A S.nStages i • rest S.R (xs i)) := by
  simp only [finalRes, foldl_addRest, eval_sub, eval_massKeep]

end IRK

namespace IMEX

theorem eval_addStage (R : LForm X D) (hR : TDClean R) (dt ci ce : K) (x s : X) (r : LForm X D) :
    (addStage R dt ci ce x s r).eval = r.eval + dt • ci • implPart R x + dt • ce • explPart R x
      + dt • ce • srcPart R s := by
  have e1 := eval_selScaledNTD R isImpl x (ci * dt) (fun t ht h => by
    simp [isImpl, Term.has, (hR t ht h).1])
  have e2 := eval_selScaledNTD R isExpl x (ce * dt) (fun t ht h => by
    simp [isExpl, Term.has, (hR t ht h).2.1])
  simp only [addStage, eval_add, eval_selScaledAll, e1, e2]
  have p1 : part (fun t => isImpl t = true) R x = implPart R x :=
    part_congr R _ _ (fun t _ => by simp [isImpl, Term.has]) x
  have p2 : part (fun t => isExpl t = true) R x = explPart R x :=
    part_congr R _ _ (fun t _ => by simp [isExpl, Term.has]) x
  have p3 : part (fun t => isSrc t = true) R s = srcPart R s :=
    part_congr R _ _ (fun t _ => by simp [isSrc, Term.has]) s
  rw [p1, p2, p3]; module

theorem foldl_addStage (R : LForm X D) (hR : TDClean R) (dt : K) (ci ce : ℕ → K) (x s : ℕ → X)
    (n : ℕ) (r : LForm X D) :
    ((List.range n).foldl (fun residual i => addStage R dt (ci i) (ce i) (x i) (s i) residual)
      r).eval
      = r.eval + dt • (∑ i ∈ range n, ci i • implPart R (x i))
        + dt • (∑ i ∈ range n, ce i • (explPart R (x i) + srcPart R (s i))) := by
  induction n with
  | zero => simp
  | succ n ih =>
    rw [List.range_succ, List.foldl_append, sum_range_succ, sum_range_succ]
    simp only [List.foldl_cons, List.foldl_nil, eval_addStage R hR, ih]
    module

theorem eval_res (S : Scheme K X D) (hR : TDClean S.R) (xs source : ℕ → X) (x1 : X) (stage : ℕ)
    (y : X) :
    (res S xs source x1 stage y).eval = mass S.R y - mass S.R x1
      + S.dt • (∑ i ∈ range stage, S.imp stage i • implPart S.R (xs i))
      + S.dt • (∑ i ∈ range stage, S.exp stage i • (explPart S.R (xs i) + srcPart S.R (source i)))
      + (S.dt * S.imp stage stage) • implPart S.R y := by
  have e1 := eval_selScaledNTD S.R isImpl y (S.imp stage stage * S.dt) (fun t ht h => by
    simp [isImpl, Term.has, (hR t ht h).1])
  have p1 : part (fun t => isImpl t = true) S.R y = implPart S.R y :=
    part_congr S.R _ _ (fun t _ => by simp [isImpl, Term.has]) y
  simp only [res, eval_add, foldl_addStage S.R hR, eval_sub, eval_massKeep, e1, p1]
  module

theorem eval_finalRes (S : Scheme K X D) (hR : TDClean S.R) (xs source : ℕ → X) (x1 y : X) :
    (finalRes S xs source x1 y).eval = mass S.R y - mass S.R x1
      + S.dt • (∑ i ∈ range S.nStages, S.imp S.nStages i • implPart S.R (xs i))
      + S.dt • (∑ i ∈ range S.nStages,
          S.exp S.nStages i • (explPart S.R (xs i) + srcPart S.R (source i))) := by
  simp only [finalRes, foldl_addStage S.R hR, eval_sub, eval_massKeep]

end IMEX
end Gusto
