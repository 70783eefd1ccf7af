import Verif.Model.Multilevel
import Verif.Lemmas.TimeDisc
import Mathlib.Algebra.BigOperators.Group.Finset.Basic
import Mathlib.Algebra.BigOperators.Module
import Mathlib.Tactic.Ring

set_option autoImplicit false

set_option linter.unusedSectionVars false
set_option linter.unusedSimpArgs false

namespace Gusto
open LForm
variable {K X D : Type*} [Field K] [AddCommGroup D] [Module K D]

namespace Multilevel
open TimeDisc Spec Finset

theorem eval_bdf2Res0 (R : LForm X D) (dt : K) (y x1 : X) :
    (bdf2Res0 R dt y x1).eval = mass R y + dt • rest R y - mass R x1 := by
  simp only [bdf2Res0, eval_sub, eval_massAt, eval_allAt]

theorem eval_bdf2Res (R : LForm X D) (dt : K) (y x1 x0 : X) :
    (bdf2Res R dt y x1 x0).eval = mass R y + (2 / 3 * dt) • rest R y
      - ((4 / 3 : K) • mass R x1 - (1 / 3 : K) • mass R x0) := by
  simp only [bdf2Res, eval_sub, eval_smul, eval_massAt, eval_allAt]

theorem eval_leapfrogRes0 (R : LForm X D) (dt : K) (y x1 : X) :
    (leapfrogRes0 R dt y x1).eval = mass R y - (mass R x1 - dt • rest R x1) := by
  simp only [leapfrogRes0, eval_sub, eval_massAt, eval_allAt]; module

theorem eval_leapfrogRes (R : LForm X D) (dt : K) (y x1 x0 : X) :
    (leapfrogRes R dt y x1 x0).eval = mass R y - (mass R x1 - dt • rest R x1) :=
  eval_baseRes R dt y x1

theorem eval_splitAt (R : LForm X D) (x x' : X) (c : K) :
    ((R.labelMap isTD keep (replaceSubject x)).labelMap isTD (replaceSubject x')
      (scaleTerm c)).eval = mass R x' + c • rest R x := by
  induction R with
  | nil => simp [labelMap_nil, mass_nil, rest_nil]
  | cons t R ih =>
    rw [labelMap_cons, labelMap_append, eval_append, ih]
    by_cases h : Label.timeDerivative ∈ t.labels <;>
      (simp only [h, isTD, Term.has, decide_true, decide_false, if_true, if_false,
        Bool.false_eq_true, keep, replaceSubject, labelMap_cons, labelMap_nil, scaleTerm,
        List.append_nil, eval_cons, eval_nil, mass_cons, rest_cons, Term.eval]; module)

theorem eval_leapfrogRhs (R : LForm X D) (dt : K) (y x1 x0 : X) :
    (leapfrogRhs R dt y x1 x0).eval = mass R y - (mass R x0 - (2 * dt) • rest R x1) := by
  simp only [leapfrogRhs, eval_sub, eval_massAt, eval_splitAt]; module

theorem eval_abRes0 (R : LForm X D) (dt : K) (y xl : X) :
    (abRes0 R dt y xl).eval = mass R y - (mass R xl - dt • rest R xl) := by
  simp only [abRes0, eval_sub, eval_massAt, eval_allAt]; module

theorem eval_amRes0 (R : LForm X D) (dt : K) (y xl : X) :
    (amRes0 R dt y xl).eval
      = mass R y + (1 / 2 * dt) • rest R y - (mass R xl - (1 / 2 * dt) • rest R xl) := by
  simp only [amRes0, eval_sub, eval_allAt]; module

theorem eval_restScaled (R : LForm X D) (x : X) (c : K) :
    ((R.labelMap isTD drop (replaceSubject x)).labelMap isTD keep (scaleTerm c)).eval
      = c • rest R x := by
  induction R with
  | nil => simp [labelMap_nil, rest_nil]
  | cons t R ih =>
    rw [labelMap_cons, labelMap_append, eval_append, ih]
    by_cases h : Label.timeDerivative ∈ t.labels <;>
      (simp only [h, isTD, Term.has, decide_true, decide_false, if_true, if_false,
        Bool.false_eq_true, keep, drop, replaceSubject, labelMap_cons, labelMap_nil, scaleTerm,
        List.append_nil, eval_cons, eval_nil, rest_cons, Term.eval]; module)

theorem eval_adamsLoop (R : LForm X D) (dt : K) (b : ℕ → K) (x : ℕ → X) (n : ℕ)
    (res : LForm X D) :
    (adamsLoop R dt b x n res).eval
      = res.eval + dt • ∑ k ∈ range n, b k • rest R (x k) := by
  induction n with
  | zero => simp [adamsLoop]
  | succ n ih =>
    have : adamsLoop R dt b x (n + 1) res
        = sub (adamsLoop R dt b x n res)
          ((R.labelMap isTD drop (replaceSubject (x n))).labelMap isTD keep
            (scaleTerm (-dt * b n))) := by
      simp [adamsLoop, List.range_succ]
    rw [this, eval_sub, ih, eval_restScaled, sum_range_succ]
    module

theorem eval_abRes (R : LForm X D) (dt : K) (b : List K) (hb : b ≠ []) (y : X) (x : ℕ → X) :
    (abRes R dt b y x).eval = mass R y - (mass R (x (b.length - 1))
      - dt • ∑ k ∈ range b.length, b.getD k 0 • rest R (x k)) := by
  obtain ⟨n, hn⟩ : ∃ n, b.length = n + 1 :=
    Nat.exists_eq_succ_of_ne_zero (by simpa using hb)
  simp only [abRes, eval_adamsLoop, eval_sub, eval_massAt, eval_allAt, hn, Nat.add_sub_cancel,
    sum_range_succ]
  module

theorem eval_amRes (R : LForm X D) (dt bl : K) (br : List K) (hb : br ≠ []) (y : X) (x : ℕ → X) :
    (amRes R dt bl br y x).eval = mass R y + dt • bl • rest R y - (mass R (x (br.length - 1))
      - dt • ∑ k ∈ range br.length, br.getD k 0 • rest R (x k)) := by
  obtain ⟨n, hn⟩ : ∃ n, br.length = n + 1 :=
    Nat.exists_eq_succ_of_ne_zero (by simpa using hb)
  simp only [amRes, eval_adamsLoop, eval_sub, eval_allAt, hn, Nat.add_sub_cancel,
    sum_range_succ]
  module

/-! ### Time levels -/

theorem shiftLoop (a : X) (l : List X) (n : ℕ) (hn : n ≤ l.length) :
    (List.range n).foldl shiftLevel (a :: l) = l.take n ++ (a :: l).drop n := by
  induction n with
  | zero => simp
  | succ n ih =>
    rw [List.range_succ, List.foldl_append, ih (by omega)]
    have h1 : n < l.length := by omega
    have h2 : (l.take n ++ (a :: l).drop n)[n + 1]? = some l[n] := by
      rw [List.getElem?_append_right (by simp)]
      simp [Nat.min_eq_left (by omega : n ≤ l.length), List.getElem?_drop, h1]
    simp only [List.foldl_cons, List.foldl_nil, shiftLevel, h2]
    have hd : (a :: l).drop n = (a :: l)[n]'(by simp; omega) :: l.drop n := by
      rw [List.drop_eq_getElem_cons (by simp; omega)]; simp
    rw [List.set_append_right _ _ (by simp)]
    rw [hd]
    simp only [List.length_take, Nat.min_eq_left (by omega : n ≤ l.length), Nat.sub_self,
      List.set_cons_zero]
    rw [List.take_succ_eq_append_getElem h1]
    simp only [List.append_assoc, List.cons_append, List.nil_append, List.drop_succ_cons]

theorem update_previous (L : Levels X) (h : L.previous ≠ []) :
    L.update.previous = L.previous.tail ++ [L.np1] := by
  obtain ⟨a, l, e⟩ := List.exists_cons_of_ne_nil h
  simp only [Levels.update, e, List.length_cons, Nat.add_sub_cancel, List.tail_cons]
  rw [shiftLoop a l l.length le_rfl]
  simp only [List.take_length]
  have : (a :: l).drop l.length = [(a :: l)[l.length]'(by simp)] := by
    rw [List.drop_eq_getElem_cons (by simp)]; simp
  rw [this, List.set_append_right _ _ (by simp)]
  simp

@[simp] theorem update_np1 (L : Levels X) : L.update.np1 = L.np1 := rfl

end Multilevel
end Gusto
