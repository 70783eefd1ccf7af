import Verif.Model.ExplicitRK
import Verif.Lemmas.TimeDisc
import Verif.Spec.RK

set_option autoImplicit false

set_option linter.unusedSectionVars false
set_option linter.unusedSimpArgs false

namespace Gusto
open LForm TimeDisc Spec Finset
variable {K X D : Type*} [Field K] [AddCommGroup X] [Module K X] [AddCommGroup D] [Module K D]

namespace Spec
theorem restNoSource_cons (t : Term X D) (F : LForm X D) (x : X) :
    restNoSource (t :: F) x =
      (if Label.timeDerivative ∈ t.labels then 0
       else if Label.source ∈ t.labels then 0 else t.op x) + restNoSource F x := by
  rw [restNoSource, part_cons]
  by_cases h : Label.timeDerivative ∈ t.labels <;> by_cases h' : Label.source ∈ t.labels <;>
    simp [h, h', restNoSource]
theorem sourcePart_cons (t : Term X D) (F : LForm X D) (S : ℕ → X) :
    sourcePart (t :: F) S =
      (if Label.timeDerivative ∈ t.labels then 0
       else if Label.source ∈ t.labels then t.op (S (t.physIdx.getD 0)) else 0)
        + sourcePart F S := by
  simp only [sourcePart, List.filter_cons]
  by_cases h : Label.timeDerivative ∈ t.labels <;> by_cases h' : Label.source ∈ t.labels <;>
    simp [h, h']
theorem restNoSource_nil (x : X) : restNoSource ([] : LForm X D) x = 0 := rfl
theorem sourcePart_nil (S : ℕ → X) : sourcePart ([] : LForm X D) S = 0 := rfl

/-- Without physics-source terms the two tendencies coincide. -/
theorem restNoSource_eq_rest (R : LForm X D) (h : ∀ t ∈ R, Label.source ∉ t.labels) (x : X) :
    restNoSource R x = rest R x := by
  induction R with
  | nil => rfl
  | cons t R ih =>
    rw [restNoSource_cons, rest_cons, ih fun t ht => h t (List.mem_cons_of_mem _ ht)]
    simp [h t List.mem_cons_self]
theorem sourcePart_eq_zero (R : LForm X D) (h : ∀ t ∈ R, Label.source ∉ t.labels) (S : ℕ → X) :
    sourcePart R S = 0 := by
  induction R with
  | nil => rfl
  | cons t R ih =>
    rw [sourcePart_cons, ih fun t ht => h t (List.mem_cons_of_mem _ ht)]
    simp [h t List.mem_cons_self]
end Spec

/-- An exact solver applied to `y ↦ M y - c` returns `M⁻¹ c`. -/
theorem exact_affine {solve : Solver X D} (hs : ExactSolver solve) (M : X ≃ₗ[K] D)
    (r : X → D) (c : D) (hr : ∀ y, r y = M y - c) (g : X) : solve r g = M.symm c := by
  have h := hs r g ⟨M.symm c, by simp [hr], fun y hy => by
    have hy : r y = 0 := hy
    rw [hr, sub_eq_zero] at hy; rw [← hy, LinearEquiv.symm_apply_apply]⟩
  rw [hr, sub_eq_zero] at h
  rw [← h, LinearEquiv.symm_apply_apply]

namespace RK

macro "fml_rk" : tactic => `(tactic|
  simp only [labelMap_cons, labelMap_append, mass_cons, rest_cons, restNoSource_cons,
    sourcePart_cons, isTD, isSource, Term.has, Term.physIdx,
    LForm.allTerms, LForm.keep, LForm.drop, LForm.replaceSubject, LForm.scaleTerm,
    eval_append, eval_cons, eval_nil, Term.eval, decide_eq_true_eq, if_true,
    List.nil_append, labelMap_nil])

theorem eval_incRes (R : LForm X D) (src : ℕ → X) (xOut x1 : X) :
    (incRes K (withSources src R) xOut x1).eval
      = mass R xOut + (restNoSource R x1 + sourcePart R src) := by
  have h1 : ((withSources src R).labelMap isTD (replaceSubject xOut) drop).eval = mass R xOut := by
    induction R with
    | nil => rfl
    | cons t R ih =>
      rw [withSources, labelMap_cons, labelMap_append, eval_append]
      rw [withSources] at ih
      rw [ih]
      fml_rk
      by_cases h : Label.timeDerivative ∈ t.labels <;>
        by_cases h' : Label.source ∈ t.labels <;> simp [h, h', labelMap, Term.eval, isTD, isSource, Term.has, LForm.keep, LForm.drop, LForm.replaceSubject,
          LForm.scaleTerm, Term.physIdx]
  have h2 : (((withSources src R).labelMap (fun t => !isSource t) (replaceSubject x1)
      keep).labelMap isTD drop keep).eval = restNoSource R x1 + sourcePart R src := by
    clear h1
    induction R with
    | nil => simp [withSources, labelMap_nil, restNoSource_nil, sourcePart_nil]
    | cons t R ih =>
      rw [withSources, labelMap_cons, labelMap_append, labelMap_append, eval_append]
      rw [withSources] at ih
      rw [ih]
      fml_rk
      by_cases h : Label.timeDerivative ∈ t.labels <;>
        by_cases h' : Label.source ∈ t.labels <;>
        simp [h, h', labelMap, Term.eval, isTD, isSource, Term.has, LForm.keep, LForm.drop, LForm.replaceSubject,
          LForm.scaleTerm, Term.physIdx] <;> abel
  unfold incRes
  simp only
  split
  · rw [eval_add, eval_add, eval_smul, h1, h2, zero_smul, add_zero]
  · rw [eval_add, h1, h2]

/-- evaluation of a `residual += ...` loop -/
theorem eval_foldl_add {ι : Type*} (l : List ι) (f : ι → LForm X D) (F : LForm X D) :
    (l.foldl (fun r i => add r (f i)) F).eval = F.eval + (l.map fun i => (f i).eval).sum := by
  induction l generalizing F with
  | nil => simp
  | cons i l ih => simp only [List.foldl_cons, ih, eval_add, List.map_cons, List.sum_cons]; abel

theorem eval_sourceAt (R : LForm X D) (hR : WellLabelled R) (x : X) :
    (R.labelMap isSource (replaceSubject x) drop).eval = sourcePart R (fun _ => x) := by
  induction R with
  | nil => rfl
  | cons t R ih =>
    have hR' : WellLabelled R := fun t ht => hR t (List.mem_cons_of_mem _ ht)
    have ht := hR t List.mem_cons_self
    fml_rk; rw [ih hR']
    by_cases h : Label.timeDerivative ∈ t.labels
    · simp [h, ht h]
    · by_cases h' : Label.source ∈ t.labels <;> simp [h, h', Term.eval]

theorem eval_restNSAt (R : LForm X D) (x : X) :
    (R.labelMap (fun t => isTD t || isSource t) drop (replaceSubject x)).eval
      = restNoSource R x := by
  induction R with
  | nil => rfl
  | cons t R ih =>
    rw [labelMap_cons, eval_append, ih]
    fml_rk
    by_cases h : Label.timeDerivative ∈ t.labels <;>
      by_cases h' : Label.source ∈ t.labels <;> simp [h, h', Term.eval]

theorem eval_pred0 (R : LForm X D) (hR : WellLabelled R) (c : K) (x : X) :
    ((R.labelMap (fun t => !isSource t) (replaceSubject x) drop).labelMap isTD keep
      (scaleTerm c)).eval = mass R x + c • restNoSource R x := by
  induction R with
  | nil => simp [labelMap_nil, mass_nil, restNoSource_nil]
  | cons t R ih =>
    have hR' : WellLabelled R := fun t ht => hR t (List.mem_cons_of_mem _ ht)
    have ht := hR t List.mem_cons_self
    rw [labelMap_cons, labelMap_append, eval_append, ih hR']
    fml_rk
    by_cases h : Label.timeDerivative ∈ t.labels
    · simp [h, ht h, labelMap, Term.eval, isTD, isSource, Term.has, LForm.keep, LForm.drop, LForm.replaceSubject,
          LForm.scaleTerm, Term.physIdx]; abel
    · by_cases h' : Label.source ∈ t.labels <;> simp [h, h', labelMap, Term.eval, isTD, isSource, Term.has, LForm.keep, LForm.drop, LForm.replaceSubject,
          LForm.scaleTerm, Term.physIdx] <;> abel

theorem sum_range_map {α : Type*} [AddCommMonoid α] (f : ℕ → α) (n : ℕ) :
    ((List.range n).map f).sum = ∑ i ∈ range n, f i := by
  induction n with
  | zero => rfl
  | succ n ih => simp [List.range_succ, Finset.sum_range_succ, ih]

theorem eval_predRes (R : LForm X D) (hR : WellLabelled R) (A : ℕ → ℕ → K) (dt : K) (stage : ℕ)
    (field source : ℕ → X) (y : X) :
    (predRes R A dt stage field source y).eval =
      mass R y - (mass R (field 0) - dt • ∑ i ∈ range (stage + 1),
        A stage i • (restNoSource R (field i) + sourcePart R (fun _ => source i))) := by
  have e0 : ∀ f : ℕ → D, ((List.range (stage + 1)).map f).sum = ∑ i ∈ range (stage + 1), f i :=
    fun f => sum_range_map f _
  have e1 : ∀ f : ℕ → D, ((List.range' 1 stage).map f).sum = ∑ i ∈ range stage, f (i + 1) := by
    intro f
    rw [List.range'_eq_map_range, List.map_map, sum_range_map]
    apply Finset.sum_congr rfl
    intro i _
    simp [add_comm]
  unfold predRes
  simp only [eval_foldl_add, eval_sub, eval_smul, eval_massAt, eval_pred0 R hR,
    eval_restNSAt, eval_sourceAt R hR, e0, e1]
  rw [Finset.smul_sum]
  simp only [smul_add, smul_smul, Finset.sum_add_distrib]
  rw [Finset.sum_range_succ' (fun i => (dt * A stage i) • restNoSource R (field i))]
  have c1 : ∀ i, A stage i * dt = dt * A stage i := fun i => mul_comm _ _
  simp only [c1]
  module

/-! ### The stage loops -/

/-- `M⁻¹` of minus the tendency: the right-hand side `f` of `x' = f(x)` seen by the increment
formulation, where sources are evaluated before the limiter. -/
def incF (S : RKScheme K X D) (M : X ≃ₗ[K] D) (src : ℕ → X) (x : X) : X :=
  M.symm (-(restNoSource S.R (limit S x) + sourcePart S.R (evalSources S x S.dt src)))

/-- The same for the predictor formulation (limiter before sources, last source wins). -/
def predF (S : RKScheme K X D) (M : X ≃ₗ[K] D) (x : X) : X :=
  M.symm (-(restNoSource S.R (limit S x)
    + sourcePart S.R (fun _ => evalSourcesInto S (limit S x) S.dt 0)))

theorem foldl_axpy (f : ℕ → X) (x : X) (n : ℕ) :
    (List.range n).foldl (fun x i => x + f i) x = x + ∑ i ∈ range n, f i := by
  induction n with
  | zero => simp
  | succ n ih => simp [List.range_succ, Finset.sum_range_succ, ih, add_assoc]

theorem evalSources_congr (S : RKScheme K X D) (x : X) (dt : K) (src src' : ℕ → X)
    (h : ∀ j, S.nphys ≤ j → src j = src' j) :
    evalSources S x dt src = evalSources S x dt src' := by
  funext j
  unfold evalSources
  split
  · rfl
  · exact h j (by omega)

/-- state after `n` stages -/
def run (step : RKState X → ℕ → RKState X) (st : RKState X) (n : ℕ) : RKState X :=
  (List.range n).foldl step st

theorem run_succ (step : RKState X → ℕ → RKState X) (st : RKState X) (n : ℕ) :
    run step st (n + 1) = step (run step st n) n := by
  simp [run, List.range_succ]

/-- Invariant of the increment loop. -/
theorem inc_inv (S : RKScheme K X D) (M : X ≃ₗ[K] D) (hM : ∀ x, mass S.R x = M x)
    (hs : ExactSolver S.solve) (x0 : X) (st : RKState X) (n : ℕ) :
    let r := run (incStage S x0) st n
    (∀ j, S.nphys ≤ j → r.src j = st.src j) ∧
    (∀ i < n, r.k i = incF S M st.src (x0 + S.dt • ∑ j ∈ range i, S.A (i - 1) j • r.k j)) ∧
    (0 < n → n = S.nStages →
      r.x1 = limit S (x0 + S.dt • ∑ j ∈ range n, S.A (n - 1) j • r.k j)) := by
  induction n with
  | zero => simp [run]
  | succ n ih =>
    simp only [run_succ]
    obtain ⟨ih1, ih2, -⟩ := ih
    set r := run (incStage S x0) st n with hr
    have hsolve : ∀ (src : ℕ → X) (x1 g : X),
        S.solve (fun y => (incRes K (withSources src S.R) y x1).eval) g
          = M.symm (-(restNoSource S.R x1 + sourcePart S.R src)) := by
      intro src x1 g
      apply exact_affine hs M
      intro y
      rw [eval_incRes, hM]; abel
    have hsum : ∀ (m n : ℕ) (k : ℕ → X), (List.range n).foldl
        (fun x i => x + (S.dt * S.A m i) • k i) x0
        = x0 + S.dt • ∑ j ∈ range n, S.A m j • k j := by
      intro m n k
      rw [foldl_axpy, Finset.smul_sum]
      simp only [smul_smul]
    have hkold : ∀ i, i < n → (incStage S x0 r n).k i = r.k i := by
      intro i hi
      simp [incStage, Function.update, Nat.ne_of_lt hi]
    have hsumold : ∀ (m i : ℕ), i ≤ n →
        ∑ j ∈ range i, S.A m j • (incStage S x0 r n).k j = ∑ j ∈ range i, S.A m j • r.k j := by
      intro m i hi
      apply Finset.sum_congr rfl
      intro j hj
      rw [hkold j (lt_of_lt_of_le (Finset.mem_range.1 hj) hi)]
    refine ⟨?_, ?_, ?_⟩
    · intro j hj
      simp only [incStage, evalSources, Nat.not_lt.2 hj, if_false]
      exact ih1 j hj
    · intro i hi
      rw [hsumold _ _ (by omega)]
      rcases Nat.lt_succ_iff_lt_or_eq.1 hi with h | h
      · rw [hkold i h, ih2 i h]
      · subst h
        simp only [incStage, Function.update_self, hsolve, hsum]
        unfold incF
        rw [evalSources_congr S _ _ r.src st.src ih1]
    · intro _ hn
      have : n = S.nStages - 1 := by omega
      have hc := this
      simp only [incStage]
      rw [if_pos hc, hsum, ← hn, Nat.add_sub_cancel]

/-- Invariant of the predictor loop. -/
theorem pred_inv (S : RKScheme K X D) (M : X ≃ₗ[K] D) (hM : ∀ x, mass S.R x = M x)
    (hR : WellLabelled S.R) (hs : ExactSolver S.solve)
    (hsrc : S.nphys = 0 → ∀ t ∈ S.R, Label.source ∉ t.labels)
    (x0 : X) (st : RKState X) (n : ℕ) :
    let r := run (predStage S x0) st n
    ∃ u : ℕ → X, u 0 = x0 ∧
      (0 < n → ∀ i < n, r.field i = limit S (u i)) ∧
      (0 < n → r.field n = u n) ∧
      (∀ i < n, ∀ j, sourcePart S.R (fun _ : ℕ => r.source i)
        = sourcePart S.R (fun _ : ℕ => evalSourcesInto S (limit S (u i)) S.dt j)) ∧
      (∀ i < n, u (i + 1) = limit S x0
        + S.dt • ∑ j ∈ range (i + 1), S.A i j • predF S M (u j)) ∧
      (0 < n → n = S.nStages → r.x1 = limit S (u n)) := by
  have hsp : ∀ (x : X) (a b : X),
      sourcePart S.R (fun _ : ℕ => evalSourcesInto S x S.dt a)
        = sourcePart S.R (fun _ : ℕ => evalSourcesInto S x S.dt b) := by
    intro x a b
    by_cases h : S.nphys = 0
    · rw [sourcePart_eq_zero _ (hsrc h), sourcePart_eq_zero _ (hsrc h)]
    · obtain ⟨m, hm⟩ : ∃ m, S.nphys = m + 1 := ⟨S.nphys - 1, by omega⟩
      simp [evalSourcesInto, hm, List.range_succ]
  induction n with
  | zero => exact ⟨fun _ => x0, rfl, by simp, by simp, by simp, by simp, by simp⟩
  | succ n ih =>
    simp only [run_succ]
    obtain ⟨u, hu0, hf, hfn, hso, hu, -⟩ := ih
    set r := run (predStage S x0) st n with hr
    -- the field seen at the start of the stage
    set f0 : ℕ → X := if n = 0 then Function.update r.field 0 x0 else r.field with hf0
    have hf0n : f0 n = u n := by
      by_cases h : n = 0
      · subst h; simp [hf0, hu0]
      · simp only [hf0, h, if_false]; exact hfn (by omega)
    have hf0i : ∀ i < n, f0 i = limit S (u i) := by
      intro i hi
      have h : n ≠ 0 := by omega
      simp only [hf0, h, if_false]; exact hf (by omega) i hi
    set f1 := Function.update f0 n (limit S (f0 n)) with hf1
    have hf1i : ∀ i ≤ n, f1 i = limit S (u i) := by
      intro i hi
      rcases Nat.lt_or_eq_of_le hi with h | h
      · rw [hf1, Function.update_of_ne (Nat.ne_of_lt h), hf0i i h]
      · subst h; rw [hf1, Function.update_self, hf0n]
    set so := Function.update r.source n (evalSourcesInto S (f1 n) S.dt (r.source n)) with hso1
    have hsoi : ∀ i ≤ n, ∀ j, sourcePart S.R (fun _ : ℕ => so i)
        = sourcePart S.R (fun _ : ℕ => evalSourcesInto S (limit S (u i)) S.dt j) := by
      intro i hi j
      rcases Nat.lt_or_eq_of_le hi with h | h
      · rw [hso1, Function.update_of_ne (Nat.ne_of_lt h), hso i h j]
      · subst h; rw [hso1, Function.update_self, hf1i i le_rfl]; exact hsp _ _ _
    have hy : ∀ g, S.solve (fun y => (predRes S.R S.A S.dt n f1 so y).eval) g
        = limit S x0 + S.dt • ∑ j ∈ range (n + 1), S.A n j • predF S M (u j) := by
      intro g
      rw [exact_affine hs M _ _ (fun y => by rw [eval_predRes _ hR, hM])]
      rw [map_sub, map_smul, map_sum, hM, LinearEquiv.symm_apply_apply, hf1i 0 (by omega), hu0,
        sub_eq_add_neg, ← smul_neg, ← Finset.sum_neg_distrib]
      congr 2
      apply Finset.sum_congr rfl
      intro j hj
      have hjn : j ≤ n := by have := Finset.mem_range.1 hj; omega
      rw [predF, hf1i j hjn, hsoi j hjn 0, map_smul, map_neg, smul_neg]
    have hstage : predStage S x0 r n = { r with
        x1 := if n = S.nStages - 1 then limit S (Function.update f1 (n + 1)
            (S.solve (fun y => (predRes S.R S.A S.dt n f1 so y).eval) (f0 n)) (n + 1))
          else r.x1
        src := evalSources S (f1 n) S.dt r.src
        field := Function.update f1 (n + 1)
          (S.solve (fun y => (predRes S.R S.A S.dt n f1 so y).eval) (f0 n))
        source := so } := by
      simp only [predStage, hf1, hf0, hso1]
    rw [hstage, hy]
    dsimp only
    refine ⟨Function.update u (n + 1) (limit S x0
      + S.dt • ∑ j ∈ range (n + 1), S.A n j • predF S M (u j)), ?_, ?_, ?_, ?_, ?_, ?_⟩
    · simp [hu0]
    · intro _ i hi
      rw [Function.update_of_ne (by omega), Function.update_of_ne (by omega), hf1i i (by omega)]
    · intro _
      rw [Function.update_self, Function.update_self]
    · intro i hi j
      rw [Function.update_of_ne (by omega)]
      exact hsoi i (by omega) j
    · intro i hi
      have hcongr : ∑ j ∈ range (i + 1), S.A i j • predF S M (Function.update u (n + 1)
          (limit S x0 + S.dt • ∑ j ∈ range (n + 1), S.A n j • predF S M (u j)) j)
          = ∑ j ∈ range (i + 1), S.A i j • predF S M (u j) := by
        apply Finset.sum_congr rfl
        intro j hj
        have := Finset.mem_range.1 hj
        rw [Function.update_of_ne (by omega)]
      rw [hcongr]
      rcases Nat.lt_succ_iff_lt_or_eq.1 hi with h | h
      · rw [Function.update_of_ne (by omega), hu i h]
      · subst h; rw [Function.update_self]
    · intro _ hn
      have : n = S.nStages - 1 := by omega
      simp only [this, if_true]
      rw [← this, Function.update_self, Function.update_self]

end RK
end Gusto
