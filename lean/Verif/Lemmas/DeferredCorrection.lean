import Verif.Model.DeferredCorrection
import Verif.Spec.Collocation
import Verif.Lemmas.ImplicitRK
import Mathlib.Tactic.LinearCombination

set_option autoImplicit false
set_option linter.unusedSectionVars false
set_option linter.unusedSimpArgs false

namespace Gusto
open LForm TimeDisc Spec Finset
open IMEX (isImpl isExpl isSrc)
variable {K X D : Type*} [Field K] [AddCommGroup X] [Module K X] [AddCommGroup D] [Module K D]

theorem part_isTD (R : LForm X D) (x : X) : part (fun t => isTD t = true) R x = mass R x :=
  part_congr R _ _ (fun t _ => by simp [isTD, Term.has]) x
theorem part_isImpl (R : LForm X D) (x : X) : part (fun t => isImpl t = true) R x = implPart R x :=
  part_congr R _ _ (fun t _ => by simp [isImpl, Term.has]) x
theorem part_isExpl (R : LForm X D) (x : X) : part (fun t => isExpl t = true) R x = explPart R x :=
  part_congr R _ _ (fun t _ => by simp [isExpl, Term.has]) x
theorem part_isSrc (R : LForm X D) (x : X) : part (fun t => isSrc t = true) R x = srcPart R x :=
  part_congr R _ _ (fun t _ => by simp [isSrc, Term.has]) x

theorem eval_selNot (R : LForm X D) (p : Term X D → Bool) (x : X) :
    (R.labelMap p drop (replaceSubject x)).eval = part (fun t => p t = false) R x := by
  induction R with
  | nil => rfl
  | cons t R ih =>
    rw [labelMap_cons, eval_append, ih, part_cons]
    by_cases h : p t <;> simp [h, replaceSubject, drop, Term.eval]

namespace SDC

theorem eval_resRhs (R : LForm X D) (u s y : X) :
    (resRhs R u s y).eval = mass R y - (restNoSource R u + srcPart R s) := by
  have h : part (fun t => (isTD t || isSrc t) = false) R u = restNoSource R u :=
    part_congr R _ _ (fun t _ => by simp [isTD, isSrc, Term.has]) u
  simp only [resRhs, eval_sub, eval_add, eval_sel, eval_selNot, part_isTD, part_isSrc, h]

theorem eval_negTD (R : LForm X D) (x : X) :
    ((R.labelMap isTD (replaceSubject x) drop).labelMap isTD (scaleTerm (-1 : ℤ)) keep).eval
      = - mass R x := by
  induction R with
  | nil => simp [labelMap, mass_nil]
  | cons t R ih =>
    rw [labelMap_cons, labelMap_append, eval_append, ih, mass_cons]
    by_cases h : Label.timeDerivative ∈ t.labels
    · simp [isTD, Term.has, h, replaceSubject, labelMap, scaleTerm, Term.eval]; abel
    · simp [isTD, Term.has, h, drop, labelMap]

theorem eval_resFin (R : LForm X D) (un q y : X) :
    (resFin R un q y).eval = mass R y - mass R un + mass R q := by
  simp only [resFin, eval_add, eval_sel, part_isTD, eval_negTD]; abel

theorem eval_diffPart (R : LForm X D) (p : Term X D → Bool) (c : K) (new old : X)
    (r : LForm X D) :
    (diffPart R p c new old r).eval
      = r.eval + c • (part (fun t => p t = true) R new - part (fun t => p t = true) R old) := by
  simp only [diffPart, eval_sub, eval_add, eval_selScaledAll]; module

theorem foldl_diff (r : LForm X D) (n : ℕ) (g : ℕ → LForm X D → LForm X D) (d : ℕ → D)
    (h : ∀ i r, (g i r).eval = r.eval + d i) :
    ((List.range n).foldl (fun r i => g i r) r).eval = r.eval + ∑ i ∈ range n, d i := by
  induction n with
  | zero => simp
  | succ n ih =>
    rw [List.range_succ, List.foldl_append, sum_range_succ]
    simp only [List.foldl_cons, List.foldl_nil, h, ih]; abel

theorem eval_res (S : Scheme K X D) (qi : ℕ → ℕ → K) (st : State K X) (m : ℕ) (y : X) :
    (res S qi st m y).eval = mass S.R y - mass S.R st.uStart
      + (∑ i ∈ range m, qi m i • (implPart S.R (st.U1 (i + 1)) - implPart S.R (st.U (i + 1))))
      + (∑ i ∈ range S.M, S.Qe m i •
          ((explPart S.R (st.U1 (i + 1)) - explPart S.R (st.U (i + 1)))
            + (srcPart S.R (st.sU1 (i + 1)) - srcPart S.R (st.sU (i + 1)))))
      + qi m m • (implPart S.R y - implPart S.R (st.U (m + 1)))
      + mass S.R st.q_ := by
  have h1 := foldl_diff (X := X) (D := D)
    (sub ((S.R.labelMap isTD keep drop).labelMap allTerms (replaceSubject y) keep)
      ((S.R.labelMap isTD keep drop).labelMap allTerms (replaceSubject st.uStart) keep)) m
    (fun i => diffPart S.R isImpl (qi m i) (st.U1 (i + 1)) (st.U (i + 1))) _
    (fun i r => eval_diffPart S.R isImpl (qi m i) _ _ r)
  have h2 := fun r => foldl_diff (X := X) (D := D) r S.M
    (fun i r => diffPart S.R isSrc (S.Qe m i) (st.sU1 (i + 1)) (st.sU (i + 1))
      (diffPart S.R isExpl (S.Qe m i) (st.U1 (i + 1)) (st.U (i + 1)) r))
    (fun i => S.Qe m i •
          ((explPart S.R (st.U1 (i + 1)) - explPart S.R (st.U (i + 1)))
            + (srcPart S.R (st.sU1 (i + 1)) - srcPart S.R (st.sU (i + 1)))))
    (fun i r => by
      rw [eval_diffPart, eval_diffPart, part_isExpl, part_isExpl, part_isSrc, part_isSrc]; module)
  simp only [res, eval_add, eval_diffPart, eval_sel, part_isTD, h2, h1, eval_sub, eval_massKeep,
    part_isImpl]

/-! ### The loops of a sweep -/

theorem quad_foldl (c : ℕ → K) (f : ℕ → X) (n : ℕ) (q : X) :
    (List.range n).foldl (fun q k => q + c k • f k) q = q + ∑ k ∈ range n, c k • f k := by
  induction n with
  | zero => simp
  | succ n ih =>
    rw [List.range_succ, List.foldl_append, sum_range_succ]
    simp only [List.foldl_cons, List.foldl_nil, ih]; abel

/-- after the first loop: only `uIn`, `sIn`, `uRhs`, `f` have changed -/
theorem rhsLoop_frame (S : Scheme K X D) (st : State K X) (n : ℕ) :
    let s' := (List.range n).foldl (rhsBody S) st
    s'.U = st.U ∧ s'.U1 = st.U1 ∧ s'.sU = st.sU ∧ s'.sU1 = st.sU1 ∧ s'.uStart = st.uStart ∧
      s'.un = st.un ∧ s'.baseDt = st.baseDt ∧ s'.solvers = st.solvers
      ∧ s'.qdeltaImp = st.qdeltaImp ∧ ∀ i, n ≤ i → s'.f i = st.f i := by
  induction n with
  | zero => simp
  | succ n ih =>
    rw [List.range_succ, List.foldl_append]
    obtain ⟨h1, h2, h3, h4, h5, h6, h7, h8, h9, h10⟩ := ih
    refine ⟨h1, h2, h3, h4, h5, h6, h7, h8, h9, fun i hi => ?_⟩
    show Function.update _ n _ i = _
    rw [Function.update_of_ne (by omega)]
    exact h10 i (by omega)

/-- `F` on the nodes -/
theorem rhsLoop_f (S : Scheme K X D) (hS : ExactSolver S.solve) (G : X → D)
    (hM : ∀ d : D, ∃! y, mass S.R y = d) (st : State K X)
    (hG : ∀ x out, srcPart S.R (evalSrc S st.baseDt x out) = G x) (n i : ℕ) (hi : i < n) :
    mass S.R (((List.range n).foldl (rhsBody S) st).f i)
      = restNoSource S.R (st.U (i + 1)) + G (st.U (i + 1)) := by
  induction n with
  | zero => omega
  | succ n ih =>
    rw [List.range_succ, List.foldl_append, List.foldl_cons, List.foldl_nil]
    obtain ⟨h1, -, -, -, -, -, h7, -, -, -⟩ := rhsLoop_frame S st n
    generalize (List.range n).foldl (rhsBody S) st = s' at *
    show mass S.R (Function.update s'.f n _ i) = _
    by_cases hin : i = n
    · subst hin
      rw [Function.update_self]
      simp only [solveRhs]
      set u := s'.U (i + 1)
      have hu : u = st.U (i + 1) := by simp only [u, h1]
      set sr := evalSrc S s'.baseDt u s'.sIn
      have hsr : srcPart S.R sr = G (st.U (i + 1)) := by
        simp only [sr, h7, hG, hu]
      have := hS (fun y => (resRhs S.R u sr y).eval) s'.uRhs (by
        obtain ⟨y, hy, hu'⟩ := hM (restNoSource S.R u + srcPart S.R sr)
        refine ⟨y, ?_, fun z hz => hu' z ?_⟩
        · show (resRhs S.R u sr y).eval = 0
          rw [eval_resRhs, hy]; simp
        · have hz : (resRhs S.R u sr z).eval = 0 := hz
          rw [eval_resRhs] at hz
          exact sub_eq_zero.1 hz)
      rw [eval_resRhs] at this
      have := sub_eq_zero.1 this
      rw [this, hsr, hu]
    · rw [Function.update_of_ne hin]
      exact ih (by omega)

/-- node loop: what stays -/
theorem nodeLoop_frame (S : Scheme K X D) (qi : ℕ → ℕ → K) (st : State K X) (n : ℕ) :
    let s' := (List.range n).foldl (nodeBody S qi) st
    s'.U = st.U ∧ s'.sU = st.sU ∧ s'.quad = st.quad ∧ s'.un = st.un ∧ s'.baseDt = st.baseDt ∧
      s'.solvers = st.solvers ∧ s'.qdeltaImp = st.qdeltaImp ∧ (S.z2n = true → s'.uStart = st.uStart)
      ∧ s'.U1 0 = st.U1 0 ∧
      (∀ i, n ≤ i → s'.U1 (i + 1) = st.U1 (i + 1) ∧ s'.sU1 (i + 1) = st.sU1 (i + 1)) := by
  induction n with
  | zero => simp
  | succ n ih =>
    rw [List.range_succ, List.foldl_append, List.foldl_cons, List.foldl_nil]
    obtain ⟨h1, h2, h3, h4, h5, h6, h7, h8, h9, h10⟩ := ih
    generalize (List.range n).foldl (nodeBody S qi) st = s' at *
    by_cases hz : S.z2n = true
    · simp only [nodeBody, hz, if_true]
      refine ⟨h1, h2, h3, h4, h5, h6, h7, fun _ => h8 hz, ?_, fun i hi => ?_⟩
      · rw [Function.update_of_ne (by omega), Function.update_of_ne (by omega), h9]
      · rw [Function.update_of_ne (by omega), Function.update_of_ne (by omega),
          Function.update_of_ne (by omega)]
        exact h10 i (by omega)
    · simp only [nodeBody, hz, Bool.false_eq_true, if_false]
      refine ⟨h1, h2, h3, h4, h5, h6, h7, fun h => h.elim, ?_, fun i hi => ?_⟩
      · rw [Function.update_of_ne (by omega), Function.update_of_ne (by omega), h9]
      · rw [Function.update_of_ne (by omega), Function.update_of_ne (by omega),
          Function.update_of_ne (by omega)]
        exact h10 i (by omega)

/-- node loop: values written stay -/
theorem nodeLoop_stable (S : Scheme K X D) (qi : ℕ → ℕ → K) (st : State K X) (n n' i : ℕ)
    (hn : n ≤ n') (hi : i ≤ n) :
    ((List.range n').foldl (nodeBody S qi) st).U1 i = ((List.range n).foldl (nodeBody S qi) st).U1 i
    ∧ (1 ≤ i → ((List.range n').foldl (nodeBody S qi) st).sU1 i
        = ((List.range n).foldl (nodeBody S qi) st).sU1 i) := by
  induction n', hn using Nat.le_induction with
  | base => simp
  | succ n' hn ih =>
    rw [List.range_succ, List.foldl_append, List.foldl_cons, List.foldl_nil]
    generalize (List.range n').foldl (nodeBody S qi) st = s' at *
    have : (nodeBody S qi s' n').U1 i = s'.U1 i ∧ (nodeBody S qi s' n').sU1 i = s'.sU1 i := by
      by_cases hz : S.z2n = true
      · simp only [nodeBody, hz, if_true]
        rw [Function.update_of_ne (by omega), Function.update_of_ne (by omega),
          Function.update_of_ne (by omega)]
        exact ⟨rfl, rfl⟩
      · simp only [nodeBody, hz, Bool.false_eq_true, if_false]
        rw [Function.update_of_ne (by omega), Function.update_of_ne (by omega),
          Function.update_of_ne (by omega)]
        exact ⟨rfl, rfl⟩
    exact ⟨this.1.trans ih.1, fun h => this.2.trans (ih.2 h)⟩

/-- the mid-state in which node `m+1` is solved for -/
def nodePre (S : Scheme K X D) (s : State K X) (m : ℕ) : State K X :=
  { s with q_ := s.quad m, uStart := if S.z2n then s.uStart else s.U1 m, uDC := s.U (m + 1) }

theorem nodeBody_eq (S : Scheme K X D) (qi : ℕ → ℕ → K) (s : State K X) (m : ℕ) :
    (nodeBody S qi s m).U1 (m + 1)
        = limit S (S.solve (fun y => (res S qi (nodePre S s m) m y).eval) (s.U (m + 1))) ∧
    (nodeBody S qi s m).sU1 (m + 1) = evalSrc S s.baseDt
        (S.solve (fun y => (res S qi (nodePre S s m) m y).eval) (s.U (m + 1))) (s.sU1 (m + 1)) := by
  by_cases hz : S.z2n = true
  · simp [nodeBody, nodePre, hz, Function.update_self]
  · simp [nodeBody, nodePre, hz, Function.update_self]

/-- the copy loop at the end of a sweep -/
theorem copyLoop (st : State K X) (n : ℕ) :
    let s' := (List.range n).foldl (fun st i =>
      { st with U := Function.update st.U (i + 1) (st.U1 (i + 1)),
                sU := Function.update st.sU (i + 1) (st.sU1 (i + 1)) }) st
    s'.U1 = st.U1 ∧ s'.sU1 = st.sU1 ∧ s'.un = st.un ∧ s'.baseDt = st.baseDt ∧
      s'.uStart = st.uStart ∧ s'.solvers = st.solvers ∧ s'.qdeltaImp = st.qdeltaImp ∧
      s'.U 0 = st.U 0 ∧
      (∀ i < n, s'.U (i + 1) = st.U1 (i + 1) ∧ s'.sU (i + 1) = st.sU1 (i + 1)) ∧
      ∀ i, n ≤ i → s'.U (i + 1) = st.U (i + 1) ∧ s'.sU (i + 1) = st.sU (i + 1) := by
  induction n with
  | zero => simp
  | succ n ih =>
    rw [List.range_succ, List.foldl_append, List.foldl_cons, List.foldl_nil]
    obtain ⟨h1, h2, h3, h4, h5, h6, h7, h8, h9, h10⟩ := ih
    generalize (List.range n).foldl (fun (st : State K X) i =>
      { st with U := Function.update st.U (i + 1) (st.U1 (i + 1)),
                sU := Function.update st.sU (i + 1) (st.sU1 (i + 1)) }) st = s' at *
    refine ⟨h1, h2, h3, h4, h5, h6, h7, ?_, fun i hi => ?_, fun i hi => ?_⟩
    · dsimp only; rw [Function.update_of_ne (by omega), h8]
    · by_cases hin : i = n
      · subst hin; simp [h1, h2]
      · dsimp only; rw [Function.update_of_ne (by omega), Function.update_of_ne (by omega)]
        exact h9 i (by omega)
    · dsimp only; rw [Function.update_of_ne (by omega), Function.update_of_ne (by omega)]
      exact h10 i (by omega)

end SDC

namespace RIDC
open SDC (eval_diffPart)

theorem eval_res (S : Scheme K X D) (st : State K X) (y : X) :
    (res S st y).eval = mass S.R y - mass S.R st.uStart
      + S.dt • (srcPart S.R st.sU1m - srcPart S.R st.sUm)
      + S.dt • (implPart S.R y - implPart S.R st.ukmp1)
      + S.dt • (explPart S.R st.ukp1m - explPart S.R st.ukm)
      + mass S.R st.q_ := by
  simp only [res, eval_add, eval_diffPart, eval_sel, part_isTD, eval_sub, eval_massKeep,
    part_isImpl, part_isExpl, part_isSrc]

/-- the quadrature used at node `m+1`, for both node loops -/
def quadAt (S : Scheme K X D) (k : ℕ) (f : ℕ → X) (m : ℕ) : X :=
  if m < stencil S k then computeQuad S k f (m + 1) else computeQuadFinal S k f (m + 1)

/-- both node loops in one -/
def body (S : Scheme K X D) (k : ℕ) (st : State K X) (m : ℕ) : State K X :=
  nodeSolve S { st with q_ := quadAt S k st.f m } m

theorem foldl_congr_mem {α β : Type*} (f g : α → β → α) (l : List β)
    (h : ∀ b ∈ l, ∀ a, f a b = g a b) : ∀ a, l.foldl f a = l.foldl g a := by
  induction l with
  | nil => intro a; rfl
  | cons b l ih =>
    intro a
    rw [List.foldl_cons, List.foldl_cons, h b List.mem_cons_self]
    exact ih (fun b hb => h b (List.mem_cons_of_mem _ hb)) _

theorem drop_range (n k : ℕ) (hk : k ≤ n) :
    List.range n = List.range k ++ (List.range n).drop k := by
  conv_lhs => rw [← List.take_append_drop k (List.range n)]
  rw [List.take_range, Nat.min_eq_left hk]

theorem loops_eq (S : Scheme K X D) (k : ℕ) (hk : stencil S k ≤ S.M) (st : State K X) :
    ((List.range S.M).drop (stencil S k)).foldl (tailBody S k)
        ((List.range (stencil S k)).foldl (headBody S k) st)
      = (List.range S.M).foldl (body S k) st := by
  conv_rhs => rw [drop_range _ _ hk, List.foldl_append]
  rw [foldl_congr_mem (headBody S k) (body S k) (List.range (stencil S k))]
  · refine foldl_congr_mem _ _ _ (fun m hm a => ?_) _
    have : stencil S k ≤ m := by
      rw [List.mem_iff_getElem] at hm
      obtain ⟨i, hi, rfl⟩ := hm
      simp [List.getElem_drop]
    simp only [tailBody, body, quadAt, if_neg (Nat.not_lt.2 this)]
  · intro m hm a
    simp only [headBody, body, quadAt, if_pos (List.mem_range.1 hm)]

theorem rhsLoop_frame (S : Scheme K X D) (st : State K X) (n : ℕ) :
    let s' := (List.range n).foldl (rhsBody S) st
    s'.U = st.U ∧ s'.U1 = st.U1 ∧ s'.sU = st.sU ∧ s'.sU1 = st.sU1 ∧ s'.baseDt = st.baseDt := by
  induction n with
  | zero => simp
  | succ n ih =>
    rw [List.range_succ, List.foldl_append]
    exact ih

theorem rhsLoop_f (S : Scheme K X D) (hS : ExactSolver S.solve) (G : X → D)
    (hM : ∀ d : D, ∃! y, mass S.R y = d) (st : State K X)
    (hG : ∀ x out, srcPart S.R (evalSrc S st.baseDt x out) = G x) (n i : ℕ) (hi : i < n) :
    mass S.R (((List.range n).foldl (rhsBody S) st).f i)
      = restNoSource S.R (st.U i) + G (st.U i) := by
  induction n with
  | zero => omega
  | succ n ih =>
    rw [List.range_succ, List.foldl_append, List.foldl_cons, List.foldl_nil]
    obtain ⟨h1, -, -, -, h7⟩ := rhsLoop_frame S st n
    generalize (List.range n).foldl (rhsBody S) st = s' at *
    show mass S.R (Function.update s'.f n _ i) = _
    by_cases hin : i = n
    · subst hin
      rw [Function.update_self]
      simp only [solveRhs]
      set u := s'.U i
      have hu : u = st.U i := by simp only [u, h1]
      set sr := evalSrc S s'.baseDt u s'.sIn
      have hsr : srcPart S.R sr = G (st.U i) := by
        simp only [sr, h7, hG, hu]
      have := hS (fun y => (SDC.resRhs S.R u sr y).eval) s'.uRhs (by
        obtain ⟨y, hy, hu'⟩ := hM (restNoSource S.R u + srcPart S.R sr)
        refine ⟨y, ?_, fun z hz => hu' z ?_⟩
        · show (SDC.resRhs S.R u sr y).eval = 0
          rw [SDC.eval_resRhs, hy]; simp
        · have hz : (SDC.resRhs S.R u sr z).eval = 0 := hz
          rw [SDC.eval_resRhs] at hz
          exact sub_eq_zero.1 hz)
      rw [SDC.eval_resRhs] at this
      have := sub_eq_zero.1 this
      rw [this, hsr, hu]
    · rw [Function.update_of_ne hin]
      exact ih (by omega)

theorem nodeLoop_frame (S : Scheme K X D) (k : ℕ) (st : State K X) (n : ℕ) :
    let s' := (List.range n).foldl (body S k) st
    s'.U = st.U ∧ s'.sU = st.sU ∧ s'.f = st.f ∧ s'.baseDt = st.baseDt ∧ s'.U1 0 = st.U1 0 ∧
      s'.sU1 0 = st.sU1 0 ∧ (∀ i, n ≤ i → s'.sU1 (i + 1) = st.sU1 (i + 1)) := by
  induction n with
  | zero => simp
  | succ n ih =>
    rw [List.range_succ, List.foldl_append, List.foldl_cons, List.foldl_nil]
    obtain ⟨h1, h2, h3, h4, h5, h6, h7⟩ := ih
    generalize (List.range n).foldl (body S k) st = s' at *
    simp only [body, nodeSolve]
    refine ⟨h1, h2, h3, h4, ?_, ?_, fun i hi => ?_⟩
    · rw [Function.update_of_ne (by omega), Function.update_of_ne (by omega), h5]
    · rw [Function.update_of_ne (by omega), h6]
    · rw [Function.update_of_ne (by omega), h7 i (by omega)]

theorem nodeLoop_stable (S : Scheme K X D) (k : ℕ) (st : State K X) (n n' i : ℕ)
    (hn : n ≤ n') (hi : i ≤ n) :
    ((List.range n').foldl (body S k) st).U1 i = ((List.range n).foldl (body S k) st).U1 i
    ∧ ((List.range n').foldl (body S k) st).sU1 i = ((List.range n).foldl (body S k) st).sU1 i := by
  induction n', hn using Nat.le_induction with
  | base => simp
  | succ n' hn ih =>
    rw [List.range_succ, List.foldl_append, List.foldl_cons, List.foldl_nil]
    generalize (List.range n').foldl (body S k) st = s' at *
    have : (body S k s' n').U1 i = s'.U1 i ∧ (body S k s' n').sU1 i = s'.sU1 i := by
      simp only [body, nodeSolve]
      rw [Function.update_of_ne (by omega), Function.update_of_ne (by omega),
        Function.update_of_ne (by omega)]
      exact ⟨rfl, rfl⟩
    exact ⟨this.1.trans ih.1, this.2.trans ih.2⟩

/-- the state in which node `m+1` is solved for -/
def nodePre (S : Scheme K X D) (k : ℕ) (s : State K X) (m : ℕ) : State K X :=
  { s with
    q_ := quadAt S k s.f m
    uStart := s.U1 m
    ukp1m := s.U1 m
    ukmp1 := s.U (m + 1)
    ukm := s.U m
    sU1m := s.sU1 m
    sUm := s.sU m
    uDC := s.U (m + 1) }

theorem body_eq (S : Scheme K X D) (k : ℕ) (s : State K X) (m : ℕ) :
    (body S k s m).U1 (m + 1)
        = limit S (S.solve (fun y => (res S (nodePre S k s m) y).eval) (s.U (m + 1))) ∧
    (body S k s m).sU1 (m + 1) = evalSrc S s.baseDt
        (S.solve (fun y => (res S (nodePre S k s m) y).eval) (s.U (m + 1))) (s.sU1 (m + 1)) := by
  simp [body, nodeSolve, nodePre, Function.update_self]

theorem copyLoop (st : State K X) (n : ℕ) :
    let s' := (List.range n).foldl (fun st i =>
      { st with U := Function.update st.U i (st.U1 i),
                sU := Function.update st.sU i (st.sU1 i) }) st
    s'.U1 = st.U1 ∧ s'.sU1 = st.sU1 ∧ s'.baseDt = st.baseDt ∧
      (∀ i < n, s'.U i = st.U1 i ∧ s'.sU i = st.sU1 i) := by
  induction n with
  | zero => simp
  | succ n ih =>
    rw [List.range_succ, List.foldl_append, List.foldl_cons, List.foldl_nil]
    obtain ⟨h1, h2, h3, h4⟩ := ih
    generalize (List.range n).foldl (fun (st : State K X) i =>
      { st with U := Function.update st.U i (st.U1 i),
                sU := Function.update st.sU i (st.sU1 i) }) st = s' at *
    refine ⟨h1, h2, h3, fun i hi => ?_⟩
    by_cases hin : i = n
    · subst hin; simp [h1, h2]
    · dsimp only
      rw [Function.update_of_ne hin, Function.update_of_ne hin]
      exact h4 i (by omega)

end RIDC
end Gusto
