import Verif.Lemmas.ImplicitRK
import Verif.Props.ExplicitRK
import Verif.Spec.IMEXOrder
import Mathlib.Analysis.Real.Sqrt
import Mathlib.Algebra.Order.Ring.Rat
import Mathlib.Tactic.LinearCombination
import Mathlib.Tactic.NormNum
import Mathlib.Tactic.FieldSimp
import Mathlib.Tactic.IntervalCases

set_option autoImplicit false

/-!
# C12: IMEX Runge-Kutta schemes
-/

set_option linter.unusedSectionVars false
set_option linter.unusedSimpArgs false

namespace Gusto.Props
open Gusto LForm TimeDisc Spec Finset
variable {K X D : Type*} [Field K] [AddCommGroup X] [Module K X] [AddCommGroup D] [Module K D]

namespace IMEXProps
open IMEX

/-- C12 stage residual: for stage `i`, given the earlier stage values `Y` and their physics
sources, the residual handed to the solver vanishes exactly when the documented equation holds.
Implicit terms get the implicit table, explicit terms and sources the explicit table. -/
theorem C12_stage_residual (S : Scheme K X D) (hR : TDClean S.R) (Y src : ℕ → X) (x : X) (i : ℕ)
    (y : X) :
    (res S Y src x i y).eval = 0 ↔
      mass S.R y = mass S.R x
        - S.dt • (∑ j ∈ range i, S.imp i j • implPart S.R (Y j) + S.imp i i • implPart S.R y)
        - S.dt • ∑ j ∈ range i, S.exp i j • (explPart S.R (Y j) + srcPart S.R (src j)) := by
  rw [eval_res S hR]
  constructor
  · intro h; linear_combination (norm := module) h
  · intro h; linear_combination (norm := module) h

/-- C12 final residual. -/
theorem C12_final_residual (S : Scheme K X D) (hR : TDClean S.R) (Y src : ℕ → X) (x y : X) :
    (finalRes S Y src x y).eval = 0 ↔
      mass S.R y = mass S.R x
        - S.dt • ∑ j ∈ range S.nStages, S.imp S.nStages j • implPart S.R (Y j)
        - S.dt • ∑ j ∈ range S.nStages, S.exp S.nStages j
            • (explPart S.R (Y j) + srcPart S.R (src j)) := by
  rw [eval_finalRes S hR]
  constructor
  · intro h; linear_combination (norm := module) h
  · intro h; linear_combination (norm := module) h

theorem evalInto_xs (S : Scheme K X D) (i : ℕ) (st : State X) : (evalInto S i st).xs = st.xs := by
  unfold evalInto
  induction S.evaluate generalizing st with
  | nil => rfl
  | cons e es ih => rw [List.foldl_cons, ih]

theorem evalInto_xOut (S : Scheme K X D) (i : ℕ) (st : State X) :
    (evalInto S i st).xOut = st.xOut := by
  unfold evalInto
  induction S.evaluate generalizing st with
  | nil => rfl
  | cons e es ih => rw [List.foldl_cons, ih]

theorem evalInto_ne (S : Scheme K X D) (i j : ℕ) (hj : j ≠ i) (st : State X) :
    (evalInto S i st).source j = st.source j := by
  unfold evalInto
  induction S.evaluate generalizing st with
  | nil => rfl
  | cons e es ih => rw [List.foldl_cons, ih]; simp [Function.update_of_ne hj]

/-- every parametrisation writes the same Function: the last one wins -/
theorem evalInto_self (S : Scheme K X D) (i : ℕ) (st : State X) :
    (evalInto S i st).source i = match S.evaluate.getLast? with
      | some e => e (st.xs i)
      | none => st.source i := by
  unfold evalInto
  induction S.evaluate generalizing st with
  | nil => rfl
  | cons e es ih =>
    rw [List.foldl_cons, ih]
    rcases es with _ | ⟨e', es⟩
    · simp
    · obtain ⟨z, hz⟩ : ∃ z, (e' :: es).getLast? = some z :=
        ⟨_, List.getLast?_eq_some_getLast (by simp)⟩
      simp only [List.getLast?_cons_cons, hz]

theorem foldl_start [DecidableEq K] (f : ℕ → K) (n : ℕ) (s0 : ℕ) :
    (List.range n).foldl (fun s j => if f j ≠ 0 then 0 else s) s0
      = if ∀ j < n, f j = 0 then s0 else 0 := by
  induction n with
  | zero => simp
  | succ n ih =>
    rw [List.range_succ, List.foldl_append, ih]
    simp only [List.foldl_cons, List.foldl_nil]
    by_cases h : f n = 0
    · by_cases h' : ∀ j < n, f j = 0
      · rw [if_neg (by simpa using h), if_pos h', if_pos fun j hj => by
          rcases Nat.lt_succ_iff_lt_or_eq.1 hj with h1 | rfl
          · exact h' j h1
          · exact h]
      · rw [if_neg (by simpa using h), if_neg h', if_neg fun hc => h' fun j hj => hc j (by omega)]
    · rw [if_pos (by simpa using h), if_neg fun hc => h (hc n (by omega))]

/-- The first stage that is solved for: stage 1 if the whole first row of the implicit table
vanishes (then the first stage value is the old state), else stage 0. -/
theorem startStage_eq [DecidableEq K] (S : Scheme K X D) :
    startStage S = if ∀ j < S.nStages, S.imp 0 j = 0 then 1 else 0 :=
  foldl_start _ _ _

/-- stage invariant -/
def Inv (S : Scheme K X D) (G : X → D) (x : X) (m : ℕ) (st : State X) : Prop :=
  (∀ i < m, mass S.R (st.xs i) = mass S.R x
      - S.dt • (∑ j ∈ range (i + 1), S.imp i j • implPart S.R (st.xs j))
      - S.dt • ∑ j ∈ range i, S.exp i j • G (st.xs j)) ∧
  (∀ i, i + 1 < m → explPart S.R (st.xs i) + srcPart S.R (st.source i) = G (st.xs i))

/-- after evaluating stage `i`, its source is right -/
def SourceOK (S : Scheme K X D) (G : X → D) : Prop :=
  ∀ (st : State X) (i : ℕ),
    explPart S.R (st.xs i) + srcPart S.R ((evalInto S i st).source i) = G (st.xs i)

theorem inv_step (S : Scheme K X D) (hR : TDClean S.R) (hl : S.limiter = none) (G : X → D)
    (hG : SourceOK S G)
    (hs : ExactSolver S.solve) (x : X) (m : ℕ)
    (hu : ∀ c : D, ∃! y, mass S.R y + (S.dt * S.imp m m) • implPart S.R y = c)
    (st : State X) (h : Inv S G x m st) : Inv S G x (m + 1) (stageBody S x st m) := by
  obtain ⟨h1, h2⟩ := h
  set prev := if m = 0 then S.nStages - 1 else m - 1 with hprev
  set q := evalInto S prev st with hq
  have hqx : q.xs = st.xs := evalInto_xs _ _ _
  have hsrc : ∀ i < m, explPart S.R (st.xs i) + srcPart S.R (q.source i) = G (st.xs i) := by
    intro i hi
    have hp : prev = m - 1 := by rw [hprev, if_neg (by omega)]
    by_cases hi' : i = m - 1
    · rw [hq, hp, hi']; exact hG st (m - 1)
    · rw [hq, evalInto_ne S prev i (by omega)]; exact h2 i (by omega)
  set y := S.solve (fun y => (res S q.xs q.source x m y).eval) q.xOut with hy
  have hroot : (res S q.xs q.source x m y).eval = 0 := by
    refine hs (fun y => (res S q.xs q.source x m y).eval) q.xOut ?_
    obtain ⟨y0, hy0, hyu⟩ := hu (mass S.R x
      - S.dt • (∑ i ∈ range m, S.imp m i • implPart S.R (q.xs i))
      - S.dt • (∑ i ∈ range m, S.exp m i • (explPart S.R (q.xs i) + srcPart S.R (q.source i))))
    refine ⟨y0, ?_, fun y hy => hyu y ?_⟩
    · simp only [eval_res S hR]; linear_combination (norm := module) hy0
    · simp only [eval_res S hR] at hy; linear_combination (norm := module) hy
  have hst : stageBody S x st m = { q with xOut := y, xs := Function.update q.xs m y } := by
    simp only [stageBody, limit, hl]; rfl
  rw [hst]
  have hne : ∀ i, i ≠ m → (Function.update q.xs m y) i = st.xs i := fun i hi => by
    rw [Function.update_of_ne hi, hqx]
  constructor
  · intro i hi
    rcases Nat.lt_succ_iff_lt_or_eq.1 hi with h | rfl
    · simp only
      rw [hne i (by omega), h1 i h]
      congr 1
      · congr 2
        refine sum_congr rfl fun j hj => ?_
        rw [hne j (by have := mem_range.1 hj; omega)]
      · congr 1
        refine sum_congr rfl fun j hj => ?_
        rw [hne j (by have := mem_range.1 hj; omega)]
    · simp only [Function.update_self]
      rw [(C12_stage_residual S hR _ _ _ _ _).1 hroot, sum_range_succ, Function.update_self]
      congr 1
      · congr 3
        refine sum_congr rfl fun j hj => ?_
        rw [hne j (by have := mem_range.1 hj; omega), hqx]
      · congr 1
        refine sum_congr rfl fun j hj => ?_
        have hj := mem_range.1 hj
        rw [hne j (by omega), hqx, hsrc j hj]
  · intro i hi
    simp only
    rw [hne i (by omega)]
    exact hsrc i (by omega)

theorem inv_fold (S : Scheme K X D) (hR : TDClean S.R) (hl : S.limiter = none) (G : X → D)
    (hG : SourceOK S G) (hs : ExactSolver S.solve) (x : X) (start : ℕ)
    (hu : ∀ i < S.nStages, start ≤ i → ∀ c : D,
      ∃! y, mass S.R y + (S.dt * S.imp i i) • implPart S.R y = c)
    (st : State X) (h : Inv S G x start st) (hn : start ≤ S.nStages) :
    Inv S G x S.nStages (((List.range S.nStages).drop start).foldl (stageBody S x) st) := by
  have hgen : ∀ m, start ≤ m → m ≤ S.nStages →
      Inv S G x m (((List.range m).drop start).foldl (stageBody S x) st) := by
    intro m hm
    induction m, hm using Nat.le_induction with
    | base =>
      intro _
      have : (List.range start).drop start = [] := by simp
      rw [this]; exact h
    | succ m hm ih =>
      intro hmn
      rw [List.range_succ, List.drop_append_of_le_length (by simpa using hm), List.foldl_append]
      exact inv_step S hR hl G hG hs x m (hu m (by omega) hm) _ (ih (by omega))
  exact hgen _ hn le_rfl

theorem apply_imex [DecidableEq K] (S : Scheme K X D) (hR : TDClean S.R) (hl : S.limiter = none)
    (G : X → D) (hG : SourceOK S G) (hs : ExactSolver S.solve) (st : State X) (x : X)
    (hn : 0 < S.nStages)
    (hu : ∀ i < S.nStages, startStage S ≤ i → ∀ c : D,
      ∃! y, mass S.R y + (S.dt * S.imp i i) • implPart S.R y = c)
    (hm : ∀ c : D, ∃! y, mass S.R y = c) :
    IsIMEXStep S.imp (S.imp S.nStages) S.exp (S.exp S.nStages) S.nStages
      (mass S.R) (implPart S.R) G S.dt x (apply S st x) := by
  set st0 : State X := { st with xOut := x, xs := Function.update st.xs 0 x } with hst0
  have h0 : Inv S G x (startStage S) st0 := by
    rw [startStage_eq]
    split
    · rename_i h
      constructor
      · intro i hi
        obtain rfl : i = 0 := by omega
        simp [hst0, h 0 hn]
      · intro i hi; omega
    · exact ⟨fun i hi => absurd hi (by omega), fun i hi => absurd hi (by omega)⟩
  have hle : startStage S ≤ S.nStages := by rw [startStage_eq]; split <;> omega
  obtain ⟨h1, h2⟩ := inv_fold S hR hl G hG hs x (startStage S) hu st0 h0 hle
  set r := ((List.range S.nStages).drop (startStage S)).foldl (stageBody S x) st0 with hr
  set q := evalInto S (S.nStages - 1) r with hq
  have hqx : q.xs = r.xs := evalInto_xs _ _ _
  have hsrc : ∀ i < S.nStages,
      explPart S.R (r.xs i) + srcPart S.R (q.source i) = G (r.xs i) := by
    intro i hi
    by_cases hi' : i = S.nStages - 1
    · rw [hq, hi']; exact hG r (S.nStages - 1)
    · rw [hq, evalInto_ne S _ i (by omega)]; exact h2 i (by omega)
  have hroot : (finalRes S q.xs q.source x (apply S st x)).eval = 0 := by
    have e : apply S st x = S.solve (fun y => (finalRes S q.xs q.source x y).eval) q.xOut := by
      simp only [IMEX.apply, limit, hl]; rfl
    rw [e]
    refine hs (fun y => (finalRes S q.xs q.source x y).eval) q.xOut ?_
    obtain ⟨y0, hy0, hyu⟩ := hm (mass S.R x
        - S.dt • ∑ j ∈ range S.nStages, S.imp S.nStages j • implPart S.R (q.xs j)
        - S.dt • ∑ j ∈ range S.nStages, S.exp S.nStages j
            • (explPart S.R (q.xs j) + srcPart S.R (q.source j)))
    exact ⟨y0, (C12_final_residual S hR _ _ _ _).2 hy0,
      fun y hy => hyu y ((C12_final_residual S hR _ _ _ _).1 hy)⟩
  refine ⟨r.xs, h1, ?_⟩
  rw [(C12_final_residual S hR _ _ _ _).1 hroot, hqx]
  congr 2
  refine sum_congr rfl fun j hj => ?_
  rw [hsrc j (mem_range.1 hj)]

/-- C12 (no physics sources): one call of `apply`, for every pair of tables of any size, solves
the documented IMEX equations, whatever the object's fields held before the call. -/
theorem C12_apply [DecidableEq K] (S : Scheme K X D) (hR : TDClean S.R) (hl : S.limiter = none)
    (hsrc : ∀ t ∈ S.R, Label.source ∉ t.labels)
    (hs : ExactSolver S.solve) (st : State X) (x : X) (hn : 0 < S.nStages)
    (hu : ∀ i < S.nStages, startStage S ≤ i → ∀ c : D,
      ∃! y, mass S.R y + (S.dt * S.imp i i) • implPart S.R y = c)
    (hm : ∀ c : D, ∃! y, mass S.R y = c) :
    IsIMEXStep S.imp (S.imp S.nStages) S.exp (S.exp S.nStages) S.nStages
      (mass S.R) (implPart S.R) (explPart S.R) S.dt x (apply S st x) := by
  refine apply_imex S hR hl _ (fun st i => ?_) hs st x hn hu hm
  have : ∀ z, srcPart S.R z = 0 := fun z => by
    unfold srcPart part
    rw [List.filter_eq_nil_iff.2 (fun t ht => by simpa using hsrc t ht)]; rfl
  rw [this, add_zero]

/-- C12 (one physics scheme evaluated through a source): the source terms of each stage are the
source computed from that stage's value, weighted with the explicit table. -/
theorem C12_apply_source [DecidableEq K] (S : Scheme K X D) (hR : TDClean S.R)
    (hl : S.limiter = none) (e : X → X) (he : S.evaluate = [e])
    (hs : ExactSolver S.solve) (st : State X) (x : X) (hn : 0 < S.nStages)
    (hu : ∀ i < S.nStages, startStage S ≤ i → ∀ c : D,
      ∃! y, mass S.R y + (S.dt * S.imp i i) • implPart S.R y = c)
    (hm : ∀ c : D, ∃! y, mass S.R y = c) :
    IsIMEXStep S.imp (S.imp S.nStages) S.exp (S.exp S.nStages) S.nStages
      (mass S.R) (implPart S.R) (fun z => explPart S.R z + srcPart S.R (e z)) S.dt x
      (apply S st x) := by
  refine apply_imex S hR hl _ (fun st i => ?_) hs st x hn hu hm
  rw [evalInto_self, he]; rfl

/-- With two or more physics schemes evaluated through a source, every source term is evaluated at
the source of the *last* scheme. -/
theorem C12_apply_last_source [DecidableEq K] (S : Scheme K X D) (hR : TDClean S.R)
    (hl : S.limiter = none) (e : X → X) (he : S.evaluate.getLast? = some e)
    (hs : ExactSolver S.solve) (st : State X) (x : X) (hn : 0 < S.nStages)
    (hu : ∀ i < S.nStages, startStage S ≤ i → ∀ c : D,
      ∃! y, mass S.R y + (S.dt * S.imp i i) • implPart S.R y = c)
    (hm : ∀ c : D, ∃! y, mass S.R y = c) :
    IsIMEXStep S.imp (S.imp S.nStages) S.exp (S.exp S.nStages) S.nStages
      (mass S.R) (implPart S.R) (fun z => explPart S.R z + srcPart S.R (e z)) S.dt x
      (apply S st x) := by
  refine apply_imex S hR hl _ (fun st i => ?_) hs st x hn hu hm
  rw [evalInto_self, he]

/-- a residual `d/dt x + 2x - x + s` with an implicit, an explicit and a source term -/
def exR : LForm ℚ ℚ :=
  [{ labels := [.timeDerivative], op := id, subj := 0 },
   { labels := [.implicit], op := fun x => 2 * x, subj := 0 },
   { labels := [.explicit], op := fun x => -x, subj := 0 },
   { labels := [.source], op := id, subj := 0 }]

/-- IMEX Euler on `exR` -/
noncomputable def exS : Scheme ℚ ℚ ℚ where
  R := exR
  imp := fun i j => if i ≥ 1 ∧ j = 1 then 1 else 0
  exp := fun i j => if i ≥ 1 ∧ j = 0 then 1 else 0
  nStages := 2
  dt := 1 / 10
  solve := choiceSolve
  evaluate := [fun x => x ^ 2]

/-- Non-vacuity of `C12_apply_source` (and, without the source, of `C12_apply`): IMEX Euler. -/
example (st : State ℚ) (x : ℚ) :
    IMEX.apply exS st x = (x - (1 / 10) * (-x + x ^ 2)) / (1 + 2 / 10) := by
  obtain ⟨Y, h1, h2⟩ := C12_apply_source exS
    (by intro t ht; simp [exS, exR] at ht; rcases ht with rfl | rfl | rfl | rfl <;> simp) rfl _ rfl
    choiceSolve_exact st x (by simp [exS])
    (by
      intro i hi hi' c
      rw [startStage_eq] at hi'
      have : i = 1 := by
        simp [exS] at hi' hi; omega
      subst this
      refine ⟨c / (1 + 1 / 5), ?_, fun y hy => ?_⟩
      · simp [exS, exR, mass, implPart, part]; ring
      · simp [exS, exR, mass, implPart, part] at hy
        rw [eq_div_iff (by norm_num)]; linear_combination hy)
    (fun c => ⟨c, by simp [exS, exR, mass, part], fun y hy => by simpa [exS, exR, mass, part] using hy⟩)
  generalize IMEX.apply exS st x = y at h2 ⊢
  have e0 := h1 0 (by simp [exS])
  have e1 := h1 1 (by simp [exS])
  simp [exS, exR, mass, implPart, explPart, srcPart, part, sum_range_succ] at h2 e0 e1
  rw [e0] at h2 e1
  rw [h2, eq_div_iff (by norm_num)]
  linear_combination (-1 / 5) * e1

/-- C12: the labels split the tendency: if every term that is not a time derivative has exactly
one of the three labels, the implicit, explicit and source parts add up to the whole tendency. -/
theorem C12_split_complete (R : LForm X D) (hc : TDClean R) (h1 : ExactlyOneKind R) (x : X) :
    implPart R x + explPart R x + srcPart R x = rest R x := by
  induction R with
  | nil => simp [implPart, explPart, srcPart, part_nil, rest_nil]
  | cons t R ih =>
    have ih := ih (fun t ht => hc t (List.mem_cons_of_mem _ ht))
      (fun t ht => h1 t (List.mem_cons_of_mem _ ht))
    simp only [implPart, explPart, srcPart] at ih ⊢
    rw [part_cons, part_cons, part_cons, rest_cons, ← ih]
    by_cases ht : Label.timeDerivative ∈ t.labels
    · obtain ⟨a, b, c⟩ := hc t List.mem_cons_self ht
      simp only [ht, a, b, c, if_true, if_false]; abel
    · rcases h1 t List.mem_cons_self ht with ⟨a, b, c⟩ | ⟨a, b, c⟩ | ⟨a, b, c⟩ <;>
        (simp only [ht, a, b, c, if_true, if_false]; abel)

/-- C12: `setup` accepts exactly the residuals each of whose terms is a time derivative or carries
at least one of the three labels. -/
theorem C12_setup_check (R : LForm X D) :
    setupAccepts R = true ↔ ∀ t ∈ R, Label.timeDerivative ∉ t.labels →
      Label.implicit ∈ t.labels ∨ Label.explicit ∈ t.labels ∨ Label.source ∈ t.labels := by
  simp only [setupAccepts, List.all_eq_true, Bool.or_eq_true, isImpl, isExpl, isTD, isSrc,
    Term.has, decide_eq_true_eq]
  constructor
  · intro h t ht hn
    have := h t ht
    tauto
  · intro h t ht
    have := h t ht
    tauto

/-- C12: but `setup` does not check that a term has only one of the labels: a term that is both a
physics source and explicit is accepted, and is then counted twice. -/
theorem C12_setup_refuted : ∃ R : LForm ℚ ℚ, TDClean R ∧ setupAccepts R = true ∧
    implPart R 1 + explPart R 1 + srcPart R 1 ≠ rest R 1 := by
  refine ⟨[{ labels := [.source, .explicit], op := id, subj := 0 }], ?_, by decide, ?_⟩
  · intro t ht; simp at ht; subst ht; simp
  · simp [implPart, explPart, srcPart, rest, part]

/-- C12: the `limiter` argument of the constructor is not used: two objects that differ only in
this argument give the same results. -/
theorem C12_limiter_ignored [DecidableEq K] (R : LForm X D) (imp exp : ℕ → ℕ → K) (n : ℕ) (dt : K)
    (solve : Solver X D) (ev : List (X → X)) (l : Option (X → X)) (st : State X) (x : X) :
    apply (init R imp exp n dt solve ev l) st x = apply (init R imp exp n dt solve ev none) st x :=
  rfl

/-- residual `d/dt x = 0` -/
def stillR : LForm ℚ ℚ := [{ labels := [.timeDerivative], op := id, subj := 0 }]
/-- one-stage scheme with zero tables, constructed with limiter `l` -/
noncomputable def stillScheme (l : Option (ℚ → ℚ)) : Scheme ℚ ℚ ℚ :=
  init stillR (fun _ _ => 0) (fun _ _ => 0) 1 1 choiceSolve [] l

theorem stillScheme_apply (l : Option (ℚ → ℚ)) (st : State ℚ) (x : ℚ) :
    IMEX.apply (stillScheme l) st x = x := by
  obtain ⟨Y, -, h2⟩ := C12_apply (stillScheme l)
    (by intro t ht; simp [stillScheme, init, stillR] at ht; subst ht; simp) rfl
    (by intro t ht; simp [stillScheme, init, stillR] at ht; subst ht; simp) choiceSolve_exact
    st x (by simp [stillScheme, init])
    (fun i _ _ c => by simp [stillScheme, init, stillR, mass, implPart, part])
    (fun c => by simp [stillScheme, init, stillR, mass, part])
  simpa [stillScheme, init, stillR, mass, implPart, explPart, part] using h2

/-- So a user-supplied limiter is not respected: with a limiter that clips to zero the result is
still the unlimited one. -/
theorem C12_limiter_refuted : ∃ (l : ℚ → ℚ), (∀ z, l z = 0) ∧
    ∀ st, IMEX.apply (stillScheme (some l)) st 1 = 1 :=
  ⟨fun _ => 0, fun _ => rfl, fun st => stillScheme_apply _ st 1⟩

/-! ### The built-in tables -/

/-- implicit (`true`) and explicit (`false`) table, as functions -/
def tab (I E : List (List ℝ)) (ν : Bool) : ℕ → ℕ → ℝ := entry (if ν then I else E)
/-- the weights: row `s` -/
def wts (I E : List (List ℝ)) (s : ℕ) (ν : Bool) : ℕ → ℝ := tab I E ν s

macro "tab_simp" : tactic => `(tactic| simp [AdditiveOrder1, AdditiveOrder2, AdditiveOrder3,
  MatchingRowSums, absc, wts, tab, entry, sum_range_succ, Bool.forall_bool])

theorem inv_sqrt2_sq : (√2)⁻¹ * (√2)⁻¹ = (1 / 2 : ℝ) := by
  rw [← mul_inv, Real.mul_self_sqrt (by norm_num)]; norm_num

theorem sqrt2_mul_inv : √2 * (√2)⁻¹ = (1 : ℝ) := mul_inv_cancel₀ (by positivity)

/-- C12: IMEX_Euler is a first-order method with matching row sums. -/
theorem C12_euler_order : AdditiveOrder1 (wts eulerImp eulerExp 2) 2 ∧
    MatchingRowSums (tab eulerImp eulerExp) 2 ∧ IMEXTriangular (tab eulerImp eulerExp) 2 := by
  refine ⟨?_, ?_, ?_, ?_⟩
  · simp only [eulerImp, eulerExp]; tab_simp
  · intro i hi; interval_cases i <;> simp only [eulerImp, eulerExp] <;> tab_simp
  all_goals
    intro i hi j hj hij
    interval_cases i <;> interval_cases j <;>
      first | omega | simp [tab, entry, eulerImp, eulerExp]

/-- C12: IMEX_ARS3 has order three, including all coupling conditions. -/
theorem C12_ars3_order : AdditiveOrder3 (tab ars3Imp ars3Exp) (wts ars3Imp ars3Exp 3) 3 ∧
    MatchingRowSums (tab ars3Imp ars3Exp) 3 ∧ IMEXTriangular (tab ars3Imp ars3Exp) 3 := by
  have h3 : √3 * √3 = (3:ℝ) := Real.mul_self_sqrt (by norm_num)
  have hg : ars3g * ars3g = ars3g - 1 / 6 := by
    unfold ars3g; linear_combination (1/36) * h3
  generalize hge : ars3g = g at hg
  refine ⟨⟨⟨?_, ?_⟩, ?_, ?_⟩, ?_, ?_, ?_⟩
  · simp only [ars3Imp, ars3Exp, hge]; tab_simp; norm_num
  · simp only [ars3Imp, ars3Exp, hge]; tab_simp
    (repeat' apply And.intro) <;> ring
  · simp only [ars3Imp, ars3Exp, hge]; tab_simp
    (repeat' apply And.intro) <;> linear_combination hg
  · simp only [ars3Imp, ars3Exp, hge]; tab_simp
    (repeat' apply And.intro) <;> linear_combination (-1) * hg
  · intro i hi; interval_cases i <;> simp only [ars3Imp, ars3Exp, hge] <;> tab_simp <;> ring
  all_goals
    intro i hi j hj hij
    interval_cases i <;> interval_cases j <;>
      first | omega | simp [tab, entry, ars3Imp, ars3Exp]

/-- C12: IMEX_ARK2 has order two, including coupling. -/
theorem C12_ark2_order : AdditiveOrder2 (tab ark2Imp ark2Exp) (wts ark2Imp ark2Exp 3) 3 ∧
    MatchingRowSums (tab ark2Imp ark2Exp) 3 ∧ IMEXTriangular (tab ark2Imp ark2Exp) 3 := by
  have hd : ark2d = (1 - ark2g) / 2 := by unfold ark2d ark2g; field_simp; ring
  have hg : ark2g * ark2g = 2 * ark2g - 1 / 2 := by
    have := inv_sqrt2_sq
    unfold ark2g
    simp only [one_div] at this ⊢; linear_combination this
  generalize hge : ark2g = g at hd hg
  refine ⟨⟨?_, ?_⟩, ?_, ?_, ?_⟩
  · simp only [ark2Imp, ark2Exp, hge, hd]; tab_simp
  · simp only [ark2Imp, ark2Exp, hge, hd]; tab_simp
    (repeat' apply And.intro) <;> linear_combination (-1) * hg
  · intro i hi; interval_cases i <;> simp only [ark2Imp, ark2Exp, hge, hd] <;> tab_simp <;> ring
  all_goals
    intro i hi j hj hij
    interval_cases i <;> interval_cases j <;>
      first | omega | simp [tab, entry, ark2Imp, ark2Exp]

/-- C12: IMEX_SSP3 has order two, including coupling; its rows match. -/
theorem C12_ssp3_order : AdditiveOrder2 (tab ssp3Imp ssp3Exp) (wts ssp3Imp ssp3Exp 3) 3 ∧
    IMEXTriangular (tab ssp3Imp ssp3Exp) 3 := by
  generalize hge : ssp3g = g
  refine ⟨⟨?_, ?_⟩, ?_, ?_⟩
  · simp only [ssp3Imp, ssp3Exp, hge]; tab_simp; norm_num
  · simp only [ssp3Imp, ssp3Exp, hge]; tab_simp
    (repeat' apply And.intro) <;> ring
  all_goals
    intro i hi j hj hij
    interval_cases i <;> interval_cases j <;>
      first | omega | simp [tab, entry, ssp3Imp, ssp3Exp]

/-- C12: the implicit half of IMEX_SSP3 and the explicit half have different abscissae. -/
theorem C12_ssp3_rows_refuted : ¬ MatchingRowSums (tab ssp3Imp ssp3Exp) 3 := by
  intro h
  have := h 0 (by norm_num)
  simp only [ssp3Imp, ssp3Exp] at this
  simp [absc, tab, entry, sum_range_succ, ssp3g] at this
  have h2 : √2 = (1:ℝ) := by
    have := sub_eq_zero.1 this
    rw [← inv_inv (√2), ← this, inv_one]
  have := Real.mul_self_sqrt (show (0:ℝ) ≤ 2 by norm_num)
  rw [h2] at this; norm_num at this

/-- C12: IMEX_Trap2 has order two, including coupling. -/
theorem C12_trap2_order : AdditiveOrder2 (tab trap2Imp trap2Exp) (wts trap2Imp trap2Exp 4) 4 ∧
    IMEXTriangular (tab trap2Imp trap2Exp) 4 := by
  refine ⟨⟨?_, ?_⟩, ?_, ?_⟩
  · simp only [trap2Imp, trap2Exp]; tab_simp; norm_num
  · simp only [trap2Imp, trap2Exp]; tab_simp; norm_num
  all_goals
    intro i hi j hj hij
    interval_cases i <;> interval_cases j <;>
      first | omega | simp [tab, entry, trap2Imp, trap2Exp]

/-- C12: in IMEX_Trap2 (`e = 0`) the abscissae of stage 1 differ. -/
theorem C12_trap2_rows_refuted : ¬ MatchingRowSums (tab trap2Imp trap2Exp) 4 := by
  intro h
  have := h 1 (by norm_num)
  simp only [trap2Imp, trap2Exp] at this
  simp [absc, tab, entry, sum_range_succ] at this

end IMEXProps
end Gusto.Props
