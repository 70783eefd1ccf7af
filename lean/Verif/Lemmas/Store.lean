import Verif.Model.Store
import Mathlib.Tactic.Abel

set_option autoImplicit false
set_option linter.unusedSectionVars false
set_option linter.unusedSimpArgs false

/-! The store programs refine the functional model. -/

namespace Gusto
open LForm TimeDisc
variable {K X D : Type*} [Field K] [AddCommGroup X] [Module K X] [AddCommGroup D] [Module K D]

namespace Store

@[simp] theorem set_self (l : Loc) (v : X) (h : Heap X) : set l v h l = v := by simp [set]
theorem set_ne (l m : Loc) (v : X) (h : Heap X) (hm : m ≠ l) : set l v h m = h m := by
  simp [set, hm]
theorem set_apply (l m : Loc) (v : X) (h : Heap X) :
    set l v h m = if m = l then v else h m := by simp [set, Function.update_apply]
theorem set_set (l : Loc) (v w : X) (h : Heap X) : set l v (set l w h) = set l v h := by
  simp [set]

theorem foldl_acc (a : Loc) (b : ℕ → Loc) (c : ℕ → K) (hb : ∀ i, b i ≠ a) (L : List ℕ)
    (h : Heap X) :
    L.foldl (fun h i => set a (h a + c i • h (b i)) h) h
      = set a (L.foldl (fun x i => x + c i • h (b i)) (h a)) h := by
  induction L generalizing h with
  | nil => simp [set]
  | cons j L ih =>
    rw [List.foldl_cons, List.foldl_cons, ih, set_set, set_self]
    congr 1
    have : ∀ i, set a (h a + c j • h (b j)) h (b i) = h (b i) := fun i => set_ne _ _ _ _ (hb i)
    simp only [this]

theorem limitAt_eq (S : RKScheme K X D) (l : Loc) (h : Heap X) :
    limitAt S l h = set l (RK.limit S (h l)) h := by
  unfold limitAt RK.limit
  cases S.limiter <;> simp [set]

/-- overwrite the sources -/
def writeSrc (n : ℕ) (g : ℕ → X) (h : Heap X) : Heap X
  | .src j => if j < n then g j else h (.src j)
  | l => h l

theorem evalAt_eq (S : RKScheme K X D) (l : Loc) (hl : ∀ j, l ≠ .src j) (dt : K) (h : Heap X) :
    evalAt S l dt h = writeSrc S.nphys (fun j => S.evals j (h l) dt) h := by
  unfold evalAt
  induction S.nphys with
  | zero => funext m; cases m <;> simp [writeSrc]
  | succ n ih =>
    rw [List.range_succ, List.foldl_append, ih]
    funext m
    have : writeSrc n (fun j => S.evals j (h l) dt) h l = h l := by
      cases l <;> simp_all [writeSrc]
    simp only [List.foldl_cons, List.foldl_nil, this, set_apply]
    cases m <;> simp [writeSrc]
    rename_i j
    by_cases e : j = n
    · simp [e]
    · have : j < n + 1 ↔ j < n := by omega
      simp [e, this]

theorem evalIntoAt_eq (S : RKScheme K X D) (l out : Loc) (hl : ∀ j, l ≠ .src j) (hlo : l ≠ out)
    (ho : ∀ j, out ≠ .src j) (dt : K) (h : Heap X) :
    evalIntoAt S l out dt h = set out (RK.evalSourcesInto S (h l) dt (h out))
      (writeSrc S.nphys (fun j => S.evals j (h l) dt) h) := by
  unfold evalIntoAt RK.evalSourcesInto
  induction S.nphys with
  | zero =>
    funext m
    simp only [List.range_zero, List.foldl_nil, set_apply]
    split
    · rename_i e; rw [e]
    · cases m <;> simp [writeSrc]
  | succ n ih =>
    rw [List.range_succ, List.foldl_append, ih, List.foldl_append]
    have e1 : writeSrc n (fun j => S.evals j (h l) dt) h l = h l := by
      cases l <;> simp_all [writeSrc]
    simp only [List.foldl_cons, List.foldl_nil, set_apply, if_neg hlo, e1]
    funext m
    by_cases e : m = out
    · simp [e, set_apply]
    · simp only [set_apply, if_neg e]
      cases m <;> simp [writeSrc]
      rename_i j
      by_cases e : j = n
      · simp [e]
      · have : j < n + 1 ↔ j < n := by omega
        simp [e, this]

theorem predRes_congr (R : LForm X D) (A : ℕ → ℕ → K) (dt : K) (stage : ℕ) (f g s t : ℕ → X)
    (y : X) (h : ∀ i ≤ stage, f i = g i) (h' : ∀ i ≤ stage, s i = t i) :
    RK.predRes R A dt stage f s y = RK.predRes R A dt stage g t y := by
  unfold RK.predRes
  have e0 := h 0 (by omega)
  simp only [e0]
  have l1 : ∀ r : LForm X D, (List.range' 1 stage).foldl (fun residual i =>
      add residual (LForm.smul (A stage i * dt)
        (R.labelMap (fun t => isTD t || RK.isSource t) drop (replaceSubject (f i))))) r
      = (List.range' 1 stage).foldl (fun residual i =>
      add residual (LForm.smul (A stage i * dt)
        (R.labelMap (fun t => isTD t || RK.isSource t) drop (replaceSubject (g i))))) r := by
    intro r
    apply List.foldl_ext
    intro a b hb
    rw [h b (by simp at hb; omega)]
  have l2 : ∀ r : LForm X D, (List.range (stage + 1)).foldl (fun residual i =>
      add residual (LForm.smul (A stage i * dt)
        (R.labelMap RK.isSource (replaceSubject (s i)) drop))) r
      = (List.range (stage + 1)).foldl (fun residual i =>
      add residual (LForm.smul (A stage i * dt)
        (R.labelMap RK.isSource (replaceSubject (t i)) drop))) r := by
    intro r
    apply List.foldl_ext
    intro a b hb
    rw [h' b (by simp at hb; omega)]
  rw [l1, l2]

/-- user Functions and `x0` unchanged -/
def Frame (h h' : Heap X) : Prop := (∀ n, h' (.user n) = h (.user n)) ∧ h' .x0 = h .x0

theorem foldl_x1 (c : ℕ → K) (L : List ℕ) (h : Heap X) :
    L.foldl (fun h i => set Loc.x1 (h Loc.x1 + c i • h (Loc.k i)) h) h
      = set Loc.x1 (L.foldl (fun x i => x + c i • h (Loc.k i)) (h Loc.x1)) h :=
  foldl_acc _ Loc.k c (by simp) L h

theorem foldl_rhs (c : ℕ → K) (b : ℕ → ℕ) (L : List ℕ) (h : Heap X) :
    L.foldl (fun h i => set Loc.rhs (h Loc.rhs + c i • h (Loc.lhs (b i))) h) h
      = set Loc.rhs (L.foldl (fun x i => x + c i • h (Loc.lhs (b i))) (h Loc.rhs)) h :=
  foldl_acc _ (fun i => Loc.lhs (b i)) c (by simp) L h

theorem evalSources_eq (S : RKScheme K X D) (x : X) (dt : K) (src : ℕ → X) :
    RK.evalSources S x dt src = fun j => if j < S.nphys then S.evals j x dt else src j := rfl

theorem update_eq (f : ℕ → X) (i : ℕ) (v : X) :
    Function.update f i v = fun j => if j = i then v else f j := by
  funext j; simp [Function.update_apply]

theorem incStage_ok (S : RKScheme K X D) (stage : ℕ) (h : Heap X) :
    own (incStage S .x0 stage h) = RK.incStage S (h .x0) (own h) stage
      ∧ Frame h (incStage S .x0 stage h) := by
  simp only [incStage, foldl_x1, evalAt_eq S .x1 (by simp), limitAt_eq, RK.incStage]
  rcases Decidable.em (stage > 0) with hs | hs <;>
  rcases Decidable.em (stage = S.nStages - 1) with hl | hl <;>
  [have hs := eq_true hs; have hs := eq_true hs; have hs := eq_false hs; have hs := eq_false hs] <;>
  [have hl := eq_true hl; have hl := eq_false hl; have hl := eq_true hl; have hl := eq_false hl] <;>
  · simp only [hs, hl, if_true, if_false]
    constructor
    · simp [own, set_apply, writeSrc, evalSources_eq, update_eq]
    · simp [Frame, set_apply, writeSrc]

theorem predStage_ok (S : RKScheme K X D) (stage : ℕ) (h : Heap X) :
    own (predStage S .x0 stage h) = RK.predStage S (h .x0) (own h) stage
      ∧ Frame h (predStage S .x0 stage h) := by
  simp only [predStage, evalIntoAt_eq S (.field stage) (.source stage) (by simp) (by simp)
    (by simp), limitAt_eq, RK.predStage]
  have hfix : ∀ (a b : X) (f s : ℕ → X) (y : X), RK.predRes S.R S.A S.dt stage
      (fun i => if i = stage then a else if i = stage + 1 then b else f i) s y
      = RK.predRes S.R S.A S.dt stage (fun i => if i = stage then a else f i) s y :=
    fun a b f s y => predRes_congr _ _ _ _ _ _ _ _ _
      (fun i hi => by
        have : i ≠ stage + 1 := by omega
        simp [this]) (fun _ _ => rfl)
  rcases Decidable.em (stage = 0) with hs | hs <;>
  rcases Decidable.em (stage = S.nStages - 1) with hl | hl <;>
  [have hs := eq_true hs; have hs := eq_true hs; have hs := eq_false hs; have hs := eq_false hs] <;>
  [have hl := eq_true hl; have hl := eq_false hl; have hl := eq_true hl; have hl := eq_false hl] <;>
  · simp only [hs, hl, if_true, if_false]
    constructor
    · simp [own, set_apply, writeSrc, evalSources_eq, update_eq, hfix]
      funext i
      by_cases e : i = stage + 1 <;> simp [e]
    · simp [Frame, set_apply, writeSrc]

theorem linStage_ok (S : RKScheme K X D) (ncycles idx stage : ℕ) (h : Heap X) :
    own (linStage S ncycles idx .x0 stage h) = RK.linStage S ncycles idx (h .x0) (own h) stage
      ∧ Frame h (linStage S ncycles idx .x0 stage h) := by
  simp only [linStage, foldl_rhs, evalAt_eq S .rhs (by simp), limitAt_eq, RK.linStage]
  rcases Decidable.em (stage = 0 ∧ idx = 0) with hs | hs <;>
  rcases Decidable.em (S.nStages * idx + stage + 1 < ncycles * S.nStages) with hl | hl <;>
  [have hs := eq_true hs; have hs := eq_true hs; have hs := eq_false hs; have hs := eq_false hs] <;>
  [have hl := eq_true hl; have hl := eq_false hl; have hl := eq_true hl; have hl := eq_false hl] <;>
  · simp only [hs, hl, if_true, if_false]
    constructor
    · simp [own, set_apply, writeSrc, evalSources_eq, update_eq]
    · simp [Frame, set_apply, writeSrc]

theorem solveStage_ok (f : RK.Formulation) (S : RKScheme K X D) (ncycles idx stage : ℕ)
    (h : Heap X) :
    own (solveStage f S ncycles idx .x0 h stage)
      = RK.solveStage f S ncycles idx (h .x0) (own h) stage
      ∧ Frame h (solveStage f S ncycles idx .x0 h stage) := by
  cases f
  · exact incStage_ok S stage h
  · exact predStage_ok S stage h
  · exact linStage_ok S ncycles idx stage h

theorem stages_ok (f : RK.Formulation) (S : RKScheme K X D) (ncycles idx : ℕ) (L : List ℕ)
    (h : Heap X) :
    own (L.foldl (solveStage f S ncycles idx .x0) h)
      = L.foldl (RK.solveStage f S ncycles idx (h .x0)) (own h)
      ∧ Frame h (L.foldl (solveStage f S ncycles idx .x0) h) := by
  induction L generalizing h with
  | nil => exact ⟨rfl, fun _ => rfl, rfl⟩
  | cons a L ih =>
    obtain ⟨h1, h2, h3⟩ := solveStage_ok f S ncycles idx a h
    obtain ⟨i1, i2, i3⟩ := ih (solveStage f S ncycles idx .x0 h a)
    rw [List.foldl_cons, List.foldl_cons]
    refine ⟨?_, fun n => (i2 n).trans (h2 n), i3.trans h3⟩
    rw [i1, h1, h3]

theorem cycle_ok (f : RK.Formulation) (S : RKScheme K X D) (ncycles idx : ℕ) (h : Heap X) :
    own (applyCycle f S ncycles idx .x1 .x0 h) = RK.applyCycle f S ncycles idx (own h)
      ∧ ∀ n, applyCycle f S ncycles idx .x1 .x0 h (.user n) = h (.user n) := by
  simp only [applyCycle, limitAt_eq, RK.applyCycle]
  set h' : Heap X := set .x1 (set .x0 (RK.limit S (h .x0)) h .x0)
    (set .x0 (RK.limit S (h .x0)) h) with hh'
  obtain ⟨s1, s2, s3⟩ := stages_ok f S ncycles idx (List.range S.nStages) h'
  set r := (List.range S.nStages).foldl (solveStage f S ncycles idx .x0) h' with hr
  have e : set .x1 (r .x1) r = r := by simp [set]
  rw [e]
  have ho : own h' = { own h with x0 := RK.limit S (h .x0), x1 := RK.limit S (h .x0) } := by
    simp [own, hh', set_apply]
  have hx : h' .x0 = RK.limit S (h .x0) := by simp [hh', set_apply]
  refine ⟨?_, fun n => ?_⟩
  · rw [s1, ho, hx]; rfl
  · rw [s2 n]; simp [hh', set_apply]

theorem loop_ok (f : RK.Formulation) (S : RKScheme K X D) (ncycles : ℕ) (L : List ℕ)
    (h : Heap X) :
    own (L.foldl (fun h idx =>
        set .x0 (applyCycle f S ncycles idx .x1 .x0 h .x1)
          (applyCycle f S ncycles idx .x1 .x0 h)) h)
      = L.foldl (fun st idx =>
          let st := RK.applyCycle f S ncycles idx st
          { st with x0 := st.x1 }) (own h)
      ∧ ∀ n, L.foldl (fun h idx =>
        set .x0 (applyCycle f S ncycles idx .x1 .x0 h .x1)
          (applyCycle f S ncycles idx .x1 .x0 h)) h (.user n) = h (.user n) := by
  induction L generalizing h with
  | nil => exact ⟨rfl, fun _ => rfl⟩
  | cons a L ih =>
    obtain ⟨c1, c2⟩ := cycle_ok f S ncycles a h
    rw [List.foldl_cons, List.foldl_cons]
    obtain ⟨i1, i2⟩ := ih (set .x0 (applyCycle f S ncycles a .x1 .x0 h .x1)
          (applyCycle f S ncycles a .x1 .x0 h))
    have ho : own (set .x0 (applyCycle f S ncycles a .x1 .x0 h .x1)
          (applyCycle f S ncycles a .x1 .x0 h))
        = { own (applyCycle f S ncycles a .x1 .x0 h) with
            x0 := (own (applyCycle f S ncycles a .x1 .x0 h)).x1 } := by
      simp [own, set_apply]
    refine ⟨?_, fun n => ?_⟩
    · rw [i1, ho, c1]
    · rw [i2 n, set_apply, if_neg (by simp), c2 n]

/-- `apply` on the store: the output location receives the functional result, all other user
Functions are unchanged. -/
theorem apply_ok (f : RK.Formulation) (S : RKScheme K X D) (ncycles : ℕ) (o i : ℕ) (h : Heap X) :
    apply f S ncycles (.user o) (.user i) h (.user o)
        = RK.apply f S ncycles (own h) (h (.user i))
      ∧ ∀ n, n ≠ o → apply f S ncycles (.user o) (.user i) h (.user n) = h (.user n) := by
  unfold apply
  obtain ⟨l1, l2⟩ := loop_ok f S ncycles (List.range ncycles) (set .x0 (h (.user i)) h)
  constructor
  · simp only [set_self]
    have := congrArg RKState.x1 l1
    simpa [own, RK.apply, set_apply] using this
  · intro n hn
    simp only
    rw [set_apply, if_neg (by simpa using hn), l2 n, set_apply, if_neg (by simp)]

end Store
end Gusto
