import Verif.Lemmas.MPI

set_option autoImplicit false
set_option linter.unusedSectionVars false
set_option linter.unusedSimpArgs false

/-! # Choreographies of local work on all ranks, reductions and broadcasts -/

namespace Gusto.MPI
variable {σ V : Type*}

/-- every rank does local work -/
def allLoc (M : ℕ) (f : ℕ → σ → σ) : List (Ev σ V) := (List.range M).map fun r => Ev.loc r (f r)

def reduceEv (M root : ℕ) (get : σ → V) (set acc : V → σ → σ) : List (Ev σ V) :=
  Ev.loc root (fun p => set (get p) p) ::
    (List.range M).flatMap fun i => if i = root then [] else [Ev.comm i root 0 get acc]

def bcastEv (M root : ℕ) (get : σ → V) (set : V → σ → σ) : List (Ev σ V) :=
  (List.range M).flatMap fun i => if i = root then [] else [Ev.comm root i 0 get set]

/-- well-formed choreography -/
def Wf (l : List (Ev σ V)) : Prop := (∀ e ∈ l, EvOk e) ∧ ∀ e ∈ l, Fresh e

theorem Wf.append {a b : List (Ev σ V)} (ha : Wf a) (hb : Wf b) : Wf (a ++ b) := by
  constructor <;> intro e he <;> rcases List.mem_append.1 he with h | h
  · exact ha.1 e h
  · exact hb.1 e h
  · exact ha.2 e h
  · exact hb.2 e h

theorem Wf.flatMap {ι : Type*} (l : List ι) (g : ι → List (Ev σ V)) (h : ∀ i ∈ l, Wf (g i)) :
    Wf (l.flatMap g) := by
  constructor <;> intro e he <;> obtain ⟨i, hi, he⟩ := List.mem_flatMap.1 he
  · exact (h i hi).1 e he
  · exact (h i hi).2 e he

theorem Wf.nil : Wf ([] : List (Ev σ V)) := ⟨by simp, by simp⟩

theorem wf_allLoc (M : ℕ) (f : ℕ → σ → σ) : Wf (allLoc M f : List (Ev σ V)) := by
  constructor <;> intro e he <;> obtain ⟨i, hi, rfl⟩ := List.mem_map.1 he <;> trivial

theorem wf_reduceEv (M root : ℕ) (get : σ → V) (set acc : V → σ → σ) :
    Wf (reduceEv M root get set acc) := by
  constructor <;> intro e he <;> rcases List.mem_cons.1 he with rfl | he
  · trivial
  · obtain ⟨i, hi, he⟩ := List.mem_flatMap.1 he
    by_cases h : i = root
    · simp [h] at he
    · simp [h] at he; subst he; exact h
  · trivial
  · obtain ⟨i, hi, he⟩ := List.mem_flatMap.1 he
    by_cases h : i = root
    · simp [h] at he
    · simp [h] at he; subst he; trivial

theorem wf_bcastEv (M root : ℕ) (get : σ → V) (set : V → σ → σ) :
    Wf (bcastEv M root get set) := by
  constructor <;> intro e he <;> obtain ⟨i, hi, he⟩ := List.mem_flatMap.1 he
  · by_cases h : i = root
    · simp [h] at he
    · simp [h] at he; subst he; exact Ne.symm h
  · by_cases h : i = root
    · simp [h] at he
    · simp [h] at he; subst he; trivial

theorem proj_flatMap {ι : Type*} (r : ℕ) (l : List ι) (g : ι → List (Ev σ V)) :
    proj r (l.flatMap g) = l.flatMap fun i => proj r (g i) := by
  unfold proj; rw [List.flatMap_assoc]

/-- a flatMap in which only one index contributes -/
theorem flatMap_single {α : Type*} (M r : ℕ) (g : ℕ → List α) (h : ∀ i, i ≠ r → g i = []) :
    (List.range M).flatMap g = if r < M then g r else [] := by
  induction M with
  | zero => simp
  | succ M ih =>
    rw [List.range_succ, List.flatMap_append, ih, List.flatMap_singleton]
    by_cases h1 : r < M
    · rw [if_pos h1, if_pos (by omega), h M (by omega)]; simp
    · rw [if_neg h1]
      by_cases h2 : r = M
      · subst h2; simp
      · rw [h M (fun h => h2 h.symm), if_neg (by omega)]; rfl

theorem proj_allLoc (M : ℕ) (f : ℕ → σ → σ) (r : ℕ) :
    proj r (allLoc M f : List (Ev σ V)) = if r < M then [Op.loc (f r)] else [] := by
  unfold allLoc proj
  rw [List.flatMap_map, flatMap_single M r _ (fun i hi => by simp [projEv, hi])]
  simp [projEv]

theorem proj_reduceEv (M root : ℕ) (get : σ → V) (set acc : V → σ → σ) (hr : root < M) (r : ℕ) :
    proj r (reduceEv M root get set acc) = if r < M then reduceProg M root get set acc r else [] := by
  unfold reduceEv
  rw [proj_cons, proj_flatMap]
  by_cases h : r = root
  · subst h
    rw [if_pos hr]
    simp only [reduceProg, if_true, projEv, List.cons_append, List.nil_append, List.cons.injEq,
      true_and]
    congr 1
    funext i
    by_cases hi : i = r <;> simp [hi, proj, projEv]
  · rw [flatMap_single M r _ (fun i hi => by
      by_cases hi' : i = root
      · simp [hi', proj]
      · simp [hi', proj, projEv, hi, Ne.symm h])]
    simp only [projEv, Ne.symm h, if_false, List.nil_append, h, reduceProg]
    simp [proj, projEv]

theorem proj_bcastEv (M root : ℕ) (get : σ → V) (set : V → σ → σ) (hr : root < M) (r : ℕ) :
    proj r (bcastEv M root get set) = if r < M then bcastProg M root get set r else [] := by
  unfold bcastEv
  rw [proj_flatMap]
  by_cases h : r = root
  · subst h
    rw [if_pos hr]
    simp only [bcastProg, if_true]
    congr 1
    funext i
    by_cases hi : i = r <;> simp [hi, proj, projEv]
  · rw [flatMap_single M r _ (fun i hi => by
      by_cases hi' : i = root
      · simp [hi', proj]
      · simp [hi', proj, projEv, hi, Ne.symm h])]
    simp only [h, if_false, bcastProg]
    simp [proj, projEv, Ne.symm h]

theorem run_allLoc (M : ℕ) (f : ℕ → σ → σ) (st : ℕ → σ) (r : ℕ) :
    run (allLoc M f : List (Ev σ V)) st r = if r < M then f r (st r) else st r := by
  induction M with
  | zero => rfl
  | succ M ih =>
    unfold allLoc at ih ⊢
    rw [List.range_succ, List.map_append, run_append, List.map_singleton, run_cons]
    simp only [run, List.foldl_nil, runEv]
    unfold run at ih
    by_cases h : r = M
    · subst h
      rw [Function.update_self, ih, if_neg (by omega), if_pos (by omega)]
    · rw [Function.update_of_ne h, ih]
      by_cases h' : r < M
      · rw [if_pos h', if_pos (by omega)]
      · rw [if_neg h', if_neg (by omega)]

theorem run_bcastEv (M root : ℕ) (get : σ → V) (set : V → σ → σ) (st : ℕ → σ) (r : ℕ) :
    run (bcastEv M root get set) st r
      = if r < M ∧ r ≠ root then set (get (st root)) (st r) else st r := by
  have key : ∀ r, run (bcastEv M root get set) st r
      = if r < M ∧ r ≠ root then set (get (st root)) (st r) else st r := by
    induction M with
    | zero => intro r; simp [bcastEv, run]
    | succ M ih =>
      intro r
      have e : bcastEv (M + 1) root get set = bcastEv M root get set
          ++ (if M = root then [] else [Ev.comm root M 0 get set]) := by
        simp [bcastEv, List.range_succ]
      rw [e, run_append]
      by_cases hM : M = root
      · rw [if_pos hM, run, List.foldl_nil, ih r]
        by_cases h : r < M ∧ r ≠ root
        · rw [if_pos h, if_pos ⟨by omega, h.2⟩]
        · rw [if_neg h, if_neg (by omega)]
      · rw [if_neg hM, run_cons]
        simp only [run, List.foldl_nil, runEv]
        unfold run at ih
        by_cases h : r = M
        · subst h
          rw [Function.update_self, ih, ih, if_neg (by simp), if_neg (by omega),
            if_pos ⟨by omega, hM⟩]
        · rw [Function.update_of_ne h, ih r]
          by_cases h' : r < M ∧ r ≠ root
          · rw [if_pos h', if_pos ⟨by omega, h'.2⟩]
          · rw [if_neg h', if_neg (by omega)]
  exact key r

/-- what the root has accumulated -/
def reduceRes (M root : ℕ) (get : σ → V) (set acc : V → σ → σ) (st : ℕ → σ) : σ :=
  (List.range M).foldl (fun p i => if i = root then p else acc (get (st i)) p)
    (set (get (st root)) (st root))

theorem run_reduceEv (M root : ℕ) (get : σ → V) (set acc : V → σ → σ) (st : ℕ → σ) :
    run (reduceEv M root get set acc) st
      = Function.update st root (reduceRes M root get set acc st) := by
  unfold reduceEv
  rw [run_cons]
  have key : ∀ p, run ((List.range M).flatMap fun i =>
        if i = root then [] else [Ev.comm i root 0 get acc]) (Function.update st root p)
      = Function.update st root
        ((List.range M).foldl (fun p i => if i = root then p else acc (get (st i)) p) p) := by
    intro p
    induction M with
    | zero => simp [run]
    | succ M ih =>
      rw [List.range_succ, List.flatMap_append, run_append, ih, List.foldl_append,
        List.flatMap_singleton]
      by_cases hM : M = root
      · simp [hM, run]
      · simp only [hM, if_false, run_cons, List.foldl_cons, List.foldl_nil, runEv]
        rw [Function.update_self, Function.update_of_ne hM, Function.update_idem]; rfl
  exact key _

end Gusto.MPI
