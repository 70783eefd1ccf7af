import Verif.Model.ParallelIO
import Mathlib.Algebra.Order.BigOperators.Group.List
import Mathlib.Data.List.Induction
import Mathlib.Algebra.BigOperators.Group.List.Basic

set_option autoImplicit false
set_option linter.unusedSectionVars false
set_option linter.unusedSimpArgs false

/-!
# C19, C20: output in parallel
-/

namespace Gusto.Props
open Gusto

namespace ParallelProps
open ParallelIO
variable {α : Type*}

theorem exscan_eq (sizes : List ℕ) (r : ℕ) : exscan sizes r = (sizes.take r).sum := by
  unfold exscan; split_ifs with h
  · simp [h]
  · rfl

theorem lims_eq (locals : List (List α)) (r : ℕ) (hr : r < locals.length) :
    lims locals r = ((locals.take r).flatten.length, (locals.take (r + 1)).flatten.length) := by
  have h1 : exscan (locals.map List.length) r = (locals.take r).flatten.length := by
    rw [exscan_eq, List.length_flatten, List.map_take]
  unfold lims
  simp only [h1]
  congr 1
  rw [List.take_add_one, List.flatten_append, List.length_append]
  simp [hr]

/-- C19: the slices are contiguous in rank order: they start at 0, each one starts where the
previous one stops, and the last one stops at the total size. -/
theorem C19_contiguous (locals : List (List α)) :
    (∀ r, r + 1 < locals.length → (lims locals (r + 1)).1 = (lims locals r).2) ∧
    (0 < locals.length → (lims locals 0).1 = 0) ∧
    (∀ r, r + 1 = locals.length → (lims locals r).2 = locals.flatten.length) ∧
    (∀ r < locals.length, (lims locals r).2 - (lims locals r).1 = (locals.getD r []).length) := by
  refine ⟨fun r hr => ?_, fun hr => ?_, fun r hr => ?_, fun r _ => ?_⟩
  · rw [lims_eq _ _ hr, lims_eq _ _ (by omega)]
  · rw [lims_eq _ _ hr]; simp
  · rw [lims_eq _ _ (by omega), hr, List.take_length]
  · simp [lims]

/-- C19: slices of different ranks are disjoint. -/
theorem C19_disjoint (locals : List (List α)) (r r' : ℕ) (hr : r < r') (hr' : r' < locals.length) :
    (lims locals r).2 ≤ (lims locals r').1 := by
  rw [lims_eq _ _ (by omega), lims_eq _ _ hr']
  have : (locals.take (r + 1)).flatten <+: (locals.take r').flatten := by
    obtain ⟨t, ht⟩ := List.take_prefix_take_left (l := locals) (show r + 1 ≤ r' by omega)
    rw [← ht, List.flatten_append]; exact List.prefix_append _ _
  exact this.length_le

/-- The entry written at `i` by the rank that owns it. -/
theorem flatten_getElem (locals : List (List α)) (r i : ℕ) (hr : r < locals.length)
    (h1 : (lims locals r).1 ≤ i) (h2 : i < (lims locals r).2) :
    (locals.getD r [])[i - (lims locals r).1]? = locals.flatten[i]? := by
  rw [lims_eq _ _ hr] at *
  simp only at *
  have hsplit : locals.flatten = (locals.take r).flatten ++ locals.getD r [] ++
      (locals.drop (r + 1)).flatten := by
    have e : locals = locals.take r ++ locals[r] :: locals.drop (r + 1) := by
      rw [← List.drop_eq_getElem_cons hr, List.take_append_drop]
    have e2 := congrArg List.flatten e
    rw [List.flatten_append, List.flatten_cons] at e2
    rw [e2]; simp [hr]
  rw [hsplit]
  have hlen : i - (locals.take r).flatten.length < (locals.getD r []).length := by
    rw [List.take_add_one, List.flatten_append, List.length_append] at h2
    have e : (locals[r]?.toList.flatten).length = (locals.getD r []).length := by simp [hr]
    rw [e] at h2
    omega
  rw [List.append_assoc, List.getElem?_append_right h1, List.getElem?_append_left hlen]

/-- C19: in whatever order the ranks write, if every rank writes (once or more often), the array
in the file is the concatenation of the ranks' arrays, with nothing left unwritten or written
beyond the end. -/
theorem C19_written (locals : List (List α)) (order : List ℕ)
    (hranks : ∀ r ∈ order, r < locals.length) (hall : ∀ r < locals.length, r ∈ order)
    (i : ℕ) : writeAll locals order (fun _ => none) i = locals.flatten[i]? := by
  -- an entry is either still as it was or the right one; once its owner has written it is right
  have inv : ∀ (order : List ℕ), (∀ r ∈ order, r < locals.length) → ∀ g : ℕ → Option α,
      (writeAll locals order g i = g i ∧ ∀ r ∈ order,
        ¬ ((lims locals r).1 ≤ i ∧ i < (lims locals r).2)) ∨
      writeAll locals order g i = locals.flatten[i]? := by
    intro order
    induction order using List.reverseRecOn with
    | nil => intro _ g; exact .inl ⟨rfl, by simp⟩
    | append_singleton order r ih =>
      intro h g
      have hih := ih (fun q hq => h q (by simp [hq])) g
      rw [writeAll, List.foldl_append, List.foldl_cons, List.foldl_nil, ← writeAll, writeSlice]
      by_cases hc : (lims locals r).1 ≤ i ∧ i < (lims locals r).2
      · rw [if_pos hc]
        exact .inr (flatten_getElem locals r i (h r (by simp)) hc.1 hc.2)
      · rw [if_neg hc]
        rcases hih with ⟨h1, h2⟩ | h1
        · refine .inl ⟨h1, fun q hq => ?_⟩
          rcases List.mem_append.1 hq with hq | hq
          · exact h2 q hq
          · rw [List.mem_singleton.1 hq]; exact hc
        · exact .inr h1
  rcases inv order hranks (fun _ => none) with ⟨h1, h2⟩ | h1
  · rw [h1]
    symm
    rw [List.getElem?_eq_none_iff]
    by_contra hlt
    push Not at hlt
    -- some rank owns `i`
    have hown : ∀ n ≤ locals.length, i < (locals.take n).flatten.length →
        ∃ r < n, (lims locals r).1 ≤ i ∧ i < (lims locals r).2 := by
      intro n
      induction n with
      | zero => intro _ h; simp at h
      | succ n ih =>
        intro hn h
        by_cases hc : i < (locals.take n).flatten.length
        · obtain ⟨r, hr, h'⟩ := ih (by omega) hc
          exact ⟨r, by omega, h'⟩
        · refine ⟨n, by omega, ?_⟩
          rw [lims_eq _ _ (by omega)]
          exact ⟨by simpa using hc, h⟩
    obtain ⟨r, hr, h'⟩ := hown locals.length le_rfl (by simpa using hlt)
    exact h2 r (hall r hr) h'
  · exact h1

/-- C19: the fallback without parallel netCDF writes the same array. -/
theorem C19_serial_same (locals : List (List α)) (order : List ℕ)
    (hranks : ∀ r ∈ order, r < locals.length) (hall : ∀ r < locals.length, r ∈ order) (i : ℕ) :
    writeAll locals order (fun _ => none) i = (gather locals)[i]? := by
  rw [C19_written locals order hranks hall, gather]
  split_ifs with h
  · match locals, h with
    | [l], _ => simp
  · rfl

example : writeAll [[1, 2], [], [3, 4, 5]] [2, 0, 1] (fun _ => none) 3 = some 4 := by decide

/-! ## C20 -/

theorem allreduce_code (f : DumpFlags) (size : ℕ) (h : 0 < size) :
    allreduceMax ((List.range size).map (localCode f)) = localCode f 0 := by
  obtain ⟨n, rfl⟩ : ∃ n, size = n + 1 := ⟨size - 1, by omega⟩
  rw [List.range_succ_eq_map, List.map_cons, List.map_map, allreduceMax, List.foldl_cons]
  have hz : ∀ l : List ℕ, ∀ a, (l.map (localCode f ∘ Nat.succ)).foldl max a = a := by
    intro l
    induction l with
    | nil => intro a; rfl
    | cons x l ih => intro a; rw [List.map_cons, List.foldl_cons, ih]; simp [localCode]
  rw [hz]; simp

/-- C20: no rank proceeds while another raises, and all raise the same kind of error. -/
theorem C20_uniform (f : DumpFlags) (size r r' : ℕ) :
    (setupDump f size r = .proceed ↔ setupDump f size r' = .proceed) ∧
    (setupDump f size r = .gustoIOError ↔ setupDump f size r' = .gustoIOError) ∧
    ((∃ b, setupDump f size r = .osError b) ↔ ∃ b, setupDump f size r' = .osError b) := by
  unfold setupDump
  dsimp only
  split_ifs <;> simp

/-- C20: exactly when each outcome occurs, in terms of what rank 0 finds. -/
theorem C20_outcomes (f : DumpFlags) (size r : ℕ) (hr : r < size) :
    (setupDump f size r = .gustoIOError ↔ wantsDir f = true ∧ f.dirExists = true ∧
      f.runningTests = false ∧ f.pickUp = false ∧ f.overwriteFiles = false) ∧
    ((∃ b, setupDump f size r = .osError b) ↔ wantsDir f = true ∧ f.dirExists = false ∧
      f.makedirsOk = false) := by
  unfold setupDump
  rw [allreduce_code f size (by omega)]
  cases hw : wantsDir f <;> cases hd : f.dirExists <;> cases hm : f.makedirsOk <;>
    cases ht : f.runningTests <;> cases hp : f.pickUp <;> cases ho : f.overwriteFiles <;>
    simp [localCode, hd, hm, ht, hp, ho]

/-- C20: a directory is wanted exactly if some output is requested (a checkpoint alone does not
count when picking up). -/
theorem C20_wants (f : DumpFlags) : wantsDir f = true ↔ f.dumpVtus = true ∨ f.dumpNc = true ∨
    f.dumplistLatlon = true ∨ f.dumpDiagnostics = true ∨ f.pointData = true ∨
    (f.checkpoint = true ∧ f.pickUp = false) := by
  simp [wantsDir]

/-- C20: existing results are overwritten only if the user asked for it, is picking up, or is
running tests. -/
theorem C20_protected (f : DumpFlags) (size r : ℕ) (hr : r < size) (hw : wantsDir f = true)
    (hd : f.dirExists = true) (h : setupDump f size r = .proceed) :
    f.overwriteFiles = true ∨ f.pickUp = true ∨ f.runningTests = true := by
  by_contra hc
  simp only [not_or, Bool.not_eq_true] at hc
  rw [(C20_outcomes f size r hr).1.2 ⟨hw, hd, hc.2.2, hc.2.1, hc.1⟩] at h
  cases h

/-- With nothing requested nothing is checked: with a checkpoint as only output and `pick_up`, the
directory is not inspected. -/
example : wantsDir ⟨false, false, false, false, false, true, true, false, false, true, true⟩ = false
    := by decide

example : setupDump ⟨false, true, false, true, false, true, false, false, false, true, true⟩ 4 3
    = .gustoIOError := by decide

end ParallelProps
end Gusto.Props
