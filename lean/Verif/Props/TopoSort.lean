import Verif.Model.TopoSort
import Verif.Lemmas.TimeLoop
import Mathlib.Data.List.Perm.Basic
import Mathlib.Data.List.Dedup
import Mathlib.Logic.Relation
import Mathlib.Data.Finset.Max
import Mathlib.Data.Finset.Card
import Mathlib.Order.WellFoundedSet

set_option autoImplicit false
set_option linter.unusedSectionVars false
set_option linter.unusedSimpArgs false

/-!
# C17: the evaluation order of diagnostics
-/

namespace Gusto.Props
open Gusto

namespace TopoProps
open TopoSort TimeLoop
variable {N : Type*} [DecidableEq N]

/-- `f` directly needs `d`. -/
def Needs (fd : List (N × List N)) (f d : N) : Prop := ∃ e ∈ fd, e.1 = f ∧ d ∈ e.2

/-- The diagnostics are pairwise distinct and list no requirement twice (`setup_diagnostics` passes
`sorted(set(...))`). -/
structure WellFormed (fd : List (N × List N)) : Prop where
  names : (fd.map Prod.fst).Nodup
  deps : ∀ e ∈ fd, e.2.Nodup

/-! ### Auxiliary facts -/

theorem insOf_not_mem (fd : List (N × List N)) (g : N → List N) (f : N)
    (h : f ∉ fd.map Prod.fst) :
    (fd.foldl (fun g e => Function.update g e.1 e.2) g) f = g f := by
  induction fd generalizing g with
  | nil => rfl
  | cons e fd ih =>
    simp only [List.map_cons, List.mem_cons, not_or] at h
    rw [List.foldl_cons, ih _ h.2, Function.update_of_ne h.1]

theorem insOf_mem (fd : List (N × List N)) (hn : (fd.map Prod.fst).Nodup) (e : N × List N)
    (he : e ∈ fd) : insOf fd e.1 = e.2 := by
  unfold insOf
  generalize (fun _ => [] : N → List N) = g
  induction fd generalizing g with
  | nil => simp at he
  | cons a fd ih =>
    rw [List.map_cons, List.nodup_cons] at hn
    rw [List.foldl_cons]
    rcases List.mem_cons.1 he with rfl | he
    · rw [insOf_not_mem _ _ _ hn.1, Function.update_self]
    · exact ih hn.2 he _

theorem outsOf_inner (f : N) (deps : List N) (g : N → List N) (hd : deps.Nodup) (d : N) :
    (deps.foldl (fun g d => Function.update g d (g d ++ [f])) g) d
      = if d ∈ deps then g d ++ [f] else g d := by
  induction deps generalizing g with
  | nil => simp
  | cons a deps ih =>
    rw [List.nodup_cons] at hd
    rw [List.foldl_cons, ih _ hd.2]
    by_cases h : d = a
    · subst h; simp [hd.1]
    · simp [h, Function.update_of_ne h]

theorem outsOf_eq (fd : List (N × List N)) (hd : ∀ e ∈ fd, e.2.Nodup) (d : N) :
    outsOf fd d = (fd.filter fun e => d ∈ e.2).map Prod.fst := by
  have key : ∀ g : N → List N,
      (fd.foldl (fun g e => e.2.foldl (fun g d => Function.update g d (g d ++ [e.1])) g) g) d
        = g d ++ (fd.filter fun e => d ∈ e.2).map Prod.fst := by
    induction fd with
    | nil => simp
    | cons a fd ih =>
      intro g
      rw [List.foldl_cons, ih (fun e he => hd e (by simp [he])),
        outsOf_inner _ _ _ (hd a (by simp))]
      by_cases h : d ∈ a.2
      · simp [h]
      · simp [h]
  simpa [outsOf] using key fun _ => []

theorem rootsOf_eq (fd : List (N × List N)) :
    rootsOf fd = (fd.filter fun e => e.2.length = 0).map Prod.fst := by
  have key : ∀ r : List N, fd.foldl (fun r e => if e.2.length = 0 then r ++ [e.1] else r) r
      = r ++ (fd.filter fun e => e.2.length = 0).map Prod.fst := by
    induction fd with
    | nil => simp
    | cons a fd ih =>
      intro r
      rw [List.foldl_cons, ih]
      by_cases h : a.2.length = 0
      · rw [List.filter_cons_of_pos (by simpa using h), if_pos h]; simp
      · rw [List.filter_cons_of_neg (by simpa using h), if_neg h]
  simpa [rootsOf] using key []

/-- The invariant of the `while` loop. -/
structure Inv (fd : List (N × List N)) (s : St N) : Prop where
  nodup : (s.sched ++ s.roots).Nodup
  names : ∀ f ∈ s.sched ++ s.roots, f ∈ fd.map Prod.fst
  ins : ∀ e ∈ fd, s.ins e.1 = e.2.filter fun d => d ∉ s.sched
  outs : ∀ d, s.outs d = if d ∈ s.sched then [] else (fd.filter fun e => d ∈ e.2).map Prod.fst
  ready : ∀ e ∈ fd, e.1 ∈ s.sched ++ s.roots ↔ s.ins e.1 = []
  order : ∀ a x b, s.sched = a ++ x :: b → ∀ d, Needs fd x d → d ∈ a

theorem Inv.init (fd : List (N × List N)) (h : WellFormed fd) : Inv fd (init fd) := by
  have hr := rootsOf_eq fd
  refine ⟨?_, ?_, ?_, ?_, ?_, ?_⟩
  · simp only [TopoSort.init, List.nil_append, hr]
    exact h.names.sublist (List.filter_sublist.map _)
  · intro f hf
    simp only [TopoSort.init, List.nil_append, hr] at hf
    exact (List.filter_sublist.map _).subset hf
  · intro e he; simp [TopoSort.init, insOf_mem fd h.names e he]
  · intro d; simp [TopoSort.init, outsOf_eq fd h.deps]
  · intro e he
    simp only [TopoSort.init, List.nil_append, hr, insOf_mem fd h.names e he]
    constructor
    · intro hm
      obtain ⟨e', he', heq⟩ := List.mem_map.1 hm
      have h1 := List.mem_filter.1 he'
      have : e' = e := List.inj_on_of_nodup_map h.names h1.1 he heq
      subst this
      exact List.length_eq_zero_iff.1 (by simpa using h1.2)
    · intro hm
      exact List.mem_map.2 ⟨e, List.mem_filter.2 ⟨he, by simp [hm]⟩, rfl⟩
  · intro a x b hab; simp [TopoSort.init] at hab

/-- The inner loop removes the edges out of `n`. -/
theorem relax_fold (n : N) (ms : List N) (hms : ms.Nodup) (s : St N) (hne : n ∉ ms)
    (houts : s.outs n = ms) (hin : ∀ m ∈ ms, n ∈ s.ins m) (hnd : ∀ m ∈ ms, (s.ins m).Nodup) :
    let s' := ms.foldl (relax n) s
    s'.sched = s.sched ∧
    (∀ m, s'.ins m = if m ∈ ms then (s.ins m).filter (fun d => d ≠ n) else s.ins m) ∧
    (∀ d, s'.outs d = if d = n then [] else s.outs d) ∧
    s'.roots = s.roots ++ ms.filter fun m => (s.ins m).filter (fun d => d ≠ n) = [] := by
  induction ms generalizing s with
  | nil =>
    refine ⟨rfl, by simp, fun d => ?_, by simp⟩
    by_cases h : d = n
    · subst h; simpa using houts
    · simp [h]
  | cons m ms ih =>
    rw [List.nodup_cons] at hms
    simp only [List.mem_cons, not_or] at hne
    have herase : (s.ins m).erase n = (s.ins m).filter (fun d => d ≠ n) :=
by
      rw [(hnd m (by simp)).erase_eq_filter n]
      apply List.filter_congr
      intro x _
      by_cases hx : x = n <;> simp [hx]
    have h1 := ih hms.2 (relax n s m) hne.2
      (by simp [relax, houts])
      (fun m' hm' => by
        have : m' ≠ m := fun h => hms.1 (h ▸ hm')
        simpa [relax, Function.update_of_ne this] using hin m' (by simp [hm']))
      (fun m' hm' => by
        have : m' ≠ m := fun h => hms.1 (h ▸ hm')
        simpa [relax, Function.update_of_ne this] using hnd m' (by simp [hm']))
    obtain ⟨e1, e2, e3, e4⟩ := h1
    rw [List.foldl_cons]
    refine ⟨e1, fun q => ?_, fun d => ?_, ?_⟩
    · rw [e2]
      by_cases hq : q = m
      · subst hq; simp [hms.1, relax, herase]
      · simp [relax, Function.update_of_ne hq, hq]
    · rw [e3]
      by_cases hd : d = n
      · simp [hd]
      · simp [hd, relax, Function.update_of_ne hd]
    · rw [e4]
      have hfil : List.filter (fun m' => decide (((relax n s m).ins m').filter (fun d => d ≠ n) = [])) ms
          = List.filter (fun m' => decide ((s.ins m').filter (fun d => d ≠ n) = [])) ms := by
        apply List.filter_congr
        intro m' hm'
        have : m' ≠ m := fun h => hms.1 (h ▸ hm')
        simp [relax, Function.update_of_ne this]
      rw [hfil]
      by_cases hz : (s.ins m).filter (fun d => d ≠ n) = []
      · rw [List.filter_cons_of_pos (by simpa using hz)]
        simp only [relax, Function.update_self, herase]
        rw [hz]; simp
      · rw [List.filter_cons_of_neg (by simpa using hz)]
        have : ¬ ((s.ins m).filter (fun d => d ≠ n)).length = 0 := by
          rwa [List.length_eq_zero_iff]
        simp only [relax, Function.update_self, herase]
        rw [if_neg this]

theorem Inv.step {fd : List (N × List N)} (hw : WellFormed fd) (hk : keysOk fd = true) {s : St N}
    (h : Inv fd s) (hr : s.roots ≠ []) :
    Inv fd (step s) ∧ (TopoSort.step s).sched.length = s.sched.length + 1 := by
  obtain ⟨r, n, hrn⟩ : ∃ r n, s.roots = r ++ [n] :=
    ⟨s.roots.dropLast, s.roots.getLast hr, (List.dropLast_append_getLast hr).symm⟩
  have hlast : s.roots.getLast? = some n := by rw [hrn]; simp
  have hdrop : s.roots.dropLast = r := by rw [hrn]; simp
  have hnr : n ∈ s.sched ++ s.roots := by simp [hrn]
  have hnd0 := h.nodup
  have hns : n ∉ s.sched := by
    intro hc
    rw [hrn] at hnd0
    exact (List.nodup_append.1 hnd0).2.2 n hc n (by simp) rfl
  obtain ⟨en, hen, henn⟩ := List.mem_map.1 (h.names n hnr)
  have hinsn : s.ins n = [] := by rw [← henn]; exact (h.ready en hen).1 (henn ▸ hnr)
  have hdeps : ∀ d ∈ en.2, d ∈ s.sched := by
    intro d hd
    by_contra hc
    have := h.ins en hen
    rw [henn, hinsn] at this
    have hm : d ∈ en.2.filter fun d => d ∉ s.sched := List.mem_filter.2 ⟨hd, by simpa using hc⟩
    rw [← this] at hm; cases hm
  set ms := (fd.filter fun e => n ∈ e.2).map Prod.fst with hms
  have hmsnd : ms.Nodup := hw.names.sublist (List.filter_sublist.map _)
  have houts : s.outs n = ms := by rw [h.outs, if_neg hns]
  have hmem : ∀ e ∈ fd, e.1 ∈ ms ↔ n ∈ e.2 := by
    intro e he
    constructor
    · intro hm
      obtain ⟨e', he', heq⟩ := List.mem_map.1 hm
      have h1 := List.mem_filter.1 he'
      have : e' = e := List.inj_on_of_nodup_map hw.names h1.1 he heq
      subst this; simpa using h1.2
    · intro hm; exact List.mem_map.2 ⟨e, List.mem_filter.2 ⟨he, by simpa using hm⟩, rfl⟩
  have hnms : n ∉ ms := by
    intro hc
    rw [← henn] at hc
    exact hns (hdeps n (henn ▸ (hmem en hen).1 (henn ▸ hc)))
  have hmsfd : ∀ m ∈ ms, ∃ e ∈ fd, e.1 = m ∧ n ∈ e.2 := by
    intro m hm
    obtain ⟨e, he, rfl⟩ := List.mem_map.1 hm
    exact ⟨e, (List.mem_filter.1 he).1, rfl, by simpa using (List.mem_filter.1 he).2⟩
  have hin : ∀ m ∈ ms, n ∈ s.ins m := by
    intro m hm
    obtain ⟨e, he, rfl, hne⟩ := hmsfd m hm
    rw [h.ins e he]; exact List.mem_filter.2 ⟨hne, by simpa using hns⟩
  have hnd : ∀ m ∈ ms, (s.ins m).Nodup := by
    intro m hm
    obtain ⟨e, he, rfl, -⟩ := hmsfd m hm
    rw [h.ins e he]; exact (hw.deps e he).filter _
  have hrel := relax_fold n ms hmsnd
    { s with roots := s.roots.dropLast, sched := s.sched ++ [n] } hnms houts hin hnd
  have hstep : TopoSort.step s = ms.foldl (relax n)
      { s with roots := s.roots.dropLast, sched := s.sched ++ [n] } := by
    rw [TopoSort.step, hlast]; simp only [houts]
  rw [← hstep] at hrel
  simp only [hdrop] at hrel
  obtain ⟨e1, e2, e3, e4⟩ := hrel
  have hins' : ∀ e ∈ fd, (TopoSort.step s).ins e.1 = e.2.filter fun d => d ∉ s.sched ++ [n] := by
    intro e he
    rw [e2, h.ins e he]
    split_ifs with hm
    · rw [List.filter_filter]
      apply List.filter_congr; intro x _; simp [and_comm, not_or]
    · rw [hmem e he] at hm
      apply List.filter_congr
      intro x hx
      have : x ≠ n := fun hc => hm (hc ▸ hx)
      simp [this]
  have hnew : ∀ m ∈ ms, m ∉ s.sched ++ s.roots := by
    intro m hm hc
    obtain ⟨e, he, rfl, hne⟩ := hmsfd m hm
    have := (h.ready e he).1 hc
    have h2 := hin e.1 hm
    rw [this] at h2; cases h2
  have hmem' : ∀ m, m ∈ (TopoSort.step s).sched ++ (TopoSort.step s).roots ↔
      m ∈ s.sched ++ s.roots ∨ (m ∈ ms ∧ (s.ins m).filter (fun d => d ≠ n) = []) := by
    intro m
    rw [e1, e4, hrn]
    simp only [List.mem_append, List.mem_filter, List.mem_singleton, decide_eq_true_eq]
    tauto
  refine ⟨⟨?_, ?_, ?_, ?_, ?_, ?_⟩, by rw [e1]; simp⟩
  · rw [e1, e4]
    have hperm : (s.sched ++ [n] ++ (r ++ ms.filter fun m => (s.ins m).filter (fun d => d ≠ n) = [])).Perm
        (s.sched ++ s.roots ++ ms.filter fun m => (s.ins m).filter (fun d => d ≠ n) = []) := by
      rw [hrn, ← List.append_assoc]
      refine List.Perm.append_right _ ?_
      rw [List.append_assoc]
      exact List.Perm.append_left _ (List.perm_append_comm)
    rw [hperm.nodup_iff, List.nodup_append]
    refine ⟨h.nodup, hmsnd.filter _, ?_⟩
    rintro a ha b hb rfl
    exact hnew a (List.mem_filter.1 hb).1 ha
  · intro f hf
    rcases (hmem' f).1 hf with hc | ⟨hc, -⟩
    · exact h.names f hc
    · obtain ⟨e, he, rfl, -⟩ := hmsfd f hc
      exact List.mem_map.2 ⟨e, he, rfl⟩
  · intro e he; rw [hins' e he, e1]
  · intro d
    rw [e3, e1, h.outs]
    by_cases hd : d = n
    · simp [hd]
    · simp [hd]
  · intro e he
    rw [hmem']
    have hi := e2 e.1
    constructor
    · rintro (hc | ⟨hc, hz⟩)
      · have h0 := (h.ready e he).1 hc
        rw [hi, h0]; simp
      · rw [hi, if_pos hc, hz]
    · intro h0
      rw [hi] at h0
      split_ifs at h0 with hm
      · exact .inr ⟨hm, h0⟩
      · exact .inl ((h.ready e he).2 h0)
  · intro a x b hab d hd
    rw [e1] at hab
    rcases List.eq_nil_or_concat b with rfl | ⟨b', y, rfl⟩
    · have := List.append_inj' hab rfl
      obtain ⟨rfl, hx⟩ := this
      obtain rfl : n = x := by simpa using hx
      obtain ⟨e, he, hex, hde⟩ := hd
      have : e = en := List.inj_on_of_nodup_map hw.names he hen (hex.trans henn.symm)
      subst this
      exact hdeps d hde
    · have hab' : s.sched ++ [n] = (a ++ x :: b') ++ [y] := by simpa using hab
      have := (List.append_inj' hab' rfl).1
      exact h.order a x b' this d hd

theorem loop_terminates {fd : List (N × List N)} (hw : WellFormed fd) (hk : keysOk fd = true)
    (s : St N) (h : Inv fd s) :
    ∃ n s', While (fun s : St N => s.roots ≠ []) step s n s' ∧ Inv fd s' := by
  have hlen : ∀ s : St N, Inv fd s → s.sched.length ≤ fd.length := by
    intro s h
    have hn : s.sched.Nodup := (List.nodup_append.1 h.nodup).1
    have hsub : s.sched ⊆ fd.map Prod.fst := fun f hf => h.names f (by simp [hf])
    have := (hn.subperm hsub).length_le
    simpa using this
  generalize hm : fd.length - s.sched.length = m
  induction m using Nat.strong_induction_on generalizing s with
  | _ m ih =>
    by_cases hr : s.roots = []
    · exact ⟨0, s, .stop (by simpa using hr), h⟩
    · obtain ⟨h', hl⟩ := h.step hw hk hr
      have := hlen _ h'
      obtain ⟨n, s', hw', hi'⟩ := ih (fd.length - (step s).sched.length) (by omega) _ h' rfl
      exact ⟨n + 1, s', .iter hr hw', hi'⟩

/-! ### The properties -/

/-- C17: `topo_sort` always ends, with exactly one outcome. -/
theorem C17_terminates (fd : List (N × List N)) (hw : WellFormed fd) : ∃ r, Sorts fd r := by
  by_cases hk : keysOk fd = true
  · obtain ⟨n, s, h, hi⟩ := loop_terminates hw hk _ (Inv.init fd hw)
    by_cases hz : ∀ f ∈ fd.map Prod.fst, (s.ins f).length = 0
    · exact ⟨_, .ok hk h hz⟩
    · refine ⟨_, .cycle hk h ?_⟩
      by_contra hc
      exact hz fun f hf => by by_contra h0; exact hc ⟨f, hf, h0⟩
  · exact ⟨_, .key (by simpa using hk)⟩

theorem C17_deterministic (fd : List (N × List N)) (r r' : Result N) (h : Sorts fd r)
    (h' : Sorts fd r') : r = r' := by
  cases h with
  | key h1 =>
    cases h' with
    | key => rfl
    | ok h2 => rw [h1] at h2; cases h2
    | cycle h2 => rw [h1] at h2; cases h2
  | ok h1 w1 z1 =>
    cases h' with
    | key h2 => rw [h1] at h2; cases h2
    | ok h2 w2 => obtain ⟨-, rfl⟩ := While_unique w1 w2; rfl
    | cycle h2 w2 z2 =>
      obtain ⟨-, rfl⟩ := While_unique w1 w2
      obtain ⟨f, hf, hz⟩ := z2; exact absurd (z1 f hf) hz
  | cycle h1 w1 z1 =>
    cases h' with
    | key h2 => rw [h1] at h2; cases h2
    | ok h2 w2 z2 =>
      obtain ⟨-, rfl⟩ := While_unique w1 w2
      obtain ⟨f, hf, hz⟩ := z1; exact absurd (z2 f hf) hz
    | cycle => rfl

theorem inv_of_while {fd : List (N × List N)} (hw : WellFormed fd) (hk : keysOk fd = true)
    {n : ℕ} {s : St N} (h : While (fun s : St N => s.roots ≠ []) step (init fd) n s) :
    Inv fd s ∧ s.roots = [] := by
  obtain ⟨n', s', h', hi⟩ := loop_terminates hw hk _ (Inv.init fd hw)
  obtain ⟨-, rfl⟩ := While_unique h h'
  exact ⟨hi, by simpa using ((While_iff _ _ _ _ _).1 h).2.1⟩

/-- C17: a returned schedule contains every diagnostic exactly once, and each one comes after all
the diagnostics it needs. -/
theorem C17_schedule (fd : List (N × List N)) (hw : WellFormed fd) (sched : List N)
    (h : Sorts fd (.ok sched)) :
    sched.Perm (fd.map Prod.fst) ∧
    ∀ a f b, sched = a ++ f :: b → ∀ d, Needs fd f d → d ∈ a := by
  cases h with
  | @ok n s hk hwh hz =>
    obtain ⟨hi, hr⟩ := inv_of_while hw hk hwh
    refine ⟨?_, hi.order⟩
    have hnd := hi.nodup
    have hnm := hi.names
    rw [hr, List.append_nil] at hnd hnm
    rw [List.perm_ext_iff_of_nodup hnd hw.names]
    intro f
    refine ⟨hnm f, fun hf => ?_⟩
    obtain ⟨e, he, rfl⟩ := List.mem_map.1 hf
    have := (hi.ready e he).2 (List.length_eq_zero_iff.1 (hz _ hf))
    rwa [hr, List.append_nil] at this

/-- C17: a requirement that is neither a diagnostic nor otherwise available is reported (as a
KeyError), and only then. -/
theorem C17_missing_iff (fd : List (N × List N)) (hw : WellFormed fd) :
    Sorts fd .keyError ↔ ∃ f d, Needs fd f d ∧ d ∉ fd.map Prod.fst := by
  constructor
  · intro h
    cases h with
    | key h =>
      simp only [keysOk, List.all_eq_false, Bool.not_eq_true, decide_eq_true_eq] at h
      obtain ⟨e, he, h⟩ := h
      obtain ⟨d, hd, h⟩ := h
      exact ⟨e.1, d, ⟨e, he, rfl, hd⟩, by simpa using h⟩
  · rintro ⟨f, d, ⟨e, he, rfl, hd⟩, hm⟩
    refine .key ?_
    simp only [keysOk, List.all_eq_false, Bool.not_eq_true, decide_eq_true_eq]
    exact ⟨e, he, d, hd, by simpa using hm⟩

/-- C17: the cycle error is raised if and only if some diagnostic (indirectly) needs itself. -/
theorem C17_cycle_iff (fd : List (N × List N)) (hw : WellFormed fd)
    (hkeys : ∀ f d, Needs fd f d → d ∈ fd.map Prod.fst) :
    Sorts fd .cycleError ↔ ∃ f, Relation.TransGen (Needs fd) f f := by
  have hk : keysOk fd = true := by
    rw [keysOk, List.all_eq_true]
    intro e he
    rw [List.all_eq_true]
    intro d hd
    exact decide_eq_true (hkeys e.1 d ⟨e, he, rfl, hd⟩)
  constructor
  · intro h
    cases h with
    | @cycle n s _ hwh hz =>
      obtain ⟨hi, hr⟩ := inv_of_while hw hk hwh
      -- the unfinished diagnostics, each of which needs another one
      let U : Set N := {f | f ∈ fd.map Prod.fst ∧ s.ins f ≠ []}
      have hnext : ∀ f ∈ U, ∃ d ∈ U, Needs fd f d := by
        rintro f ⟨hf, hne⟩
        obtain ⟨e, he, rfl⟩ := List.mem_map.1 hf
        obtain ⟨d, hd⟩ := List.exists_mem_of_ne_nil _ hne
        rw [hi.ins e he, List.mem_filter] at hd
        have hdn : d ∉ s.sched := by simpa using hd.2
        have hneed : Needs fd e.1 d := ⟨e, he, rfl, hd.1⟩
        obtain ⟨e', he', rfl⟩ := List.mem_map.1 (hkeys _ _ hneed)
        refine ⟨e'.1, ⟨List.mem_map.2 ⟨e', he', rfl⟩, fun h0 => ?_⟩, hneed⟩
        have := (hi.ready e' he').2 h0
        rw [hr, List.append_nil] at this
        exact hdn this
      obtain ⟨f0, hf0, hz0⟩ := hz
      have hU0 : f0 ∈ U := ⟨hf0, fun h => hz0 (by simp [h])⟩
      by_contra hno
      push Not at hno
      -- otherwise `Needs` is well founded on the finite set of names
      have hfin : U.Finite := (List.finite_toSet (fd.map Prod.fst)).subset fun f hf => hf.1
      have hirr : ∀ f, ¬ Relation.TransGen (Needs fd) f f := hno
      obtain ⟨m, hm, hmin⟩ : ∃ m ∈ U, ∀ x ∈ U, ¬ Relation.TransGen (Needs fd) m x := by
        have : IsStrictOrder N (fun a b => Relation.TransGen (Needs fd) b a) :=
          { irrefl := hirr, trans := fun _ _ _ h1 h2 => h2.trans h1 }
        have hwf := hfin.wellFoundedOn (r := fun a b => Relation.TransGen (Needs fd) b a)
        obtain ⟨m, -, hmin⟩ := WellFounded.has_min hwf Set.univ ⟨⟨f0, hU0⟩, trivial⟩
        exact ⟨m.1, m.2, fun x hx hmx => hmin ⟨x, hx⟩ trivial hmx⟩
      obtain ⟨d, hd, hnd⟩ := hnext m hm
      exact hmin d hd (.single hnd)
  · rintro ⟨f, hf⟩
    obtain ⟨r, hr⟩ := C17_terminates fd hw
    cases r with
    | keyError =>
      obtain ⟨f, d, h, hm⟩ := (C17_missing_iff fd hw).1 hr
      exact absurd (hkeys f d h) hm
    | cycleError => exact hr
    | ok sched =>
      exfalso
      obtain ⟨hp, ho⟩ := C17_schedule fd hw sched hr
      have hnd : sched.Nodup := hp.nodup_iff.2 hw.names
      have hlt : ∀ a b, Needs fd a b → sched.idxOf b < sched.idxOf a := by
        intro a b hab
        have ha : a ∈ sched := by
          obtain ⟨e, he, rfl, -⟩ := hab
          exact hp.mem_iff.2 (List.mem_map.2 ⟨e, he, rfl⟩)
        obtain ⟨l, r, hlr⟩ := List.append_of_mem ha
        have hb := ho l a r hlr b hab
        have hal : a ∉ l := by
          intro h
          rw [hlr] at hnd
          exact (List.nodup_append.1 hnd).2.2 a h a (by simp) rfl
        rw [hlr, List.idxOf_append_of_mem hb, List.idxOf_append_of_notMem hal]
        have := List.idxOf_lt_length_iff.2 hb
        simp; omega
      have : ∀ a b, Relation.TransGen (Needs fd) a b → sched.idxOf b < sched.idxOf a := by
        intro a b h
        induction h with
        | single h => exact hlt _ _ h
        | tail _ h ih => exact (hlt _ _ h).trans ih
      exact lt_irrefl _ (this f f hf)

/-- C17: so a schedule is found exactly when no requirement is missing and there is no cycle. -/
theorem C17_ok_iff (fd : List (N × List N)) (hw : WellFormed fd) :
    (∃ sched, Sorts fd (.ok sched)) ↔
      (∀ f d, Needs fd f d → d ∈ fd.map Prod.fst) ∧
      ∀ f, ¬ Relation.TransGen (Needs fd) f f := by
  constructor
  · rintro ⟨sched, h⟩
    have hkeys : ∀ f d, Needs fd f d → d ∈ fd.map Prod.fst := by
      intro f d hfd
      by_contra hm
      have := C17_deterministic fd _ _ h ((C17_missing_iff fd hw).2 ⟨f, d, hfd, hm⟩)
      cases this
    refine ⟨hkeys, fun f hf => ?_⟩
    have := C17_deterministic fd _ _ h ((C17_cycle_iff fd hw hkeys).2 ⟨f, hf⟩)
    cases this
  · rintro ⟨hkeys, hac⟩
    obtain ⟨r, hr⟩ := C17_terminates fd hw
    cases r with
    | ok sched => exact ⟨sched, hr⟩
    | keyError =>
      obtain ⟨f, d, h, hm⟩ := (C17_missing_iff fd hw).1 hr
      exact absurd (hkeys f d h) hm
    | cycleError =>
      obtain ⟨f, hf⟩ := (C17_cycle_iff fd hw hkeys).1 hr
      exact absurd hf (hac f)

/-- C17 for the IO object: whatever the diagnostics require and whatever is available without
being computed, the computed order evaluates every diagnostic once and after every required field
that is itself a diagnostic and not otherwise available. -/
theorem C17_setup_diagnostics (diags : List (N × List N)) (available : List N)
    (hn : (diags.map Prod.fst).Nodup) (sched : List N)
    (h : Sorts (fieldDeps diags available) (.ok sched)) :
    sched.Perm (diags.map Prod.fst) ∧
    ∀ a f b, sched = a ++ f :: b → ∀ e ∈ diags, e.1 = f → ∀ r ∈ e.2, r ∈ a ∨ r ∈ available := by
  have hnames : (fieldDeps diags available).map Prod.fst = diags.map Prod.fst := by
    simp [fieldDeps, Function.comp_def]
  have hw : WellFormed (fieldDeps diags available) := by
    refine ⟨by rwa [hnames], ?_⟩
    intro e he
    obtain ⟨e', -, rfl⟩ := List.mem_map.1 he
    exact (List.nodup_dedup _).filter _
  obtain ⟨hp, ho⟩ := C17_schedule _ hw sched h
  refine ⟨hnames ▸ hp, fun a f b hab e he hef r hr => ?_⟩
  by_cases hav : r ∈ available
  · exact .inr hav
  · refine .inl (ho a f b hab r ⟨_, List.mem_map.2 ⟨e, he, rfl⟩, hef, ?_⟩)
    exact List.mem_filter.2 ⟨List.mem_dedup.2 hr, by simpa using hav⟩

/-- Without distinct names the claim fails: of two diagnostics with the same name one is
evaluated twice and the other never (the dictionary keeps the last). -/
theorem C17_duplicate_names_refuted :
    Sorts [((0 : ℕ), []), (0, [])] (.ok [0, 0]) := by
  have h : While (fun s : St ℕ => s.roots ≠ []) step (init [((0 : ℕ), []), (0, [])]) 2
      { ins := insOf [((0 : ℕ), []), (0, [])], outs := outsOf [((0 : ℕ), []), (0, [])],
        roots := [], sched := [0, 0] } := by
    rw [While_iff]
    refine ⟨rfl, by simp, ?_⟩
    intro m hm
    match m, hm with
    | 0, _ => simp [init, rootsOf]
    | 1, _ => simp [init, rootsOf, step, outsOf]
  exact .ok (by decide) h (by simp [insOf])

/-- A diamond: 0 needs 1 and 2, both need 3. -/
def diamond : List (ℕ × List ℕ) := [(0, [1, 2]), (1, [3]), (2, [3]), (3, [])]

example : WellFormed diamond := ⟨by decide, by decide⟩

example : ∃ sched, Sorts diamond (.ok sched) := by
  rw [C17_ok_iff _ ⟨by decide, by decide⟩]
  have hlt : ∀ f d, Needs diamond f d → f < d ∧ d ∈ diamond.map Prod.fst := by
    rintro f d ⟨e, he, rfl, hd⟩
    revert d
    simp only [diamond, List.mem_cons, List.not_mem_nil, or_false] at he
    rcases he with rfl | rfl | rfl | rfl <;> simp [diamond]
  refine ⟨fun f d h => (hlt f d h).2, fun f hf => ?_⟩
  have : ∀ a b, Relation.TransGen (Needs diamond) a b → a < b := by
    intro a b h
    induction h with
    | single h => exact (hlt _ _ h).1
    | tail _ h ih => exact ih.trans (hlt _ _ h).1
  exact lt_irrefl _ (this f f hf)

end TopoProps
end Gusto.Props
