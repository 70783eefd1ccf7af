import Verif.Props.TimeLoop

set_option autoImplicit false
set_option linter.unusedSectionVars false
set_option linter.unusedSimpArgs false

/-!
# C63: runs that are killed and resumed any number of times
-/

namespace Gusto.Props.RestartProps
open Gusto Gusto.TimeLoop Gusto.Multilevel Gusto.Props.LoopProps
variable {K X : Type*} [Field K] [LinearOrder K] [IsStrictOrderedRing K]

/-- Specification: the disk contents that may be found when the process of a run to `tmax` has been killed, at any moment,
any number of times.  The first process starts at time `t`; each further one is constructed again (`c0'`, with as many
time levels and the same start-up counter as the first one) and picks up what the previous one left.  A process is killed
while it runs, so the loop condition held at the beginning of every step. -/
inductive Disk (A : Stepper K X) (cfg : Config) (tmax t : K) (c0 : Core K X) : Files K X → Prop
  | first {n : ℕ} {f : Files K X} :
      (∀ m < n, loopCond A tmax ((body A cfg)^[m] (fresh cfg t c0))) →
      f ∈ ((body A cfg)^[n] (fresh cfg t c0)).history → Disk A cfg tmax t c0 f
  | again {f g : Files K X} {c0' : Core K X} {r : Sys K X} {n : ℕ} : Disk A cfg tmax t c0 f →
      c0'.levels.previous.length = c0.levels.previous.length → c0'.initial = c0.initial →
      resume cfg f c0' = some r → (∀ m < n, loopCond A tmax ((body A cfg)^[m] r)) →
      g ∈ ((body A cfg)^[n] r).history → Disk A cfg tmax t c0 g

theorem resume_some {cfg : Config} {f : Files K X} {c0 : Core K X} {r : Sys K X} (h : resume cfg f c0 = some r) :
    cfg.checkpoint = true ∧ ∃ k, f.chk = .complete k ∧ r.core = pickUp k c0 ∧ r.files = f ∧ r.history = [] := by
  unfold resume at h
  split_ifs at h with hc
  cases hk : f.chk with
  | absent => rw [hk] at h; cases h
  | partialWrite => rw [hk] at h; cases h
  | complete k =>
    rw [hk] at h
    cases h
    exact ⟨hc, k, rfl, rfl, rfl, rfl⟩

/-- The checkpoints of a resumed run are those of the uninterrupted one. -/
theorem resumed_chk (A : Stepper K X) (cfg : Config) (c1 : Core K X) (k : ℕ) (r : Sys K X)
    (hag : Agree ((coreStep A)^[k] c1) r.core) (hch : r.files.chk = .complete (ckptAt A c1 k)) (hh : r.history = [])
    (n : ℕ) :
    (∃ m ≤ n, ((body A cfg)^[n] r).files.chk = .complete (ckptAt A c1 (k + m))) ∧
    ∀ g ∈ ((body A cfg)^[n] r).history, g.chk = .partialWrite ∨ ∃ m ≤ n, g.chk = .complete (ckptAt A c1 (k + m)) := by
  induction n with
  | zero => exact ⟨⟨0, le_rfl, hch⟩, by simp [hh]⟩
  | succ n ih =>
    obtain ⟨⟨m, hm, i1⟩, i2⟩ := ih
    have ic : coreStep A ((body A cfg)^[n] r).core = (coreStep A)^[k + (n + 1)] c1 := by
      rw [iterate_core, ← Function.iterate_succ_apply' (coreStep A), Function.iterate_succ_apply, ← hag.step_eq A,
        ← Function.iterate_succ_apply, ← Function.iterate_add_apply, Nat.add_comm]
    have hsave : save ((coreStep A)^[k + (n + 1)] c1) ((coreStep A)^[k + (n + 1)] c1).initial =
        ckptAt A c1 (k + (n + 1)) := by
      rw [ckptAt, if_neg (by omega)]
    rw [Function.iterate_succ_apply', body]
    generalize (body A cfg)^[n] r = u at *
    refine ⟨?_, fun g hg => ?_⟩
    · rw [dump_chk]
      split_ifs with h
      · exact ⟨n + 1, le_rfl, by simp only [ic, hsave]⟩
      · exact ⟨m, by omega, i1⟩
    · rcases dump_history_chk _ _ _ g hg with h | h | ⟨-, -, h | h⟩
      · rcases i2 g h with h | ⟨m, hm, h⟩
        · exact .inl h
        · exact .inr ⟨m, by omega, h⟩
      · exact .inr ⟨m, by omega, by rw [h]; exact i1⟩
      · exact .inl h
      · exact .inr ⟨n + 1, le_rfl, by rw [h]; simp only [ic, hsave]⟩

/-- Whatever is on the disk: no checkpoint, half a checkpoint, or one of the checkpoints of the uninterrupted run. -/
theorem disk_chk (A : Stepper K X) (cfg : Config) (t tmax : K) (c0 : Core K X) (hne : c0.levels.previous ≠ [])
    (N : ℕ) (s : Sys K X) (hrun : Run A cfg tmax (fresh cfg t c0) N s) (f : Files K X) (hf : Disk A cfg tmax t c0 f) :
    f.chk = .absent ∨ f.chk = .partialWrite ∨
      ∃ k ≤ N, f.chk = .complete (ckptAt A { c0 with t := t, step := 1 } k) := by
  obtain ⟨-, hN, -⟩ := (run_iff _ _ _ _ _ _).1 hrun
  rw [show (fresh cfg t c0).core.t = t by rw [fresh_core]] at hN
  induction hf with
  | @first n f hl hf =>
    have hn : n ≤ N := by
      by_contra hlt
      have := hl N (not_le.1 hlt)
      rw [loopCond, iterate_core, core_t, fresh_core] at this
      exact hN this
    rcases history_chk A cfg t c0 n f hf with h | h | ⟨k, hk, -, h⟩
    · exact .inl h
    · exact .inr (.inl h)
    · exact .inr (.inr ⟨k, hk.trans hn, h⟩)
  | @again f g c0' r n _ hlev hini hres hl hg ih =>
    obtain ⟨hc, k, hk, h1, h2, h3⟩ := resume_some hres
    rcases ih with h | h | ⟨j, hj, h⟩
    · rw [h] at hk; cases hk
    · rw [h] at hk; cases hk
    rw [h] at hk
    cases hk
    have hag := agree_ckptAt A { c0 with t := t, step := 1 } c0' hne hlev hini j
    rw [← h1] at hag
    have hjn : j + n ≤ N := by
      by_contra hlt
      have := hl (N - j) (by omega)
      rw [loopCond, iterate_core, core_t, ← hag.t, core_t, ← Function.iterate_add_apply, Nat.sub_add_cancel hj] at this
      exact hN this
    rcases (resumed_chk A cfg _ j r hag (by rw [h2]; exact h) h3 n).2 g hg with h | ⟨m, hm, h⟩
    · exact .inr (.inl h)
    · exact .inr (.inr ⟨j + m, by omega, h⟩)

/-- C63: a run that is killed and resumed any number of times, at any moments.  Whatever is left on the disk, either there
is no complete checkpoint (none has been written yet, or one was being written), or a newly constructed model with
`pick_up=True` resumes, ends, and ends with the same fields, time and step number as the run that was never killed; it
takes the steps which come after the checkpoint. -/
theorem C63_repeated_crashes (A : Stepper K X) (cfg : Config) (hchk : cfg.checkpoint = true) (t tmax : K)
    (c0 c0' : Core K X) (hne : c0.levels.previous ≠ [])
    (hlev : c0'.levels.previous.length = c0.levels.previous.length) (hini : c0'.initial = c0.initial)
    (N : ℕ) (s : Sys K X) (hrun : Run A cfg tmax (fresh cfg t c0) N s) (f : Files K X) (hf : Disk A cfg tmax t c0 f) :
    f.chk = .absent ∨ f.chk = .partialWrite ∨
      ∃ k r m r', f.chk = .complete k ∧ resume cfg f c0' = some r ∧ Run A cfg tmax r m r' ∧
        r'.core.levels.np1 = s.core.levels.np1 ∧ r'.core.t = s.core.t ∧ r'.core.step = s.core.step ∧
        k.step + m = s.core.step := by
  rcases disk_chk A cfg t tmax c0 hne N s hrun f hf with h | h | ⟨j, hj, h⟩
  · exact .inl h
  · exact .inr (.inl h)
  refine .inr (.inr ?_)
  obtain ⟨rfl, hN, hlt⟩ := (run_iff _ _ _ _ _ _).1 hrun
  have hag := agree_ckptAt A { c0 with t := t, step := 1 } c0' hne hlev hini j
  obtain ⟨r, hres, hrcore⟩ : ∃ r, resume cfg f c0' = some r ∧
      r.core = pickUp (ckptAt A { c0 with t := t, step := 1 } j) c0' := by
    simp only [resume, hchk, if_true, h]; exact ⟨_, rfl, rfl⟩
  rw [← hrcore] at hag
  set c1 : Core K X := { c0 with t := t, step := 1 } with hc1
  have ht : (fresh cfg t c0).core = c1 := by rw [fresh_core]
  have hrc : r.core.t = A.tick^[j] t := by rw [← hag.t, core_t]
  rw [ht] at hN hlt
  have hfin : Agree ((coreStep A)^[N] c1) ((coreStep A)^[N - j] r.core) := by
    obtain ⟨d, rfl⟩ := Nat.exists_eq_add_of_le hj
    rw [Nat.add_sub_cancel_left]
    cases d with
    | zero => exact hag
    | succ d =>
      rw [show j + (d + 1) = d + 1 + j by omega, Function.iterate_add_apply,
        Function.iterate_succ_apply, Function.iterate_succ_apply, hag.step_eq A]
      exact Agree.refl _
  refine ⟨_, r, N - j, (body A cfg)^[N - j] r, h, hres, (run_iff _ _ _ _ _ _).2 ⟨rfl, ?_, ?_⟩, ?_, ?_, ?_, ?_⟩
  · rw [hrc, ← Function.iterate_add_apply, Nat.sub_add_cancel hj]
    exact hN
  · intro m hm
    rw [hrc, ← Function.iterate_add_apply]
    exact hlt (m + j) (by omega)
  · rw [iterate_core, iterate_core, ht]; exact hfin.np1.symm
  · rw [iterate_core, iterate_core, ht]; exact hfin.t.symm
  · rw [iterate_core, iterate_core, ht]; exact hfin.step.symm
  · rw [iterate_core, ht]
    have e1 : (ckptAt A c1 j).step = c1.step + j := by
      rw [ckptAt, save]; exact core_step A c1 j
    rw [e1, core_step]
    omega

/-- With a point-data dump in every step, what is on the disk after a step is in the history. -/
theorem demo_files (u : Sys ℚ ℚ) : (body demo demoCfg u).files ∈ (body demo demoCfg u).history := by
  have hp : ∀ v : Sys ℚ ℚ, (dumpPoint demoCfg v).files ∈ (dumpPoint demoCfg v).history := by
    intro v; simp [dumpPoint, demoCfg, Sys.put, Nat.mod_one]
  have hk : ∀ (i : Option ℕ) (v : Sys ℚ ℚ), v.files ∈ v.history →
      (dumpChk demoCfg i v).files ∈ (dumpChk demoCfg i v).history := by
    intro i v h
    by_cases hc : v.cnt.chk % 3 = 0 <;> simp [dumpChk, demoCfg, Sys.put, hc, h]
  have hf : ∀ v : Sys ℚ ℚ, v.files ∈ v.history → (dumpFields demoCfg v).files ∈ (dumpFields demoCfg v).history := by
    intro v h
    by_cases hc : v.cnt.dump % 2 = 0 <;> simp [dumpFields, demoCfg, Sys.put, hc, h]
  exact hf _ (hk _ _ (hp _))

/-- Killed in the fourth step, resumed from the checkpoint of the third, and killed again after one more step: a complete
checkpoint is on the disk, and the hypotheses of the theorem above are met. -/
example : ∃ f k s, Disk demo demoCfg 6 0 demoCore f ∧ f.chk = .complete k ∧ 4 ≤ k.step ∧ demoCfg.checkpoint = true ∧
    Run demo demoCfg 6 (fresh demoCfg 0 demoCore) 6 s ∧ demoCore.levels.previous ≠ [] := by
  have h1 : Disk demo demoCfg 6 0 demoCore ((body demo demoCfg)^[4] (fresh demoCfg 0 demoCore)).files := by
    refine .first (n := 4) ?_ ?_
    · intro m hm
      rw [loopCond, iterate_core, core_t, fresh_core]
      interval_cases m <;> simp [demo] <;> norm_num
    · rw [Function.iterate_succ_apply']; exact demo_files _
  have hc : ((body demo demoCfg)^[4] (fresh demoCfg 0 demoCore)).files.chk =
      .complete (ckptAt demo { demoCore with t := 0, step := 1 } 3) := iterate_chk demo demoCfg rfl 0 demoCore 4
  obtain ⟨r, hr, e1, e2, e3⟩ : ∃ r, resume demoCfg ((body demo demoCfg)^[4] (fresh demoCfg 0 demoCore)).files
      ⟨⟨[7, 8], 9⟩, 5, 6, some 0⟩ = some r ∧ r.core = pickUp (ckptAt demo { demoCore with t := 0, step := 1 } 3)
        ⟨⟨[7, 8], 9⟩, 5, 6, some 0⟩ ∧ r.files = ((body demo demoCfg)^[4] (fresh demoCfg 0 demoCore)).files ∧
        r.history = [] := by
    simp only [resume, hc]; exact ⟨_, rfl, rfl, rfl, rfl⟩
  have hag := agree_ckptAt demo { demoCore with t := 0, step := 1 } ⟨⟨[7, 8], 9⟩, 5, 6, some 0⟩
    (by simp [demoCore]) rfl rfl 3
  rw [← e1] at hag
  obtain ⟨m, -, hm⟩ := (resumed_chk demo demoCfg _ 3 r hag (by rw [e2]; exact hc) e3 1).1
  refine ⟨_, _, _, .again (c0' := ⟨⟨[7, 8], 9⟩, 5, 6, some 0⟩) (n := 1) h1 rfl rfl hr ?_ (demo_files r), hm, ?_, rfl,
    (run_iff _ _ _ _ _ _).2 ⟨rfl, ?_, ?_⟩, by simp [demoCore]⟩
  · intro m hm
    rw [loopCond, iterate_core, core_t, ← hag.t, core_t]
    interval_cases m; simp [demo]; norm_num
  · rw [ckptAt, save]
    show 4 ≤ ((coreStep demo)^[3 + m] _).step
    rw [core_step]; simp only; omega
  · rw [fresh_core]; simp [demo]; norm_num
  · rw [fresh_core]; intro m hm; interval_cases m <;> simp [demo] <;> norm_num

end Gusto.Props.RestartProps
