import Verif.Lemmas.TimeLoop
import Mathlib.Algebra.Order.Floor.Semiring
import Mathlib.Tactic.FieldSimp
import Mathlib.Tactic.Positivity
import Mathlib.Tactic.NormNum
import Mathlib.Tactic.IntervalCases
import Mathlib.Algebra.Order.Archimedean.Basic

set_option autoImplicit false
set_option linter.unusedSectionVars false
set_option linter.unusedSimpArgs false

/-!
# C14, C15, C16, C63: the time loop, checkpoints, output and crashes

`Run A cfg tmax s n s'` says that the loop of `run(·, tmax)` entered in `s` ends in `s'` after `n`
steps; `fresh cfg t c0` is the state in which `run(t, tmax)` enters it, `resume cfg disk c0` that
of `run(…, pick_up=True)`, where `c0` is the newly constructed timestepper.
-/

namespace Gusto.Props
open Gusto Multilevel

namespace LoopProps
open TimeLoop
variable {K X : Type*} [Field K] [LinearOrder K] [IsStrictOrderedRing K]

/-- The time update without rounding. -/
def Exact (A : Stepper K X) : Prop := ∀ t, A.tick t = t + A.dt

omit [LinearOrder K] [IsStrictOrderedRing K] in
theorem tick_iterate (A : Stepper K X) (h : Exact A) (t : K) (n : ℕ) :
    A.tick^[n] t = t + n * A.dt := by
  induction n with
  | zero => simp
  | succ n ih => rw [Function.iterate_succ_apply', ih, h]; push_cast; ring

theorem run_iff (A : Stepper K X) (cfg : Config) (tmax : K) (s : Sys K X) (n : ℕ) (s' : Sys K X) :
    Run A cfg tmax s n s' ↔ s' = (body A cfg)^[n] s ∧
      ¬ A.tick^[n] s.core.t < tmax - 1 / 2 * A.dt ∧
      ∀ m < n, A.tick^[m] s.core.t < tmax - 1 / 2 * A.dt := by
  rw [Run, While_iff]
  simp only [loopCond, iterate_core, core_t]
  constructor
  · rintro ⟨rfl, h1, h2⟩; exact ⟨rfl, by simpa only [iterate_core, core_t] using h1, h2⟩
  · rintro ⟨rfl, h1, h2⟩; exact ⟨rfl, by simpa only [iterate_core, core_t] using h1, h2⟩

/-! ## C14 -/

/-- C14: with a positive timestep the loop terminates. -/
theorem C14_terminates [Archimedean K] (A : Stepper K X) (hex : Exact A) (hdt : 0 < A.dt)
    (cfg : Config) (tmax : K) (s : Sys K X) : ∃ n s', Run A cfg tmax s n s' := by
  classical
  have hex' : ∃ n : ℕ, ¬ A.tick^[n] s.core.t < tmax - 1 / 2 * A.dt := by
    obtain ⟨n, hn⟩ := exists_nat_gt ((tmax - 1 / 2 * A.dt - s.core.t) / A.dt)
    rw [div_lt_iff₀ hdt] at hn
    exact ⟨n, by rw [tick_iterate A hex]; linarith⟩
  refine ⟨Nat.find hex', _, (run_iff _ _ _ _ _ _).2 ⟨rfl, Nat.find_spec hex', fun m hm => ?_⟩⟩
  exact not_not.1 (Nat.find_min hex' hm)

/-- C14: the number of steps and the outcome are determined by the start. -/
theorem C14_deterministic (A : Stepper K X) (cfg : Config) (tmax : K) (s : Sys K X) (n n' : ℕ)
    (s' s'' : Sys K X) (h : Run A cfg tmax s n s') (h' : Run A cfg tmax s n' s'') :
    n = n' ∧ s' = s'' := While_unique h h'

/-- C14: a run from `t` to `tmax` takes the least number `n` of steps with
`t + n dt ≥ tmax - dt/2`, ends at time `t + n dt`, with step counter `n + 1`. -/
theorem C14_steps (A : Stepper K X) (hex : Exact A) (cfg : Config) (t tmax : K) (c0 : Core K X)
    (n : ℕ) (s' : Sys K X) (h : Run A cfg tmax (fresh cfg t c0) n s') :
    s'.core.t = t + n * A.dt ∧ s'.core.step = n + 1 ∧
    tmax - A.dt / 2 ≤ t + n * A.dt ∧ ∀ m < n, t + m * A.dt < tmax - A.dt / 2 := by
  obtain ⟨rfl, h1, h2⟩ := (run_iff _ _ _ _ _ _).1 h
  have ht : (fresh cfg t c0).core.t = t := by rw [fresh_core]
  simp only [tick_iterate A hex, ht] at h1 h2
  refine ⟨?_, ?_, by linarith, fun m hm => by have := h2 m hm; linarith⟩
  · rw [iterate_core, core_t, tick_iterate A hex, ht]
  · rw [iterate_core, core_step, fresh_core]; exact Nat.add_comm 1 n

/-- C14: the number of steps in closed form. -/
theorem C14_count [FloorSemiring K] (A : Stepper K X) (hex : Exact A) (hdt : 0 < A.dt)
    (cfg : Config) (t tmax : K) (c0 : Core K X) (n : ℕ) (s' : Sys K X)
    (h : Run A cfg tmax (fresh cfg t c0) n s') : n = ⌈(tmax - t) / A.dt - 1 / 2⌉₊ := by
  obtain ⟨-, -, h1, h2⟩ := C14_steps A hex cfg t tmax c0 n s' h
  have e : (tmax - t) / A.dt - 1 / 2 = (tmax - A.dt / 2 - t) / A.dt := by
    field_simp; ring
  rw [e]
  apply le_antisymm
  · by_contra hlt
    have := h2 _ (not_le.1 hlt)
    have hc := Nat.le_ceil ((tmax - A.dt / 2 - t) / A.dt)
    rw [div_le_iff₀ hdt] at hc
    linarith
  · rw [Nat.ceil_le, div_le_iff₀ hdt]; linarith

/-- C14: the final time lies within half a timestep of `tmax`. -/
theorem C14_within_half_step (A : Stepper K X) (hex : Exact A) (hdt : 0 < A.dt) (cfg : Config)
    (t tmax : K) (htm : t ≤ tmax) (c0 : Core K X) (n : ℕ) (s' : Sys K X)
    (h : Run A cfg tmax (fresh cfg t c0) n s') : |s'.core.t - tmax| ≤ A.dt / 2 := by
  obtain ⟨e, -, h1, h2⟩ := C14_steps A hex cfg t tmax c0 n s' h
  rw [e, abs_le]
  refine ⟨by linarith, ?_⟩
  cases n with
  | zero => simp; linarith
  | succ n => have := h2 n (by omega); push_cast at *; linarith

/-- C14: no step is taken if `t ≥ tmax - dt/2`; the files then hold the initial state only. -/
theorem C14_no_step (A : Stepper K X) (cfg : Config) (t tmax : K) (htm : tmax - A.dt / 2 ≤ t)
    (c0 : Core K X) : Run A cfg tmax (fresh cfg t c0) 0 (fresh cfg t c0) := by
  refine .stop ?_
  rw [loopCond, fresh_core]; simp only; linarith

/-- C14: with `dt ≤ 0` the loop, once entered, never ends. -/
theorem C14_nonpositive_dt_diverges (A : Stepper K X) (hex : Exact A) (hdt : A.dt ≤ 0)
    (cfg : Config) (t tmax : K) (htm : t < tmax - A.dt / 2) (c0 : Core K X) (n : ℕ) (s' : Sys K X) :
    ¬ Run A cfg tmax (fresh cfg t c0) n s' := by
  intro h
  obtain ⟨-, -, h1, -⟩ := C14_steps A hex cfg t tmax c0 n s' h
  have : (n : K) * A.dt ≤ 0 := mul_nonpos_of_nonneg_of_nonpos (Nat.cast_nonneg n) hdt
  linarith

/-- C14 with rounding: if each `t + dt` is computed with an error of at most `δ`, and `tmax` is
`N` timesteps after `t` up to `η`, then exactly `N` steps are taken as long as
`N δ + η < dt / 2`. -/
theorem C14_rounding (A : Stepper K X) (hdt : 0 < A.dt) (δ η : K)
    (hδ : ∀ t, |A.tick t - (t + A.dt)| ≤ δ) (cfg : Config) (t tmax : K) (N : ℕ)
    (hN : |tmax - (t + N * A.dt)| ≤ η) (hsmall : N * δ + η < A.dt / 2) (c0 : Core K X) :
    ∃ s', Run A cfg tmax (fresh cfg t c0) N s' := by
  have ht : (fresh cfg t c0).core.t = t := by rw [fresh_core]
  have herr : ∀ n : ℕ, |A.tick^[n] t - (t + n * A.dt)| ≤ n * δ := by
    intro n
    induction n with
    | zero => simp
    | succ n ih =>
      rw [Function.iterate_succ_apply']
      have h1 := abs_le.1 (hδ (A.tick^[n] t))
      have h2 := abs_le.1 ih
      rw [abs_le]; push_cast
      exact ⟨by linarith [h1.1, h2.1], by linarith [h1.2, h2.2]⟩
  have hδ0 : 0 ≤ δ := (abs_nonneg _).trans (hδ t)
  have hη := abs_le.1 hN
  refine ⟨_, (run_iff _ _ _ _ _ _).2 ⟨rfl, ?_, fun m hm => ?_⟩⟩
  · rw [ht, not_lt]
    have := abs_le.1 (herr N)
    linarith [this.1, hη.2]
  · rw [ht]
    have h1 := abs_le.1 (herr m)
    have h2 : (m : K) * δ ≤ N * δ := by
      apply mul_le_mul_of_nonneg_right _ hδ0; exact_mod_cast hm.le
    have h3 : ((m : K) + 1) * A.dt ≤ N * A.dt := by
      apply mul_le_mul_of_nonneg_right _ hdt.le; exact_mod_cast hm
    linarith [h1.2, hη.1, (abs_nonneg _).trans hN]

/-! ## C15 -/

/-- C15 and C63: kill an uninterrupted run (to `tmax₁`) at any moment at which the checkpoint file
is complete, construct the model again and run it with `pick_up=True` to any `tmax₂ ≥ tmax₁`: it
can be resumed, it ends, and it ends with the same prognostic fields, the same time and the same
step number as a run from the start to `tmax₂`, after `n₂ - k` steps, where `k` is the step of the
checkpoint.  For every scheme, number of time levels and crash point. -/
theorem C15_resume_reproduces (A : Stepper K X) (cfg : Config) (hchk : cfg.checkpoint = true)
    (t tmax₁ tmax₂ : K) (htm : tmax₁ ≤ tmax₂) (c0 c0' : Core K X)
    (hne : c0.levels.previous ≠ [])
    (hlev : c0'.levels.previous.length = c0.levels.previous.length)
    (hini : c0'.initial = c0.initial)
    (n₁ n₂ : ℕ) (s₁ s₂ : Sys K X)
    (h₁ : Run A cfg tmax₁ (fresh cfg t c0) n₁ s₁) (h₂ : Run A cfg tmax₂ (fresh cfg t c0) n₂ s₂)
    (f : Files K X) (hf : f ∈ s₁.history) (k : Ckpt K X) (hk : f.chk = .complete k) :
    ∃ r m r', resume cfg f c0' = some r ∧ Run A cfg tmax₂ r m r' ∧
      r'.core.levels.np1 = s₂.core.levels.np1 ∧ r'.core.t = s₂.core.t ∧
      r'.core.step = s₂.core.step ∧ k.step + m = s₂.core.step := by
  obtain ⟨rfl, hs1, hs2⟩ := (run_iff _ _ _ _ _ _).1 h₁
  obtain ⟨rfl, hr1, hr2⟩ := (run_iff _ _ _ _ _ _).1 h₂
  have h12 : n₁ ≤ n₂ := by
    by_contra hlt
    have := hs2 n₂ (not_le.1 hlt)
    exact hr1 (by linarith)
  rcases history_chk A cfg t c0 n₁ f hf with h | h | ⟨j, hj, -, h⟩
  · rw [h] at hk; cases hk
  · rw [h] at hk; cases hk
  rw [h] at hk
  cases hk
  set c1 : Core K X := { c0 with t := t, step := 1 } with hc1
  have hag : Agree ((coreStep A)^[j] c1) (pickUp (ckptAt A c1 j) c0') :=
    agree_ckptAt A c1 c0' hne hlev hini j
  obtain ⟨r, hres, hrcore⟩ : ∃ r, resume cfg f c0' = some r ∧
      r.core = pickUp (ckptAt A c1 j) c0' := by
    simp only [resume, hchk, if_true, h]; exact ⟨_, rfl, rfl⟩
  rw [← hrcore] at hag
  have hrc : r.core.t = A.tick^[j] t := by
    rw [← hag.t, core_t]
  have hfin : Agree ((coreStep A)^[n₂] c1) ((coreStep A)^[n₂ - j] r.core) := by
    obtain ⟨d, rfl⟩ := Nat.exists_eq_add_of_le (hj.trans h12)
    rw [Nat.add_sub_cancel_left]
    cases d with
    | zero => exact hag
    | succ d =>
      rw [show j + (d + 1) = d + 1 + j by omega, Function.iterate_add_apply,
        Function.iterate_succ_apply, Function.iterate_succ_apply, hag.step_eq A]
      exact Agree.refl _
  have ht : (fresh cfg t c0).core = c1 := by rw [fresh_core]
  have htt : (fresh cfg t c0).core.t = t := by rw [ht]
  refine ⟨r, n₂ - j, (body A cfg)^[n₂ - j] r, hres, (run_iff _ _ _ _ _ _).2 ⟨rfl, ?_, ?_⟩,
    ?_, ?_, ?_, ?_⟩
  · rw [hrc, ← Function.iterate_add_apply, Nat.sub_add_cancel (hj.trans h12)]
    rwa [htt] at hr1
  · intro m hm
    rw [hrc, ← Function.iterate_add_apply]
    have := hr2 (m + j) (by omega)
    rwa [htt] at this
  · rw [iterate_core, iterate_core, ht]; exact hfin.np1.symm
  · rw [iterate_core, iterate_core, ht]; exact hfin.t.symm
  · rw [iterate_core, iterate_core, ht]; exact hfin.step.symm
  · rw [iterate_core, ht]
    have e1 : (ckptAt A c1 j).step = c1.step + j := by
      rw [ckptAt, save]; exact core_step A c1 j
    rw [e1, core_step]
    omega

/-- C15: step by step: after a pick-up from the checkpoint of step `k`, every later state of the
loop (all time levels, the time, the step number and the start-up counter) equals that of the
uninterrupted run. -/
theorem C15_every_later_step (A : Stepper K X) (cfg : Config) (hchk : cfg.checkpoint = true)
    (t : K) (c0 c0' : Core K X) (hne : c0.levels.previous ≠ [])
    (hlev : c0'.levels.previous.length = c0.levels.previous.length)
    (hini : c0'.initial = c0.initial) (n : ℕ) (r : Sys K X)
    (hr : resume cfg ((body A cfg)^[n] (fresh cfg t c0)).files c0' = some r) (m : ℕ) :
    ((body A cfg)^[m + 1] r).core
      = ((body A cfg)^[n - n % cfg.chkptfreq + m + 1] (fresh cfg t c0)).core := by
  set j := n - n % cfg.chkptfreq with hj
  set c1 : Core K X := { c0 with t := t, step := 1 } with hc1
  have hcore : r.core = pickUp (ckptAt A c1 j) c0' := by
    simp only [resume, hchk, if_true, iterate_chk A cfg hchk t c0 n] at hr
    cases hr; rfl
  have hag : Agree ((coreStep A)^[j] c1) (pickUp (ckptAt A c1 j) c0') :=
    agree_ckptAt A c1 c0' hne hlev hini j
  rw [iterate_core, iterate_core, fresh_core, hcore,
    show j + m + 1 = m + 1 + j by omega, Function.iterate_add_apply _ (m + 1) j,
    Function.iterate_succ_apply, Function.iterate_succ_apply, ← hag.step_eq A]

/-- C15: a stop at any step can be resumed: the file always holds the checkpoint of the last step
that is a multiple of `chkptfreq`. -/
theorem C15_last_checkpoint (A : Stepper K X) (cfg : Config) (hchk : cfg.checkpoint = true)
    (hf : 0 < cfg.chkptfreq) (t : K) (c0 : Core K X) (tmax : K) (n : ℕ) (s' : Sys K X)
    (h : Run A cfg tmax (fresh cfg t c0) n s') :
    ∃ (k : Ckpt K X) (q : ℕ), s'.files.chk = .complete k ∧ k.step = q * cfg.chkptfreq + 1 ∧
      q * cfg.chkptfreq ≤ n ∧ n < (q + 1) * cfg.chkptfreq ∧ k.t = A.tick^[q * cfg.chkptfreq] t := by
  obtain ⟨rfl, -, -⟩ := (run_iff _ _ _ _ _ _).1 h
  refine ⟨_, n / cfg.chkptfreq, iterate_chk A cfg hchk t c0 n, ?_, ?_, ?_, ?_⟩
  · rw [ckptAt, save]; simp only
    rw [core_step]
    have := Nat.div_add_mod' n cfg.chkptfreq
    simp only; omega
  · exact Nat.div_mul_le_self _ _
  · exact Nat.lt_mul_of_div_lt (Nat.lt_succ_self _) hf |>.trans_le (by rw [Nat.mul_comm])
  · rw [ckptAt, save]; simp only
    rw [core_t]
    have := Nat.div_add_mod' n cfg.chkptfreq
    rw [show n - n % cfg.chkptfreq = n / cfg.chkptfreq * cfg.chkptfreq by omega]

/-! ## C63 -/

/-- C63: every disk content an uninterrupted run passes through, from its first checkpoint on,
either can be resumed or is one at which the checkpoint file was being rewritten. -/
theorem C63_crash_points (A : Stepper K X) (cfg : Config) (hchk : cfg.checkpoint = true)
    (t tmax : K) (c0 c0' : Core K X) (n : ℕ) (s' : Sys K X)
    (h : Run A cfg tmax (fresh cfg t c0) n s') (f : Files K X) (hf : f ∈ s'.history) :
    f.chk = .absent ∨ f.chk = .partialWrite ∨ (resume cfg f c0').isSome = true := by
  obtain ⟨rfl, -, -⟩ := (run_iff _ _ _ _ _ _).1 h
  rcases history_chk A cfg t c0 n f hf with h | h | ⟨j, -, -, h⟩
  · exact .inl h
  · exact .inr (.inl h)
  · exact .inr (.inr (by simp [resume, hchk, h]))

/-- C63 is false without that exception: in every run that reaches a second checkpoint there is a
moment at which a crash leaves nothing to resume from, although an earlier disk content could be
resumed (the checkpoint is opened with mode `'w'`, which truncates the only copy). -/
theorem C63_refuted_during_write (A : Stepper K X) (cfg : Config) (hchk : cfg.checkpoint = true)
    (hf : 0 < cfg.chkptfreq) (t tmax : K) (c0 c0' : Core K X) (n : ℕ) (hn : cfg.chkptfreq ≤ n)
    (s' : Sys K X) (h : Run A cfg tmax (fresh cfg t c0) n s') :
    ∃ f ∈ s'.history, resume cfg f c0' = none ∧
      (resume cfg (fresh cfg t c0).files c0').isSome = true := by
  obtain ⟨rfl, -, -⟩ := (run_iff _ _ _ _ _ _).1 h
  have hmono : ∀ a b : ℕ, a ≤ b → ((body A cfg)^[a] (fresh cfg t c0)).history
      ⊆ ((body A cfg)^[b] (fresh cfg t c0)).history := by
    intro a b hab
    induction b, hab using Nat.le_induction with
    | base => exact fun _ h => h
    | succ b _ ih =>
      rw [Function.iterate_succ_apply', body]
      exact fun x hx => dump_history_mono _ _ _ (ih hx)
  obtain ⟨q, hq⟩ := Nat.exists_eq_succ_of_ne_zero hf.ne'
  have hp : ∃ f ∈ ((body A cfg)^[cfg.chkptfreq] (fresh cfg t c0)).history,
      f.chk = .partialWrite := by
    rw [hq, Function.iterate_succ_apply', body]
    apply dump_history_partial _ _ _ hchk
    simp only
    rw [iterate_cchk A cfg hchk _ (fresh_chk cfg t c0 hchk).1 q, hq]
    simp [Nat.add_comm]
  obtain ⟨f, hf, hp⟩ := hp
  refine ⟨f, hmono _ _ hn hf, by simp [resume, hchk, hp], ?_⟩
  simp [resume, hchk, (fresh_chk cfg t c0 hchk).2]

/-! ## C16 -/

/-- The time and the prognostic state after `k` steps of a run started at time `t`. -/
def stateAt (A : Stepper K X) (t : K) (c0 : Core K X) (k : ℕ) : K × X :=
  (((coreStep A)^[k] { c0 with t := t, step := 1 }).t,
   ((coreStep A)^[k] { c0 with t := t, step := 1 }).levels.np1)

/-- The rows an output file with frequency `f` should hold after `n` steps: those of the steps
`0, f, 2f, … ≤ n`, in order. -/
def rowsUpTo (A : Stepper K X) (t : K) (c0 : Core K X) (f n : ℕ) : List (Option (K × X)) :=
  ((List.range (n + 1)).filter fun k => f ∣ k).map fun k => some (stateAt A t c0 k)

omit [Field K] [LinearOrder K] [IsStrictOrderedRing K] in
theorem rowsUpTo_eq (A : Stepper K X) (t : K) (c0 : Core K X) (f n : ℕ) :
    rowsUpTo A t c0 f n = [some (t, c0.levels.np1)]
      ++ laterRows A { c0 with t := t, step := 1 } f n := by
  rw [rowsUpTo, List.range_succ_eq_map, List.filter_cons_of_pos (by simp), laterRows,
    List.map_cons, List.range'_eq_map_range, List.filter_map, List.filter_map, List.map_map,
    List.map_map]
  simp only [stateAt, Function.iterate_zero_apply, List.singleton_append]
  congr 1
  have hfil : List.filter ((fun k => decide (f ∣ k)) ∘ Nat.succ) (List.range n)
      = List.filter ((fun j => decide (j % f = 0)) ∘ fun x => 1 + x) (List.range n) := by
    apply List.filter_congr
    intro x _
    simp only [Function.comp, Nat.succ_eq_add_one, Nat.add_comm 1 x]
    exact decide_eq_decide.2 (Nat.dvd_iff_mod_eq_zero)
  rw [hfil]
  apply List.map_congr_left
  intro x _
  simp only [Function.comp, snap, Nat.succ_eq_add_one, Nat.add_comm 1 x]

/-- C16: in an uninterrupted run of `n` steps each of the three output files holds exactly the
rows of the steps that are multiples of its own frequency, and the checkpoint file the last such
step of the checkpoint frequency. -/
theorem C16_uninterrupted (A : Stepper K X) (cfg : Config) (t tmax : K) (c0 : Core K X)
    (n : ℕ) (s' : Sys K X) (h : Run A cfg tmax (fresh cfg t c0) n s') :
    (cfg.dumpNc = true → s'.files.nc = rowsUpTo A t c0 cfg.dumpfreq n) ∧
    (cfg.dumpDiagnostics = true → s'.files.diag = rowsUpTo A t c0 cfg.diagfreq n) ∧
    (cfg.pointData = true → s'.files.point = rowsUpTo A t c0 cfg.pddumpfreq n) := by
  obtain ⟨rfl, -, -⟩ := (run_iff _ _ _ _ _ _).1 h
  refine ⟨fun hd => ?_, fun hd => ?_, fun hd => ?_⟩
  · obtain ⟨h1, h2, h3⟩ := fresh_nc cfg t c0 hd
    rw [(iterate_nc A cfg hd _ h1 h2 n).2.2, h3, rowsUpTo_eq, fresh_core]
  · obtain ⟨h1, h3⟩ := fresh_diag cfg t c0 hd
    rw [(iterate_diag A cfg hd _ h1 n).2, h3, rowsUpTo_eq, fresh_core]
  · obtain ⟨h1, h2, h3⟩ := fresh_point cfg t c0 hd
    rw [(iterate_point A cfg hd _ h1 h2 n).2.2, h3, rowsUpTo_eq, fresh_core]

/-- Output that is switched off writes nothing. -/
theorem C16_disabled (A : Stepper K X) (cfg : Config) (t tmax : K) (c0 : Core K X)
    (n : ℕ) (s' : Sys K X) (h : Run A cfg tmax (fresh cfg t c0) n s') :
    (cfg.dumpNc = false → s'.files.nc = []) ∧
    (cfg.dumpDiagnostics = false → s'.files.diag = []) ∧
    (cfg.pointData = false → s'.files.point = []) := by
  obtain ⟨rfl, -, -⟩ := (run_iff _ _ _ _ _ _).1 h
  clear h
  refine ⟨fun hd => ?_, fun hd => ?_, fun hd => ?_⟩
  · induction n with
    | zero => rw [Function.iterate_zero_apply, fresh, dump_nc]; simp [hd]
    | succ n ih => rw [Function.iterate_succ_apply', body, dump_nc]; simp [hd, ih]
  · induction n with
    | zero => rw [Function.iterate_zero_apply, fresh, dump_diag]; simp [hd]
    | succ n ih => rw [Function.iterate_succ_apply', body, dump_diag]; simp [hd, ih]
  · induction n with
    | zero => rw [Function.iterate_zero_apply, fresh, dump_point]; simp [hd]
    | succ n ih => rw [Function.iterate_succ_apply', body, dump_point]; simp [hd, ih]

/-- Rows appended by a run resumed from the checkpoint of step `k`: those of the steps `k + j`
with `f ∣ j`, i.e. the cadence is counted from the pick-up. -/
def rowsAfter (A : Stepper K X) (t : K) (c0 : Core K X) (f k m : ℕ) : List (Option (K × X)) :=
  ((List.range' 1 m).filter fun j => f ∣ j).map fun j => some (stateAt A t c0 (k + j))

theorem laterRows_resumed (A : Stepper K X) (cfg : Config) (hchk : cfg.checkpoint = true)
    (t : K) (c0 c0' : Core K X) (hne : c0.levels.previous ≠ [])
    (hlev : c0'.levels.previous.length = c0.levels.previous.length)
    (hini : c0'.initial = c0.initial) (n : ℕ) (r : Sys K X)
    (hr : resume cfg ((body A cfg)^[n] (fresh cfg t c0)).files c0' = some r) (f m : ℕ) :
    laterRows A r.core f m = rowsAfter A t c0 f (n - n % cfg.chkptfreq) m := by
  rw [laterRows, rowsAfter]
  have hfil : List.filter (fun j => decide (j % f = 0)) (List.range' 1 m)
      = List.filter (fun j => decide (f ∣ j)) (List.range' 1 m) := by
    apply List.filter_congr
    intro x _
    exact decide_eq_decide.2 (Nat.dvd_iff_mod_eq_zero).symm
  rw [hfil]
  apply List.map_congr_left
  intro j hj
  have hj1 : 1 ≤ j := by
    have := List.mem_range'.1 (List.mem_of_mem_filter hj); obtain ⟨i, _, rfl⟩ := this; omega
  obtain ⟨i, rfl⟩ : ∃ i, j = i + 1 := ⟨j - 1, by omega⟩
  have := C15_every_later_step A cfg hchk t c0 c0' hne hlev hini n r hr i
  rw [iterate_core, iterate_core, fresh_core] at this
  rw [this, snap, stateAt, Nat.add_assoc]

/-- C16: what a run of `n` steps, stopped, and resumed for `m` more steps leaves in the field and
diagnostics files (rows are appended) and in the point-data file (the first rows are
overwritten). -/
theorem C16_resumed (A : Stepper K X) (cfg : Config) (hchk : cfg.checkpoint = true)
    (t : K) (c0 c0' : Core K X) (hne : c0.levels.previous ≠ [])
    (hlev : c0'.levels.previous.length = c0.levels.previous.length)
    (hini : c0'.initial = c0.initial) (tmax tmax' : K) (n m : ℕ) (s r r' : Sys K X)
    (hs : Run A cfg tmax (fresh cfg t c0) n s) (hr : resume cfg s.files c0' = some r)
    (hr' : Run A cfg tmax' r m r') :
    (cfg.dumpNc = true → r'.files.nc = rowsUpTo A t c0 cfg.dumpfreq n
        ++ rowsAfter A t c0 cfg.dumpfreq (n - n % cfg.chkptfreq) m) ∧
    (cfg.dumpDiagnostics = true → r'.files.diag = rowsUpTo A t c0 cfg.diagfreq n
        ++ rowsAfter A t c0 cfg.diagfreq (n - n % cfg.chkptfreq) m) ∧
    (cfg.pointData = true → r'.files.point
        = rowsAfter A t c0 cfg.pddumpfreq (n - n % cfg.chkptfreq) m
          ++ (rowsUpTo A t c0 cfg.pddumpfreq n).drop
            (rowsAfter A t c0 cfg.pddumpfreq (n - n % cfg.chkptfreq) m).length) := by
  obtain ⟨u1, u2, u3⟩ := C16_uninterrupted A cfg t tmax c0 n s hs
  obtain ⟨rfl, -, -⟩ := (run_iff _ _ _ _ _ _).1 hs
  obtain ⟨rfl, -, -⟩ := (run_iff _ _ _ _ _ _).1 hr'
  have hl := fun f => laterRows_resumed A cfg hchk t c0 c0' hne hlev hini n r hr f m
  have hfiles : r.files = ((body A cfg)^[n] (fresh cfg t c0)).files ∧
      r.cnt = ⟨1, 1, 1, 1, 0, r.files.nc.length⟩ := by
    simp only [resume, hchk, if_true, iterate_chk A cfg hchk t c0 n] at hr
    cases hr; exact ⟨rfl, rfl⟩
  refine ⟨fun hd => ?_, fun hd => ?_, fun hd => ?_⟩
  · rw [(iterate_nc A cfg hd r (by rw [hfiles.2]) (by rw [hfiles.2]) m).2.2, hl, hfiles.1, u1 hd]
  · rw [(iterate_diag A cfg hd r (by rw [hfiles.2]) m).2, hl, hfiles.1, u2 hd]
  · rw [(iterate_point_resumed A cfg hd r (by rw [hfiles.2]) (by rw [hfiles.2]) m).2.2, overwrite,
      hl, hfiles.1, u3 hd]

omit [Field K] [LinearOrder K] [IsStrictOrderedRing K] in
/-- Appending the resumed rows is the uninterrupted output if the run was stopped at a step that
is a multiple of the frequency. -/
theorem rows_append (A : Stepper K X) (t : K) (c0 : Core K X) (f n m : ℕ) (h : f ∣ n) :
    rowsUpTo A t c0 f n ++ rowsAfter A t c0 f n m = rowsUpTo A t c0 f (n + m) := by
  rw [rowsUpTo, rowsUpTo, show n + m + 1 = n + 1 + m by omega, List.range_eq_range',
    List.range_eq_range', ← List.range'_append (s := 0) (m := n + 1) (n := m) (step := 1),
    List.filter_append, List.map_append, rowsAfter]
  congr 1
  rw [show 0 + 1 * (n + 1) = n + 1 by omega]
  have e : List.range' (n + 1) m = (List.range' 1 m).map (n + ·) := by
    rw [List.map_add_range']
  rw [e, List.filter_map, List.map_map]
  have : List.filter ((fun k => decide (f ∣ k)) ∘ fun x => n + x) (List.range' 1 m)
      = List.filter (fun j => decide (f ∣ j)) (List.range' 1 m) := by
    apply List.filter_congr
    intro x _
    exact decide_eq_decide.2 ((Nat.dvd_add_iff_right h).symm)
  rw [this]; rfl

/-- C16: stopping at a step that is a multiple of the checkpoint frequency and of the output
frequency, and resuming, leaves in the field and diagnostics files exactly what the uninterrupted
run would have written. -/
theorem C16_continues (A : Stepper K X) (cfg : Config) (hchk : cfg.checkpoint = true)
    (t : K) (c0 c0' : Core K X) (hne : c0.levels.previous ≠ [])
    (hlev : c0'.levels.previous.length = c0.levels.previous.length)
    (hini : c0'.initial = c0.initial) (tmax tmax' : K) (n m : ℕ) (s r r' : Sys K X)
    (hs : Run A cfg tmax (fresh cfg t c0) n s) (hr : resume cfg s.files c0' = some r)
    (hr' : Run A cfg tmax' r m r') (hn : cfg.chkptfreq ∣ n) :
    (cfg.dumpNc = true → cfg.dumpfreq ∣ n →
      r'.files.nc = rowsUpTo A t c0 cfg.dumpfreq (n + m)) ∧
    (cfg.dumpDiagnostics = true → cfg.diagfreq ∣ n →
      r'.files.diag = rowsUpTo A t c0 cfg.diagfreq (n + m)) := by
  obtain ⟨h1, h2, -⟩ := C16_resumed A cfg hchk t c0 c0' hne hlev hini tmax tmax' n m s r r' hs hr hr'
  rw [Nat.mod_eq_zero_of_dvd hn, Nat.sub_zero] at h1 h2
  exact ⟨fun hd hf => by rw [h1 hd, rows_append _ _ _ _ _ _ hf],
    fun hd hf => by rw [h2 hd, rows_append _ _ _ _ _ _ hf]⟩

/-- The claim that a resumed run continues the cadence is false in general: stop at a checkpoint
step `n` that is not a multiple of the output frequency `f`; after `f` more steps the resumed run
has a row at step `n + f`, where the uninterrupted run has none. -/
theorem C16_cadence_refuted (A : Stepper K X) (hex : Exact A) (hdt : 0 < A.dt) (cfg : Config)
    (hchk : cfg.checkpoint = true) (hd : cfg.dumpNc = true) (hf : 0 < cfg.dumpfreq)
    (t : K) (c0 c0' : Core K X) (hne : c0.levels.previous ≠ [])
    (hlev : c0'.levels.previous.length = c0.levels.previous.length)
    (hini : c0'.initial = c0.initial) (tmax tmax' tmax'' : K) (n m N : ℕ) (s r r' u : Sys K X)
    (hs : Run A cfg tmax (fresh cfg t c0) n s) (hr : resume cfg s.files c0' = some r)
    (hr' : Run A cfg tmax' r m r') (hn : cfg.chkptfreq ∣ n) (hnd : ¬ cfg.dumpfreq ∣ n)
    (hm : cfg.dumpfreq ≤ m) (hu : Run A cfg tmax'' (fresh cfg t c0) N u) :
    (∃ x, some (t + (n + cfg.dumpfreq : ℕ) * A.dt, x) ∈ r'.files.nc) ∧
    ∀ x, some (t + (n + cfg.dumpfreq : ℕ) * A.dt, x) ∉ u.files.nc := by
  have hst : ∀ k, (stateAt A t c0 k).1 = t + k * A.dt := by
    intro k; rw [stateAt, core_t, tick_iterate A hex]
  constructor
  · have h1 := (C16_resumed A cfg hchk t c0 c0' hne hlev hini tmax tmax' n m s r r' hs hr hr').1 hd
    rw [Nat.mod_eq_zero_of_dvd hn, Nat.sub_zero] at h1
    refine ⟨(stateAt A t c0 (n + cfg.dumpfreq)).2, ?_⟩
    rw [h1, List.mem_append]
    right
    rw [rowsAfter, List.mem_map]
    refine ⟨cfg.dumpfreq, ?_, ?_⟩
    · rw [List.mem_filter]; exact ⟨List.mem_range'.2 ⟨cfg.dumpfreq - 1, by omega, by omega⟩, by simp⟩
    · rw [← hst]
  · intro x hx
    rw [(C16_uninterrupted A cfg t tmax'' c0 N u hu).1 hd, rowsUpTo, List.mem_map] at hx
    obtain ⟨k, hk, e⟩ := hx
    have hdk : cfg.dumpfreq ∣ k := by simpa using (List.mem_filter.1 hk).2
    have ht := congrArg Prod.fst (Option.some.inj e)
    rw [hst] at ht
    have hkn : (k : K) = ((n + cfg.dumpfreq : ℕ) : K) := by
      have := add_left_cancel ht
      exact mul_right_cancel₀ hdt.ne' this
    have : k = n + cfg.dumpfreq := by exact_mod_cast hkn
    rw [this] at hdk
    exact hnd ((Nat.dvd_add_iff_left (Nat.dvd_refl _)).2 hdk)

/-- Point data is not continued: as soon as the resumed run has made one point-data dump, the
first row of the file is no longer the initial state but that of step `n + f`. -/
theorem C16_point_rows_lost_refuted (A : Stepper K X) (hex : Exact A) (hdt : 0 < A.dt)
    (cfg : Config) (hchk : cfg.checkpoint = true) (hd : cfg.pointData = true)
    (hf : 0 < cfg.pddumpfreq)
    (t : K) (c0 c0' : Core K X) (hne : c0.levels.previous ≠ [])
    (hlev : c0'.levels.previous.length = c0.levels.previous.length)
    (hini : c0'.initial = c0.initial) (tmax tmax' : K) (n m : ℕ) (s r r' : Sys K X)
    (hs : Run A cfg tmax (fresh cfg t c0) n s) (hr : resume cfg s.files c0' = some r)
    (hr' : Run A cfg tmax' r m r') (hn : cfg.chkptfreq ∣ n) (hm : cfg.pddumpfreq ≤ m) :
    (∃ x, s.files.point.head? = some (some (t, x))) ∧
    (∃ x, r'.files.point.head? = some (some (t + (n + cfg.pddumpfreq : ℕ) * A.dt, x))) ∧
    ∀ x, some (t, x) ∉ r'.files.point.take 1 := by
  have hst : ∀ k, (stateAt A t c0 k).1 = t + k * A.dt := by
    intro k; rw [stateAt, core_t, tick_iterate A hex]
  have h1 := (C16_resumed A cfg hchk t c0 c0' hne hlev hini tmax tmax' n m s r r' hs hr hr').2.2 hd
  rw [Nat.mod_eq_zero_of_dvd hn, Nat.sub_zero] at h1
  have hhead : (rowsAfter A t c0 cfg.pddumpfreq n m).head?
      = some (some (stateAt A t c0 (n + cfg.pddumpfreq))) := by
    rw [rowsAfter, List.head?_map]
    have : (List.filter (fun j => decide (cfg.pddumpfreq ∣ j)) (List.range' 1 m)).head?
        = some cfg.pddumpfreq := by
      rw [List.head?_filter, List.find?_range'_eq_some]
      refine ⟨by simp, List.mem_range'.2 ⟨cfg.pddumpfreq - 1, by omega, by omega⟩, ?_⟩
      intro j hj1 hj2
      simp only [decide_not, Bool.not_eq_true', decide_eq_false_iff_not]
      exact fun h => absurd (Nat.le_of_dvd (by omega) h) (by omega)
    rw [this]; rfl
  have hhead' : r'.files.point.head?
      = some (some (t + (n + cfg.pddumpfreq : ℕ) * A.dt,
          (stateAt A t c0 (n + cfg.pddumpfreq)).2)) := by
    rw [h1, List.head?_append, hhead, ← hst]; rfl
  refine ⟨?_, ⟨_, hhead'⟩, ?_⟩
  · rw [(C16_uninterrupted A cfg t tmax c0 n s hs).2.2 hd, rowsUpTo_eq]; exact ⟨_, rfl⟩
  · intro x hx
    cases hp : r'.files.point with
    | nil => rw [hp] at hhead'; cases hhead'
    | cons a l =>
      rw [hp] at hhead' hx
      simp only [List.head?_cons, Option.some.injEq] at hhead'
      simp only [List.take_succ_cons, List.take_zero, List.mem_singleton] at hx
      rw [hhead'] at hx
      have := congrArg Prod.fst (Option.some.inj hx)
      have hpos : (0 : K) < ((n + cfg.pddumpfreq : ℕ) : K) * A.dt :=
        mul_pos (by exact_mod_cast (by omega)) hdt
      simp only at this
      linarith

/-! ## The hypotheses are met -/

/-- BDF2-like two-level stepper on ℚ with a start-up counter. -/
def demo : Stepper ℚ ℚ where
  dt := 1
  tick t := t + 1
  advance t L i := (L.previous.sum + t, (i.getD 0) + 1)

def demoCfg : Config := ⟨true, true, true, true, 2, 1, 3, 2⟩

def demoCore : Core ℚ ℚ := ⟨⟨[0, 0], 1⟩, 0, 0, some 0⟩

example : Exact demo := fun _ => rfl

/-- A run of three steps, stopped at a checkpoint step that is not a multiple of `dumpfreq`, and
resumed for three more. -/
example : ∃ s r r', Run demo demoCfg 3 (fresh demoCfg 0 demoCore) 3 s ∧
    resume demoCfg s.files ⟨⟨[7, 8], 9⟩, 5, 6, some 0⟩ = some r ∧
    Run demo demoCfg 6 r 3 r' ∧ demoCfg.chkptfreq ∣ 3 ∧ ¬ demoCfg.dumpfreq ∣ 3 ∧
    demoCfg.dumpfreq ≤ 3 ∧ demoCfg.pddumpfreq ≤ 3 ∧ demoCore.levels.previous ≠ [] := by
  have hs : Run demo demoCfg 3 (fresh demoCfg 0 demoCore) 3
      ((body demo demoCfg)^[3] (fresh demoCfg 0 demoCore)) := by
    rw [run_iff, fresh_core]
    refine ⟨rfl, ?_, ?_⟩
    · simp [demo]; norm_num
    · intro m hm; interval_cases m <;> simp [demo] <;> norm_num
  obtain ⟨r, hr⟩ : ∃ r, resume demoCfg ((body demo demoCfg)^[3] (fresh demoCfg 0 demoCore)).files
      ⟨⟨[7, 8], 9⟩, 5, 6, some 0⟩ = some r := by
    simp only [resume, iterate_chk demo demoCfg rfl]; exact ⟨_, rfl⟩
  have hrt : r.core.t = 3 := by
    simp only [resume, iterate_chk demo demoCfg rfl] at hr
    cases hr
    simp only [pickUp, ckptAt, save]
    rw [core_t]; simp [demo, demoCfg]; norm_num
  refine ⟨_, r, (body demo demoCfg)^[3] r, hs, hr, ?_, by decide, by decide, by decide, by decide,
    by simp [demoCore]⟩
  rw [run_iff, hrt]
  refine ⟨rfl, ?_, ?_⟩
  · simp [demo]; norm_num
  · intro m hm; interval_cases m <;> simp [demo] <;> norm_num

end LoopProps
end Gusto.Props
