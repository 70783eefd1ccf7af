import Verif.Model.TimeLoop
import Verif.Lemmas.Multilevel
import Mathlib.Algebra.Order.Archimedean.Basic
import Mathlib.Tactic.Linarith
import Mathlib.Tactic.Ring

set_option autoImplicit false
set_option linter.unusedSectionVars false
set_option linter.unusedSimpArgs false

namespace Gusto
open Multilevel
variable {K X : Type*}

namespace TimeLoop

/-! ## Loops -/

theorem While_iff {σ : Type*} (c : σ → Prop) (b : σ → σ) (s : σ) (n : ℕ) (s' : σ) :
    While c b s n s' ↔ s' = b^[n] s ∧ ¬ c s' ∧ ∀ m < n, c (b^[m] s) := by
  induction n generalizing s with
  | zero =>
    constructor
    · rintro ⟨h⟩; exact ⟨rfl, h, by simp⟩
    · rintro ⟨rfl, h, -⟩; exact .stop h
  | succ n ih =>
    constructor
    · rintro (_ | ⟨hc, h⟩)
      obtain ⟨h1, h2, h3⟩ := (ih _).1 h
      refine ⟨by simpa [Function.iterate_succ_apply] using h1, h2, fun m hm => ?_⟩
      cases m with
      | zero => exact hc
      | succ m => simpa [Function.iterate_succ_apply] using h3 m (by omega)
    · rintro ⟨h1, h2, h3⟩
      refine .iter (h3 0 (by omega)) ((ih _).2 ⟨by simpa [Function.iterate_succ_apply] using h1, h2,
        fun m hm => by simpa [Function.iterate_succ_apply] using h3 (m + 1) (by omega)⟩)

theorem While_unique {σ : Type*} {c : σ → Prop} {b : σ → σ} {s : σ} {n n' : ℕ} {s' s'' : σ}
    (h : While c b s n s') (h' : While c b s n' s'') : n = n' ∧ s' = s'' := by
  induction h generalizing n' s'' with
  | stop h =>
    cases h' with
    | stop => exact ⟨rfl, rfl⟩
    | iter hc => exact absurd hc h
  | iter hc _ ih =>
    cases h' with
    | stop h => exact absurd hc h
    | iter _ h => obtain ⟨rfl, rfl⟩ := ih h; exact ⟨rfl, rfl⟩

/-! ## Frame lemmas for `dump` -/

@[simp] theorem dumpDiag_core (cfg : Config) (s : Sys K X) :
    (dumpDiag cfg s).core = s.core := by
  unfold dumpDiag Sys.put; dsimp only; split_ifs <;> rfl

@[simp] theorem dumpDiag_point (cfg : Config) (s : Sys K X) :
    (dumpDiag cfg s).files.point = s.files.point := by
  unfold dumpDiag Sys.put; dsimp only; split_ifs <;> rfl

@[simp] theorem dumpDiag_chk (cfg : Config) (s : Sys K X) :
    (dumpDiag cfg s).files.chk = s.files.chk := by
  unfold dumpDiag Sys.put; dsimp only; split_ifs <;> rfl

@[simp] theorem dumpDiag_nc (cfg : Config) (s : Sys K X) :
    (dumpDiag cfg s).files.nc = s.files.nc := by
  unfold dumpDiag Sys.put; dsimp only; split_ifs <;> rfl

@[simp] theorem dumpDiag_cpd (cfg : Config) (s : Sys K X) :
    (dumpDiag cfg s).cnt.pd = s.cnt.pd := by
  unfold dumpDiag Sys.put; dsimp only; split_ifs <;> rfl

@[simp] theorem dumpDiag_cchk (cfg : Config) (s : Sys K X) :
    (dumpDiag cfg s).cnt.chk = s.cnt.chk := by
  unfold dumpDiag Sys.put; dsimp only; split_ifs <;> rfl

@[simp] theorem dumpDiag_cdump (cfg : Config) (s : Sys K X) :
    (dumpDiag cfg s).cnt.dump = s.cnt.dump := by
  unfold dumpDiag Sys.put; dsimp only; split_ifs <;> rfl

@[simp] theorem dumpDiag_cpr (cfg : Config) (s : Sys K X) :
    (dumpDiag cfg s).cnt.pointRow = s.cnt.pointRow := by
  unfold dumpDiag Sys.put; dsimp only; split_ifs <;> rfl

@[simp] theorem dumpDiag_cnr (cfg : Config) (s : Sys K X) :
    (dumpDiag cfg s).cnt.ncRow = s.cnt.ncRow := by
  unfold dumpDiag Sys.put; dsimp only; split_ifs <;> rfl

@[simp] theorem dumpPoint_core (cfg : Config) (s : Sys K X) :
    (dumpPoint cfg s).core = s.core := by
  unfold dumpPoint Sys.put; dsimp only; split_ifs <;> rfl

@[simp] theorem dumpPoint_diagrows (cfg : Config) (s : Sys K X) :
    (dumpPoint cfg s).files.diag = s.files.diag := by
  unfold dumpPoint Sys.put; dsimp only; split_ifs <;> rfl

@[simp] theorem dumpPoint_chk (cfg : Config) (s : Sys K X) :
    (dumpPoint cfg s).files.chk = s.files.chk := by
  unfold dumpPoint Sys.put; dsimp only; split_ifs <;> rfl

@[simp] theorem dumpPoint_nc (cfg : Config) (s : Sys K X) :
    (dumpPoint cfg s).files.nc = s.files.nc := by
  unfold dumpPoint Sys.put; dsimp only; split_ifs <;> rfl

@[simp] theorem dumpPoint_cdiag (cfg : Config) (s : Sys K X) :
    (dumpPoint cfg s).cnt.diag = s.cnt.diag := by
  unfold dumpPoint Sys.put; dsimp only; split_ifs <;> rfl

@[simp] theorem dumpPoint_cchk (cfg : Config) (s : Sys K X) :
    (dumpPoint cfg s).cnt.chk = s.cnt.chk := by
  unfold dumpPoint Sys.put; dsimp only; split_ifs <;> rfl

@[simp] theorem dumpPoint_cdump (cfg : Config) (s : Sys K X) :
    (dumpPoint cfg s).cnt.dump = s.cnt.dump := by
  unfold dumpPoint Sys.put; dsimp only; split_ifs <;> rfl

@[simp] theorem dumpPoint_cnr (cfg : Config) (s : Sys K X) :
    (dumpPoint cfg s).cnt.ncRow = s.cnt.ncRow := by
  unfold dumpPoint Sys.put; dsimp only; split_ifs <;> rfl

@[simp] theorem dumpChk_core (cfg : Config) (i : Option ℕ) (s : Sys K X) :
    (dumpChk cfg i s).core = s.core := by
  unfold dumpChk Sys.put; dsimp only; split_ifs <;> rfl

@[simp] theorem dumpChk_diagrows (cfg : Config) (i : Option ℕ) (s : Sys K X) :
    (dumpChk cfg i s).files.diag = s.files.diag := by
  unfold dumpChk Sys.put; dsimp only; split_ifs <;> rfl

@[simp] theorem dumpChk_point (cfg : Config) (i : Option ℕ) (s : Sys K X) :
    (dumpChk cfg i s).files.point = s.files.point := by
  unfold dumpChk Sys.put; dsimp only; split_ifs <;> rfl

@[simp] theorem dumpChk_nc (cfg : Config) (i : Option ℕ) (s : Sys K X) :
    (dumpChk cfg i s).files.nc = s.files.nc := by
  unfold dumpChk Sys.put; dsimp only; split_ifs <;> rfl

@[simp] theorem dumpChk_cdiag (cfg : Config) (i : Option ℕ) (s : Sys K X) :
    (dumpChk cfg i s).cnt.diag = s.cnt.diag := by
  unfold dumpChk Sys.put; dsimp only; split_ifs <;> rfl

@[simp] theorem dumpChk_cpd (cfg : Config) (i : Option ℕ) (s : Sys K X) :
    (dumpChk cfg i s).cnt.pd = s.cnt.pd := by
  unfold dumpChk Sys.put; dsimp only; split_ifs <;> rfl

@[simp] theorem dumpChk_cdump (cfg : Config) (i : Option ℕ) (s : Sys K X) :
    (dumpChk cfg i s).cnt.dump = s.cnt.dump := by
  unfold dumpChk Sys.put; dsimp only; split_ifs <;> rfl

@[simp] theorem dumpChk_cpr (cfg : Config) (i : Option ℕ) (s : Sys K X) :
    (dumpChk cfg i s).cnt.pointRow = s.cnt.pointRow := by
  unfold dumpChk Sys.put; dsimp only; split_ifs <;> rfl

@[simp] theorem dumpChk_cnr (cfg : Config) (i : Option ℕ) (s : Sys K X) :
    (dumpChk cfg i s).cnt.ncRow = s.cnt.ncRow := by
  unfold dumpChk Sys.put; dsimp only; split_ifs <;> rfl

@[simp] theorem dumpFields_core (cfg : Config) (s : Sys K X) :
    (dumpFields cfg s).core = s.core := by
  unfold dumpFields Sys.put; dsimp only; split_ifs <;> rfl

@[simp] theorem dumpFields_diagrows (cfg : Config) (s : Sys K X) :
    (dumpFields cfg s).files.diag = s.files.diag := by
  unfold dumpFields Sys.put; dsimp only; split_ifs <;> rfl

@[simp] theorem dumpFields_point (cfg : Config) (s : Sys K X) :
    (dumpFields cfg s).files.point = s.files.point := by
  unfold dumpFields Sys.put; dsimp only; split_ifs <;> rfl

@[simp] theorem dumpFields_chk (cfg : Config) (s : Sys K X) :
    (dumpFields cfg s).files.chk = s.files.chk := by
  unfold dumpFields Sys.put; dsimp only; split_ifs <;> rfl

@[simp] theorem dumpFields_cdiag (cfg : Config) (s : Sys K X) :
    (dumpFields cfg s).cnt.diag = s.cnt.diag := by
  unfold dumpFields Sys.put; dsimp only; split_ifs <;> rfl

@[simp] theorem dumpFields_cpd (cfg : Config) (s : Sys K X) :
    (dumpFields cfg s).cnt.pd = s.cnt.pd := by
  unfold dumpFields Sys.put; dsimp only; split_ifs <;> rfl

@[simp] theorem dumpFields_cchk (cfg : Config) (s : Sys K X) :
    (dumpFields cfg s).cnt.chk = s.cnt.chk := by
  unfold dumpFields Sys.put; dsimp only; split_ifs <;> rfl

@[simp] theorem dumpFields_cpr (cfg : Config) (s : Sys K X) :
    (dumpFields cfg s).cnt.pointRow = s.cnt.pointRow := by
  unfold dumpFields Sys.put; dsimp only; split_ifs <;> rfl

@[simp] theorem dump_core (cfg : Config) (i : Option ℕ) (s : Sys K X) :
    (dump cfg i s).core = s.core := by simp [dump]

/-! ## Rows and counters after one `dump` -/

theorem dump_nc (cfg : Config) (i : Option ℕ) (s : Sys K X) :
    (dump cfg i s).files.nc = if cfg.dumpNc = true ∧ s.cnt.dump % cfg.dumpfreq = 0
      then writeRow s.files.nc s.cnt.ncRow (s.core.t, s.core.levels.np1) else s.files.nc := by
  rw [dump]; unfold dumpFields Sys.put; dsimp only
  simp only [dumpChk_cdump, dumpPoint_cdump, dumpDiag_cdump]
  split_ifs <;> simp_all

theorem dump_cdump (cfg : Config) (i : Option ℕ) (s : Sys K X) :
    (dump cfg i s).cnt.dump = s.cnt.dump + 1 := by
  rw [dump]; unfold dumpFields Sys.put; dsimp only
  split_ifs <;> simp

theorem dump_cnr (cfg : Config) (i : Option ℕ) (s : Sys K X) :
    (dump cfg i s).cnt.ncRow = if cfg.dumpNc = true ∧ s.cnt.dump % cfg.dumpfreq = 0
      then s.cnt.ncRow + 1 else s.cnt.ncRow := by
  rw [dump]; unfold dumpFields Sys.put; dsimp only
  simp only [dumpChk_cdump, dumpPoint_cdump, dumpDiag_cdump]
  split_ifs <;> simp_all

theorem dump_diag (cfg : Config) (i : Option ℕ) (s : Sys K X) :
    (dump cfg i s).files.diag = if cfg.dumpDiagnostics = true ∧ s.cnt.diag % cfg.diagfreq = 0
      then s.files.diag ++ [some (s.core.t, s.core.levels.np1)] else s.files.diag := by
  simp only [dump, dumpFields_diagrows, dumpChk_diagrows, dumpPoint_diagrows]
  unfold dumpDiag Sys.put writeRow; dsimp only
  split_ifs <;> simp_all

theorem dump_cdiag (cfg : Config) (i : Option ℕ) (s : Sys K X) :
    (dump cfg i s).cnt.diag = if cfg.dumpDiagnostics = true then s.cnt.diag + 1 else s.cnt.diag := by
  simp only [dump, dumpFields_cdiag, dumpChk_cdiag, dumpPoint_cdiag]
  unfold dumpDiag Sys.put; dsimp only
  split_ifs <;> simp_all

theorem dump_point (cfg : Config) (i : Option ℕ) (s : Sys K X) :
    (dump cfg i s).files.point = if cfg.pointData = true ∧ s.cnt.pd % cfg.pddumpfreq = 0
      then writeRow s.files.point s.cnt.pointRow (s.core.t, s.core.levels.np1)
      else s.files.point := by
  simp only [dump, dumpFields_point, dumpChk_point]
  unfold dumpPoint Sys.put; dsimp only
  simp only [dumpDiag_cpd]
  split_ifs <;> simp_all

theorem dump_cpd (cfg : Config) (i : Option ℕ) (s : Sys K X) :
    (dump cfg i s).cnt.pd = if cfg.pointData = true then s.cnt.pd + 1 else s.cnt.pd := by
  simp only [dump, dumpFields_cpd, dumpChk_cpd]
  unfold dumpPoint Sys.put; dsimp only
  split_ifs <;> simp_all

theorem dump_cpr (cfg : Config) (i : Option ℕ) (s : Sys K X) :
    (dump cfg i s).cnt.pointRow = if cfg.pointData = true ∧ s.cnt.pd % cfg.pddumpfreq = 0
      then s.cnt.pointRow + 1 else s.cnt.pointRow := by
  simp only [dump, dumpFields_cpr, dumpChk_cpr]
  unfold dumpPoint Sys.put; dsimp only
  simp only [dumpDiag_cpd]
  split_ifs <;> simp_all

theorem dump_chk (cfg : Config) (i : Option ℕ) (s : Sys K X) :
    (dump cfg i s).files.chk = if cfg.checkpoint = true ∧ s.cnt.chk % cfg.chkptfreq = 0
      then .complete (save s.core i) else s.files.chk := by
  simp only [dump, dumpFields_chk]
  unfold dumpChk Sys.put; dsimp only
  simp only [dumpPoint_cchk, dumpDiag_cchk]
  split_ifs <;> simp_all

theorem dump_cchk (cfg : Config) (i : Option ℕ) (s : Sys K X) :
    (dump cfg i s).cnt.chk = if cfg.checkpoint = true then s.cnt.chk + 1 else s.cnt.chk := by
  simp only [dump, dumpFields_cchk]
  unfold dumpChk Sys.put; dsimp only
  split_ifs <;> simp_all

/-- The checkpoint files seen on disk during a `dump`. -/
theorem dump_history_chk (cfg : Config) (i : Option ℕ) (s : Sys K X) (f : Files K X)
    (hf : f ∈ (dump cfg i s).history) :
    f ∈ s.history ∨ f.chk = s.files.chk ∨
      (cfg.checkpoint = true ∧ s.cnt.chk % cfg.chkptfreq = 0 ∧
        (f.chk = .partialWrite ∨ f.chk = .complete (save s.core i))) := by
  have hd : ∀ f ∈ (dumpDiag cfg s).history, f ∈ s.history ∨ f.chk = s.files.chk := by
    unfold dumpDiag Sys.put; dsimp only; split_ifs <;> (intro f hf; simp_all) <;>
      (rcases hf with h | rfl <;> simp_all)
  have hp : ∀ s : Sys K X, ∀ f ∈ (dumpPoint cfg s).history, f ∈ s.history ∨ f.chk = s.files.chk := by
    intro s
    unfold dumpPoint Sys.put; dsimp only; split_ifs <;> (intro f hf; simp_all) <;>
      (rcases hf with h | rfl <;> simp_all)
  have hn : ∀ s : Sys K X, ∀ f ∈ (dumpFields cfg s).history,
      f ∈ s.history ∨ f.chk = s.files.chk := by
    intro s
    unfold dumpFields Sys.put; dsimp only; split_ifs <;> (intro f hf; simp_all) <;>
      (rcases hf with h | rfl <;> simp_all)
  have hc : ∀ s : Sys K X, ∀ f ∈ (dumpChk cfg i s).history,
      f ∈ s.history ∨ (cfg.checkpoint = true ∧ s.cnt.chk % cfg.chkptfreq = 0 ∧
        (f.chk = .partialWrite ∨ f.chk = .complete (save s.core i))) := by
    intro s
    unfold dumpChk Sys.put; dsimp only; split_ifs <;> (intro f hf; simp_all) <;>
      (rcases hf with h | rfl | rfl <;> simp_all)
  have hchk : (dumpChk cfg i (dumpPoint cfg (dumpDiag cfg s))).files.chk =
      if cfg.checkpoint = true ∧ s.cnt.chk % cfg.chkptfreq = 0
      then .complete (save s.core i) else s.files.chk := by
    have := dump_chk cfg i s; simpa only [dump, dumpFields_chk] using this
  rw [dump] at hf
  rcases hn _ f hf with h | h
  · rcases hc _ f h with h | h
    · rcases hp _ f h with h | h
      · rcases hd f h with h | h
        · exact .inl h
        · exact .inr (.inl h)
      · exact .inr (.inl (by simpa using h))
    · exact .inr (.inr (by simpa using h))
  · rw [hchk] at h
    split_ifs at h with hif
    · exact .inr (.inr ⟨hif.1, hif.2, .inr h⟩)
    · exact .inr (.inl h)

theorem dump_history_mono (cfg : Config) (i : Option ℕ) (s : Sys K X) :
    s.history ⊆ (dump cfg i s).history := by
  have h1 : ∀ s : Sys K X, s.history ⊆ (dumpDiag cfg s).history := by
    intro s; unfold dumpDiag Sys.put; dsimp only; split_ifs <;> simp
  have h2 : ∀ s : Sys K X, s.history ⊆ (dumpPoint cfg s).history := by
    intro s; unfold dumpPoint Sys.put; dsimp only; split_ifs <;> simp
  have h3 : ∀ s : Sys K X, s.history ⊆ (dumpChk cfg i s).history := by
    intro s; unfold dumpChk Sys.put; dsimp only; split_ifs <;> simp
  have h4 : ∀ s : Sys K X, s.history ⊆ (dumpFields cfg s).history := by
    intro s; unfold dumpFields Sys.put; dsimp only; split_ifs <;> simp
  exact fun f hf => h4 _ (h3 _ (h2 _ (h1 _ hf)))

/-- A checkpoint write passes through the truncated file. -/
theorem dump_history_partial (cfg : Config) (i : Option ℕ) (s : Sys K X)
    (hc : cfg.checkpoint = true) (h : s.cnt.chk % cfg.chkptfreq = 0) :
    ∃ f ∈ (dump cfg i s).history, f.chk = .partialWrite := by
  have h4 : ∀ s : Sys K X, s.history ⊆ (dumpFields cfg s).history := by
    intro s; unfold dumpFields Sys.put; dsimp only; split_ifs <;> simp
  have h3 : ∀ s : Sys K X, s.cnt.chk % cfg.chkptfreq = 0 →
      ∃ f ∈ (dumpChk cfg i s).history, f.chk = .partialWrite := by
    intro s hs
    refine ⟨{ s.files with chk := .partialWrite }, ?_, rfl⟩
    simp [dumpChk, Sys.put, hc, hs]
  obtain ⟨f, hf, hp⟩ := h3 (dumpPoint cfg (dumpDiag cfg s)) (by simpa using h)
  exact ⟨f, h4 _ hf, hp⟩

/-! ## The core of the loop -/

theorem body_core (A : Stepper K X) (cfg : Config) (s : Sys K X) :
    (body A cfg s).core = coreStep A s.core := by simp [body]

theorem iterate_core (A : Stepper K X) (cfg : Config) (s : Sys K X) (n : ℕ) :
    ((body A cfg)^[n] s).core = (coreStep A)^[n] s.core := by
  induction n with
  | zero => rfl
  | succ n ih => rw [Function.iterate_succ_apply', Function.iterate_succ_apply', body_core, ih]

theorem core_t (A : Stepper K X) (c : Core K X) (n : ℕ) :
    ((coreStep A)^[n] c).t = A.tick^[n] c.t := by
  induction n with
  | zero => rfl
  | succ n ih => rw [Function.iterate_succ_apply', Function.iterate_succ_apply', ← ih]; rfl

theorem core_step (A : Stepper K X) (c : Core K X) (n : ℕ) :
    ((coreStep A)^[n] c).step = c.step + n := by
  induction n with
  | zero => rfl
  | succ n ih => rw [Function.iterate_succ_apply', coreStep, ih]; dsimp only; omega

theorem core_previous (A : Stepper K X) (c : Core K X) (n : ℕ) :
    ((coreStep A)^[n] c).levels.previous.length = c.levels.previous.length := by
  induction n with
  | zero => rfl
  | succ n ih =>
    rw [Function.iterate_succ_apply', ← ih]
    generalize (coreStep A)^[n] c = d
    by_cases h : d.levels.previous = []
    · simp [coreStep, Levels.update, h]
    · simp [coreStep, update_previous _ h]
      have := List.length_pos_iff.2 h; omega

theorem core_initial (A : Stepper K X) (c : Core K X) (n : ℕ) :
    ((coreStep A)^[n] c).initial.isSome = c.initial.isSome := by
  induction n with
  | zero => rfl
  | succ n ih => rw [Function.iterate_succ_apply', ← ih]; simp [coreStep]

theorem fresh_core (cfg : Config) (t : K) (c0 : Core K X) :
    (fresh cfg t c0).core = { c0 with t := t, step := 1 } := by simp [fresh]

/-! ## Saving and restoring -/

/-- Equal in everything the rest of the run depends on. -/
structure Agree (c c' : Core K X) : Prop where
  t : c.t = c'.t
  step : c.step = c'.step
  np1 : c.levels.np1 = c'.levels.np1
  prev : c.levels.previous.tail = c'.levels.previous.tail
  len : c.levels.previous.length = c'.levels.previous.length
  initial : c.initial = c'.initial

theorem Agree.refl (c : Core K X) : Agree c c := ⟨rfl, rfl, rfl, rfl, rfl, rfl⟩

theorem Agree.step_eq (A : Stepper K X) {c c' : Core K X} (h : Agree c c') :
    coreStep A c = coreStep A c' := by
  have hL : c.levels.update = c'.levels.update := by
    by_cases h0 : c.levels.previous = []
    · have h0' : c'.levels.previous = [] := by
        have := h.len; rw [h0] at this; exact List.length_eq_zero_iff.1 this.symm
      simp [Levels.update, h0, h0', h.np1]
    · have h0' : c'.levels.previous ≠ [] := by
        intro h1; have := h.len; rw [h1] at this; exact h0 (List.length_eq_zero_iff.1 this)
      have e1 := update_previous _ h0
      have e2 := update_previous _ h0'
      have e : ∀ L L' : Levels X, L.previous = L'.previous → L.np1 = L'.np1 → L = L' := by
        rintro ⟨_, _⟩ ⟨_, _⟩ h h'; cases h; cases h'; rfl
      refine e _ _ ?_ ?_
      · rw [e1, e2, h.prev, h.np1]
      · rw [update_np1, update_np1, h.np1]
  simp only [coreStep, hL, h.t, h.step, h.initial]

theorem storedLevels_aux (p : List X) (n : ℕ) (hn : n ≤ p.length) :
    (List.range n).filterMap (fun k => p[p.length - 1 - k]?) = (p.drop (p.length - n)).reverse := by
  induction n with
  | zero => simp
  | succ n ih =>
    rw [List.range_succ, List.filterMap_append, ih (by omega)]
    have h : p.length - (n + 1) < p.length := by omega
    rw [List.drop_eq_getElem_cons h, show p.length - (n + 1) + 1 = p.length - n by omega]
    have e : p.length - 1 - n = p.length - (n + 1) := by omega
    simp [e, h]

theorem storedLevels_eq (p : List X) : storedLevels p = p.tail.reverse := by
  rw [storedLevels, show p.length + 1 - 2 = p.length - 1 by omega, storedLevels_aux _ _ (by omega)]
  cases p <;> simp

/-- The loop of `pickUp`: level `len-1-i` receives `olds[i]`. -/
theorem restore_getElem (olds p : List X) (n j : ℕ) (hn : n ≤ olds.length) (hp : n < p.length) :
    ((List.range n).foldl (restoreLevel (p.length) olds) p)[j]?
      = if j < p.length ∧ p.length - 1 - j < n then olds[p.length - 1 - j]? else p[j]? := by
  induction n with
  | zero => simp
  | succ n ih =>
    rw [List.range_succ, List.foldl_append]
    have hn' : n < olds.length := by omega
    simp only [List.foldl_cons, List.foldl_nil, restoreLevel.eq_1 _ _ _ n, List.getElem?_eq_getElem hn']
    have hlen : ((List.range n).foldl (restoreLevel (p.length) olds) p).length = p.length := by
      clear ih hn hp hn'
      induction n with
      | zero => rfl
      | succ n ih =>
        rw [List.range_succ, List.foldl_append, List.foldl_cons, List.foldl_nil]
        rw [restoreLevel]; cases olds[n]? <;> simp [ih]
    rw [List.getElem?_set, hlen, ih (by omega) (by omega)]
    by_cases hj : p.length - 1 - n = j
    · subst hj
      rw [if_pos rfl, if_pos (by omega), if_pos ⟨by omega, by omega⟩]
      rw [show p.length - 1 - (p.length - 1 - n) = n by omega]
      exact (List.getElem?_eq_getElem hn').symm
    · rw [if_neg hj]
      congr 1
      apply propext
      constructor <;> rintro ⟨h1, h2⟩ <;> exact ⟨h1, by omega⟩

theorem restore_length (olds p : List X) (n m : ℕ) :
    ((List.range n).foldl (restoreLevel (m) olds) p).length = p.length := by
  induction n with
  | zero => rfl
  | succ n ih =>
    rw [List.range_succ, List.foldl_append, List.foldl_cons, List.foldl_nil]
    rw [restoreLevel]; cases olds[n]? <;> simp [ih]

/-- A state saved and loaded into another timestepper with the same number of levels. -/
theorem agree_pickUp (c c0 : Core K X) (i : Option ℕ)
    (hne : c.levels.previous ≠ [])
    (hlen : c0.levels.previous.length = c.levels.previous.length)
    (hi : c.initial = (match c0.initial, i with | some _, some n => some n | j, _ => j)) :
    Agree c (pickUp (save c i) c0) := by
  have hpos := List.length_pos_iff.2 hne
  refine ⟨rfl, rfl, rfl, ?_, ?_, hi⟩
  · apply List.ext_getElem?
    intro j
    have ho : (save c i).olds = c.levels.previous.tail.reverse := storedLevels_eq _
    have hol : (save c i).olds.length = c.levels.previous.length - 1 := by simp [ho]
    simp only [pickUp, List.getElem?_tail]
    rw [restore_getElem _ _ _ _ le_rfl (by omega), hol, hlen]
    by_cases hj : j + 1 < c.levels.previous.length
    · rw [if_pos ⟨hj, by omega⟩, ho, List.getElem?_reverse (by simp; omega)]
      simp only [List.length_tail, List.getElem?_tail]
      congr 1; omega
    · rw [if_neg (by omega), List.getElem?_eq_none (by omega), List.getElem?_eq_none (by omega)]
  · simp only [pickUp]; rw [restore_length, hlen]

/-! ## Output over many steps -/

/-- What a row of output records of a state. -/
def snap (c : Core K X) : K × X := (c.t, c.levels.np1)

/-- Rows for the steps `1, …, n` that are multiples of `f`. -/
def laterRows (A : Stepper K X) (c : Core K X) (f n : ℕ) : List (Option (K × X)) :=
  ((List.range' 1 n).filter (fun j => j % f = 0)).map fun j => some (snap ((coreStep A)^[j] c))

theorem laterRows_succ (A : Stepper K X) (c : Core K X) (f n : ℕ) :
    laterRows A c f (n + 1) = if (1 + n) % f = 0
      then laterRows A c f n ++ [some (snap ((coreStep A)^[n + 1] c))] else laterRows A c f n := by
  unfold laterRows
  rw [List.range'_concat, List.filter_append, List.map_append]
  by_cases h : (1 + n) % f = 0
  · rw [if_pos h, List.filter_cons_of_pos (by simpa using h)]; simp [Nat.add_comm 1 n]
  · rw [if_neg h]; simp [h]

theorem writeRow_length {α : Type*} (rows : List (Option α)) (v : α) :
    writeRow rows rows.length v = rows ++ [some v] := by simp [writeRow]

theorem iterate_nc (A : Stepper K X) (cfg : Config) (hd : cfg.dumpNc = true) (s : Sys K X)
    (h1 : s.cnt.dump = 1) (h2 : s.cnt.ncRow = s.files.nc.length) (n : ℕ) :
    ((body A cfg)^[n] s).cnt.dump = 1 + n ∧
    ((body A cfg)^[n] s).cnt.ncRow = ((body A cfg)^[n] s).files.nc.length ∧
    ((body A cfg)^[n] s).files.nc = s.files.nc ++ laterRows A s.core cfg.dumpfreq n := by
  induction n with
  | zero => exact ⟨h1, h2, by simp [laterRows]⟩
  | succ n ih =>
    obtain ⟨i1, i2, i3⟩ := ih
    have ic := iterate_core A cfg s n
    rw [Function.iterate_succ_apply', body]
    generalize (body A cfg)^[n] s = u at *
    rw [dump_cdump, dump_cnr, dump_nc, laterRows_succ]
    simp only [i1, i2, hd, true_and, writeRow_length, ic, ← Function.iterate_succ_apply' (coreStep A)]
    refine ⟨by omega, ?_, ?_⟩ <;> split_ifs <;> simp [i3, snap, Nat.add_assoc]

theorem iterate_diag (A : Stepper K X) (cfg : Config) (hd : cfg.dumpDiagnostics = true)
    (s : Sys K X) (h1 : s.cnt.diag = 1) (n : ℕ) :
    ((body A cfg)^[n] s).cnt.diag = 1 + n ∧
    ((body A cfg)^[n] s).files.diag = s.files.diag ++ laterRows A s.core cfg.diagfreq n := by
  induction n with
  | zero => exact ⟨h1, by simp [laterRows]⟩
  | succ n ih =>
    obtain ⟨i1, i3⟩ := ih
    have ic := iterate_core A cfg s n
    rw [Function.iterate_succ_apply', body]
    generalize (body A cfg)^[n] s = u at *
    rw [dump_cdiag, dump_diag, laterRows_succ]
    simp only [i1, hd, true_and, if_true, ic, ← Function.iterate_succ_apply' (coreStep A)]
    refine ⟨by omega, ?_⟩; split_ifs <;> simp [i3, snap]

theorem iterate_point (A : Stepper K X) (cfg : Config) (hd : cfg.pointData = true) (s : Sys K X)
    (h1 : s.cnt.pd = 1) (h2 : s.cnt.pointRow = s.files.point.length) (n : ℕ) :
    ((body A cfg)^[n] s).cnt.pd = 1 + n ∧
    ((body A cfg)^[n] s).cnt.pointRow = ((body A cfg)^[n] s).files.point.length ∧
    ((body A cfg)^[n] s).files.point = s.files.point ++ laterRows A s.core cfg.pddumpfreq n := by
  induction n with
  | zero => exact ⟨h1, h2, by simp [laterRows]⟩
  | succ n ih =>
    obtain ⟨i1, i2, i3⟩ := ih
    have ic := iterate_core A cfg s n
    rw [Function.iterate_succ_apply', body]
    generalize (body A cfg)^[n] s = u at *
    rw [dump_cpd, dump_cpr, dump_point, laterRows_succ]
    simp only [i1, i2, hd, true_and, if_true, writeRow_length, ic,
      ← Function.iterate_succ_apply' (coreStep A)]
    refine ⟨by omega, ?_, ?_⟩ <;> split_ifs <;> simp [i3, snap, Nat.add_assoc]

/-- Overwriting the first rows of a list. -/
def overwrite {α : Type*} (rows new : List α) : List α := new ++ rows.drop new.length

theorem writeRow_overwrite {α : Type*} (rows new : List (Option α)) (v : α) :
    writeRow (overwrite rows new) new.length v = overwrite rows (new ++ [some v]) := by
  unfold writeRow overwrite
  split_ifs with h
  · rw [List.set_append_right _ _ le_rfl, Nat.sub_self]
    rw [List.length_append, List.length_drop] at h
    have h' : new.length < rows.length := by omega
    rw [List.drop_eq_getElem_cons h', List.set_cons_zero]
    simp
  · rw [List.length_append, List.length_drop] at h
    have h' : rows.length ≤ new.length := by omega
    rw [List.drop_eq_nil_of_le h', List.drop_eq_nil_of_le (by simp; omega)]
    simp

/-- Point data after a pick-up: the row index starts again at zero. -/
theorem iterate_point_resumed (A : Stepper K X) (cfg : Config) (hd : cfg.pointData = true)
    (s : Sys K X) (h1 : s.cnt.pd = 1) (h2 : s.cnt.pointRow = 0) (n : ℕ) :
    ((body A cfg)^[n] s).cnt.pd = 1 + n ∧
    ((body A cfg)^[n] s).cnt.pointRow = (laterRows A s.core cfg.pddumpfreq n).length ∧
    ((body A cfg)^[n] s).files.point
      = overwrite s.files.point (laterRows A s.core cfg.pddumpfreq n) := by
  induction n with
  | zero => exact ⟨h1, by simpa [laterRows] using h2, by simp [laterRows, overwrite]⟩
  | succ n ih =>
    obtain ⟨i1, i2, i3⟩ := ih
    have ic := iterate_core A cfg s n
    rw [Function.iterate_succ_apply', body]
    generalize (body A cfg)^[n] s = u at *
    rw [dump_cpd, dump_cpr, dump_point, laterRows_succ]
    simp only [i1, i2, hd, true_and, if_true, ic, i3, writeRow_overwrite,
      ← Function.iterate_succ_apply' (coreStep A)]
    refine ⟨by omega, ?_, ?_⟩ <;> split_ifs <;> simp [snap]

theorem iterate_cchk (A : Stepper K X) (cfg : Config) (hd : cfg.checkpoint = true) (s : Sys K X)
    (h1 : s.cnt.chk = 1) (n : ℕ) : ((body A cfg)^[n] s).cnt.chk = 1 + n := by
  induction n with
  | zero => exact h1
  | succ n ih =>
    rw [Function.iterate_succ_apply', body, dump_cchk, if_pos hd]; simp only [ih]; omega

/-! ## After the initial dump -/

theorem fresh_nc (cfg : Config) (t : K) (c0 : Core K X) (hd : cfg.dumpNc = true) :
    (fresh cfg t c0).cnt.dump = 1 ∧ (fresh cfg t c0).cnt.ncRow = (fresh cfg t c0).files.nc.length ∧
    (fresh cfg t c0).files.nc = [some (t, c0.levels.np1)] := by
  rw [fresh, dump_cdump, dump_cnr, dump_nc]; simp [hd, writeRow]

theorem fresh_diag (cfg : Config) (t : K) (c0 : Core K X) (hd : cfg.dumpDiagnostics = true) :
    (fresh cfg t c0).cnt.diag = 1 ∧ (fresh cfg t c0).files.diag = [some (t, c0.levels.np1)] := by
  rw [fresh, dump_cdiag, dump_diag]; simp [hd]

theorem fresh_point (cfg : Config) (t : K) (c0 : Core K X) (hd : cfg.pointData = true) :
    (fresh cfg t c0).cnt.pd = 1 ∧
    (fresh cfg t c0).cnt.pointRow = (fresh cfg t c0).files.point.length ∧
    (fresh cfg t c0).files.point = [some (t, c0.levels.np1)] := by
  rw [fresh, dump_cpd, dump_cpr, dump_point]; simp [hd, writeRow]

theorem fresh_chk (cfg : Config) (t : K) (c0 : Core K X) (hd : cfg.checkpoint = true) :
    (fresh cfg t c0).cnt.chk = 1 ∧
    (fresh cfg t c0).files.chk = .complete (save { c0 with t := t, step := 1 } none) := by
  rw [fresh, dump_cchk, dump_chk]; simp [hd]

/-- The checkpoint describing the state after `k` steps of a run started in `c`. -/
def ckptAt (A : Stepper K X) (c : Core K X) (k : ℕ) : Ckpt K X :=
  save ((coreStep A)^[k] c) (if k = 0 then none else ((coreStep A)^[k] c).initial)

theorem agree_ckptAt (A : Stepper K X) (c1 c0' : Core K X) (hne : c1.levels.previous ≠ [])
    (hlev : c0'.levels.previous.length = c1.levels.previous.length)
    (hini : c0'.initial = c1.initial) (j : ℕ) :
    Agree ((coreStep A)^[j] c1) (pickUp (ckptAt A c1 j) c0') := by
  refine agree_pickUp _ _ _ ?_ ?_ ?_
  · intro h0
    have := core_previous A c1 j
    rw [h0] at this
    exact hne (List.length_eq_zero_iff.1 this.symm)
  · rw [core_previous A c1 j]; exact hlev
  · by_cases hj0 : j = 0
    · rw [if_pos hj0, hj0, Function.iterate_zero_apply, hini]
      cases c1.initial <;> rfl
    · rw [if_neg hj0, hini]
      have := core_initial A c1 j
      cases hi : c1.initial with
      | none =>
        rw [hi] at this
        cases hv : ((coreStep A)^[j] c1).initial with
        | none => rfl
        | some v => rw [hv] at this; cases this
      | some q =>
        rw [hi] at this
        cases hv : ((coreStep A)^[j] c1).initial with
        | none => rw [hv] at this; cases this
        | some v => rfl

/-- The checkpoint on disk after `n` steps is that of the last multiple of `chkptfreq`. -/
theorem iterate_chk (A : Stepper K X) (cfg : Config) (hd : cfg.checkpoint = true) (t : K)
    (c0 : Core K X) (n : ℕ) :
    ((body A cfg)^[n] (fresh cfg t c0)).files.chk
      = .complete (ckptAt A { c0 with t := t, step := 1 } (n - n % cfg.chkptfreq)) := by
  induction n with
  | zero => simpa [ckptAt] using (fresh_chk cfg t c0 hd).2
  | succ n ih =>
    have hc := iterate_cchk A cfg hd (fresh cfg t c0) (fresh_chk cfg t c0 hd).1 n
    have ic := iterate_core A cfg (fresh cfg t c0) n
    rw [fresh_core] at ic
    rw [Function.iterate_succ_apply', body]
    generalize (body A cfg)^[n] (fresh cfg t c0) = u at *
    rw [dump_chk]
    simp only [hc, hd, true_and, ic, ← Function.iterate_succ_apply' (coreStep A), ih]
    by_cases h : (1 + n) % cfg.chkptfreq = 0
    · rw [if_pos h, show (n + 1) % cfg.chkptfreq = 0 by rwa [Nat.add_comm]]
      simp [ckptAt]
    · rw [if_neg h]
      have h' : (n + 1) % cfg.chkptfreq ≠ 0 := by rwa [Nat.add_comm]
      congr 2
      rcases Nat.eq_zero_or_pos cfg.chkptfreq with h0 | h0
      · simp [h0]
      · have e : (n + 1) % cfg.chkptfreq = (n % cfg.chkptfreq + 1) % cfg.chkptfreq :=
          (Nat.mod_add_mod n cfg.chkptfreq 1).symm
        have hl := Nat.mod_lt n h0
        rcases Nat.lt_or_ge (n % cfg.chkptfreq + 1) cfg.chkptfreq with hlt | hge
        · rw [Nat.mod_eq_of_lt hlt] at e; omega
        · rw [show n % cfg.chkptfreq + 1 = cfg.chkptfreq by omega, Nat.mod_self] at e
          exact absurd e h'

/-- Every disk content of an uninterrupted run. -/
theorem history_chk (A : Stepper K X) (cfg : Config) (t : K)
    (c0 : Core K X) (n : ℕ) (f : Files K X)
    (hf : f ∈ ((body A cfg)^[n] (fresh cfg t c0)).history) :
    f.chk = .absent ∨ f.chk = .partialWrite ∨ ∃ k ≤ n, k % cfg.chkptfreq = 0 ∧
      f.chk = .complete (ckptAt A { c0 with t := t, step := 1 } k) := by
  induction n with
  | zero =>
    rw [Function.iterate_zero_apply, fresh] at hf
    rcases dump_history_chk _ _ _ f hf with h | h | ⟨-, -, h⟩
    · simp at h
    · exact .inl h
    · rcases h with h | h
      · exact .inr (.inl h)
      · exact .inr (.inr ⟨0, le_rfl, by simp, by simpa [ckptAt] using h⟩)
  | succ n ih =>
    rw [Function.iterate_succ_apply', body] at hf
    have ic := iterate_core A cfg (fresh cfg t c0) n
    rw [fresh_core] at ic
    rcases dump_history_chk _ _ _ f hf with h | h | ⟨hc, h1, h⟩
    · rcases ih h with h | h | ⟨k, hk, h⟩
      · exact .inl h
      · exact .inr (.inl h)
      · exact .inr (.inr ⟨k, by omega, h⟩)
    · by_cases hc : cfg.checkpoint = true
      · rw [show _ = _ from h]
        simp only
        rw [iterate_chk A cfg hc t c0 n]
        refine .inr (.inr ⟨_, by omega, ?_, rfl⟩)
        exact Nat.mod_eq_zero_of_dvd (Nat.dvd_sub_mod n)
      · left
        rw [show _ = _ from h]
        simp only
        clear h hf ic ih
        induction n with
        | zero => rw [Function.iterate_zero_apply, fresh, dump_chk]; simp [hc]
        | succ n ih => rw [Function.iterate_succ_apply', body, dump_chk]; simp [hc, ih]
    · simp only [iterate_cchk A cfg hc (fresh cfg t c0) (fresh_chk cfg t c0 hc).1 n] at h1
      rcases h with h | h
      · exact .inr (.inl h)
      · refine .inr (.inr ⟨n + 1, le_rfl, by rwa [Nat.add_comm], ?_⟩)
        rw [h]
        simp only [ic, ← Function.iterate_succ_apply' (coreStep A)]
        simp [ckptAt]

end TimeLoop
end Gusto
