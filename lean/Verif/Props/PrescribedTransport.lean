import Verif.Model.PrescribedTransport
import Mathlib.Logic.Function.Iterate
import Mathlib.Tactic.NormNum

set_option autoImplicit false
set_option linter.unusedSectionVars false
set_option linter.unusedSimpArgs false

/-!
# C57: prescribed transporting velocities
-/

namespace Gusto.Props.PrescribedProps
open Gusto.Prescribed Gusto.TimeLoop
variable {K X V : Type*}

/-- A call that sets up the velocity. -/
def IsSetup : Cmd K X V → Prop
  | .expr _ => True
  | .apply _ => True
  | .run _ _ _ => False

/-! ### The state machine -/

theorem evalU_flags (s : St K X V) : (evalU s).prescribed = s.prescribed ∧ (evalU s).isSetup = s.isSetup ∧
    (evalU s).projection = s.projection ∧ (evalU s).applyM = s.applyM ∧ (evalU s).t = s.t ∧ (evalU s).x = s.x ∧
    (evalU s).used = s.used ∧ (evalU s).dumps = s.dumps := by
  unfold evalU
  cases h1 : s.projection <;> cases h2 : s.applyM <;> simp [h1, h2]

theorem stepBody_flags (A : Scheme K X V) (s : St K X V) : (stepBody A s).prescribed = s.prescribed ∧
    (stepBody A s).isSetup = s.isSetup ∧ (stepBody A s).projection = s.projection ∧ (stepBody A s).applyM = s.applyM := by
  obtain ⟨h1, h2, h3, h4, -⟩ := evalU_flags s
  exact ⟨h1, h2, h3, h4⟩

theorem while_flags (A : Scheme K X V) (more : K → Prop) (s s' : St K X V) (n : ℕ)
    (h : While (fun s => more s.t) (stepBody A) s n s') : s'.prescribed = s.prescribed ∧
    s'.isSetup = s.isSetup ∧ s'.projection = s.projection ∧ s'.applyM = s.applyM := by
  induction h with
  | stop _ => exact ⟨rfl, rfl, rfl, rfl⟩
  | @iter s s' n _ _ ih =>
    obtain ⟨h1, h2, h3, h4⟩ := stepBody_flags A s
    exact ⟨ih.1.trans h1, ih.2.1.trans h2, ih.2.2.1.trans h3, ih.2.2.2.trans h4⟩

theorem start_flags (s s' : St K X V) (t : K) (chk : Option (K × V × X)) (h : start s t chk = .ok s') :
    s'.prescribed = s.prescribed ∧
    s'.isSetup = s.isSetup ∧ s'.projection = s.projection ∧ s'.applyM = s.applyM := by
  obtain ⟨h1, h2, h3, h4, -⟩ := evalU_flags s
  unfold start at h
  split_ifs at h
  rcases chk with _ | ⟨tc, uc, xc⟩
  · simp only [Except.ok.injEq] at h
    subst h
    exact ⟨h1, h2, h3, h4⟩
  · simp only [Except.ok.injEq] at h
    subst h
    exact ⟨h1, h2, h3, h4⟩

theorem call_flags (A : Scheme K X V) (s s' : St K X V) (c : Cmd K X V) (b : Bool) (h : Call A s c b s') :
    s'.prescribed = s.prescribed ∧ (s'.isSetup = true ↔ s.isSetup = true ∨ IsSetup c) := by
  cases h with
  | exprOk h =>
    unfold setupExpr at h
    split_ifs at h with hi
    simp only [Except.ok.injEq] at h
    subst h
    simp [IsSetup]
  | exprErr h =>
    unfold setupExpr at h
    split_ifs at h with hi
    simp [hi]
  | applyOk h =>
    unfold setupApply at h
    split_ifs at h with hi
    simp only [Except.ok.injEq] at h
    subst h
    simp [IsSetup]
  | applyErr h =>
    unfold setupApply at h
    split_ifs at h with hi
    simp [hi]
  | runOk h =>
    obtain ⟨s0, h0, hw⟩ := h
    obtain ⟨a1, a2, -, -⟩ := start_flags _ _ _ _ h0
    obtain ⟨b1, b2, -, -⟩ := while_flags _ _ _ _ _ hw
    exact ⟨b1.trans a1, by simp [b2, a2, IsSetup]⟩
  | runErr h => simp [IsSetup]

theorem history_flags (A : Scheme K X V) (s s' : St K X V) (cs : List (Cmd K X V × Bool)) (h : History A s cs s') :
    s'.prescribed = s.prescribed ∧ (s'.isSetup = true ↔ s.isSetup = true ∨ ∃ c ∈ cs, IsSetup c.1) := by
  induction h with
  | nil => simp
  | @snoc s' s'' cs c b hh hc ih =>
    obtain ⟨a1, a2⟩ := ih
    obtain ⟨b1, b2⟩ := call_flags A _ _ _ _ hc
    refine ⟨b1.trans a1, ?_⟩
    rw [b2, a2]
    constructor
    · rintro ((h | ⟨d, hd, hs⟩) | h)
      · exact Or.inl h
      · exact Or.inr ⟨d, List.mem_append_left _ hd, hs⟩
      · exact Or.inr ⟨(c, b), by simp, h⟩
    · rintro (h | ⟨d, hd, hs⟩)
      · exact Or.inl (Or.inl h)
      · rcases List.mem_append.1 hd with hd | hd
        · exact Or.inl (Or.inr ⟨d, hd, hs⟩)
        · simp only [List.mem_singleton] at hd
          subst hd
          exact Or.inr hs

/-- **C57** (state machine).  After any history of calls on a new timestepper: a set-up call raises exactly if the
velocity was declared fixed or any set-up call was made before; a run can start exactly if the velocity was declared
fixed or some set-up call was made before; calls that raise leave the timestepper as it was. -/
theorem C57_state_machine (A : Scheme K X V) (prescribed : Bool) (t0 : K) (u0 : V) (x0 : X) (s : St K X V)
    (cs : List (Cmd K X V × Bool)) (h : History A (init prescribed t0 u0 x0) cs s) :
    (∀ f, (∃ s', setupExpr s f = .ok s') ↔ prescribed = true ∧ ∀ c ∈ cs, ¬ IsSetup c.1) ∧
    (∀ f, (∃ s', setupApply s f = .ok s') ↔ prescribed = true ∧ ∀ c ∈ cs, ¬ IsSetup c.1) ∧
    (∀ t chk, (∃ s', start s t chk = .ok s') ↔ prescribed = false ∨ ∃ c ∈ cs, IsSetup c.1) ∧
    (∀ c s', Call A s c false s' → s' = s) := by
  obtain ⟨h1, h2⟩ := history_flags A _ _ _ h
  have hp : s.prescribed = prescribed := h1
  have h3 : s.isSetup = true ↔ prescribed = false ∨ ∃ c ∈ cs, IsSetup c.1 := by
    rw [h2]; simp [init]
  have h4 : ¬ s.isSetup = true ↔ prescribed = true ∧ ∀ c ∈ cs, ¬ IsSetup c.1 := by
    rw [h3]; push Not; simp
  refine ⟨?_, ?_, ?_, ?_⟩
  · intro f
    rw [← h4]
    unfold setupExpr
    split_ifs with hi <;> simp [hi]
  · intro f
    rw [← h4]
    unfold setupApply
    split_ifs with hi <;> simp [hi]
  · intro t chk
    rw [← h3]
    unfold start
    rw [hp]
    cases hi : s.isSetup
    · cases prescribed
      · have := h3.2 (Or.inl rfl)
        rw [hi] at this; cases this
      · simp
    · rcases chk with _ | ⟨tc, uc, xc⟩ <;> simp
  · intro c s' hc
    cases hc <;> rfl

/-! ### The velocity used -/

/-- The velocity that the set-up calls prescribe. -/
def Gives (s : St K X V) (w : K → V) : Prop :=
  (s.projection = some w ∧ s.applyM = none) ∨ (s.projection = none ∧ s.applyM = some w)

theorem evalU_gives {s : St K X V} {w : K → V} (h : Gives s w) : (evalU s).u = w s.t := by
  unfold evalU
  rcases h with ⟨h1, h2⟩ | ⟨h1, h2⟩ <;> simp [h1, h2]

/-- One step with the velocity `w` evaluated at the start of the step. -/
def stepWith (A : Scheme K X V) (w : K → V) (p : K × X) : K × X :=
  (A.tick p.1, A.physics.foldl (fun y f => f p.1 y) (A.dyn (w p.1) p.1 p.2))

theorem body_gives {A : Scheme K X V} {s : St K X V} {w : K → V} (h : Gives s w) :
    ((stepBody A s).t, (stepBody A s).x) = stepWith A w (s.t, s.x) ∧ (stepBody A s).u = w s.t ∧
    (stepBody A s).used = s.used ++ [(s.t, w s.t)] ∧
    (stepBody A s).dumps = s.dumps ++ [(A.tick s.t, w s.t, (stepWith A w (s.t, s.x)).2)] := by
  obtain ⟨-, -, -, -, h5, h6, h7, h8⟩ := evalU_flags s
  have h0 := evalU_gives h
  simp [stepBody, timestep, stepWith, h0, h5, h6, h7, h8]

theorem while_gives {A : Scheme K X V} {more : K → Prop} {s s' : St K X V} {n : ℕ} {w : K → V} (h : Gives s w)
    (hw : While (fun s => more s.t) (stepBody A) s n s') :
    (s'.t, s'.x) = (stepWith A w)^[n] (s.t, s.x) ∧
    s'.used = s.used ++ (List.range n).map (fun i => (A.tick^[i] s.t, w (A.tick^[i] s.t))) ∧
    s'.dumps = s.dumps ++ (List.range n).map (fun i => (A.tick^[i + 1] s.t, w (A.tick^[i] s.t),
      ((stepWith A w)^[i + 1] (s.t, s.x)).2)) := by
  induction hw with
  | stop _ => simp
  | @iter s s' n _ _ ih =>
    obtain ⟨-, -, f3, f4⟩ := stepBody_flags A s
    obtain ⟨b1, -, b3, b4⟩ := body_gives (A := A) h
    have hb : (stepBody A s).t = A.tick s.t := by
      have := congrArg Prod.fst b1; simpa [stepWith] using this
    obtain ⟨i1, i2, i3⟩ := ih (by simpa [Gives, f3, f4] using h)
    refine ⟨?_, ?_, ?_⟩
    · rw [i1, b1, Function.iterate_succ_apply]
    · rw [i2, b3, hb, List.range_succ_eq_map]
      simp [Function.iterate_succ_apply]
    · rw [i3, b4, b1, hb, List.range_succ_eq_map]
      simp [Function.iterate_succ_apply, stepWith]

theorem history_gives (A : Scheme K X V) (s s' : St K X V) (cs : List (Cmd K X V × Bool)) (h : History A s cs s')
    (w : K → V) (hw : Gives s w) (hs : s.isSetup = true) : Gives s' w ∧ s'.isSetup = true := by
  induction h with
  | nil => exact ⟨hw, hs⟩
  | @snoc s' s'' cs c b hh hc ih =>
    obtain ⟨i1, i2⟩ := ih
    have h2 := (call_flags A _ _ _ _ hc).2.2 (Or.inl i2)
    refine ⟨?_, h2⟩
    cases hc with
    | exprOk h => simp [setupExpr, i2] at h
    | exprErr h => exact i1
    | applyOk h => simp [setupApply, i2] at h
    | applyErr h => exact i1
    | runOk h =>
      obtain ⟨s0, h0, hw'⟩ := h
      obtain ⟨-, -, a3, a4⟩ := start_flags _ _ _ _ h0
      obtain ⟨-, -, b3, b4⟩ := while_flags _ _ _ _ _ hw'
      simpa [Gives, a3, a4, b3, b4] using i1
    | runErr h => exact i1

/-- The velocity prescribed by a set-up call made when the clock shows `t`. -/
def prescribedBy (t : K) : Cmd K X V → Option (K → V)
  | .expr f => some (f t)
  | .apply f => some f
  | .run _ _ _ => none

/-- **C57** (velocity).  Let a set-up call succeed at some point of the history of a timestepper.  Then in every later
run - however often the model was run or mis-configured in between, and whether it starts afresh or from a checkpoint -
the step that starts at time `t` uses the prescribed velocity at that same time `t`, whatever `u` contained before; the
result is that of the scheme with this time-dependent velocity followed by the physics schemes in order, each acting on
the result of the one before. -/
theorem C57_velocity (A : Scheme K X V) (t0 : K) (u0 : V) (x0 : X) (s s1 s2 s3 : St K X V)
    (cs cs' : List (Cmd K X V × Bool)) (c : Cmd K X V) (w : K → V)
    (h1 : History A (init true t0 u0 x0) cs s) (hc : Call A s c true s1) (hw : prescribedBy s.t c = some w)
    (h2 : History A s1 cs' s2) (more : K → Prop) (t : K) (chk : Option (K × V × X)) (n : ℕ)
    (hr : Runs A more s2 t chk n s3) :
    let t1 := (chk.map fun k => k.1).getD t
    let x1 := (chk.map fun k => k.2.2).getD s2.x
    (s3.t, s3.x) = (stepWith A w)^[n] (t1, x1) ∧
    s3.used = s2.used ++ (List.range n).map fun i => (A.tick^[i] t1, w (A.tick^[i] t1)) := by
  have hg : Gives s1 w ∧ s1.isSetup = true := by
    have hnone : s.isSetup = false → s.projection = none ∧ s.applyM = none := by
      clear hc hr h2
      intro hs
      have : ∀ (a b : St K X V) (l : List (Cmd K X V × Bool)), History A a l b → a.projection = none → a.applyM = none →
          b.isSetup = false → b.projection = none ∧ b.applyM = none := by
        intro a b l hh ha1 ha2
        induction hh with
        | nil => intro _; exact ⟨ha1, ha2⟩
        | @snoc s' s'' cs c b hh hc ih =>
          intro hf
          have hf' : s'.isSetup = false := by
            by_contra hx
            have := (call_flags A _ _ _ _ hc).2.2 (Or.inl (by simpa using hx))
            rw [hf] at this; cases this
          obtain ⟨i1, i2⟩ := ih hf'
          cases hc with
          | exprOk h =>
            simp only [setupExpr, hf', Bool.false_eq_true, if_false, Except.ok.injEq] at h
            subst h; cases hf
          | exprErr h => exact ⟨i1, i2⟩
          | applyOk h =>
            simp only [setupApply, hf', Bool.false_eq_true, if_false, Except.ok.injEq] at h
            subst h; cases hf
          | applyErr h => exact ⟨i1, i2⟩
          | runOk h =>
            obtain ⟨s0, h0, hw'⟩ := h
            obtain ⟨-, -, a3, a4⟩ := start_flags _ _ _ _ h0
            obtain ⟨-, -, b3, b4⟩ := while_flags _ _ _ _ _ hw'
            exact ⟨b3.trans (a3.trans i1), b4.trans (a4.trans i2)⟩
          | runErr h => exact ⟨i1, i2⟩
      exact this _ _ _ h1 rfl rfl hs
    cases hc with
    | exprOk h =>
      unfold setupExpr at h
      split_ifs at h with hi
      simp only [Except.ok.injEq] at h
      simp only [prescribedBy, Option.some.injEq] at hw
      subst h
      exact ⟨Or.inl ⟨by rw [← hw], (hnone (by simpa using hi)).2⟩, rfl⟩
    | applyOk h =>
      unfold setupApply at h
      split_ifs at h with hi
      simp only [Except.ok.injEq] at h
      simp only [prescribedBy, Option.some.injEq] at hw
      subst h
      exact ⟨Or.inr ⟨(hnone (by simpa using hi)).1, by rw [← hw]⟩, rfl⟩
    | runOk h => cases hw
  obtain ⟨hg2, -⟩ := history_gives A _ _ _ h2 w hg.1 hg.2
  obtain ⟨s0, h0, hwh⟩ := hr
  obtain ⟨-, -, f3, f4⟩ := start_flags _ _ _ _ h0
  have hg3 : Gives s0 w := by simpa [Gives, f3, f4] using hg2
  obtain ⟨g1, g2, -⟩ := while_gives hg3 hwh
  obtain ⟨-, -, -, -, e5, e6, e7, e8⟩ := evalU_flags s2
  have hs0 : s0.t = (chk.map fun k => k.1).getD t ∧ s0.x = (chk.map fun k => k.2.2).getD s2.x ∧ s0.used = s2.used := by
    unfold start at h0
    split_ifs at h0
    rcases chk with _ | ⟨tc, uc, xc⟩
    · simp only [Except.ok.injEq] at h0
      subst h0
      exact ⟨rfl, e6, e7⟩
    · simp only [Except.ok.injEq] at h0
      subst h0
      exact ⟨rfl, rfl, e7⟩
  rw [hs0.1, hs0.2.1] at g1
  rw [hs0.1, hs0.2.2] at g2
  exact ⟨g1, g2⟩

/-- **C57** (fixed velocity).  If the velocity is declared fixed, no sequence of calls changes the field `u` (other than
reading it from a checkpoint) and every step uses it. -/
theorem C57_fixed (A : Scheme K X V) (t0 : K) (u0 : V) (x0 : X) (s s' : St K X V)
    (cs : List (Cmd K X V × Bool)) (h : History A (init false t0 u0 x0) cs s) (more : K → Prop) (t : K) (n : ℕ)
    (hr : Runs A more s t none n s') :
    s'.u = s.u ∧ (∀ p ∈ s'.used, p ∈ s.used ∨ p.2 = s.u) ∧
    ((∀ c ∈ cs, ∀ more t k b, c ≠ (.run more t (some k), b)) → s.u = u0) := by
  have hinv : ∀ (b : St K X V) (l : List (Cmd K X V × Bool)), History A (init false t0 u0 x0) l b →
      b.isSetup = true ∧ b.projection = none ∧ b.applyM = none := by
    intro b l hh
    have hset := (history_flags A _ _ _ hh).2.2 (Or.inl rfl)
    refine ⟨hset, ?_⟩
    generalize hi : init false t0 u0 x0 = a at hh
    induction hh with
    | nil => subst hi; exact ⟨rfl, rfl⟩
    | @snoc s' s'' cs c b hh hc ih =>
      have hset' : s'.isSetup = true := (history_flags A _ _ _ hh).2.2 (Or.inl (by rw [← hi]; rfl))
      obtain ⟨i1, i2⟩ := ih hset'
      cases hc with
      | exprOk h => simp [setupExpr, hset'] at h
      | exprErr h => exact ⟨i1, i2⟩
      | applyOk h => simp [setupApply, hset'] at h
      | applyErr h => exact ⟨i1, i2⟩
      | runOk h =>
        obtain ⟨s0, h0, hw'⟩ := h
        obtain ⟨-, -, a3, a4⟩ := start_flags _ _ _ _ h0
        obtain ⟨-, -, b3, b4⟩ := while_flags _ _ _ _ _ hw'
        exact ⟨b3.trans (a3.trans i1), b4.trans (a4.trans i2)⟩
      | runErr h => exact ⟨i1, i2⟩
  have hev : ∀ b : St K X V, b.projection = none → b.applyM = none → evalU b = b := by
    intro b h1 h2
    unfold evalU
    simp [h1, h2]
  have hwh : ∀ (a b : St K X V) (more : K → Prop) (n : ℕ), While (fun s => more s.t) (stepBody A) a n b →
      a.projection = none → a.applyM = none → b.u = a.u ∧ ∀ p ∈ b.used, p ∈ a.used ∨ p.2 = a.u := by
    intro a b more n hw
    induction hw with
    | stop _ => intro _ _; exact ⟨rfl, fun p hp => Or.inl hp⟩
    | @iter s s' n _ _ ih =>
      intro h1 h2
      obtain ⟨-, -, f3, f4⟩ := stepBody_flags A s
      obtain ⟨i1, i2⟩ := ih (f3.trans h1) (f4.trans h2)
      have hu : (stepBody A s).u = s.u := by simp [stepBody, timestep, hev s h1 h2]
      have hused : (stepBody A s).used = s.used ++ [(s.t, s.u)] := by simp [stepBody, timestep, hev s h1 h2]
      refine ⟨i1.trans hu, ?_⟩
      intro p hp
      rcases i2 p hp with hp | hp
      · rw [hused, List.mem_append, List.mem_singleton] at hp
        rcases hp with hp | rfl
        · exact Or.inl hp
        · exact Or.inr rfl
      · exact Or.inr (hp.trans hu)
  have hst : ∀ (a b : St K X V) (t : K), a.projection = none → a.applyM = none → start a t none = .ok b →
      b.u = a.u ∧ b.used = a.used ∧ b.projection = none ∧ b.applyM = none := by
    intro a b t h1 h2 hs
    obtain ⟨-, -, f3, f4⟩ := start_flags _ _ _ _ hs
    unfold start at hs
    split_ifs at hs
    simp only [Except.ok.injEq] at hs
    rw [hev a h1 h2] at hs
    refine ⟨?_, ?_, f3.trans h1, f4.trans h2⟩ <;> subst hs <;> rfl
  obtain ⟨-, k1, k2⟩ := hinv s cs h
  obtain ⟨s0, h0, hw⟩ := hr
  obtain ⟨c1, c2, c3, c4⟩ := hst _ _ _ k1 k2 h0
  obtain ⟨d1, d2⟩ := hwh _ _ _ _ hw c3 c4
  refine ⟨d1.trans c1, ?_, ?_⟩
  · intro p hp
    rcases d2 p hp with hp | hp
    · rw [c2] at hp; exact Or.inl hp
    · rw [c1] at hp; exact Or.inr hp
  · intro hno
    clear hw h0 c1 c2 c3 c4 d1 d2 k1 k2
    generalize hi : init false t0 u0 x0 = a at h
    induction h with
    | nil => subst hi; rfl
    | @snoc s' s'' cs c b hh hc ih =>
      obtain ⟨hset', k1, k2⟩ := hinv s' cs (by rw [hi]; exact hh)
      have hprev := ih (fun c hc => hno c (List.mem_append_left _ hc))
      cases hc with
      | exprOk h => simp [setupExpr, hset'] at h
      | exprErr h => exact hprev
      | applyOk h => simp [setupApply, hset'] at h
      | applyErr h => exact hprev
      | @runOk _ more t chk n h =>
        cases chk with
        | some k => exact absurd rfl (hno _ (List.mem_append_right _ (List.mem_singleton.2 rfl)) more t k true)
        | none =>
          obtain ⟨s0, h0, hw⟩ := h
          obtain ⟨c1, -, c3, c4⟩ := hst _ _ _ k1 k2 h0
          obtain ⟨d1, -⟩ := hwh _ _ _ _ hw c3 c4
          exact d1.trans (c1.trans hprev)
      | runErr h => exact hprev

/-- **C57** (output, what holds).  The row written after step `i` carries the time at the end of that step but the
velocity of its start; the row written before the first step carries the velocity at the time the clock showed when
`run` was called. -/
theorem C57_output_partial (A : Scheme K X V) (s s' : St K X V) (w : K → V) (hg : Gives s w) (more : K → Prop) (t : K)
    (n : ℕ) (hr : Runs A more s t none n s') :
    (s'.dumps.map fun r => (r.1, r.2.1)) = (s.dumps.map fun r => (r.1, r.2.1)) ++ (t, w s.t) ::
      (List.range n).map fun i => (A.tick^[i + 1] t, w (A.tick^[i] t)) := by
  obtain ⟨s0, h0, hw⟩ := hr
  obtain ⟨-, -, f3, f4⟩ := start_flags _ _ _ _ h0
  have hg3 : Gives s0 w := by simpa [Gives, f3, f4] using hg
  obtain ⟨-, -, g3⟩ := while_gives hg3 hw
  obtain ⟨-, -, -, -, -, -, -, e8⟩ := evalU_flags s
  have hu := evalU_gives hg
  unfold start at h0
  split_ifs at h0
  simp only [Except.ok.injEq] at h0
  subst h0
  rw [g3]
  simp [hu, e8, Function.comp_def]

theorem while_iterate {σ : Type*} (c : σ → Prop) (b : σ → σ) (n : ℕ) (s : σ) (h : ∀ i < n, c (b^[i] s))
    (hn : ¬ c (b^[n] s)) : While c b s n (b^[n] s) := by
  induction n generalizing s with
  | zero => exact While.stop hn
  | succ n ih =>
    refine While.iter (h 0 (by omega)) ?_
    rw [Function.iterate_succ_apply]
    refine ih (b s) (fun i hi => ?_) (by rwa [Function.iterate_succ_apply] at hn)
    have := h (i + 1) (by omega)
    rwa [Function.iterate_succ_apply] at this

/-- **C57** (output, refuted).  A run over [5, 7] with the velocity `u(t) = t` set up on a new timestepper writes the
velocity of time 0 in the row of time 5, and that of time 5 in the row of time 6. -/
theorem C57_output_refuted :
    ∃ (A : Scheme ℕ ℕ ℕ) (s s' : St ℕ ℕ ℕ), setupExpr (init true 0 9 0) (fun _ t => t) = .ok s ∧
      Runs A (fun t => t < 7) s 5 none 2 s' ∧ (s'.dumps.map fun r => (r.1, r.2.1)) = [(5, 0), (6, 5), (7, 6)] := by
  refine ⟨⟨fun _ _ x => x, [], Nat.succ⟩, _, _, rfl, ⟨_, rfl, while_iterate _ _ 2 _ ?_ ?_⟩, ?_⟩ <;> decide

/-- **C57** (expressions, refuted).  `setup_prescribed_expr` calls the user's function once: a function that branches on
the time in Python keeps the branch of the set-up time for ever (one that returns an expression in the time is updated,
by `C57_velocity`). -/
theorem C57_branch_refuted :
    ∃ (A : Scheme ℕ ℕ ℕ) (f : ℕ → ℕ → ℕ) (s s' : St ℕ ℕ ℕ), setupExpr (init true 0 9 0) f = .ok s ∧ f 3 3 = 1 ∧
      Runs A (fun t => t < 4) s 0 none 4 s' ∧ s'.used = [(0, 0), (1, 0), (2, 0), (3, 0)] := by
  refine ⟨⟨fun _ _ x => x, [], Nat.succ⟩, fun now _ => if now < 2 then 0 else 1, _, _, rfl, rfl,
    ⟨_, rfl, while_iterate _ _ 4 _ ?_ ?_⟩, ?_⟩ <;> decide

/-- **C57** (physics).  `SplitPrescribedTransport` rejects exactly the lists of physics schemes in which an explicit-only
parametrisation is paired with a scheme that is not explicit. -/
theorem C57_split_construct (l : List (Bool × Bool)) :
    constructSplit l = .ok () ↔ ∀ p ∈ l, p.1 = true → p.2 = true := by
  induction l with
  | nil => simp [constructSplit]
  | cons p l ih =>
    obtain ⟨a, b⟩ := p
    cases a <;> cases b <;> simp [constructSplit, ih]

/-- **C57** (physics, basic timestepper).  The documented restriction of physics to explicit schemes is enforced from two
parametrisations on; with exactly one, an implicit scheme is accepted. -/
theorem C57_construct_partial (n : ℕ) (explicit : Bool) :
    construct n explicit = .ok () ↔ explicit = true ∨ n ≤ 1 := by
  unfold construct
  cases explicit <;> simp

theorem C57_construct_refuted : construct 1 false = .ok () := by decide

/-- A history with an error, a set-up and a run meets the hypotheses: `C57_velocity` applies to it. -/
example : ∃ (A : Scheme ℕ ℕ ℕ) (s s1 s2 s3 : St ℕ ℕ ℕ) (cs cs' : List (Cmd ℕ ℕ ℕ × Bool)) (c : Cmd ℕ ℕ ℕ) (w : ℕ → ℕ),
    History A (init true 0 9 1) cs s ∧ Call A s c true s1 ∧ prescribedBy s.t c = some w ∧ History A s1 cs' s2 ∧
    Runs A (fun t => t < 7) s2 5 none 2 s3 ∧ s3.x = 1 + 5 + 6 := by
  refine ⟨⟨fun v _ x => x + v, [], Nat.succ⟩, init true 0 9 1, _, _, _, [(.run (fun t => t < 7) 5 none, false)],
    [(.apply (fun t => t + 1), false)], .expr (fun _ t => t), fun t => t,
    History.snoc (cs := []) History.nil (Call.runErr (e := "RuntimeError") rfl), Call.exprOk rfl, rfl,
    History.snoc (cs := []) History.nil (Call.applyErr (e := "RuntimeError") rfl),
    ⟨_, rfl, while_iterate _ _ 2 _ ?_ ?_⟩, ?_⟩ <;> decide

end Gusto.Props.PrescribedProps
