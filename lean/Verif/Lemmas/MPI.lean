import Verif.Model.MPI
import Mathlib.Tactic.Common
import Mathlib.Algebra.Order.Group.Nat

set_option autoImplicit false
set_option linter.unusedSectionVars false
set_option linter.unusedSimpArgs false

/-!
# Programs that are projections of one global sequence of events

If the programs of all ranks are the projections of one list of events (a choreography), then no
execution can get stuck, every execution ends, and all executions end in the same state, namely the
one reached by performing the events in the order of the list.
-/

namespace Gusto.MPI
variable {σ V : Type*}

/-- A global event: local work, a message, or a message that is already in transit. -/
inductive Ev (σ V : Type*) where
  | loc (r : ℕ) (f : σ → σ)
  | comm (s d t : ℕ) (val : σ → V) (upd : V → σ → σ)
  | half (s d t : ℕ) (v : V) (upd : V → σ → σ)

/-- the operation of rank `r` in an event -/
def projEv (r : ℕ) : Ev σ V → List (Op σ V)
  | .loc r' f => if r' = r then [.loc f] else []
  | .comm s d t val upd => if s = r then [.send d t val] else if d = r then [.recv s t upd] else []
  | .half s d t _ upd => if d = r then [.recv s t upd] else []

/-- the program of rank `r` -/
def proj (r : ℕ) (l : List (Ev σ V)) : List (Op σ V) := l.flatMap (projEv r)

/-- effect of an event on the states -/
def runEv (st : ℕ → σ) : Ev σ V → ℕ → σ
  | .loc r f => Function.update st r (f (st r))
  | .comm s d _ val upd => Function.update st d (upd (val (st s)) (st d))
  | .half _ d _ v upd => Function.update st d (upd v (st d))

/-- perform the events in order -/
def run (l : List (Ev σ V)) (st : ℕ → σ) : ℕ → σ := l.foldl runEv st

/-- messages in transit -/
def inFlight (s d : ℕ) (l : List (Ev σ V)) : List (ℕ × V) :=
  l.filterMap fun e => match e with
    | .half s' d' t v _ => if s' = s ∧ d' = d then some (t, v) else none
    | _ => none

/-- the event involves the state of rank `r` -/
def touches (r : ℕ) : Ev σ V → Prop
  | .loc r' _ => r' = r
  | .comm s d _ _ _ => s = r ∨ d = r
  | .half _ d _ _ _ => d = r

/-- a half event is preceded by nothing that involves its sender -/
def Before (a b : Ev σ V) : Prop :=
  match b with
  | .half s _ _ _ _ => ¬ touches s a
  | _ => True

/-- no rank sends to itself -/
def EvOk : Ev σ V → Prop
  | .loc _ _ => True
  | .comm s d _ _ _ => s ≠ d
  | .half s d _ _ _ => s ≠ d

/-- no message is in transit -/
def Fresh : Ev σ V → Prop
  | .half _ _ _ _ _ => False
  | _ => True

def weightEv : Ev σ V → ℕ
  | .loc _ _ => 1
  | .comm _ _ _ _ _ => 2
  | .half _ _ _ _ _ => 1

/-- number of operations -/
def weight (l : List (Ev σ V)) : ℕ := (l.map weightEv).sum

theorem weight_append (a b : List (Ev σ V)) : weight (a ++ b) = weight a + weight b := by
  simp [weight]
theorem weight_cons (e : Ev σ V) (b : List (Ev σ V)) : weight (e :: b) = weightEv e + weight b := by
  simp [weight]

theorem proj_append (r : ℕ) (a b : List (Ev σ V)) : proj r (a ++ b) = proj r a ++ proj r b := by
  simp [proj]
theorem proj_cons (r : ℕ) (e : Ev σ V) (b : List (Ev σ V)) :
    proj r (e :: b) = projEv r e ++ proj r b := by
  simp [proj]
theorem proj_nil (r : ℕ) : proj r ([] : List (Ev σ V)) = [] := rfl

theorem run_append (a b : List (Ev σ V)) (st : ℕ → σ) : run (a ++ b) st = run b (run a st) := by
  simp [run]
theorem run_cons (e : Ev σ V) (b : List (Ev σ V)) (st : ℕ → σ) :
    run (e :: b) st = run b (runEv st e) := rfl

theorem inFlight_append (s d : ℕ) (a b : List (Ev σ V)) :
    inFlight s d (a ++ b) = inFlight s d a ++ inFlight s d b := by
  simp [inFlight]
theorem inFlight_cons (s d : ℕ) (e : Ev σ V) (b : List (Ev σ V)) :
    inFlight s d (e :: b) = inFlight s d [e] ++ inFlight s d b := by
  rw [← inFlight_append]; rfl

theorem projEv_eq_nil (r : ℕ) (e : Ev σ V) : projEv r e = [] ↔ ¬ touches r e := by
  cases e with
  | loc r' f => by_cases h : r' = r <;> simp [projEv, touches, h]
  | comm s d t val upd =>
    by_cases h : s = r <;> by_cases h' : d = r <;> simp [projEv, touches, h, h']
  | half s d t v upd => by_cases h : d = r <;> simp [projEv, touches, h]

theorem proj_eq_nil (r : ℕ) (l : List (Ev σ V)) : proj r l = [] ↔ ∀ e ∈ l, ¬ touches r e := by
  unfold proj
  rw [List.flatMap_eq_nil_iff]
  exact ⟨fun h e he => (projEv_eq_nil r e).1 (h e he), fun h e he => (projEv_eq_nil r e).2 (h e he)⟩

/-- the next operation of a rank comes from the first event that involves it -/
theorem proj_split (r : ℕ) (l : List (Ev σ V)) (op : Op σ V) (p : List (Op σ V))
    (h : proj r l = op :: p) :
    ∃ A e B, l = A ++ e :: B ∧ (∀ a ∈ A, ¬ touches r a) ∧ projEv r e = [op] ∧ p = proj r B := by
  induction l with
  | nil => simp [proj] at h
  | cons e l ih =>
    rw [proj_cons] at h
    by_cases ht : projEv r e = []
    · rw [ht, List.nil_append] at h
      obtain ⟨A, e', B, h1, h2, h3, h4⟩ := ih h
      refine ⟨e :: A, e', B, by rw [h1]; rfl, ?_, h3, h4⟩
      intro a ha
      rcases List.mem_cons.1 ha with rfl | ha
      · exact (projEv_eq_nil r _).1 ht
      · exact h2 a ha
    · have hlen : ∃ o, projEv r e = [o] := by
        cases e with
        | loc r' f => by_cases h : r' = r <;> simp [projEv, h] at ht ⊢
        | comm s d t val upd =>
          by_cases h : s = r <;> by_cases h' : d = r <;> simp [projEv, h, h'] at ht ⊢
        | half s d t v upd => by_cases h : d = r <;> simp [projEv, h] at ht ⊢
      obtain ⟨o, ho⟩ := hlen
      rw [ho, List.cons_append, List.nil_append, List.cons.injEq] at h
      exact ⟨[], e, l, rfl, by simp, by rw [ho, h.1], h.2.symm⟩

theorem runEv_ne (e : Ev σ V) (r : ℕ) (h : ¬ touches r e) (st : ℕ → σ) : runEv st e r = st r := by
  cases e with
  | loc r' f => simp only [touches] at h; simp only [runEv]; rw [Function.update_of_ne (Ne.symm h)]
  | comm s d t val upd =>
    simp only [touches, not_or] at h; simp only [runEv]; rw [Function.update_of_ne (Ne.symm h.2)]
  | half s d t v upd =>
    simp only [touches] at h; simp only [runEv]; rw [Function.update_of_ne (Ne.symm h)]

theorem runEv_update (e : Ev σ V) (r : ℕ) (h : ¬ touches r e) (st : ℕ → σ) (x : σ) :
    runEv (Function.update st r x) e = Function.update (runEv st e) r x := by
  cases e with
  | loc r' f =>
    simp only [touches] at h; simp only [runEv]
    rw [Function.update_of_ne h, Function.update_comm h]
  | comm s d t val upd =>
    simp only [touches, not_or] at h; simp only [runEv]
    rw [Function.update_of_ne h.1, Function.update_of_ne h.2, Function.update_comm h.2]
  | half s d t v upd =>
    simp only [touches] at h; simp only [runEv]
    rw [Function.update_of_ne h, Function.update_comm h]

theorem run_ne (A : List (Ev σ V)) (r : ℕ) (h : ∀ a ∈ A, ¬ touches r a) (st : ℕ → σ) :
    run A st r = st r := by
  induction A generalizing st with
  | nil => rfl
  | cons a A ih =>
    rw [run_cons, ih (fun b hb => h b (List.mem_cons_of_mem _ hb)),
      runEv_ne a r (h a List.mem_cons_self)]

theorem run_update (A : List (Ev σ V)) (r : ℕ) (h : ∀ a ∈ A, ¬ touches r a) (st : ℕ → σ) (x : σ) :
    run A (Function.update st r x) = Function.update (run A st) r x := by
  induction A generalizing st with
  | nil => rfl
  | cons a A ih =>
    rw [run_cons, run_cons, runEv_update a r (h a List.mem_cons_self),
      ih (fun b hb => h b (List.mem_cons_of_mem _ hb))]

/-- The invariant: what is left to do is a list of events `l` -/
structure Inv (fin : ℕ → σ) (c : Config σ V) (l : List (Ev σ V)) : Prop where
  order : l.Pairwise Before
  ok : ∀ e ∈ l, EvOk e
  prog : ∀ r, c.prog r = proj r l
  chan : ∀ s d, c.chan s d = inFlight s d l
  result : run l c.st = fin

theorem inFlight_eq_nil_of_fresh (l : List (Ev σ V)) (h : ∀ e ∈ l, Fresh e) (s d : ℕ) :
    inFlight s d l = [] := by
  unfold inFlight
  rw [List.filterMap_eq_nil_iff]
  intro e he
  have := h e he
  cases e with
  | loc => rfl
  | comm => rfl
  | half => exact this.elim

theorem inFlight_eq_nil_of_not_touch (l : List (Ev σ V)) (s d : ℕ)
    (h : ∀ e ∈ l, ¬ touches d e) : inFlight s d l = [] := by
  unfold inFlight
  rw [List.filterMap_eq_nil_iff]
  intro e he
  have := h e he
  cases e with
  | loc => rfl
  | comm => rfl
  | half s' d' t v u =>
    simp only [touches] at this
    simp [this]

theorem inFlight_tail_nil (e : Ev σ V) (B : List (Ev σ V)) (s d : ℕ) (he : touches s e)
    (hp : ∀ b ∈ B, Before e b) : inFlight s d B = [] := by
  unfold inFlight
  rw [List.filterMap_eq_nil_iff]
  intro b hb
  have := hp b hb
  cases b with
  | loc => rfl
  | comm => rfl
  | half s' d' t v u =>
    simp only [Before] at this
    have : s' ≠ s := fun hc => this (hc ▸ he)
    simp [this]

theorem inv_initial (C : List (Ev σ V)) (hC : ∀ e ∈ C, EvOk e) (hF : ∀ e ∈ C, Fresh e)
    (st : ℕ → σ) : Inv (run C st) (initial (fun r => proj r C) st) C where
  order := by
    rw [List.pairwise_iff_forall_sublist]
    intro a b hab
    have hb : b ∈ C := hab.subset (by simp)
    have := hF b hb
    cases b with
    | loc => trivial
    | comm => trivial
    | half => exact this.elim
  ok := hC
  prog := fun r => rfl
  chan := fun s d => (inFlight_eq_nil_of_fresh C hF s d).symm
  result := rfl

theorem pairwise_remove {R : Ev σ V → Ev σ V → Prop} (A B : List (Ev σ V)) (e : Ev σ V)
    (h : (A ++ e :: B).Pairwise R) : (A ++ B).Pairwise R :=
  h.sublist (List.Sublist.append_left (List.sublist_cons_self e B) A)

theorem setChan_apply (c : ℕ → ℕ → List (ℕ × V)) (s d : ℕ) (l : List (ℕ × V)) (s' d' : ℕ) :
    setChan c s d l s' d' = if s' = s ∧ d' = d then l else c s' d' := by
  unfold setChan
  by_cases h : s' = s
  · subst h
    rw [Function.update_self]
    by_cases h' : d' = d
    · subst h'; simp
    · rw [Function.update_of_ne h']; simp [h']
  · rw [Function.update_of_ne h]; simp [h]

/-- programs after rank `r` has performed its part of an event that involves only `r` -/
theorem proj_remove (A B : List (Ev σ V)) (e : Ev σ V) (r : ℕ)
    (hA : ∀ a ∈ A, ¬ touches r a) (he : ∀ r', r' ≠ r → ¬ touches r' e) (prog : ℕ → List (Op σ V))
    (hp : ∀ r', prog r' = proj r' (A ++ e :: B)) (r' : ℕ) :
    Function.update prog r (proj r B) r' = proj r' (A ++ B) := by
  by_cases h : r' = r
  · subst h
    rw [Function.update_self, proj_append, (proj_eq_nil _ A).2 hA, List.nil_append]
  · rw [Function.update_of_ne h, hp, proj_append, proj_append, proj_cons,
      (projEv_eq_nil r' e).2 (he r' h), List.nil_append]

theorem inv_guaranteed (fin : ℕ → σ) (c c' : Config σ V) (l : List (Ev σ V)) (hI : Inv fin c l)
    (h : Guaranteed c c') : ∃ l', Inv fin c' l' ∧ weight l' < weight l := by
  obtain ⟨hord, hok, hprog, hchan, hres⟩ := hI
  cases h with
  | loc r f p h =>
    rw [hprog] at h
    obtain ⟨A, e, B, rfl, hA, he, rfl⟩ := proj_split r l _ _ h
    have hev : e = Ev.loc r f := by
      cases e with
      | loc r' f' =>
        by_cases h : r' = r <;> simp [projEv, h] at he
        rw [h, he]
      | comm s d t val upd =>
        by_cases h : s = r <;> by_cases h' : d = r <;> simp [projEv, h, h'] at he
      | half s d t v upd => by_cases h : d = r <;> simp [projEv, h] at he
    subst hev
    refine ⟨A ++ B, ⟨pairwise_remove _ _ _ hord, fun x hx => hok x (by
      simp only [List.mem_append, List.mem_cons] at hx ⊢; tauto), ?_, ?_, ?_⟩, ?_⟩
    · exact proj_remove A B _ r hA (fun r' h' => by simp only [touches]; exact fun h => h' h.symm)
        c.prog hprog
    · intro s d
      show c.chan s d = _
      rw [hchan, inFlight_append, inFlight_append, inFlight_cons]
      rfl
    · rw [← hres, run_append, run_append, run_cons, run_update A r hA]
      simp only [runEv, run_ne A r hA]
    · simp only [weight_append, weight_cons, weightEv]; omega
  | deliver r s t u p l1 l2 v h hc hl =>
    rw [hprog] at h
    obtain ⟨A, e, B, rfl, hA, he, rfl⟩ := proj_split r l _ _ h
    have hA0 : ∀ s', inFlight s' r A = [] := fun s' => inFlight_eq_nil_of_not_touch A s' r hA
    rw [hchan, inFlight_append, hA0, List.nil_append] at hc
    have hpw := (List.pairwise_append.1 hord).2.1
    rw [List.pairwise_cons] at hpw
    cases e with
    | loc r' f' => by_cases h : r' = r <;> simp [projEv, h] at he
    | comm s' d' t' val upd =>
      exfalso
      have hs : s' = s ∧ d' = r := by
        by_cases h : s' = r <;> by_cases h' : d' = r <;> simp [projEv, h, h'] at he
        exact ⟨he.1, h'⟩
      obtain ⟨rfl, rfl⟩ := hs
      rw [inFlight_cons, inFlight_tail_nil _ B s' d' (by simp [touches]) hpw.1] at hc
      simp [inFlight] at hc
    | half s' d' t' v' upd =>
      have hs : s' = s ∧ d' = r ∧ t' = t ∧ upd = u := by
        by_cases h' : d' = r <;> simp [projEv, h'] at he
        exact ⟨he.1, h', he.2.1, he.2.2⟩
      obtain ⟨rfl, rfl, rfl, rfl⟩ := hs
      have hhead : inFlight s' d' (Ev.half s' d' t' v' upd :: B)
          = (t', v') :: inFlight s' d' B := by
        simp [inFlight]
      rw [hhead] at hc
      -- the first message is the one wanted
      have hl1 : l1 = [] ∧ v' = v ∧ inFlight s' d' B = l2 := by
        cases l1 with
        | nil => simp at hc; exact ⟨rfl, hc.1, hc.2⟩
        | cons m l1 =>
          simp at hc
          exact absurd (by rw [← hc.1]) (hl m List.mem_cons_self)
      obtain ⟨rfl, rfl, hl2⟩ := hl1
      refine ⟨A ++ B, ⟨pairwise_remove _ _ _ hord, fun x hx => hok x (by
        simp only [List.mem_append, List.mem_cons] at hx ⊢; tauto), ?_, ?_, ?_⟩, ?_⟩
      · exact proj_remove A B _ d' hA (fun r' h' => by simp only [touches]; exact fun h => h' h.symm)
          c.prog hprog
      · intro s d
        show setChan c.chan s' d' ([] ++ l2) s d = _
        rw [setChan_apply]
        by_cases hsd : s = s' ∧ d = d'
        · obtain ⟨rfl, rfl⟩ := hsd
          rw [if_pos ⟨rfl, rfl⟩, inFlight_append, hA0]; simp [hl2]
        · rw [if_neg hsd, hchan, inFlight_append, inFlight_append, inFlight_cons]
          have : inFlight s d [Ev.half s' d' t' v' upd] = [] := by
            simp only [inFlight, List.filterMap_cons, List.filterMap_nil]
            rw [if_neg fun h => hsd ⟨h.1.symm, h.2.symm⟩]
          rw [this, List.nil_append]
      · rw [← hres, run_append, run_append, run_cons, run_update A d' hA]
        simp only [runEv, run_ne A d' hA]
      · simp only [weight_append, weight_cons, weightEv]; omega
  | rendezvous s r t val u ps pr hsr hs hr hl =>
    rw [hprog] at hs hr
    obtain ⟨A, e, B, rfl, hA, he, rfl⟩ := proj_split r l _ _ hr
    have hA0 : ∀ s', inFlight s' r A = [] := fun s' => inFlight_eq_nil_of_not_touch A s' r hA
    have hpw := (List.pairwise_append.1 hord).2.1
    rw [List.pairwise_cons] at hpw
    cases e with
    | loc r' f' => by_cases h : r' = r <;> simp [projEv, h] at he
    | half s' d' t' v' upd =>
      exfalso
      have hs' : s' = s ∧ d' = r ∧ t' = t := by
        by_cases h' : d' = r <;> simp [projEv, h'] at he
        exact ⟨he.1, h', he.2.1⟩
      obtain ⟨rfl, rfl, rfl⟩ := hs'
      refine hl (t', v') ?_ rfl
      rw [hchan, inFlight_append]
      simp [inFlight]
    | comm s' d' t' val' upd =>
      have hs' : s' = s ∧ d' = r ∧ t' = t ∧ upd = u := by
        by_cases h : s' = r <;> by_cases h' : d' = r <;> simp [projEv, h, h'] at he
        exact ⟨he.1, h', he.2.1, he.2.2⟩
      obtain ⟨rfl, rfl, rfl, rfl⟩ := hs'
      -- the sender's next operation is the same event
      have hAs : ∀ a ∈ A, ¬ touches s' a := by
        obtain ⟨A', e', B', heq, hA', he', -⟩ := proj_split s' _ _ _ hs
        have hlen : A.length ≤ A'.length := by
          by_contra hlt
          push Not at hlt
          have hmem : e' ∈ A := by
            have : (A' ++ e' :: B')[A'.length]? = some e' := by simp
            rw [← heq, List.getElem?_append_left hlt] at this
            exact List.mem_of_getElem? this
          have := hA e' hmem
          have ht : touches d' e' := by
            cases e' with
            | loc r' f' => by_cases h : r' = s' <;> simp [projEv, h] at he'
            | comm a b t'' v'' u'' =>
              by_cases h : a = s' <;> by_cases h' : b = s' <;> simp [projEv, h, h'] at he'
              · exact Or.inr (h'.trans he'.1)
              · exact Or.inr he'.1
            | half a b t'' v'' u'' => by_cases h : b = s' <;> simp [projEv, h] at he'
          exact this ht
        have hpre : A <+: A' ∨ A' <+: A := by
          have h1 : A <+: (A ++ Ev.comm s' d' t' val' upd :: B) := List.prefix_append _ _
          have h2 : A' <+: (A ++ Ev.comm s' d' t' val' upd :: B) := heq ▸ List.prefix_append _ _
          exact List.prefix_or_prefix_of_prefix h1 h2
        have hAA' : A <+: A' := by
          rcases hpre with h | h
          · exact h
          · rw [h.eq_of_length (le_antisymm h.length_le hlen)]; exact List.prefix_rfl
        exact fun a ha => hA' a (hAA'.subset ha)
      have hev : val' = val ∧ ps = proj s' B := by
        rw [proj_append, (proj_eq_nil _ A).2 hAs, List.nil_append, proj_cons] at hs
        simp [projEv] at hs
        exact ⟨hs.1, hs.2.symm⟩
      obtain ⟨rfl, rfl⟩ := hev
      refine ⟨A ++ B, ⟨pairwise_remove _ _ _ hord, fun x hx => hok x (by
        simp only [List.mem_append, List.mem_cons] at hx ⊢; tauto), ?_, ?_, ?_⟩, ?_⟩
      · intro r'
        show Function.update (Function.update c.prog s' (proj s' B)) d' (proj d' B) r' = _
        rw [proj_append]
        by_cases h : r' = d'
        · subst h
          rw [Function.update_self, (proj_eq_nil _ A).2 hA, List.nil_append]
        · rw [Function.update_of_ne h]
          by_cases h' : r' = s'
          · subst h'
            rw [Function.update_self, (proj_eq_nil _ A).2 hAs, List.nil_append]
          · rw [Function.update_of_ne h', hprog, proj_append, proj_cons,
              (projEv_eq_nil r' _).2 (by
                simp only [touches, not_or]
                exact ⟨fun h'' => h' h''.symm, fun h'' => h h''.symm⟩), List.nil_append]
      · intro s d
        show c.chan s d = _
        rw [hchan, inFlight_append, inFlight_append, inFlight_cons]
        rfl
      · rw [← hres, run_append, run_append, run_cons, run_update A d' hA]
        simp only [runEv, run_ne A d' hA, run_ne A s' hAs]
      · simp only [weight_append, weight_cons, weightEv]; omega

theorem inv_step (fin : ℕ → σ) (c c' : Config σ V) (l : List (Ev σ V)) (hI : Inv fin c l)
    (h : Step c c') : ∃ l', Inv fin c' l' ∧ weight l' < weight l := by
  cases h with
  | sure _ h => exact inv_guaranteed fin c c' l hI h
  | eager s d t val p h =>
    obtain ⟨hord, hok, hprog, hchan, hres⟩ := hI
    rw [hprog] at h
    obtain ⟨A, e, B, rfl, hA, he, rfl⟩ := proj_split s l _ _ h
    cases e with
    | loc r' f' => by_cases h : r' = s <;> simp [projEv, h] at he
    | half s' d' t' v' upd => by_cases h : d' = s <;> simp [projEv, h] at he
    | comm s' d' t' val' upd =>
      have hs : s' = s ∧ d' = d ∧ t' = t ∧ val' = val := by
        by_cases h : s' = s <;> by_cases h' : d' = s <;> simp [projEv, h, h'] at he
        · exact ⟨h, h'.trans he.1, he.2.1, he.2.2⟩
        · exact ⟨h, he.1, he.2.1, he.2.2⟩
      obtain ⟨rfl, rfl, rfl, rfl⟩ := hs
      have hsd : s' ≠ d' := hok (Ev.comm s' d' t' val' upd) (by simp)
      have hpw := List.pairwise_append.1 hord
      obtain ⟨hpA, hpB, hpAB⟩ := hpw
      rw [List.pairwise_cons] at hpB
      refine ⟨A ++ Ev.half s' d' t' (val' (c.st s')) upd :: B, ⟨?_, ?_, ?_, ?_, ?_⟩, ?_⟩
      · refine List.pairwise_append.2 ⟨hpA, List.pairwise_cons.2 ⟨?_, hpB.2⟩, ?_⟩
        · intro b hb
          have := hpB.1 b hb
          cases b with
          | loc => trivial
          | comm => trivial
          | half a b t'' v'' u'' =>
            simp only [Before, touches, not_or] at this ⊢
            exact this.2
        · intro a ha b hb
          rcases List.mem_cons.1 hb with rfl | hb
          · exact hA a ha
          · exact hpAB a ha b (List.mem_cons_of_mem _ hb)
      · intro x hx
        simp only [List.mem_append, List.mem_cons] at hx
        rcases hx with hx | rfl | hx
        · exact hok x (by simp [hx])
        · exact hsd
        · exact hok x (by simp [hx])
      · intro r'
        show Function.update c.prog s' (proj s' B) r' = _
        rw [proj_append, proj_cons]
        by_cases h : r' = s'
        · subst h
          rw [Function.update_self, (proj_eq_nil _ A).2 hA]
          simp [projEv, Ne.symm hsd]
        · rw [Function.update_of_ne h, hprog, proj_append, proj_cons]
          simp [projEv, Ne.symm h]
      · intro a b
        show setChan c.chan s' d' (c.chan s' d' ++ [(t', val' (c.st s'))]) a b = _
        rw [setChan_apply]
        by_cases hab : a = s' ∧ b = d'
        · obtain ⟨rfl, rfl⟩ := hab
          rw [if_pos ⟨rfl, rfl⟩, hchan, inFlight_append, inFlight_append,
            inFlight_cons (e := Ev.comm a b t' val' upd),
            inFlight_cons (e := Ev.half a b t' _ upd),
            inFlight_tail_nil (Ev.comm a b t' val' upd) B a b (by simp [touches]) hpB.1]
          simp [inFlight]
        · rw [if_neg hab, hchan, inFlight_append, inFlight_append,
            inFlight_cons (e := Ev.comm s' d' t' val' upd),
            inFlight_cons (e := Ev.half s' d' t' _ upd)]
          have : inFlight a b [Ev.half s' d' t' (val' (c.st s')) upd] = [] := by
            simp only [inFlight, List.filterMap_cons, List.filterMap_nil]
            rw [if_neg fun h => hab ⟨h.1.symm, h.2.symm⟩]
          rw [this]; rfl
      · rw [← hres, run_append, run_append, run_cons, run_cons]
        simp only [runEv, run_ne A s' hA]
      · simp only [weight_append, weight_cons, weightEv]; omega

theorem inv_progress (fin : ℕ → σ) (c : Config σ V) (l : List (Ev σ V)) (hI : Inv fin c l) :
    Done c ∨ ∃ c', Guaranteed c c' := by
  obtain ⟨hord, hok, hprog, hchan, hres⟩ := hI
  cases l with
  | nil => exact Or.inl fun r => by rw [hprog]; rfl
  | cons e B =>
    right
    rw [List.pairwise_cons] at hord
    cases e with
    | loc r f =>
      exact ⟨_, Guaranteed.loc c r f (proj r B) (by rw [hprog, proj_cons]; simp [projEv])⟩
    | half s d t v u =>
      exact ⟨_, Guaranteed.deliver c d s t u (proj d B) [] (inFlight s d B) v
        (by rw [hprog, proj_cons]; simp [projEv])
        (by rw [hchan, inFlight_cons]; simp [inFlight]) (by simp)⟩
    | comm s d t val u =>
      have hsd : s ≠ d := hok (Ev.comm s d t val u) List.mem_cons_self
      refine ⟨_, Guaranteed.rendezvous c s d t val u (proj s B) (proj d B) hsd
        (by rw [hprog, proj_cons]; simp [projEv])
        (by rw [hprog, proj_cons]; simp [projEv, hsd]) ?_⟩
      rw [hchan, inFlight_cons, inFlight_tail_nil (Ev.comm s d t val u) B s d (by simp [touches])
        hord.1]
      simp [inFlight]

theorem inv_done (fin : ℕ → σ) (c : Config σ V) (l : List (Ev σ V)) (hI : Inv fin c l)
    (hd : Done c) : c.st = fin ∧ ∀ s d, c.chan s d = [] := by
  obtain ⟨hord, hok, hprog, hchan, hres⟩ := hI
  have hl : l = [] := by
    cases l with
    | nil => rfl
    | cons e B =>
      exfalso
      cases e with
      | loc r f =>
        have := hd r; rw [hprog, proj_cons] at this; simp [projEv] at this
      | comm s d t val u =>
        have := hd s; rw [hprog, proj_cons] at this; simp [projEv] at this
      | half s d t v u =>
        have := hd d; rw [hprog, proj_cons] at this; simp [projEv] at this
  subst hl
  exact ⟨hres, fun s d => by rw [hchan]; rfl⟩

theorem inv_steps (fin : ℕ → σ) (n : ℕ) (a c : Config σ V) (l : List (Ev σ V)) (hI : Inv fin a l)
    (h : Steps n a c) : ∃ l', Inv fin c l' ∧ n + weight l' ≤ weight l := by
  induction h with
  | refl c => exact ⟨l, hI, by omega⟩
  | tail h h' ih =>
    obtain ⟨l1, h1, h2⟩ := ih hI
    obtain ⟨l2, h3, h4⟩ := inv_step fin _ _ l1 h1 h'
    exact ⟨l2, h3, by omega⟩

/-- **Choreography theorem.**  If the programs are the projections of a list of events in which no
rank sends to itself, then: no execution gets stuck even if the library never buffers; an execution
has at most as many steps as there are operations; and every finished execution ends in the state
obtained by performing the events in order, with no message left over. -/
theorem choreography (C : List (Ev σ V)) (hC : ∀ e ∈ C, EvOk e) (hF : ∀ e ∈ C, Fresh e)
    (st : ℕ → σ) (prog : ℕ → List (Op σ V)) (hp : ∀ r, prog r = proj r C) (n : ℕ) (c : Config σ V)
    (h : Steps n (initial prog st) c) :
    (Done c ∨ ∃ c', Guaranteed c c') ∧ n ≤ weight C ∧
      (Done c → c.st = run C st ∧ ∀ s d, c.chan s d = []) := by
  have hp' : prog = fun r => proj r C := funext hp
  subst hp'
  obtain ⟨l, h1, h2⟩ := inv_steps _ n _ c C (inv_initial C hC hF st) h
  exact ⟨inv_progress _ c l h1, by omega, inv_done _ c l h1⟩

theorem Steps.trans_step {n : ℕ} {a b c : Config σ V} (h : Step a b) (h' : Steps n b c) :
    Steps (n + 1) a c := by
  induction h' with
  | refl => exact Steps.tail (Steps.refl _) h
  | tail _ h2 ih => exact Steps.tail (ih h) h2

theorem inv_finishes (fin : ℕ → σ) (w : ℕ) : ∀ (c : Config σ V) (l : List (Ev σ V)),
    weight l ≤ w → Inv fin c l → ∃ n c', Steps n c c' ∧ Done c' := by
  induction w with
  | zero =>
    intro c l hw hI
    rcases inv_progress fin c l hI with h | ⟨c', h⟩
    · exact ⟨0, c, Steps.refl c, h⟩
    · obtain ⟨l', _, h'⟩ := inv_guaranteed fin c c' l hI h
      omega
  | succ w ih =>
    intro c l hw hI
    rcases inv_progress fin c l hI with h | ⟨c', h⟩
    · exact ⟨0, c, Steps.refl c, h⟩
    · obtain ⟨l', hI', h'⟩ := inv_guaranteed fin c c' l hI h
      obtain ⟨n, c'', hs, hd⟩ := ih c' l' (by omega) hI'
      exact ⟨n + 1, c'', Steps.trans_step (Step.sure _ _ h) hs, hd⟩

/-- There is a complete execution. -/
theorem choreography_finishes (C : List (Ev σ V)) (hC : ∀ e ∈ C, EvOk e) (hF : ∀ e ∈ C, Fresh e)
    (st : ℕ → σ) (prog : ℕ → List (Op σ V)) (hp : ∀ r, prog r = proj r C) :
    ∃ n c, Steps n (initial prog st) c ∧ Done c := by
  have hp' : prog = fun r => proj r C := funext hp
  subst hp'
  exact inv_finishes _ _ _ C le_rfl (inv_initial C hC hF st)

end Gusto.MPI
