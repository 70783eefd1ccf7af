import Verif.Model.SetUp
import Mathlib.Data.List.Perm.Basic
import Mathlib.Data.List.Nodup
import Mathlib.Tactic.Linarith

set_option autoImplicit false
set_option linter.unusedSectionVars false
set_option linter.unusedSimpArgs false

/-!
# C82, C83: which terms a time discretisation solves for, and with which spatial discretisation
-/

namespace Gusto.Props.SetUpProps
open Gusto.SetUp

variable {U D : Type*}

/-! ### Specification -/

/-- The term belongs to the field `f`. -/
def Of (f : String) (t : STerm U D) : Prop := t.prog = some f
/-- The term carries the label. -/
def Has (l : String) (t : STerm U D) : Prop := l ∈ t.labels

theorem isProg_iff (f : String) (t : STerm U D) : t.isProg f = true ↔ Of f t := by simp [Base.isProg, Of]
theorem has_iff (l : String) (t : STerm U D) : t.has l = true ↔ Has l t := by simp [Base.has, Has]

/-! ### C82: selection of the terms -/

section
open Classical

theorem massWeighted_none (names : Option (List String)) (r : List (STerm U D)) (h : ∀ t ∈ r, t.mw = none) :
    massWeighted names r = .ok r := by
  have : r.filter STerm.hasMW = [] := by
    apply List.filter_eq_nil_iff.2
    intro t ht
    simp [STerm.hasMW, h t ht]
  simp [massWeighted, this]

/-- C82: a mass-weighted term in a single equation (one without a list of field names) is refused at the set-up. -/
theorem C82_mass_weighted_single_equation (split : ℕ → Form U D → Form U D) (res : List (STerm U D))
    (h : ∃ t ∈ res, t.mw ≠ none) : setup split none none [] res = .error .attributeError := by
  obtain ⟨t, ht, hm⟩ := h
  have : 0 < (res.filter STerm.hasMW).length :=
    List.length_pos_of_mem (List.mem_filter.2 ⟨ht, by simpa [STerm.hasMW, Option.isSome_iff_ne_none] using hm⟩)
  simp only [setup, selectField, selectActive, massWeighted]
  simp [this]

example : setup (fun _ F => F) none none []
    [{ form := fun ρ => ρ (.func 0), prog := some "q", labels := ["transport"], vel := some (.func 0),
       mw := some (.lform []) } , ({ form := fun _ => 0 } : STerm ℤ ℤ)] = .error .attributeError :=
  C82_mass_weighted_single_equation _ _ ⟨_, List.mem_cons_self, by simp⟩

theorem setup_plain (split : ℕ → Form U D → Form U D) (names : Option (List String)) (target : Option Target)
    (active : List String) (res r r' : List (STerm U D)) (h0 : selectField split names target res = .ok r)
    (h1 : selectActive names target active r = r') (hmw : ∀ t ∈ r', t.mw = none) :
    setup split names target active res = .ok (r', evaluateSource r') := by
  simp only [setup, h0, h1, massWeighted_none names r' hmw]

/-- C82: a scheme set up for one field of an equation set, with active labels, solves for exactly the terms of that
field that are time derivatives or carry one of the labels, in the order of the equation, each restricted to the block
of that field. -/
theorem C82_single_field (split : ℕ → Form U D → Form U D) (names : List String) (f : String) (k : ℕ)
    (hk : names[k]? = some f) (hfirst : ∀ j < k, names[j]? ≠ some f) (active : List String) (hact : active ≠ [])
    (res : List (STerm U D)) (hmw : ∀ t ∈ res, t.mw = none) :
    ∃ src, setup split (some names) (some (.one f)) active res =
      .ok (((res.filter fun t => decide (Of f t ∧ (Has "time_derivative" t ∨ ∃ l ∈ active, Has l t))).map
        fun t => { t with form := split k t.form }), src) := by
  have hidx : names.findIdx? (fun x => decide (x = f)) = some k := by
    rw [List.findIdx?_eq_some_iff_getElem]
    obtain ⟨hlt, hget⟩ := List.getElem?_eq_some_iff.1 hk
    refine ⟨hlt, by simpa using hget, ?_⟩
    intro j hj
    have := hfirst j hj
    rw [List.getElem?_eq_getElem (by omega)] at this
    simpa using this
  have hsel : selectActive (some names) (some (.one f)) active
      ((res.filter (fun t => t.isProg f)).map fun t => { t with form := split k t.form }) =
      (res.filter fun t => decide (Of f t ∧ (Has "time_derivative" t ∨ ∃ l ∈ active, Has l t))).map
        fun t => { t with form := split k t.form } := by
    cases active with
    | nil => exact absurd rfl hact
    | cons a as =>
      simp only [selectActive]
      rw [List.filter_map, List.filter_filter]
      congr 1
      apply List.filter_congr
      intro t _
      rw [Bool.eq_iff_iff]
      simp [Function.comp, Base.has, Base.isProg, Of, Has, and_comm]
  refine ⟨_, setup_plain split (some names) (some (.one f)) active res _ _ (by simp only [selectField, hidx]) hsel ?_⟩
  intro t ht
  obtain ⟨s, hs, rfl⟩ := List.mem_map.1 ht
  exact hmw s (List.mem_of_mem_filter hs)

/-- Without active labels the scheme solves for all the terms of the field. -/
theorem C82_single_field_all (split : ℕ → Form U D → Form U D) (names : List String) (f : String) (k : ℕ)
    (hk : names[k]? = some f) (hfirst : ∀ j < k, names[j]? ≠ some f)
    (res : List (STerm U D)) (hmw : ∀ t ∈ res, t.mw = none) :
    ∃ src, setup split (some names) (some (.one f)) [] res =
      .ok (((res.filter fun t => decide (Of f t)).map fun t => { t with form := split k t.form }), src) := by
  have hidx : names.findIdx? (fun x => decide (x = f)) = some k := by
    rw [List.findIdx?_eq_some_iff_getElem]
    obtain ⟨hlt, hget⟩ := List.getElem?_eq_some_iff.1 hk
    refine ⟨hlt, by simpa using hget, ?_⟩
    intro j hj
    have := hfirst j hj
    rw [List.getElem?_eq_getElem (by omega)] at this
    simpa using this
  have hf : res.filter (fun t => t.isProg f) = res.filter (fun t => decide (Of f t)) := by
    apply List.filter_congr; intro t _; rw [Bool.eq_iff_iff, decide_eq_true_eq]; simp [Base.isProg, Of]
  refine ⟨_, setup_plain split (some names) (some (.one f)) [] res _ _
    (by simp only [selectField, hidx, hf]) rfl ?_⟩
  intro t ht
  obtain ⟨s, hs, rfl⟩ := List.mem_map.1 ht
  exact hmw s (List.mem_of_mem_filter hs)

/-- A field that is not part of the equation set is refused. -/
theorem C82_unknown_field (split : ℕ → Form U D → Form U D) (names : List String) (f : String) (hf : f ∉ names)
    (active : List String) (res : List (STerm U D)) :
    setup split (some names) (some (.one f)) active res = .error .valueError := by
  have : names.findIdx? (fun x => decide (x = f)) = none := by
    rw [List.findIdx?_eq_none_iff]
    intro x hx
    simp; rintro rfl; exact hf hx
  simp [setup, selectField, this]

/-- C82: a scheme for the whole equation keeps the time derivatives and the terms with an active label, and nothing
else. -/
theorem C82_whole_equation (split : ℕ → Form U D → Form U D) (names : Option (List String)) (active : List String)
    (hact : active ≠ []) (res : List (STerm U D)) (hmw : ∀ t ∈ res, t.mw = none) :
    ∃ src, setup split names none active res =
      .ok ((res.filter fun t => decide (Has "time_derivative" t ∨ ∃ l ∈ active, Has l t)), src) := by
  have : selectActive names none active res =
      res.filter fun t => decide (Has "time_derivative" t ∨ ∃ l ∈ active, Has l t) := by
    cases active with
    | nil => exact absurd rfl hact
    | cons a as =>
      cases names <;> simp only [selectActive] <;>
      · apply List.filter_congr
        intro t _
        rw [Bool.eq_iff_iff]
        simp [Base.has, Has]
  refine ⟨_, setup_plain split names none active res res _ (by cases names <;> rfl) this ?_⟩
  intro t ht
  exact hmw t (List.mem_of_mem_filter ht)

theorem foldl_append_eq {α β : Type*} (f : β → List α) (l : List β) (init : List α) :
    l.foldl (fun acc b => acc ++ f b) init = init ++ l.flatMap f := by
  induction l generalizing init with
  | nil => simp
  | cons b l ih => simp [ih, List.append_assoc]

theorem filter_or_perm {α : Type*} (p q : α → Bool) (l : List α) (h : ∀ x ∈ l, ¬ (p x = true ∧ q x = true)) :
    (l.filter p ++ l.filter q).Perm (l.filter fun x => p x || q x) := by
  induction l with
  | nil => simp
  | cons a l ih =>
    have ih := ih fun x hx => h x (List.mem_cons_of_mem _ hx)
    have ha := h a (List.mem_cons_self)
    by_cases hp : p a = true
    · have hq : q a = false := by
        cases hqa : q a
        · rfl
        · exact absurd ⟨hp, hqa⟩ ha
      simp only [List.filter_cons, hp, hq, if_true, Bool.false_eq_true, if_false, Bool.true_or, List.cons_append]
      exact ih.cons a
    · have hp' : p a = false := by simpa using hp
      by_cases hq : q a = true
      · simp only [List.filter_cons, hp', hq, if_true, Bool.false_eq_true, if_false, Bool.or_true]
        exact List.perm_middle.trans (ih.cons a)
      · have hq' : q a = false := by simpa using hq
        simp only [List.filter_cons, hp', hq', Bool.false_eq_true, if_false, Bool.or_false]
        exact ih

theorem flatMap_filter_perm (res : List (STerm U D)) (q : STerm U D → Bool) (subs : List String)
    (hnd : subs.Nodup) :
    (subs.flatMap fun s => (res.filter (fun t => t.isProg s)).filter q).Perm
      (res.filter fun t => decide (∃ s ∈ subs, Of s t) && q t) := by
  induction subs with
  | nil => simp
  | cons s subs ih =>
    obtain ⟨hs, hnd⟩ := List.nodup_cons.1 hnd
    simp only [List.flatMap_cons]
    refine ((ih hnd).append_left _).trans ?_
    rw [List.filter_filter]
    refine (filter_or_perm _ _ res ?_).trans (List.Perm.of_eq ?_)
    · rintro t _ ⟨h1, h2⟩
      simp only [Bool.and_eq_true, decide_eq_true_eq] at h1 h2
      obtain ⟨⟨s', hs', h'⟩, _⟩ := h2
      have h1' := (isProg_iff s t).1 h1.2
      have : s = s' := by
        have := h1'.symm.trans h'
        simpa using this
      exact hs (this ▸ hs')
    · apply List.filter_congr
      intro t _
      rw [Bool.eq_iff_iff]
      simp only [Bool.or_eq_true, Bool.and_eq_true, decide_eq_true_eq, isProg_iff, List.mem_cons, exists_eq_or_imp]
      tauto

/-- C82: a scheme for several fields with one active label solves for exactly the time derivatives and the terms of the
listed fields that carry the label, each of them once. -/
theorem C82_many_fields (split : ℕ → Form U D → Form U D) (names subs : List String) (hsubs : subs.Nodup) (l : String)
    (res : List (STerm U D)) (hmw : ∀ t ∈ res, t.mw = none)
    (hl : ∀ t ∈ res, ¬ (Has "time_derivative" t ∧ Has l t)) :
    ∃ r src, setup split (some names) (some (.many subs)) [l] res = .ok (r, src) ∧
      r.Perm (res.filter fun t => decide (Has "time_derivative" t ∨ (Has l t ∧ ∃ s ∈ subs, Of s t))) := by
  refine ⟨selectActive (some names) (some (.many subs)) [l] res, _,
    setup_plain split (some names) (some (.many subs)) [l] res res _ rfl rfl ?_, ?_⟩
  · intro t ht
    simp only [selectActive, foldl_append_eq, List.mem_append, List.mem_flatMap] at ht
    rcases ht with h | ⟨s, _, h⟩
    · exact hmw t (List.mem_of_mem_filter h)
    · exact hmw t (List.mem_of_mem_filter (List.mem_of_mem_filter h))
  · simp only [selectActive, foldl_append_eq]
    refine ((flatMap_filter_perm res _ subs hsubs).append_left _).trans ?_
    refine (filter_or_perm _ _ res ?_).trans (List.Perm.of_eq ?_)
    · rintro t ht ⟨h1, h2⟩
      simp only [STerm.hasTruthy, Bool.and_eq_true, decide_eq_true_eq] at h2
      exact hl t ht ⟨(has_iff _ t).1 h1, (has_iff _ t).1 h2.2⟩
    · apply List.filter_congr
      intro t _
      rw [Bool.eq_iff_iff]
      simp only [STerm.hasTruthy, Bool.or_eq_true, Bool.and_eq_true, decide_eq_true_eq, has_iff]
      tauto

end

/-! A concrete set of equations: two fields with a mass, a transport and a pressure-gradient term each. -/

/-- A term with labels. -/
def tm (f : String) (ls : List String) (v : ℤ) : STerm Unit ℤ := { form := fun _ => v, prog := some f, labels := ls }

def exRes : List (STerm Unit ℤ) :=
  [tm "u" ["time_derivative"] 1, tm "u" ["transport"] 2, tm "u" ["pressure_gradient"] 4,
   tm "rho" ["time_derivative"] 8, tm "rho" ["transport"] 16, tm "rho" ["source"] 32]

def noSplit : ℕ → Form Unit ℤ → Form Unit ℤ := fun _ F => F

/-- The value of every term of the residual a scheme was set up with. -/
def vals (r : Except Err (List (STerm Unit ℤ) × List ℕ)) : Option (List ℤ) :=
  match r with
  | .ok (l, _) => some (l.map fun t => t.form fun _ => ())
  | .error _ => none

example : vals (setup noSplit (some ["u", "rho"]) (some (.one "rho")) ["transport"] exRes) = some [8, 16] := by
  decide
example : vals (setup noSplit (some ["u", "rho"]) (some (.many ["u", "rho"])) ["transport"] exRes) =
    some [1, 8, 2, 16] := by decide
example : (∀ t ∈ exRes, t.mw = none) ∧ ∀ t ∈ exRes, ¬ (Has "time_derivative" t ∧ Has "transport" t) := by
  constructor
  · intro t ht
    simp [exRes, tm] at ht
    rcases ht with h | h | h | h | h | h <;> subst h <;> rfl
  · intro t ht
    simp [exRes, tm] at ht
    rcases ht with h | h | h | h | h | h <;> subst h <;> simp [Has]

/-- With two or more active labels the test `t.has_label(*active_labels)` is a nonempty tuple and hence true: every term
of the listed fields is kept, whatever its labels, and their time derivatives are kept twice. -/
theorem C82_many_labels_keep_everything (split : ℕ → Form U D → Form U D) (names subs : List String) (a b : String)
    (as : List String) (res : List (STerm U D)) (hmw : ∀ t ∈ res, t.mw = none) :
    ∃ src, setup split (some names) (some (.many subs)) (a :: b :: as) res =
      .ok (res.filter (fun t => t.has "time_derivative") ++ subs.flatMap (fun s => res.filter fun t => t.isProg s),
        src) := by
  have hsel : selectActive (some names) (some (.many subs)) (a :: b :: as) res =
      res.filter (fun t => t.has "time_derivative") ++ subs.flatMap (fun s => res.filter fun t => t.isProg s) := by
    simp only [selectActive, foldl_append_eq]
    congr 1
    apply List.flatMap_congr
    intro s _
    apply List.filter_eq_self.2
    intro t _
    rfl
  refine ⟨_, setup_plain split (some names) (some (.many subs)) (a :: b :: as) res res _ rfl hsel ?_⟩
  intro t ht
  simp only [List.mem_append, List.mem_flatMap] at ht
  rcases ht with h | ⟨s, _, h⟩
  · exact hmw t (List.mem_of_mem_filter h)
  · exact hmw t (List.mem_of_mem_filter h)

/-- So the selection by several active labels fails for a scheme of several fields: the pressure gradient is kept
although it carries neither label, and each mass term is counted twice. -/
theorem C82_many_labels_refuted :
    vals (setup noSplit (some ["u", "rho"]) (some (.many ["u", "rho"])) ["transport", "diffusion"] exRes) =
      some [1, 8, 1, 2, 4, 8, 16, 32] := by decide

/-! #### Source evaluations -/

theorem sources_aux (res : List (STerm U D)) (acc : List ℕ) (hacc : acc.Nodup) :
    let r := res.foldl (fun acc t => match t.phys with
      | none => acc
      | some m => if m ∈ acc then acc else acc ++ [m]) acc
    r.Nodup ∧ ∀ m, m ∈ r ↔ m ∈ acc ∨ ∃ t ∈ res, t.phys = some m := by
  induction res generalizing acc with
  | nil => simpa using hacc
  | cons t ts ih =>
    simp only [List.foldl_cons]
    cases ht : t.phys with
    | none =>
      obtain ⟨h1, h2⟩ := ih acc hacc
      refine ⟨h1, fun m => ?_⟩
      rw [h2 m]
      simp [ht]
    | some n =>
      by_cases hn : n ∈ acc
      · simp only [hn, if_true]
        obtain ⟨h1, h2⟩ := ih acc hacc
        refine ⟨h1, fun m => ?_⟩
        rw [h2 m]
        simp only [List.mem_cons, exists_eq_or_imp, ht, Option.some.injEq]
        constructor
        · rintro (h | h)
          · exact .inl h
          · exact .inr (.inr h)
        · rintro (h | rfl | h)
          · exact .inl h
          · exact .inl hn
          · exact .inr h
      · simp only [hn, if_false]
        have hnd : (acc ++ [n]).Nodup := by
          rw [List.nodup_append]
          refine ⟨hacc, by simp, ?_⟩
          intro a ha b hb
          simp at hb
          rintro rfl
          exact hn (hb ▸ ha)
        obtain ⟨h1, h2⟩ := ih (acc ++ [n]) hnd
        refine ⟨h1, fun m => ?_⟩
        rw [h2 m]
        simp only [List.mem_append, List.mem_cons, List.not_mem_nil, or_false, exists_eq_or_imp, ht,
          Option.some.injEq, or_assoc]
        constructor
        · rintro (h | rfl | h)
          · exact .inl h
          · exact .inr (.inl rfl)
          · exact .inr (.inr h)
        · rintro (h | rfl | h)
          · exact .inl h
          · exact .inr (.inl rfl)
          · exact .inr (.inr h)

/-- C82: the parametrisations a scheme evaluates are exactly those with a term among the selected terms, each once. -/
theorem C82_sources (split : ℕ → Form U D → Form U D) (names : Option (List String)) (target : Option Target)
    (active : List String) (res r : List (STerm U D)) (src : List ℕ) (hmw : ∀ t ∈ res, t.mw = none)
    (h : setup split names target active res = .ok (r, src)) :
    src.Nodup ∧ ∀ m, m ∈ src ↔ ∃ t ∈ r, t.phys = some m := by
  have key : ∀ r0, selectField split names target res = .ok r0 → ∀ t ∈ r0, t.mw = none := by
    intro r0 h0 t ht
    unfold selectField at h0
    split at h0
    · split at h0
      · cases h0
      · cases h0
        obtain ⟨s, hs, rfl⟩ := List.mem_map.1 ht
        exact hmw s (List.mem_of_mem_filter hs)
    · cases h0; exact hmw t ht
  have key2 : ∀ r0 : List (STerm U D), (∀ t ∈ r0, t.mw = none) →
      ∀ t ∈ selectActive names target active r0, t.mw = none := by
    intro r0 h0 t ht
    unfold selectActive at ht
    split at ht
    · exact h0 t ht
    · split at ht
      · rw [foldl_append_eq] at ht
        simp only [List.mem_append, List.mem_flatMap] at ht
        rcases ht with h | ⟨s, _, h⟩
        · exact h0 t (List.mem_of_mem_filter h)
        · exact h0 t (List.mem_of_mem_filter (List.mem_of_mem_filter h))
      · exact h0 t (List.mem_of_mem_filter ht)
  unfold setup at h
  split at h
  · cases h
  · rename_i r0 h0
    simp only at h
    rw [massWeighted_none _ _ (key2 r0 (key r0 h0))] at h
    simp only [Except.ok.injEq, Prod.mk.injEq] at h
    obtain ⟨rfl, rfl⟩ := h
    have := sources_aux (selectActive names target active r0) [] List.nodup_nil
    simp only [List.not_mem_nil, false_or] at this
    exact this

example : ∃ r src, setup noSplit (some ["u"]) none []
    [{ tm "u" ["physics"] 1 with phys := some 3 }, { tm "u" ["physics"] 1 with phys := some 5 },
     { tm "u" ["physics"] 1 with phys := some 3 }] = .ok (r, src) ∧ src = [3, 5] := ⟨_, _, rfl, rfl⟩

/-! #### Mass-weighted terms -/

/-- The mass term of the field is mass-weighted (and there is one such term). -/
def WeightedMass (f : String) (res : List (STerm U D)) : Prop :=
  (res.filter (fun t => t.isProg f && t.has "time_derivative" && t.hasMW)).length = 1
/-- Some term other than the mass term is mass-weighted. -/
def SomeWeighted (f : String) (res : List (STerm U D)) : Prop :=
  ∃ t ∈ res, Of f t ∧ ¬ Has "time_derivative" t ∧ t.mw ≠ none
/-- Some term other than the mass term is not mass-weighted. -/
def SomeUnweighted (f : String) (res : List (STerm U D)) : Prop :=
  ∃ t ∈ res, Of f t ∧ ¬ Has "time_derivative" t ∧ t.mw = none
/-- The terms that a term stands for in the mass-weighted equation. -/
def weighted (t : STerm U D) : List (STerm U D) :=
  match t.mw with
  | some a => a.terms.map fun b => { toBase := b }
  | none => [t]

theorem someWeighted_iff (f : String) (res : List (STerm U D)) :
    0 < ((res.filter (fun t => t.isProg f && !t.has "time_derivative")).filter STerm.hasMW).length ↔
      SomeWeighted f res := by
  rw [List.length_pos_iff_exists_mem]
  constructor
  · rintro ⟨t, ht⟩
    simp only [List.mem_filter, Bool.and_eq_true, Bool.not_eq_true'] at ht
    refine ⟨t, ht.1.1, (isProg_iff _ _).1 ht.1.2.1, ?_, ?_⟩
    · rw [← has_iff, ht.1.2.2]; simp
    · have := ht.2
      rintro h
      simp [STerm.hasMW, h] at this
  · rintro ⟨t, ht, h1, h2, h3⟩
    refine ⟨t, ?_⟩
    simp only [List.mem_filter, Bool.and_eq_true, Bool.not_eq_true']
    refine ⟨⟨ht, (isProg_iff _ _).2 h1, ?_⟩, ?_⟩
    · rw [← has_iff] at h2; simpa using h2
    · cases hm : t.mw
      · exact absurd hm h3
      · simp [STerm.hasMW, hm]

theorem someUnweighted_iff (f : String) (res : List (STerm U D)) :
    0 < ((res.filter (fun t => t.isProg f && !t.has "time_derivative")).filter (fun t => !t.hasMW)).length ↔
      SomeUnweighted f res := by
  rw [List.length_pos_iff_exists_mem]
  constructor
  · rintro ⟨t, ht⟩
    simp only [List.mem_filter, Bool.and_eq_true, Bool.not_eq_true'] at ht
    refine ⟨t, ht.1.1, (isProg_iff _ _).1 ht.1.2.1, ?_, ?_⟩
    · rw [← has_iff, ht.1.2.2]; simp
    · have := ht.2
      cases hm : t.mw
      · rfl
      · simp [STerm.hasMW, hm] at this
  · rintro ⟨t, ht, h1, h2, h3⟩
    refine ⟨t, ?_⟩
    simp only [List.mem_filter, Bool.and_eq_true, Bool.not_eq_true']
    refine ⟨⟨ht, (isProg_iff _ _).2 h1, ?_⟩, ?_⟩
    · rw [← has_iff] at h2; simpa using h2
    · simp [STerm.hasMW, h3]

/-- The forms in the label `mass_weighted` belong to the field of the term that carries them. -/
def OwnField (res : List (STerm U D)) : Prop := ∀ t ∈ res, ∀ a, t.mw = some a → ∀ b ∈ a.terms, b.prog = t.prog

section
open Classical

theorem field_eq (f : String) (res : List (STerm U D)) :
    massWeightedField f res =
      if WeightedMass f res ∧ SomeWeighted f res ∧ SomeUnweighted f res then .error .valueError
      else if WeightedMass f res ∧ SomeWeighted f res then
        .ok (res.flatMap fun t => if Of f t then weighted t else [t])
      else .ok res := by
  unfold massWeightedField
  simp only [← someWeighted_iff, ← someUnweighted_iff, WeightedMass]
  by_cases h1 : (res.filter (fun t => t.isProg f && t.has "time_derivative" && t.hasMW)).length = 1
  · simp only [h1, if_true, true_and]
    by_cases h2 : 0 < ((res.filter (fun t => t.isProg f && !t.has "time_derivative")).filter STerm.hasMW).length
    · simp only [h2, if_true, true_and]
      by_cases h3 : 0 < ((res.filter (fun t => t.isProg f && !t.has "time_derivative")).filter
          (fun t => !t.hasMW)).length
      · simp only [h3, if_true]
      · simp only [h3, if_false]
        congr 2
        funext t
        simp only [isProg_iff, weighted]
        rfl
    · simp only [h2, if_false, false_and, and_false]
  · simp only [h1, if_false, false_and]

theorem swapped_other {f g : String} (hfg : f ≠ g) (res : List (STerm U D)) (hown : OwnField res)
    (p : STerm U D → Bool) :
    (res.flatMap fun t => if Of f t then weighted t else [t]).filter (fun t => t.isProg g && p t) =
      res.filter (fun t => t.isProg g && p t) := by
  induction res with
  | nil => rfl
  | cons t ts ih =>
    have ih := ih fun s hs => hown s (List.mem_cons_of_mem _ hs)
    simp only [List.flatMap_cons, List.filter_append, ih, List.filter_cons]
    by_cases hf : Of f t
    · have hg : t.isProg g = false := by
        cases hp : t.isProg g
        · rfl
        · have h1 := (isProg_iff g t).1 hp
          have : f = g := by
            have h2 : t.prog = some f := hf
            have h3 : t.prog = some g := h1
            rw [h2] at h3
            simpa using h3
          exact absurd this hfg
      have hnil : (weighted t).filter (fun t => t.isProg g && p t) = [] := by
        apply List.filter_eq_nil_iff.2
        intro s hs
        have hsp : s.prog = t.prog := by
          unfold weighted at hs
          split at hs
          · rename_i a ha
            obtain ⟨b, hb, rfl⟩ := List.mem_map.1 hs
            exact hown t List.mem_cons_self a ha b hb
          · simp at hs; rw [hs]
        have : s.isProg g = false := by
          simp only [Base.isProg] at hg ⊢
          rw [hsp]; exact hg
        simp [this]
      simp only [hf, if_true, hnil, hg, Bool.false_and, Bool.false_eq_true, if_false, List.nil_append]
    · simp only [hf, if_false, List.filter_cons, List.filter_nil]
      split <;> simp

theorem swapped_own {f : String} (res : List (STerm U D)) (hown : OwnField res) :
    OwnField (res.flatMap fun t => if Of f t then weighted t else [t]) := by
  intro t ht a ha b hb
  obtain ⟨s, hs, hts⟩ := List.mem_flatMap.1 ht
  split at hts
  · unfold weighted at hts
    split at hts
    · obtain ⟨c, _, rfl⟩ := List.mem_map.1 hts
      cases ha
    · simp at hts; subst hts; exact hown _ hs a ha b hb
  · simp at hts; subst hts; exact hown _ hs a ha b hb

/-- Some field mixes mass-weighted and other terms. -/
def Mixed (f : String) (res : List (STerm U D)) : Prop :=
  WeightedMass f res ∧ SomeWeighted f res ∧ SomeUnweighted f res

theorem preds_of_filters {f : String} {r r' : List (STerm U D)}
    (h : ∀ p : STerm U D → Bool, r'.filter (fun t => t.isProg f && p t) = r.filter (fun t => t.isProg f && p t)) :
    (WeightedMass f r' ↔ WeightedMass f r) ∧ (SomeWeighted f r' ↔ SomeWeighted f r) ∧
      (SomeUnweighted f r' ↔ SomeUnweighted f r) := by
  have h2 := h (fun t => t.has "time_derivative" && t.hasMW)
  have h3 := h (fun t => !t.has "time_derivative")
  refine ⟨?_, ?_, ?_⟩
  · unfold WeightedMass
    simp only [Bool.and_assoc] at h2 ⊢
    rw [h2]
  · rw [← someWeighted_iff, ← someWeighted_iff, h3]
  · rw [← someUnweighted_iff, ← someUnweighted_iff, h3]

theorem loop_eq (names : List String) (hnd : names.Nodup) (res : List (STerm U D)) (hown : OwnField res) :
    massWeightedLoop names res =
      if ∃ f ∈ names, Mixed f res then .error .valueError
      else .ok (res.flatMap fun t =>
        if ∃ f ∈ names, Of f t ∧ WeightedMass f res ∧ SomeWeighted f res then weighted t else [t]) := by
  induction names generalizing res with
  | nil => simp [massWeightedLoop]
  | cons f fs ih =>
    obtain ⟨hf, hnd⟩ := List.nodup_cons.1 hnd
    simp only [massWeightedLoop, field_eq]
    by_cases hm : WeightedMass f res ∧ SomeWeighted f res ∧ SomeUnweighted f res
    · simp only [hm, if_true]
      have : ∃ g ∈ f :: fs, Mixed g res := ⟨f, List.mem_cons_self, hm⟩
      simp only [this, if_true, and_self]
    · simp only [hm, if_false]
      by_cases hw : WeightedMass f res ∧ SomeWeighted f res
      · rw [if_pos hw]
        simp only
        rw [ih hnd _ (swapped_own res hown)]
        have hpred : ∀ g ∈ fs, _ := fun g hg =>
          preds_of_filters (swapped_other (fun h => hf (h ▸ hg) : f ≠ g) res hown)
        have hex : (∃ g ∈ fs, Mixed g (res.flatMap fun t => if Of f t then weighted t else [t])) ↔
            ∃ g ∈ f :: fs, Mixed g res := by
          constructor
          · rintro ⟨g, hg, h1, h2, h3⟩
            obtain ⟨e1, e2, e3⟩ := hpred g hg
            exact ⟨g, List.mem_cons_of_mem _ hg, e1.1 h1, e2.1 h2, e3.1 h3⟩
          · rintro ⟨g, hg, h⟩
            rcases List.mem_cons.1 hg with rfl | hg
            · exact absurd h hm
            · obtain ⟨e1, e2, e3⟩ := hpred g hg
              exact ⟨g, hg, e1.2 h.1, e2.2 h.2.1, e3.2 h.2.2⟩
        by_cases hmix : ∃ g ∈ f :: fs, Mixed g res
        · rw [if_pos (hex.2 hmix), if_pos hmix]
        · rw [if_neg (fun h => hmix (hex.1 h)), if_neg hmix]
          congr 1
          rw [List.flatMap_assoc]
          apply List.flatMap_congr
          intro t ht
          have hiff : ∀ s : STerm U D, (∃ g ∈ fs, Of g s ∧
              WeightedMass g (res.flatMap fun t => if Of f t then weighted t else [t]) ∧
              SomeWeighted g (res.flatMap fun t => if Of f t then weighted t else [t])) ↔
              ∃ g ∈ fs, Of g s ∧ WeightedMass g res ∧ SomeWeighted g res := by
            intro s
            constructor
            · rintro ⟨g, hg, h1, h2, h3⟩
              obtain ⟨e1, e2, _⟩ := hpred g hg
              exact ⟨g, hg, h1, e1.1 h2, e2.1 h3⟩
            · rintro ⟨g, hg, h1, h2, h3⟩
              obtain ⟨e1, e2, _⟩ := hpred g hg
              exact ⟨g, hg, h1, e1.2 h2, e2.2 h3⟩
          by_cases hft : Of f t
          · have : ∃ g ∈ f :: fs, Of g t ∧ WeightedMass g res ∧ SomeWeighted g res :=
              ⟨f, List.mem_cons_self, hft, hw⟩
            simp only [hft, if_true, this]
            -- the swapped terms belong to `f` and are not touched again
            have hprog : ∀ s ∈ weighted t, s.prog = some f := by
              intro s hs
              unfold weighted at hs
              split at hs
              · rename_i a ha
                obtain ⟨b, hb, rfl⟩ := List.mem_map.1 hs
                exact (hown t ht a ha b hb).trans hft
              · simp at hs; rw [hs]; exact hft
            have : ∀ s ∈ weighted t, (if ∃ g ∈ fs, Of g s ∧
                WeightedMass g (res.flatMap fun t => if Of f t then weighted t else [t]) ∧
                SomeWeighted g (res.flatMap fun t => if Of f t then weighted t else [t])
                then weighted s else [s]) = [s] := by
              intro s hs
              rw [if_neg]
              rintro ⟨g, hg, h, _⟩
              have h4 : s.prog = some g := h
              rw [hprog s hs] at h4
              simp at h4
              exact hf (h4 ▸ hg)
            rw [List.flatMap_congr this]
            simp
          · simp only [hft, if_false, List.flatMap_cons, List.flatMap_nil, List.append_nil]
            have e : (∃ g ∈ fs, Of g t ∧ WeightedMass g res ∧ SomeWeighted g res) ↔
                ∃ g ∈ f :: fs, Of g t ∧ WeightedMass g res ∧ SomeWeighted g res := by
              constructor
              · rintro ⟨g, hg, h⟩; exact ⟨g, List.mem_cons_of_mem _ hg, h⟩
              · rintro ⟨g, hg, h⟩
                rcases List.mem_cons.1 hg with rfl | hg
                · exact absurd h.1 hft
                · exact ⟨g, hg, h⟩
            by_cases hq : ∃ g ∈ f :: fs, Of g t ∧ WeightedMass g res ∧ SomeWeighted g res
            · rw [if_pos ((hiff t).2 (e.2 hq)), if_pos hq]
            · rw [if_neg (fun h => hq (e.1 ((hiff t).1 h))), if_neg hq]
      · simp only [hw, if_false]
        rw [ih hnd res hown]
        have hex : (∃ g ∈ fs, Mixed g res) ↔ ∃ g ∈ f :: fs, Mixed g res := by
          constructor
          · rintro ⟨g, hg, h⟩; exact ⟨g, List.mem_cons_of_mem _ hg, h⟩
          · rintro ⟨g, hg, h⟩
            rcases List.mem_cons.1 hg with rfl | hg
            · exact absurd h hm
            · exact ⟨g, hg, h⟩
        by_cases hmix : ∃ g ∈ f :: fs, Mixed g res
        · rw [if_pos (hex.2 hmix), if_pos hmix]
        · rw [if_neg (fun h => hmix (hex.1 h)), if_neg hmix]
          congr 1
          apply List.flatMap_congr
          intro t _
          have e : (∃ g ∈ fs, Of g t ∧ WeightedMass g res ∧ SomeWeighted g res) ↔
              ∃ g ∈ f :: fs, Of g t ∧ WeightedMass g res ∧ SomeWeighted g res := by
            constructor
            · rintro ⟨g, hg, h⟩; exact ⟨g, List.mem_cons_of_mem _ hg, h⟩
            · rintro ⟨g, hg, h⟩
              rcases List.mem_cons.1 hg with rfl | hg
              · exact absurd h.2 hw
              · exact ⟨g, hg, h⟩
          by_cases hq : ∃ g ∈ f :: fs, Of g t ∧ WeightedMass g res ∧ SomeWeighted g res
          · rw [if_pos (e.2 hq), if_pos hq]
          · rw [if_neg (fun h => hq (e.1 h)), if_neg hq]

/-- C82: setting up a scheme for the whole equation set.  If some field has a mass-weighted mass term together with both
a mass-weighted and another term, the set-up is refused; otherwise the fields whose mass term and other terms are
mass-weighted are solved in mass-weighted form, term by term, and every other field is left as it was. -/
theorem C82_mass_weighted (split : ℕ → Form U D → Form U D) (names : List String) (hnd : names.Nodup)
    (res : List (STerm U D)) (hown : OwnField res) (hsome : ∃ t ∈ res, t.mw ≠ none) :
    setup split (some names) none [] res =
      if ∃ f ∈ names, Mixed f res then .error .valueError
      else .ok (res.flatMap (fun t =>
          if ∃ f ∈ names, Of f t ∧ WeightedMass f res ∧ SomeWeighted f res then weighted t else [t]),
        evaluateSource res) := by
  have h0 : 0 < (res.filter STerm.hasMW).length := by
    obtain ⟨t, ht, h⟩ := hsome
    rw [List.length_pos_iff_exists_mem]
    refine ⟨t, List.mem_filter.2 ⟨ht, ?_⟩⟩
    cases hm : t.mw
    · exact absurd hm h
    · simp [STerm.hasMW, hm]
  simp only [setup, selectField, selectActive, massWeighted, h0, if_true]
  rw [loop_eq names hnd res hown]
  by_cases hmix : ∃ f ∈ names, Mixed f res
  · simp only [hmix, if_true]
  · simp only [hmix, if_false]

/-- Consequently no field is left half-converted: in the residual that is solved, a field that was mass-weighted
throughout has no term with an unused mass-weighted form. -/
theorem C82_mass_weighted_consistent (split : ℕ → Form U D → Form U D) (names : List String) (hnd : names.Nodup)
    (res r : List (STerm U D)) (src : List ℕ) (hown : OwnField res)
    (h : setup split (some names) none [] res = .ok (r, src)) (f : String) (hf : f ∈ names)
    (hwm : WeightedMass f res) (hsw : SomeWeighted f res) :
    (¬ SomeUnweighted f res) ∧ ∀ t ∈ r, Of f t → t.mw = none := by
  have hsome : ∃ t ∈ res, t.mw ≠ none := by
    obtain ⟨t, ht, _, _, h⟩ := hsw; exact ⟨t, ht, h⟩
  rw [C82_mass_weighted split names hnd res hown hsome] at h
  by_cases hmix : ∃ f ∈ names, Mixed f res
  · simp [hmix] at h
  · simp only [hmix, if_false, Except.ok.injEq, Prod.mk.injEq] at h
    obtain ⟨rfl, _⟩ := h
    refine ⟨fun hu => hmix ⟨f, hf, hwm, hsw, hu⟩, ?_⟩
    intro t ht hft
    obtain ⟨s, hs, hts⟩ := List.mem_flatMap.1 ht
    by_cases hq : ∃ g ∈ names, Of g s ∧ WeightedMass g res ∧ SomeWeighted g res
    · simp only [hq, if_true] at hts
      unfold weighted at hts
      split at hts
      · obtain ⟨b, _, rfl⟩ := List.mem_map.1 hts; rfl
      · rename_i hn; simp at hts; rw [hts]; exact hn
    · simp only [hq, if_false, List.mem_singleton] at hts
      subst hts
      exact absurd ⟨f, hf, hft, hwm, hsw⟩ hq

end

/-- The form carried by the label. -/
def tmW (f : String) (ls : List String) (v w : ℤ) : STerm Unit ℤ :=
  { tm f ls v with mw := some (.lform [(tm f ls w).toBase]) }

/-- A tracer with mass-weighted mass and transport terms, and a density. -/
def exMW : List (STerm Unit ℤ) :=
  [tm "rho" ["time_derivative"] 1, tm "rho" ["transport"] 2, tmW "m" ["time_derivative"] 4 8,
   tmW "m" ["transport"] 16 32]

example : vals (setup noSplit (some ["rho", "m"]) none [] exMW) = some [1, 2, 8, 32] := by decide
example : vals (setup noSplit (some ["rho", "m"]) none [] (exMW ++ [tm "m" ["diffusion"] 64])) = none := by decide
example : WeightedMass "m" exMW ∧ SomeWeighted "m" exMW ∧ OwnField exMW := by
  refine ⟨rfl, ⟨tmW "m" ["transport"] 16 32, by simp [exMW], rfl, by simp [Has, tmW, tm], by simp [tmW]⟩, ?_⟩
  intro t ht a ha b hb
  simp [exMW] at ht
  rcases ht with h | h | h | h <;> subst h <;> simp_all [tm, tmW]
  · subst ha; simp [Att.terms] at hb; rw [hb]
  · subst ha; simp [Att.terms] at hb; rw [hb]

/-! ### C83: spatial methods -/

section
variable [AddCommMonoid D]

theorem newTerm_spec (m : Method U D) (t n : STerm U D) (h : newTerm m t = .ok n) :
    n.form = formSum m.form ∧ n.vel = headVel m.form ∧ n.prog = t.prog ∧ n.labels = t.labels ∧ n.phys = t.phys ∧
      (t.mw = none → n.mw = none) ∧ (∀ a, t.mw = some a → ∃ b w, a.terms.head? = some b ∧
        m.form.head?.bind (fun s => s.mw) = some w ∧ n.mw = some (.term { b with
          form := (w.terms.map fun s => s.form).sum, vel := w.terms.head?.bind fun s => s.vel })) := by
  unfold newTerm at h
  simp only at h
  split at h
  · rename_i hm
    cases h
    refine ⟨rfl, rfl, rfl, rfl, rfl, fun _ => hm, ?_⟩
    intro a ha; rw [hm] at ha; cases ha
  · rename_i a hm
    split at h
    · rename_i b w hb hw
      cases h
      refine ⟨rfl, rfl, rfl, rfl, rfl, ?_, ?_⟩
      · intro hn; rw [hm] at hn; cases hn
      · intro a' ha'
        rw [hm] at ha'
        cases ha'
        exact ⟨b, w, hb, hw, rfl⟩
    · cases h

theorem isTransport_congr (v : String) (s t : STerm U D) (h1 : s.prog = t.prog) (h2 : s.labels = t.labels) :
    isTransport v s = isTransport v t := by
  simp [isTransport, Base.has, Base.isProg, h1, h2]

/-- C83: a transport method changes only the transport terms of its own variable: every other term stays, in its place,
and the replaced terms keep their field, their labels and their physics evaluation. -/
theorem C83_frame (m : Method U D) (res r : List (STerm U D)) (h : replaceTransport m res = .ok r) :
    r.length = res.length ∧ ∀ i (hi : i < res.length) (hi' : i < r.length),
      (¬ (Has "transport" res[i] ∧ Of m.variable_ res[i]) → r[i] = res[i]) ∧
      ((Has "transport" res[i] ∧ Of m.variable_ res[i]) → r[i].prog = res[i].prog ∧ Has "transport" r[i]) := by
  have tr_iff : ∀ t : STerm U D, isTransport m.variable_ t = true ↔ (Has "transport" t ∧ Of m.variable_ t) := by
    intro t; simp [isTransport, Base.has, Base.isProg, Has, Of]
  unfold replaceTransport at h
  split at h
  · cases h
    refine ⟨rfl, fun i hi _ => ⟨fun _ => rfl, fun ht => ⟨rfl, ht.1⟩⟩⟩
  · rename_i t heq
    have htm : t ∈ res.filter (isTransport m.variable_) := by rw [heq]; simp
    have ht := (tr_iff t).1 (List.mem_filter.1 htm).2
    split at h
    · cases h
    · rename_i n hn
      obtain ⟨_, _, hp, hl, _⟩ := newTerm_spec m t n hn
      cases h
      refine ⟨by simp, fun i hi hi' => ?_⟩
      simp only [List.getElem_map]
      constructor
      · intro hno
        rw [if_neg]
        intro h'; exact hno ((tr_iff _).1 h')
      · intro hyes
        rw [if_pos ((tr_iff _).2 hyes)]
        exact ⟨hp.trans (ht.2.trans hyes.2.symm), by unfold Has; rw [hl]; exact ht.1⟩
  · split at h
    · rename_i hh vv heh hev
      have hh1 : hh ∈ res.filter (fun t => isTransport m.variable_ t && t.has "horizontal_transport") := by
        rw [heh]; simp
      have vv1 : vv ∈ res.filter (fun t => isTransport m.variable_ t && t.has "vertical_transport") := by
        rw [hev]; simp
      have hht := (List.mem_filter.1 hh1).2
      have vvt := (List.mem_filter.1 vv1).2
      simp only [Bool.and_eq_true] at hht vvt
      have hht' := (tr_iff hh).1 hht.1
      have vvt' := (tr_iff vv).1 vvt.1
      split at h
      · rename_i fh fv _ _
        split at h
        · cases h
        · cases h
          refine ⟨by simp, fun i hi hi' => ?_⟩
          simp only [List.getElem_map]
          constructor
          · intro hno
            have hn : isTransport m.variable_ res[i] = false := by
              cases hc : isTransport m.variable_ res[i]
              · rfl
              · exact absurd ((tr_iff _).1 hc) hno
            simp [hn]
          · intro hyes
            have e1 := vvt'.2.trans hyes.2.symm
            have e2 := hht'.2.trans hyes.2.symm
            by_cases c1 : (isTransport m.variable_ res[i] && res[i].has "horizontal_transport") = true
            · simp only [c1, if_true]
              split
              · exact ⟨e1, vvt'.1⟩
              · exact ⟨e2, hht'.1⟩
            · simp only [c1, if_false, Bool.false_eq_true]
              split
              · exact ⟨e1, vvt'.1⟩
              · exact ⟨rfl, hyes.1⟩
      · cases h
    · cases h

/-- C83: with one transport term for the variable the method puts its own form there, keeping all labels but the
transporting velocity, which becomes the method's. -/
theorem C83_replaced (m : Method U D) (res : List (STerm U D)) (t : STerm U D)
    (ht : res.filter (isTransport m.variable_) = [t]) (hmw : t.mw = none) :
    ∃ n, replaceTransport m res = .ok (res.map fun s => if isTransport m.variable_ s then n else s) ∧
      n.form = (fun ρ => (m.form.map fun s => s.form ρ).sum) ∧ n.vel = headVel m.form ∧ n.prog = t.prog ∧
      n.labels = t.labels ∧ n.phys = t.phys ∧ (∀ f, m.allButLast = some f → n.abl = some f) := by
  have hsum : formSum m.form = fun ρ => (m.form.map fun s => s.form ρ).sum := by
    funext ρ
    simp only [formSum]
    generalize m.form = l
    induction l with
    | nil => rfl
    | cons a l ih => simp [ih]
  refine ⟨{ t with form := formSum m.form, vel := headVel m.form, abl := match m.allButLast with
                                   | some f => some f
                                   | none => t.abl }, ?_, hsum, rfl, rfl, rfl, rfl, ?_⟩
  · have : newTerm m t = .ok { t with form := formSum m.form, vel := headVel m.form, abl := match m.allButLast with
                                   | some f => some f
                                   | none => t.abl } := by
      simp only [newTerm]
      rw [hmw]
      rfl
    simp only [replaceTransport, ht, this]
  · intro f hf
    simp only [hf]

/-- C83: a base-class method (diffusion) replaces exactly the forms of its terms and keeps all labels. -/
theorem C83_diffusion (label : String) (m : Method U D) (res : List (STerm U D)) :
    (replaceBase label m res).length = res.length ∧
      ∀ i (hi : i < res.length) (hi' : i < (replaceBase label m res).length),
        (¬ (Has label res[i] ∧ Of m.variable_ res[i]) → (replaceBase label m res)[i] = res[i]) ∧
        ((Has label res[i] ∧ Of m.variable_ res[i]) →
          (replaceBase label m res)[i] = { res[i] with form := formSum m.form }) := by
  refine ⟨by simp [replaceBase], fun i hi hi' => ?_⟩
  simp only [replaceBase, List.getElem_map]
  constructor
  · intro hno
    rw [if_neg]
    simpa [Base.has, Base.isProg, Has, Of] using hno
  · intro hyes
    rw [if_pos]
    simpa [Base.has, Base.isProg, Has, Of] using hyes

/-- Two transport terms for one variable that are not a horizontal and a vertical one are refused. -/
theorem C83_ambiguous (m : Method U D) (res : List (STerm U D))
    (h2 : 2 ≤ (res.filter (isTransport m.variable_)).length)
    (hh : (res.filter (fun t => isTransport m.variable_ t && t.has "horizontal_transport")).length ≠ 1) :
    replaceTransport m res = .error .runtimeError := by
  unfold replaceTransport
  split
  · rename_i h; rw [h] at h2; simp at h2
  · rename_i h; rw [h] at h2; simp at h2
  · split
    · rename_i h _; rw [h] at hh; simp at hh
    · rfl

/-! #### The transporting velocity -/

theorem setVel_form [Zero U] (t : STerm U D) (u : U) :
    t.setVel.form (running u) = match t.vel with
      | some v => t.form fun x => if x = v then u else running u x
      | none => t.form (running u) := by
  cases hv : t.vel with
  | none => simp [STerm.setVel, hv]
  | some v => simp [STerm.setVel, Base.setVel, hv, replace, running]

/-- C83: after the timestepper has set its velocity every term with a transporting velocity is evaluated with it, and
the other terms are untouched. -/
theorem C83_velocity [Zero U] (res : List (STerm U D)) (u : U) :
    value u (setupVelocity res) = (res.map fun t => match t.vel with
      | some v => t.form fun x => if x = v then u else running u x
      | none => t.form (running u)).sum := by
  simp only [value, setupVelocity, List.map_map]
  congr 1
  apply List.map_congr_left
  intro t _
  exact setVel_form t u

/-- The forms for all but the last stages are given the same velocity. -/
theorem C83_velocity_all_but_last [Zero U] (t : STerm U D) (l : List (Base U D)) (habl : t.abl = some l)
    (hv : t.vel ≠ none) (u : U) :
    ∃ l', t.setVel.abl = some l' ∧ l'.map (fun s => s.form (running u)) = l.map (fun s => match s.vel with
      | some v => s.form fun x => if x = v then u else running u x
      | none => s.form (running u)) := by
  cases h : t.vel with
  | none => exact absurd h hv
  | some v =>
    refine ⟨l.map Base.setVel, by simp [STerm.setVel, h, habl], ?_⟩
    rw [List.map_map]
    apply List.map_congr_left
    intro s _
    cases hs : s.vel with
    | none => simp [Base.setVel, hs]
    | some w => simp [Base.setVel, hs, replace, running]

/-- The mass-weighted form held in a label is given the velocity as well when it is a labelled form. -/
theorem C83_velocity_mass_weighted [Zero U] (t : STerm U D) (l : List (Base U D)) (hmw : t.mw = some (.lform l))
    (hv : t.vel ≠ none) (u : U) :
    ∃ l', t.setVel.mw = some (.lform l') ∧ l'.map (fun s => s.form (running u)) = l.map (fun s => match s.vel with
      | some v => s.form fun x => if x = v then u else running u x
      | none => s.form (running u)) := by
  cases h : t.vel with
  | none => exact absurd h hv
  | some v =>
    refine ⟨l.map Base.setVel, by simp [STerm.setVel, h, hmw], ?_⟩
    rw [List.map_map]
    apply List.map_congr_left
    intro s _
    cases hs : s.vel with
    | none => simp [Base.setVel, hs]
    | some w => simp [Base.setVel, hs, replace, running]

/-- C83, refuted: the velocity reaches every mass-weighted form.  One that is a single term, which is what the
replacement by a transport method leaves, keeps its old velocity. -/
theorem C83_velocity_mass_weighted_refuted (t : STerm U D) (b : Base U D) (hmw : t.mw = some (.term b)) :
    t.setVel.mw = some (.term b) := by
  cases h : t.vel with
  | none => simp [STerm.setVel, h, hmw]
  | some v => simp [STerm.setVel, h, hmw]

/-- Both kinds occur. -/
example : ∃ t s : STerm ℤ ℤ, t.mw = some (.lform [{ form := fun ρ => ρ (.func 0), vel := some (.func 0) }]) ∧ t.vel ≠ none ∧
    s.mw = some (.term { form := fun ρ => ρ (.func 0), vel := some (.func 0) }) :=
  ⟨{ form := fun ρ => ρ (.func 0), vel := some (.func 0),
     mw := some (.lform [{ form := fun ρ => ρ (.func 0), vel := some (.func 0) }]) },
   { form := fun ρ => ρ (.func 0), vel := some (.func 0),
     mw := some (.term { form := fun ρ => ρ (.func 0), vel := some (.func 0) }) }, rfl, by simp, rfl⟩

theorem sum_map_replace {α M : Type*} [AddCommMonoid M] (p : α → Bool) (f g : α → M) (l : List α) :
    (l.map fun a => if p a then f a else g a).sum =
      ((l.filter p).map f).sum + ((l.filter fun a => !p a).map g).sum := by
  induction l with
  | nil => simp
  | cons a l ih =>
    cases hp : p a
    · simp only [List.map_cons, hp, Bool.false_eq_true, if_false, List.sum_cons, ih, List.filter_cons, Bool.not_false,
        if_true]
      rw [add_left_comm]
    · simp only [List.map_cons, hp, if_true, List.sum_cons, ih, List.filter_cons, Bool.not_true, Bool.false_eq_true,
        if_false]
      rw [add_assoc]

/-- The value of the other terms. -/
def others [Zero U] (v : String) (u : U) (res : List (STerm U D)) : D :=
  value u (setupVelocity (res.filter fun t => !isTransport v t))

theorem pipeline [Zero U] (m : Method U D) (res : List (STerm U D)) (t : STerm U D)
    (ht : res.filter (isTransport m.variable_) = [t]) (hmw : t.mw = none) (u : U) (v : Vel)
    (hv : headVel m.form = some v) :
    ∃ r, replaceTransport m res = .ok r ∧ value u (setupVelocity r) =
      (m.form.map fun s => s.form fun x => if x = v then u else running u x).sum + others m.variable_ u res := by
  obtain ⟨n, hr, hform, hvel, _⟩ := C83_replaced m res t ht hmw
  refine ⟨_, hr, ?_⟩
  simp only [value, setupVelocity, List.map_map]
  have : ((fun t : STerm U D => t.form (running u)) ∘ STerm.setVel) ∘
      (fun s => if isTransport m.variable_ s = true then n else s) =
      fun s => if isTransport m.variable_ s = true then n.setVel.form (running u) else s.setVel.form (running u) := by
    funext s
    simp only [Function.comp]
    split <;> rfl
  have hn : n.setVel.form (running u) = (m.form.map fun s => s.form fun x => if x = v then u else running u x).sum := by
    rw [setVel_form, hvel, hv, hform]
  have key := sum_map_replace (isTransport m.variable_) (fun _ => n.setVel.form (running u))
    (fun s : STerm U D => s.setVel.form (running u)) res
  have e : ((fun t : STerm U D => t.form (running u)) ∘ STerm.setVel ∘
      (fun s => if isTransport m.variable_ s = true then n else s)) =
      fun s => if isTransport m.variable_ s = true then n.setVel.form (running u) else s.setVel.form (running u) := by
    rw [← this]; rfl
  rw [e, key, ht, hn]
  simp [others, value, setupVelocity, Function.comp_def]

/-- C83: end to end, an upwind method discretises the transport term with the velocity of the timestepper: the residual
is the operator at the current velocity plus the other terms. -/
theorem C83_upwind [Zero U] (v : String) (A : U → D) (i : ℕ) (res : List (STerm U D)) (t : STerm U D)
    (ht : res.filter (isTransport v) = [t]) (hmw : t.mw = none) (u : U) :
    ∃ r, replaceTransport { variable_ := v, form := [upwindTerm A i] } res = .ok r ∧
      value u (setupVelocity r) = A u + others v u res := by
  obtain ⟨r, hr, hval⟩ := pipeline (U := U) (D := D) { variable_ := v, form := [upwindTerm A i] } res t ht hmw u
    (.func i) rfl
  refine ⟨r, hr, ?_⟩
  rw [hval]
  simp [upwindTerm]

/-- The vector manifold correction of the advection form never acts: it is written with a `Function` of its own, which
nothing sets, so the residual is the one without correction (for corrections that vanish with the velocity, as they
do). -/
theorem C83_manifold_advection_refuted [Zero U] (v : String) (A C₁ C₂ : U → D) (i j : ℕ) (hij : i ≠ j)
    (h₁ : C₁ 0 = 0) (h₂ : C₂ 0 = 0) (res : List (STerm U D)) (t : STerm U D)
    (ht : res.filter (isTransport v) = [t]) (hmw : t.mw = none) (u : U) :
    ∃ r, replaceTransport { variable_ := v, form := manifoldAdvection A C₁ C₂ i j } res = .ok r ∧
      value u (setupVelocity r) = A u + others v u res := by
  obtain ⟨r, hr, hval⟩ := pipeline (U := U) (D := D) { variable_ := v, form := manifoldAdvection A C₁ C₂ i j } res t
    ht hmw u (.func i) rfl
  refine ⟨r, hr, ?_⟩
  rw [hval]
  simp [upwindTerm, manifoldAdvection, running, h₁, h₂, hij.symm]

/-- The continuity form with the correction is worse: the label names the `Function` of the correction, so the transport
operator itself is evaluated with zero velocity, and only the correction is left. -/
theorem C83_manifold_continuity_refuted [Zero U] (v : String) (A C₁ C₂ : U → D) (i j : ℕ) (hij : i ≠ j)
    (hA : A 0 = 0) (res : List (STerm U D)) (t : STerm U D)
    (ht : res.filter (isTransport v) = [t]) (hmw : t.mw = none) (u : U) :
    ∃ r, replaceTransport { variable_ := v, form := manifoldContinuity A C₁ C₂ i j } res = .ok r ∧
      value u (setupVelocity r) = C₁ u + C₂ u + others v u res := by
  obtain ⟨r, hr, hval⟩ := pipeline (U := U) (D := D) { variable_ := v, form := manifoldContinuity A C₁ C₂ i j } res t
    ht hmw u (.func j) rfl
  refine ⟨r, hr, ?_⟩
  rw [hval]
  simp [upwindTerm, manifoldContinuity, manifoldAdvection, running, hA, hij]

/-! #### Several methods -/

theorem commute_filter (m : Method U D) (res r : List (STerm U D)) (h : replaceTransport m res = .ok r)
    (w : String) (hw : m.variable_ ≠ w) (p : STerm U D → Bool) :
    r.filter (fun t => isTransport w t && p t) = res.filter (fun t => isTransport w t && p t) := by
  obtain ⟨hlen, hfr⟩ := C83_frame m res r h
  have : ∀ i (hi : i < res.length) (hi' : i < r.length), (isTransport w r[i] && p r[i]) = true ∨
      (isTransport w res[i] && p res[i]) = true → r[i] = res[i] := by
    intro i hi hi' hor
    obtain ⟨h1, h2⟩ := hfr i hi hi'
    by_cases hc : Has "transport" res[i] ∧ Of m.variable_ res[i]
    · exfalso
      obtain ⟨hp, _⟩ := h2 hc
      have hprog : res[i].prog = some m.variable_ := hc.2
      rcases hor with ho | ho
      · simp only [isTransport, Base.isProg, Bool.and_eq_true, decide_eq_true_eq] at ho
        have := ho.1.2
        rw [hp, hprog] at this
        simp at this; exact hw this
      · simp only [isTransport, Base.isProg, Bool.and_eq_true, decide_eq_true_eq] at ho
        have := ho.1.2
        rw [hprog] at this
        simp at this; exact hw this
    · exact h1 hc
  clear hfr h
  induction res generalizing r with
  | nil =>
    have : r = [] := List.length_eq_zero_iff.1 (by simpa using hlen)
    rw [this]
  | cons a as ih =>
    cases r with
    | nil => simp at hlen
    | cons b bs =>
      have h0 := this 0 (by simp) (by simp)
      have hs := ih bs (by simpa using hlen) fun i hi hi' hor => by
        have := this (i + 1) (by simpa using hi) (by simpa using hi')
        simp only [List.getElem_cons_succ] at this
        exact this hor
      simp only [List.getElem_cons_zero] at h0
      simp only [List.filter_cons, hs]
      by_cases hb : (isTransport w b && p b) = true
      · have := h0 (.inl hb)
        subst this
        rfl
      · by_cases ha : (isTransport w a && p a) = true
        · have := h0 (.inr ha)
          subst this
          rfl
        · simp [hb, ha]

/-- What a method does to each term of a residual, given the transport terms of its variable in that residual. -/
def act (m : Method U D) (res : List (STerm U D)) : Except Err (STerm U D → STerm U D) :=
  match res.filter (fun t => isTransport m.variable_ t && true) with
  | [] => .ok id
  | [t] =>
    match newTerm m t with
    | .error e => .error e
    | .ok n => .ok fun s => if isTransport m.variable_ s then n else s
  | _ =>
    match res.filter (fun t => isTransport m.variable_ t && t.has "horizontal_transport"),
          res.filter (fun t => isTransport m.variable_ t && t.has "vertical_transport") with
    | [h], [v] =>
      match m.formH, m.formV with
      | some fh, some fv =>
        if h.hasMW || v.hasMW then .error .notImplemented
        else .ok ((fun s => if isTransport m.variable_ s && s.has "vertical_transport"
                      then { v with form := formSum fv, vel := headVel fv } else s) ∘
                  fun s => if isTransport m.variable_ s && s.has "horizontal_transport"
                      then { h with form := formSum fh, vel := headVel fh } else s)
      | _, _ => .error .attributeError
    | _, _ => .error .runtimeError

theorem replace_act (m : Method U D) (res : List (STerm U D)) :
    replaceTransport m res = (match act m res with
      | .error e => .error e
      | .ok g => .ok (res.map g)) := by
  unfold replaceTransport act
  simp only [Bool.and_true]
  rcases hres : res.filter (isTransport m.variable_) with _ | ⟨a, _ | ⟨b, l⟩⟩
  · simp
  · simp only
    cases newTerm m a <;> rfl
  · simp only
    rcases res.filter (fun t => isTransport m.variable_ t && t.has "horizontal_transport") with _ | ⟨h, _ | ⟨h2, hl⟩⟩
      <;> rcases res.filter (fun t => isTransport m.variable_ t && t.has "vertical_transport") with
        _ | ⟨v, _ | ⟨v2, vl⟩⟩ <;> try rfl
    simp only
    cases m.formH <;> cases m.formV <;> try rfl
    simp only
    split
    · rfl
    · simp [List.map_map]

theorem act_congr (m : Method U D) (res r : List (STerm U D))
    (h : ∀ p : STerm U D → Bool, r.filter (fun t => isTransport m.variable_ t && p t) =
      res.filter (fun t => isTransport m.variable_ t && p t)) : act m r = act m res := by
  unfold act
  rw [h (fun _ => true), h (fun t => t.has "horizontal_transport"), h (fun t => t.has "vertical_transport")]

/-- A method's action on a term: it does nothing unless the term is a transport term of its variable, and then the
result is again one. -/
theorem act_frame (m : Method U D) (res : List (STerm U D)) (g : STerm U D → STerm U D) (hg : act m res = .ok g)
    (s : STerm U D) :
    (isTransport m.variable_ s = false → g s = s) ∧
      (isTransport m.variable_ s = true → (g s).prog = some m.variable_) := by
  have mem_prog : ∀ (p : STerm U D → Bool) (t : STerm U D),
      t ∈ res.filter (fun t => isTransport m.variable_ t && p t) → t.prog = some m.variable_ := by
    intro p t ht
    have := (List.mem_filter.1 ht).2
    simp only [isTransport, Base.isProg, Bool.and_eq_true, decide_eq_true_eq] at this
    exact this.1.2
  have prog_of : ∀ t : STerm U D, isTransport m.variable_ t = true → t.prog = some m.variable_ := by
    intro t ht
    simp only [isTransport, Base.isProg, Bool.and_eq_true, decide_eq_true_eq] at ht
    exact ht.2
  unfold act at hg
  split at hg
  · cases hg
    exact ⟨fun _ => rfl, fun h => prog_of s h⟩
  · rename_i t heq
    split at hg
    · cases hg
    · rename_i n hn
      cases hg
      obtain ⟨_, _, hp, _⟩ := newTerm_spec m t n hn
      constructor
      · intro h; simp [h]
      · intro h
        simp only [h, if_true]
        rw [hp]
        exact mem_prog (fun _ => true) t (by rw [heq]; simp)
  · split at hg
    · rename_i hh vv heh hev
      split at hg
      · split at hg
        · cases hg
        · cases hg
          constructor
          · intro h; simp [Function.comp, h]
          · intro h
            simp only [Function.comp]
            have e1 := mem_prog _ vv (by rw [hev]; simp)
            have e2 := mem_prog _ hh (by rw [heh]; simp)
            by_cases c1 : (isTransport m.variable_ s && s.has "horizontal_transport") = true
            · simp only [c1, if_true]
              split
              · exact e1
              · exact e2
            · simp only [c1, if_false, Bool.false_eq_true]
              split
              · exact e1
              · exact prog_of s h
      · cases hg
    · cases hg

/-- C83: the order in which the methods of different variables are listed does not matter. -/
theorem C83_commute (m₁ m₂ : Method U D) (hne : m₁.variable_ ≠ m₂.variable_) (res r : List (STerm U D)) :
    setupEquation [m₁, m₂] res = .ok r ↔ setupEquation [m₂, m₁] res = .ok r := by
  have main : ∀ (m₁ m₂ : Method U D), m₁.variable_ ≠ m₂.variable_ → ∀ r, setupEquation [m₁, m₂] res = .ok r →
      setupEquation [m₂, m₁] res = .ok r := by
    intro m₁ m₂ hne r h
    simp only [setupEquation] at h ⊢
    split at h
    · cases h
    · rename_i r1 h1
      split at h
      · cases h
      · rename_i r2 h2
        cases h
        have ha : act m₂ r1 = act m₂ res :=
          act_congr m₂ res r1 (fun p => commute_filter m₁ res r1 h1 m₂.variable_ hne p)
        rw [replace_act] at h1 h2
        split at h1
        · cases h1
        · rename_i g1 hg1
          cases h1
          split at h2
          · cases h2
          · rename_i g2 hg2
            cases h2
            rw [ha] at hg2
            have hr2 : replaceTransport m₂ res = .ok (res.map g2) := by rw [replace_act, hg2]
            have ha1 : act m₁ (res.map g2) = act m₁ res :=
              act_congr m₁ res _ (fun p => commute_filter m₂ res _ hr2 m₁.variable_ hne.symm p)
            have hr1 : replaceTransport m₁ (res.map g2) = .ok ((res.map g2).map g1) := by
              rw [replace_act, ha1, hg1]
            rw [hr2]
            simp only
            rw [hr1]
            simp only [Except.ok.injEq]
            rw [List.map_map, List.map_map]
            apply List.map_congr_left
            intro s _
            simp only [Function.comp]
            obtain ⟨f1a, f1b⟩ := act_frame m₁ res g1 hg1 s
            obtain ⟨f2a, f2b⟩ := act_frame m₂ res g2 hg2 s
            have notboth : ∀ (v w : String) (t : STerm U D), v ≠ w → t.prog = some v →
                isTransport w t = false := by
              intro v w t hvw htp
              simp [isTransport, Base.isProg, htp, hvw]
            cases c1 : isTransport m₁.variable_ s
            · rw [f1a c1]
              cases c2 : isTransport m₂.variable_ s
              · rw [f2a c2]; exact f1a c1
              · exact (act_frame m₁ res g1 hg1 (g2 s)).1 (notboth _ _ _ hne.symm (f2b c2))
            · have hp : s.prog = some m₁.variable_ := by
                simp only [isTransport, Base.isProg, Bool.and_eq_true, decide_eq_true_eq] at c1
                exact c1.2
              rw [f2a (notboth _ _ _ hne hp)]
              exact ((act_frame m₂ res g2 hg2 (g1 s)).1 (notboth _ _ _ hne (f1b c1))).symm
  exact ⟨main m₁ m₂ hne r, main m₂ m₁ hne.symm r⟩

end

/-! A concrete case: velocity an integer, upwind operator `3u`, correction `5u + 7u`. -/

def exTr : List (STerm ℤ ℤ) :=
  [{ form := fun _ => 1, prog := some "q", labels := ["time_derivative"] },
   { form := fun ρ => 100 * ρ (.func 9), prog := some "q", labels := ["transport"], vel := some (.func 9) }]

def runValue (form : List (STerm ℤ ℤ)) : Option ℤ :=
  match replaceTransport { variable_ := "q", form := form } exTr with
  | .ok r => some (value 2 (setupVelocity r))
  | .error _ => none

example : exTr.filter (isTransport "q") = [exTr[1]] ∧ exTr[1].mw.isNone = true := ⟨rfl, rfl⟩
/-- Without correction: `1 + 3·2`. -/
example : runValue [upwindTerm (fun u => 3 * u) 0] = some 7 := by decide
/-- The advective form with correction should be `1 + 3·2 + 5·2 + 7·2 = 31`. -/
example : runValue (manifoldAdvection (fun u => 3 * u) (fun u => 5 * u) (fun u => 7 * u) 0 1) = some 7 := by decide
/-- The continuity form with correction should be `31` as well. -/
example : runValue (manifoldContinuity (fun u => 3 * u) (fun u => 5 * u) (fun u => 7 * u) 0 1) = some 25 := by decide

/-- A mass-weighted tracer, end to end: the transport method puts its weighted form into the label, the set-up moves it
into the equation, and the velocity is then set in it. -/
theorem C83_mass_weighted_pipeline {U D : Type*} [Zero U] [AddCommMonoid D] (q : String) (names : List String)
    (hq : q ∈ names) (hnd : names.Nodup) (M Mw : D) (A W : U → D) (i j : ℕ) (T : Form U D) (Tw : Form U D)
    (ti tj : Vel) (u : U) :
    let res : List (STerm U D) :=
      [{ form := fun _ => M, prog := some q, labels := ["time_derivative"],
         mw := some (.lform [{ form := fun _ => Mw, prog := some q,
                               labels := ["time_derivative", "nonlinear_time_derivative"] }]) },
       { form := T, prog := some q, labels := ["transport"], vel := some ti,
         mw := some (.lform [{ form := Tw, prog := some q, labels := ["transport"], vel := some tj }]) }]
    let m : Method U D := { variable_ := q, form := [{ upwindTerm A i with mw := some (.lform [(upwindTerm W j).toBase]) }] }
    ∃ r r' src, replaceTransport m res = .ok r ∧ setup (fun _ F => F) (some names) none [] r = .ok (r', src) ∧
      value u (setupVelocity r') = Mw + W u := by
  intro res m
  let m0 : STerm U D := { form := fun _ => M, prog := some q, labels := ["time_derivative"],
                          mw := some (.lform [{ form := fun _ => Mw, prog := some q,
                                                labels := ["time_derivative", "nonlinear_time_derivative"] }]) }
  let w : Base U D := { form := (upwindTerm W j).form, prog := some q, labels := ["transport"], vel := some (.func j) }
  let n : STerm U D := { form := formSum m.form, prog := some q, labels := ["transport"], vel := some (.func i)
                         mw := some (.term w) }
  have hr : replaceTransport m res = .ok [m0, n] := by
    simp only [replaceTransport, res, m]
    simp [isTransport, Base.has, Base.isProg, newTerm, Att.terms, headVel, upwindTerm, n, w, m, m0, formSum]
  have hown : OwnField [m0, n] := by
    intro t ht a ha b hb
    simp only [List.mem_cons, List.not_mem_nil, or_false] at ht
    rcases ht with rfl | rfl
    · simp [m0] at ha; subst ha; simp [Att.terms] at hb; subst hb; rfl
    · simp [n] at ha; subst ha; simp [Att.terms] at hb; subst hb; rfl
  have hwm : WeightedMass q [m0, n] := by
    simp [WeightedMass, m0, n, Base.isProg, Base.has, STerm.hasMW]
  have hsw : SomeWeighted q [m0, n] := ⟨n, by simp, rfl, by simp [Has, n], by simp [n]⟩
  have hmix : ¬ ∃ f ∈ names, Mixed f [m0, n] := by
    rintro ⟨f, _, _, _, t, ht, _, hnt, hmw⟩
    simp only [List.mem_cons, List.not_mem_nil, or_false] at ht
    rcases ht with rfl | rfl
    · simp [m0] at hmw
    · simp [n] at hmw
  have hs := C82_mass_weighted (fun _ F => F) names hnd [m0, n] hown ⟨n, by simp, by simp [n]⟩
  rw [if_neg hmix] at hs
  refine ⟨_, _, _, hr, hs, ?_⟩
  have e1 : ∃ f ∈ names, Of f m0 ∧ WeightedMass f [m0, n] ∧ SomeWeighted f [m0, n] :=
    ⟨q, hq, rfl, hwm, hsw⟩
  have e2 : ∃ f ∈ names, Of f n ∧ WeightedMass f [m0, n] ∧ SomeWeighted f [m0, n] :=
    ⟨q, hq, rfl, hwm, hsw⟩
  simp only [List.flatMap_cons, List.flatMap_nil, e1, e2, if_true]
  simp [weighted, m0, n, w, Att.terms, value, setupVelocity, STerm.setVel, Base.setVel, replace, upwindTerm, running]

end Gusto.Props.SetUpProps
