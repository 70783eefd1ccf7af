import Verif.Model.RefProfiles
import Mathlib.Tactic.Tauto
import Mathlib.Data.List.Induction

set_option autoImplicit false
set_option linter.unusedSectionVars false
set_option linter.unusedSimpArgs false

/-!
# C117: reference profiles
-/

namespace Gusto.Props.RefProps
open Gusto Registry RefProfiles
variable {N Sp E V K : Type*} [DecidableEq N] [DecidableEq Sp]

/-! ## Specification -/

/-- The value of the reference profile of `f` that the model holds, if it holds one. -/
def profileOf (S : Setting N Sp E V) (s : St N Sp V K) (f : N) : Option V := (s.reg.attr (S.bar f)).map s.val

/-- The last value given for `f` in a list of pairs, if there is one. -/
def lastFor (ps : List (N × Profile Sp E V)) (f : N) : Option V :=
  ps.foldl (fun a e => if e.1 = f then (match e.2 with | .func _ v => some v | .expr _ => a) else a) none

/-- Everything passed is a `Function` in the space that belongs to the name. -/
def AllFunctions (home : N → Sp) (ps : List (N × Profile Sp E V)) : Prop := ∀ e ∈ ps, ∃ v, e.2 = .func (home e.1) v

/-- The facts about firedrake and about names: appending `_bar` is injective, interpolating a `Function` into its own space gives the
same values, and the profiles of prognostic variables are in the spaces of these variables. -/
structure Sane (S : Setting N Sp E V) (home : N → Sp) : Prop where
  bar : Function.Injective S.bar
  interp : ∀ sp v, S.interp sp (.func sp v) = v
  xspace : ∀ f ∈ S.names, S.xspace f = home f

/-- The states that occur: different names are different objects, the profiles there are in their spaces, to be picked up and
registered as reference profiles, and nothing else has such a name. -/
structure Good (S : Setting N Sp E V) (home : N → Sp) (s : St N Sp V K) : Prop where
  distinct : ∀ n n' o, s.reg.attr n = some o → s.reg.attr n' = some o → n = n'
  fresh : ∀ n o, s.reg.attr n = some o → o < s.reg.fresh
  home : ∀ f o, s.reg.attr (S.bar f) = some o → s.space o = home f
  picked : ∀ f, s.reg.attr (S.bar f) ≠ none → S.bar f ∈ s.reg.toPickUp
  typed : ∀ f, s.reg.attr (S.bar f) ≠ none → (S.bar f, FieldType.reference) ∈ s.reg.names.zip s.reg.types
  len : s.reg.names.length = s.reg.types.length

/-! ## One profile -/

/-- What one pass of the loop does. -/
structure Step (S : Setting N Sp E V) (home : N → Sp) (f : N) (v : V) (s s' : St N Sp V K) : Prop where
  good : Good S home s'
  value : profileOf S s' f = some v
  others : ∀ n, n ≠ S.bar f → (s'.reg.attr n = s.reg.attr n ∧ ∀ o, s.reg.attr n = some o → s'.val o = s.val o ∧ s'.space o = s.space o)
  xref : s'.xref = if f ∈ S.names then Function.update s.xref f v else s.xref
  dump : s'.reg.toDump = s.reg.toDump
  same : s.reg.attr (S.bar f) ≠ none → s'.reg = s.reg
  pick : s.reg.attr (S.bar f) = none → s'.reg.toPickUp = s.reg.toPickUp ++ [S.bar f] ∧
    s'.reg.names = s.reg.names ++ [S.bar f] ∧ s'.reg.types = s.reg.types ++ [.reference]
  flags : s'.initialised = s.initialised ∧ s'.last = s.last

theorem inFields_false (r : Reg N) (n : N) : inFields r n = false := by simp [inFields, functionEqString]

theorem setOne_ok (S : Setting N Sp E V) (home : N → Sp) (hS : Sane S home) (s : St N Sp V K) (hg : Good S home s) (f : N) (v : V) :
    ∃ s', setOne S s f (.func (home f) v) = (s', none) ∧ Step S home f v s s' := by
  cases ha : s.reg.attr (S.bar f) with
  | some o =>
    have hsp : s.space o = home f := hg.home f o ha
    have hne : ∀ n, n ≠ S.bar f → ∀ o', s.reg.attr n = some o' → o' ≠ o := fun n hn o' h e => hn (hg.distinct _ _ o (e ▸ h) ha)
    refine ⟨{ s with val := Function.update s.val o v, xref := if f ∈ S.names then Function.update s.xref f v else s.xref }, ?_, ?_⟩
    · simp only [setOne, inFields_false, ha, store, hsp, hS.interp, Bool.false_eq_true, if_false]
      by_cases hf : f ∈ S.names
      · simp [hf, hS.xspace f hf]
      · simp [hf]
    · refine ⟨⟨hg.distinct, hg.fresh, hg.home, hg.picked, hg.typed, hg.len⟩, ?_, ?_, rfl, rfl, fun _ => rfl, ?_, rfl, rfl⟩
      · simp [profileOf, ha]
      · intro n hn
        refine ⟨rfl, fun o' h => ⟨?_, rfl⟩⟩
        simp [Function.update_of_ne (hne n hn o' h)]
      · simp [ha]
  | none =>
    have hc : call s.reg (barCall (S.bar f)) = ({ s.reg with
        attr := Function.update s.reg.attr (S.bar f) (some s.reg.fresh), fields := s.reg.fields ++ [s.reg.fresh],
        fresh := s.reg.fresh + 1, toPickUp := s.reg.toPickUp ++ [S.bar f], types := s.reg.types ++ [.reference],
        names := s.reg.names ++ [S.bar f] }, .ret s.reg.fresh) := by
      simp [call, barCall, ha, finish, typeOf]
    have hlt : ∀ n o, s.reg.attr n = some o → o ≠ s.reg.fresh := fun n o h => Nat.ne_of_lt (hg.fresh n o h)
    refine ⟨{ s with
        reg := (call s.reg (barCall (S.bar f))).1
        space := Function.update s.space s.reg.fresh (home f)
        val := Function.update s.val s.reg.fresh v
        xref := if f ∈ S.names then Function.update s.xref f v else s.xref }, ?_, ?_⟩
    · simp only [setOne, inFields_false, ha, hc, store, Function.update_self, hS.interp, Bool.false_eq_true, if_false]
      by_cases hf : f ∈ S.names
      · simp [hf, hS.xspace f hf]
      · simp [hf]
    · rw [hc]
      refine ⟨⟨?_, ?_, ?_, ?_, ?_, ?_⟩, ?_, ?_, rfl, rfl, ?_, ?_, rfl, rfl⟩
      · intro n n' o h h'
        simp only [Function.update_apply] at h h'
        split at h <;> split at h'
        · simp_all
        · cases h; exact absurd rfl (hlt _ _ h')
        · cases h'; exact absurd rfl (hlt _ _ h)
        · exact hg.distinct _ _ _ h h'
      · intro n o h
        simp only [Function.update_apply] at h ⊢
        split at h
        · cases h; exact Nat.lt_succ_self _
        · exact Nat.lt_trans (hg.fresh n o h) (Nat.lt_succ_self _)
      · intro g o h
        simp only [Function.update_apply] at h ⊢
        split at h
        · next e => cases h; rw [hS.bar e]; simp
        · rw [if_neg (hlt _ _ h)]; exact hg.home g o h
      · intro g h
        simp only [Function.update_apply] at h ⊢
        split at h
        · next e => rw [e]; simp
        · exact List.mem_append_left _ (hg.picked g h)
      · intro g h
        simp only [Function.update_apply] at h ⊢
        rw [List.zip_append hg.len]
        split at h
        · next e => rw [e]; simp
        · exact List.mem_append_left _ (hg.typed g h)
      · simp [hg.len]
      · simp [profileOf]
      · intro n hn
        refine ⟨by simp [Function.update_of_ne hn], fun o h => ⟨?_, ?_⟩⟩
        · simp [Function.update_of_ne (hlt n o h)]
        · simp [Function.update_of_ne (hlt n o h)]
      · intro h; exact absurd ha h
      · intro _; simp

theorem lastFor_cons (f g : N) (sp : Sp) (v : V) (ps : List (N × Profile Sp E V)) :
    lastFor ((f, .func sp v) :: ps) g = (lastFor ps g).or (if f = g then some v else none) := by
  have gen : ∀ (ps : List (N × Profile Sp E V)) (a : Option V),
      ps.foldl (fun a e => if e.1 = g then (match e.2 with | .func _ v => some v | .expr _ => a) else a) a =
      (lastFor ps g).or a := by
    intro ps
    induction ps with
    | nil => intro a; simp [lastFor]
    | cons e ps ih =>
      intro a
      simp only [lastFor, List.foldl_cons]
      rw [ih, ih (if e.1 = g then _ else none)]
      rcases e with ⟨n, p | p⟩ <;> by_cases h : n = g <;> cases lastFor ps g <;> simp [h]
  simp only [lastFor, List.foldl_cons]
  rw [gen]
  by_cases h : f = g <;> simp [h] <;> rfl

/-! ## The whole call -/

/-- C117: `set_reference_profiles` with any list of Functions (each in the space that belongs to its name), in any state that can
occur and however often it has been called: it succeeds; afterwards the model holds, for every name, the last value given for it (or
what it held before if none is given); `X_ref` has the same values for the prognostic variables and is otherwise untouched; no other
field is changed; every profile is a field of type "reference" that is picked up and is not added to the output. -/
theorem C117_set (S : Setting N Sp E V) (home : N → Sp) (hS : Sane S home) (s : St N Sp V K) (hg : Good S home s)
    (ps : List (N × Profile Sp E V)) (hp : AllFunctions home ps) (last : Option K) :
    ∃ s', setReferenceProfiles S s ps last = (s', none) ∧ Good S home s' ∧ s'.initialised = true ∧ s'.last = last ∧
      (∀ f, profileOf S s' f = (lastFor ps f).or (profileOf S s f)) ∧
      (∀ f, s'.xref f = if f ∈ S.names then (lastFor ps f).getD (s.xref f) else s.xref f) ∧
      (∀ n o, (∀ f, n ≠ S.bar f) → s.reg.attr n = some o → s'.reg.attr n = some o ∧ s'.val o = s.val o) ∧
      (∀ f, lastFor ps f ≠ none → S.bar f ∈ s'.reg.toPickUp ∧ (S.bar f, FieldType.reference) ∈ s'.reg.names.zip s'.reg.types) ∧
      s'.reg.toDump = s.reg.toDump := by
  have key : ∀ (ps : List (N × Profile Sp E V)) (s : St N Sp V K), Good S home s → AllFunctions home ps →
      ∃ s', setAll S s ps = (s', none) ∧ Good S home s' ∧
      (∀ f, profileOf S s' f = (lastFor ps f).or (profileOf S s f)) ∧
      (∀ f, s'.xref f = if f ∈ S.names then (lastFor ps f).getD (s.xref f) else s.xref f) ∧
      (∀ n o, (∀ f, n ≠ S.bar f) → s.reg.attr n = some o → s'.reg.attr n = some o ∧ s'.val o = s.val o) ∧
      s'.reg.toDump = s.reg.toDump := by
    intro ps
    induction ps with
    | nil => intro s hg _; exact ⟨s, rfl, hg, fun f => by simp [lastFor], fun f => by simp [lastFor], fun n o _ h => ⟨h, rfl⟩, rfl⟩
    | cons e ps ih =>
      intro s hg hp
      obtain ⟨f, p⟩ := e
      obtain ⟨v, rfl⟩ : ∃ v, p = .func (home f) v := hp (f, p) (List.mem_cons_self ..)
      obtain ⟨s1, h1, st⟩ := setOne_ok S home hS s hg f v
      obtain ⟨s2, h2, g2, pv, px, pn, pd⟩ := ih s1 st.good fun e he => hp e (List.mem_cons_of_mem _ he)
      refine ⟨s2, by simp only [setAll, h1, h2], g2, fun g => ?_, fun g => ?_, fun n o hn h => ?_, by rw [pd, st.dump]⟩
      · rw [pv, lastFor_cons]
        have : profileOf S s1 g = (if f = g then some v else none).or (profileOf S s g) := by
          by_cases e : f = g
          · subst e; simp [st.value]
          · have hne : S.bar g ≠ S.bar f := fun h => e (hS.bar h).symm
            obtain ⟨ea, eo⟩ := st.others (S.bar g) hne
            rw [if_neg e, Option.none_or]
            unfold profileOf
            rw [ea]
            cases ho : s.reg.attr (S.bar g) with
            | none => rfl
            | some o => simp [(eo o ho).1]
        rw [this, Option.or_assoc]
      · rw [px, st.xref, lastFor_cons]
        by_cases hg' : g ∈ S.names
        · simp only [hg', if_true]
          by_cases e : f = g
          · subst e; simp only [hg', if_true]; cases lastFor ps f <;> simp
          · have : (if f ∈ S.names then Function.update s.xref f v else s.xref) g = s.xref g := by
              split
              · exact Function.update_of_ne (fun h => e h.symm) _ _
              · rfl
            rw [this]; simp [e]
        · simp only [hg', if_false]
          split
          · next hf => exact Function.update_of_ne (fun h => hg' (by rw [h]; exact hf)) _ _
          · rfl
      · obtain ⟨ea, eo⟩ := st.others n (hn f)
        obtain ⟨h3, h4⟩ := pn n o hn (by rw [ea]; exact h)
        exact ⟨h3, by rw [h4, (eo o h).1]⟩
  obtain ⟨s', h1, h2, h3, h4, h5, h6⟩ := key ps s hg hp
  refine ⟨{ s' with initialised := true, last := last }, by simp only [setReferenceProfiles, h1],
    ⟨h2.distinct, h2.fresh, h2.home, h2.picked, h2.typed, h2.len⟩, rfl, rfl, h3, h4, h5, fun f hf => ?_, h6⟩
  have hne : s'.reg.attr (S.bar f) ≠ none := by
    intro h0
    have := h3 f
    unfold profileOf at this
    rw [h0] at this
    cases hl : lastFor ps f with
    | none => exact hf hl
    | some v => rw [hl] at this; simp at this
  exact ⟨h2.picked f hne, h2.typed f hne⟩

/-- C117, refutation: the comment in the code says that a profile which is in the state already can be set from an expression.  In
every state, whether or not there is such a profile, an expression raises the error that it must be a Function. -/
theorem C117_expression_refuted (S : Setting N Sp E V) (s : St N Sp V K) (f : N) (e : E) (ps : List (N × Profile Sp E V))
    (last : Option K) :
    setReferenceProfiles S s ((f, .expr e) :: ps) last = (s, some .mustBeFunction) := by
  simp [setReferenceProfiles, setAll, setOne, inFields_false]

/-- C117, refutation: the call is not atomic.  If a later pair of the list raises, the profiles before it are set all the same,
`X_ref` included, while the model says that reference profiles are not initialised. -/
theorem C117_atomic_refuted (S : Setting N Sp E V) (home : N → Sp) (hS : Sane S home) (s : St N Sp V K) (hg : Good S home s)
    (hi : s.initialised = false) (f : N) (hf : f ∈ S.names) (v : V) (g : N) (e : E) (last : Option K) :
    ∃ s', setReferenceProfiles S s [(f, .func (home f) v), (g, .expr e)] last = (s', some .mustBeFunction) ∧
      s'.initialised = false ∧ profileOf S s' f = some v ∧ s'.xref f = v := by
  obtain ⟨s1, h1, st⟩ := setOne_ok S home hS s hg f v
  refine ⟨s1, ?_, by rw [st.flags.1, hi], st.value, by rw [st.xref]; simp [hf]⟩
  have h2 : setOne S s1 g (.expr e) = (s1, some .mustBeFunction) := by simp [setOne, inFields_false]
  simp only [setReferenceProfiles, setAll, h1, h2]

/-! ## Checkpoint and pick-up -/

theorem load_save (s : St N Sp V K) (n : N) (h : n ∈ s.reg.toPickUp) (o : ℕ) (ho : s.reg.attr n = some o) :
    load (save s) n = some (s.space o, s.val o) := by
  unfold load save
  generalize s.reg.toPickUp = l at h ⊢
  induction l with
  | nil => simp at h
  | cons a l ih =>
    by_cases e : a = n
    · subst e; simp [ho]
    · have hn : n ∈ l := by simpa [Ne.symm e] using h
      cases ha : s.reg.attr a with
      | none => simpa [ha] using ih hn
      | some o' => simpa [ha, e] using ih hn

theorem load_save_none (s : St N Sp V K) (n : N) (ho : s.reg.attr n = none) : load (save s) n = none := by
  unfold load save
  generalize s.reg.toPickUp = l
  induction l with
  | nil => rfl
  | cons a l ih =>
    cases ha : s.reg.attr a with
    | none => simpa [ha] using ih
    | some o' =>
      have : a ≠ n := by rintro rfl; rw [ho] at ha; cases ha
      simpa [ha, this] using ih

theorem load_save_good (S : Setting N Sp E V) (home : N → Sp) (s : St N Sp V K) (hg : Good S home s) (f : N) :
    load (save s) (S.bar f) = (profileOf S s f).map fun v => (home f, v) := by
  cases ho : s.reg.attr (S.bar f) with
  | none => rw [load_save_none s _ ho]; simp [profileOf, ho]
  | some o => rw [load_save s _ (hg.picked f (by rw [ho]; simp)) o ho, hg.home f o ho]; simp [profileOf, ho]

theorem pickUpFields_frame (c : List (N × Sp × V)) (ns : List N) (s s' : St N Sp V K) (h : pickUpFields c s ns = some s') :
    s'.reg = s.reg ∧ s'.space = s.space ∧ s'.xref = s.xref ∧
    ∀ o, (∀ n ∈ ns, s.reg.attr n ≠ some o) → s'.val o = s.val o := by
  induction ns generalizing s with
  | nil => simp only [pickUpFields, Option.some.injEq] at h; subst h; exact ⟨rfl, rfl, rfl, fun _ _ => rfl⟩
  | cons n ns ih =>
    unfold pickUpFields at h
    split at h
    · next sp v o h1 h2 =>
      obtain ⟨a, b, c, d⟩ := ih _ h
      refine ⟨a, b, c, fun o' ho' => ?_⟩
      rw [d o' fun m hm => ho' m (List.mem_cons_of_mem _ hm)]
      have : o' ≠ o := by rintro rfl; exact ho' n (List.mem_cons_self ..) h2
      simp [Function.update_of_ne this]
    · cases h

open Classical in
theorem lastFor_findProfiles (S : Setting N Sp E V) (c : List (N × Sp × V)) (r : Reg N) (f : N) :
    lastFor (findProfiles S c r) f =
      if ∃ ty, (f, ty) ∈ r.names.zip r.types ∧ ty ≠ .reference then (load c (S.bar f)).map (·.2) else none := by
  unfold findProfiles
  generalize r.names.zip r.types = l
  induction l with
  | nil => simp [lastFor]
  | cons e l ih =>
    obtain ⟨n, ty⟩ := e
    by_cases ht : ty = .reference
    · simp only [List.filterMap_cons, ht, if_true]
      rw [ih]
      congr 1
      simp only [List.mem_cons, Prod.mk.injEq, eq_iff_iff]
      constructor
      · rintro ⟨t, h, h'⟩; exact ⟨t, .inr h, h'⟩
      · rintro ⟨t, h | h, h'⟩
        · exact absurd h.2 h'
        · exact ⟨t, h, h'⟩
    · cases hl : load c (S.bar n) with
      | none =>
        simp only [List.filterMap_cons, ht, if_false, hl, Option.map_none]
        rw [ih]
        by_cases e : n = f
        · subst e; simp [hl]
        · congr 1
          simp only [List.mem_cons, Prod.mk.injEq, eq_iff_iff]
          constructor
          · rintro ⟨t, h, h'⟩; exact ⟨t, .inr h, h'⟩
          · rintro ⟨t, h | h, h'⟩
            · exact absurd h.1.symm e
            · exact ⟨t, h, h'⟩
      | some d =>
        simp only [List.filterMap_cons, ht, if_false, hl, Option.map_some]
        rw [lastFor_cons, ih]
        by_cases e : n = f
        · subst e
          have : ∃ t, (n, t) ∈ (n, ty) :: l ∧ t ≠ .reference := ⟨ty, List.mem_cons_self .., ht⟩
          simp only [this, if_true, hl, Option.map_some]
          split <;> simp
        · have : (∃ t, (f, t) ∈ (n, ty) :: l ∧ t ≠ .reference) = ∃ t, (f, t) ∈ l ∧ t ≠ .reference := by
            simp only [List.mem_cons, Prod.mk.injEq, eq_iff_iff]
            constructor
            · rintro ⟨t, h | h, h'⟩
              · exact absurd h.1.symm e
              · exact ⟨t, h, h'⟩
            · rintro ⟨t, h, h'⟩; exact ⟨t, .inr h, h'⟩
          simp only [this, e, if_false, Option.or_none]

/-- C117: a checkpoint brings the profiles back.  A model in state `s` writes a checkpoint; a newly built model in state `s0`, all of
whose compulsory fields are in the file, picks it up.  For every field of the new model the profile is the one that was held, whether
the new model has set profiles itself or not, and for prognostic variables `X_ref` is that value. -/
theorem C117_round_trip (S : Setting N Sp E V) (home : N → Sp) (hS : Sane S home) (s s0 : St N Sp V K) (hg : Good S home s)
    (hg0 : Good S home s0) (hall : (pickUpFields (save s) s0 s0.reg.toPickUp).isSome) (last : Option K) :
    ∃ s1, pickUp S s0 (save s) last = some (s1, none) ∧ s1.initialised = true ∧ s1.last = last ∧
      ∀ f ty, (f, ty) ∈ s0.reg.names.zip s0.reg.types → ty ≠ .reference → ∀ v, profileOf S s f = some v →
        profileOf S s1 f = some v ∧ (f ∈ S.names → s1.xref f = v) := by
  obtain ⟨s', hs'⟩ := Option.isSome_iff_exists.1 hall
  obtain ⟨hr, hsp, hx, -⟩ := pickUpFields_frame _ _ _ _ hs'
  have hg' : Good S home s' := by
    refine ⟨?_, ?_, ?_, ?_, ?_, ?_⟩ <;> rw [hr]
    · exact hg0.distinct
    · exact hg0.fresh
    · rw [hsp]; exact hg0.home
    · exact hg0.picked
    · exact hg0.typed
    · exact hg0.len
  have hp : AllFunctions home (findProfiles S (save s) s'.reg) := by
    intro e he
    unfold findProfiles at he
    rw [List.mem_filterMap] at he
    obtain ⟨⟨n, ty⟩, -, h⟩ := he
    split at h
    · cases h
    · rw [load_save_good S home s hg] at h
      cases hv : profileOf S s n with
      | none => rw [hv] at h; cases h
      | some v => rw [hv] at h; cases h; exact ⟨v, rfl⟩
  obtain ⟨s1, h1, -, h3, h4, h5, h6, -⟩ := C117_set S home hS s' hg' _ hp last
  refine ⟨s1, by rw [pickUp, hs']; simp [h1], h3, h4, fun f ty hf ht v hv => ?_⟩
  have hl : lastFor (findProfiles S (save s) s'.reg) f = some v := by
    rw [lastFor_findProfiles, hr, if_pos ⟨ty, hf, ht⟩, load_save_good S home s hg, hv]; rfl
  exact ⟨by rw [h5, hl]; rfl, fun hn => by rw [h6, if_pos hn, hl]; rfl⟩

/-- C117, refutation: a profile that was set for a name which is not a field of the model (the code warns and says that it is the
profile of a diagnostic) is in the checkpoint but is not picked up by a model built in the same way: the new model has none. -/
theorem C117_diagnostic_lost_refuted (S : Setting N Sp E V) (home : N → Sp) (hS : Sane S home) (s0 : St N Sp V K)
    (hg0 : Good S home s0) (f : N) (hn : ∀ ty, (f, ty) ∉ s0.reg.names.zip s0.reg.types) (hb : s0.reg.attr (S.bar f) = none)
    (v : V) (last : Option K) :
    ∃ s, setReferenceProfiles S s0 [(f, .func (home f) v)] last = (s, none) ∧ load (save s) (S.bar f) = some (home f, v) ∧
      ∀ s1, pickUp S s0 (save s) last = some (s1, none) → profileOf S s1 f = none := by
  have hp : AllFunctions home [(f, (.func (home f) v : Profile Sp E V))] := by
    intro e he; rw [List.mem_singleton] at he; subst he; exact ⟨v, rfl⟩
  obtain ⟨s, h1, h2, -, -, h5, -⟩ := C117_set S home hS s0 hg0 _ hp last
  have hv : profileOf S s f = some v := by rw [h5]; simp [lastFor]
  refine ⟨s, h1, by rw [load_save_good S home s h2, hv]; rfl, fun s1 hs1 => ?_⟩
  unfold pickUp at hs1
  rw [Option.map_eq_some_iff] at hs1
  obtain ⟨s', hs', e⟩ := hs1
  obtain ⟨hr, hsp, hx, -⟩ := pickUpFields_frame _ _ _ _ hs'
  have hg' : Good S home s' := by
    refine ⟨?_, ?_, ?_, ?_, ?_, ?_⟩ <;> rw [hr]
    · exact hg0.distinct
    · exact hg0.fresh
    · rw [hsp]; exact hg0.home
    · exact hg0.picked
    · exact hg0.typed
    · exact hg0.len
  have hp' : AllFunctions home (findProfiles S (save s) s'.reg) := by
    intro e he
    unfold findProfiles at he
    rw [List.mem_filterMap] at he
    obtain ⟨⟨n, ty⟩, -, h⟩ := he
    split at h
    · cases h
    · rw [load_save_good S home s h2] at h
      cases hv : profileOf S s n with
      | none => rw [hv] at h; cases h
      | some v => rw [hv] at h; cases h; exact ⟨v, rfl⟩
  obtain ⟨s2, g1, -, -, -, g5, -⟩ := C117_set S home hS s' hg' _ hp' last
  rw [g1] at e
  cases e
  rw [g5, lastFor_findProfiles, hr, if_neg (by rintro ⟨ty, h, -⟩; exact hn ty h), profileOf, hr, hb]
  rfl

/-- C117, refutation: an update of the profiles while the model runs changes `X_ref` only.  The checkpoint keeps the profile the
model started with, and picking it up puts that one back into `X_ref`. -/
theorem C117_updated_refuted (S : Setting N Sp E V) (home : N → Sp) (hS : Sane S home) (s s0 : St N Sp V K) (hg : Good S home s)
    (hg0 : Good S home s0) (hall : (pickUpFields (save s) s0 s0.reg.toPickUp).isSome) (last : Option K) (xn : N → V) (t : K)
    (f : N) (ty : FieldType) (hf : (f, ty) ∈ s0.reg.names.zip s0.reg.types) (ht : ty ≠ .reference) (hn : f ∈ S.names) (v : V)
    (hv : profileOf S s f = some v) (hne : xn f ≠ v) :
    ∃ s1, pickUp S s0 (save (updateProfiles s xn t)) last = some (s1, none) ∧ s1.xref f ≠ (updateProfiles s xn t).xref f := by
  have e : save (updateProfiles s xn t) = save s := rfl
  obtain ⟨s1, h1, -, -, h4⟩ := C117_round_trip S home hS s s0 hg hg0 hall last
  exact ⟨s1, by rw [e, h1], by rw [(h4 f ty hf ht v hv).2 hn]; exact Ne.symm hne⟩

/-! ## Example -/

/-- Fields `theta` and `rho` are prognostic; names are strings. -/
def exSetting : Setting String Unit Unit Int where
  names := ["rho", "theta"]
  xspace _ := ()
  bar n := n ++ "_bar"
  interp _ p := match p with | .func _ v => v | .expr _ => 0

theorem exSane : Sane exSetting (fun _ => ()) where
  bar a b h := by
    have : a ++ "_bar" = b ++ "_bar" := h
    exact (String.append_left_inj _).1 this
  interp _ _ := rfl
  xspace _ _ := rfl

/-- A new model with its two prognostic fields. -/
def exModel : St String Unit Int Int where
  reg := { attr := fun n => if n = "rho" then some 0 else if n = "theta" then some 1 else none, fields := [0, 1],
           toDump := ["rho", "theta"], toPickUp := ["rho", "theta"], names := ["rho", "theta"],
           types := [.prognostic, .prognostic], fresh := 2 }
  space _ := ()
  val o := if o = 0 then 1 else 300
  xref _ := 0
  initialised := false
  last := none

theorem bar_ne (f g : String) (h : ¬ ("_bar".toList <:+ g.toList)) : f ++ "_bar" ≠ g := by
  rintro rfl
  exact h ⟨f.toList, by simp⟩

theorem exGood : Good exSetting (fun _ => ()) exModel := by
  have hb : ∀ f, exModel.reg.attr (exSetting.bar f) = none := by
    intro f
    have h1 := bar_ne f "rho" (by decide +kernel)
    have h2 := bar_ne f "theta" (by decide +kernel)
    simp [exModel, exSetting, h1, h2]
  refine ⟨?_, ?_, fun f o h => rfl, fun f h => absurd (hb f) h, fun f h => absurd (hb f) h, rfl⟩
  · intro n n' o h h'
    simp only [exModel] at h h'
    split at h <;> split at h' <;> simp_all
    all_goals omega
  · intro n o h
    simp only [exModel] at h ⊢
    split at h
    · cases h; decide
    · split at h
      · cases h; decide
      · cases h

/-- non-vacuity: profiles set twice, the last value counts; it is in `X_ref`, in the checkpoint, and back after a pick-up. -/
example : ∃ s1 s2, setReferenceProfiles exSetting exModel [("theta", .func () 290), ("theta", .func () 295)] (some 0) = (s1, none) ∧
    s1.xref "theta" = 295 ∧ s1.xref "rho" = 0 ∧ pickUp exSetting exModel (save s1) (some 5) = some (s2, none) ∧
    s2.xref "theta" = 295 := by
  obtain ⟨s1, h1, hg, -, -, h5, h6, h7, -⟩ := C117_set exSetting (fun _ => ()) exSane exModel exGood
    [("theta", .func () 290), ("theta", .func () 295)] (by
      intro e he
      simp only [List.mem_cons, List.not_mem_nil, or_false] at he
      rcases he with rfl | rfl <;> exact ⟨_, rfl⟩) (some 0)
  have hv : profileOf exSetting s1 "theta" = some 295 := by rw [h5]; simp [lastFor]
  have hall : (pickUpFields (save s1) exModel exModel.reg.toPickUp).isSome := by
    have : (pickUpFields (save (setReferenceProfiles exSetting exModel [("theta", .func () 290), ("theta", .func () 295)] (some 0)).1)
      exModel exModel.reg.toPickUp).isSome = true := by decide +kernel
    rw [h1] at this
    exact this
  obtain ⟨s2, g1, -, -, g4⟩ := C117_round_trip exSetting (fun _ => ()) exSane s1 exModel hg exGood hall (some 5)
  refine ⟨s1, s2, h1, by rw [h6]; simp [exSetting, lastFor], by rw [h6]; simp [exSetting, lastFor, exModel], g1, ?_⟩
  exact (g4 "theta" .prognostic (by simp [exModel]) (by decide) 295 hv).2 (by simp [exSetting])

end Gusto.Props.RefProps
