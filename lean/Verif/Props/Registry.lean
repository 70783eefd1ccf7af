import Verif.Model.Registry
import Mathlib.Tactic.Tauto
import Mathlib.Data.List.Induction
import Mathlib.Order.Basic

set_option autoImplicit false
set_option linter.unusedSectionVars false
set_option linter.unusedSimpArgs false

/-!
# C18: the registry of fields
-/

namespace Gusto.Props
open Gusto

namespace RegistryProps
open Registry
variable {N : Type*} [DecidableEq N]

theorem call_known (r : Reg N) (c : Call N) (o : ℕ) (h : r.attr c.name = some o) :
    call r c = (r, .ret o) := by simp [call, h]

/-- Everything a call can do to the registry. -/
theorem call_cases (r : Reg N) (c : Call N) :
    (call r c).1 = r ∨
    (r.attr c.name = none ∧ ∃ o, (call r c).1.attr = Function.update r.attr c.name (some o) ∧
      (((call r c).2 = .raised ∧ (call r c).1.names = r.names ∧ (call r c).1.types = r.types) ∨
       ((call r c).2 = .ret o ∧ (call r c).1.names = r.names ++ [c.name] ∧
        (∃ ty, typeOf c = some ty ∧ (call r c).1.types = r.types ++ [ty]) ∧
        (call r c).1.toPickUp = (if c.pickUp then r.toPickUp ++ [c.name] else r.toPickUp)))) := by
  cases ha : r.attr c.name with
  | some o => left; simp [call, ha]
  | none =>
    rcases hf : c.field with _ | ⟨o, b⟩ <;> rcases hs : c.space with _ | m
    · left; simp [call, ha, hf, hs]
    · cases m with
      | true => right; refine ⟨rfl, r.fresh, ?_⟩; simp [call, ha, hf, hs]
      | false =>
        right; refine ⟨rfl, r.fresh, ?_⟩
        cases ht : typeOf c <;> simp [call, ha, hf, hs, finish, ht]
    · cases b with
      | false => left; simp [call, ha, hf, hs]
      | true =>
        right; refine ⟨rfl, o, ?_⟩
        cases ht : typeOf c <;> simp [call, ha, hf, hs, finish, ht]
    · left; simp [call, ha, hf, hs]

/-- C18: once a name is known, it is the same object for ever, whatever is called. -/
theorem C18_same_object_for_ever (r : Reg N) (cs : List (Call N)) (name : N) (o : ℕ)
    (h : r.attr name = some o) (c : Call N) (hc : c.name = name) :
    (call (calls r cs) c).2 = .ret o := by
  have : (calls r cs).attr name = some o := by
    induction cs generalizing r with
    | nil => exact h
    | cons a cs ih =>
      rw [calls, List.foldl_cons]
      refine ih _ ?_
      rcases call_cases r a with h' | ⟨hn, o', h', -⟩
      · rw [h']; exact h
      · rw [h', Function.update_of_ne]
        · exact h
        · rintro rfl; rw [hn] at h; cases h
  subst hc
  rw [call_known _ _ _ this]

/-- C18: in particular, what a call returned is returned by every later call with that name. -/
theorem C18_same_object (r : Reg N) (c : Call N) (o : ℕ) (h : (call r c).2 = .ret o)
    (cs : List (Call N)) (c' : Call N) (hc : c'.name = c.name) :
    (call (calls (call r c).1 cs) c').2 = .ret o := by
  refine C18_same_object_for_ever _ cs c.name o ?_ c' hc
  rcases call_cases r c with h' | ⟨hn, o', h', hr | ⟨hr, -⟩⟩
  · cases ha : r.attr c.name with
    | some o' => rw [call_known _ _ _ ha] at h ⊢; cases h; exact ha
    | none =>
      exfalso
      have : (call r c).1.attr c.name = none := by rw [h', ha]
      rcases hf : c.field with _ | ⟨q, b⟩ <;> rcases hs : c.space with _ | m
      · simp [call, ha, hf, hs] at h
      · cases m with
        | true => simp [call, ha, hf, hs] at h
        | false => cases ht : typeOf c <;> simp [call, ha, hf, hs, finish, ht] at this
      · cases b with
        | false => simp [call, ha, hf, hs] at h
        | true => cases ht : typeOf c <;> simp [call, ha, hf, hs, finish, ht] at this
      · simp [call, ha, hf, hs] at h
  · rw [hr.1] at h; cases h
  · rw [hr] at h; cases h; rw [h', Function.update_self]

/-- The invariant of the registry. -/
structure Inv (r : Reg N) : Prop where
  len : r.names.length = r.types.length
  nodup : r.names.Nodup
  known : ∀ n ∈ r.names, r.attr n ≠ none

theorem Inv.call {r : Reg N} (h : Inv r) (c : Call N) : Inv (call r c).1 := by
  rcases call_cases r c with h' | ⟨hn, o, ha, ⟨-, h1, h2⟩ | ⟨-, h1, ⟨ty, -, h2⟩, -⟩⟩
  · rw [h']; exact h
  · refine ⟨by rw [h1, h2, h.len], by rw [h1]; exact h.nodup, fun n hm => ?_⟩
    rw [h1] at hm
    rw [ha, Function.update_of_ne]
    · exact h.known n hm
    · rintro rfl; exact h.known _ hm hn
  · have hnot : c.name ∉ r.names := fun hm => h.known _ hm hn
    refine ⟨by rw [h1, h2]; simp [h.len], ?_, fun n hm => ?_⟩
    · rw [h1, List.nodup_append]
      exact ⟨h.nodup, by simp, fun a ha b hb => by
        rw [List.mem_singleton] at hb; rintro rfl; exact hnot (hb ▸ ha)⟩
    · rw [h1, List.mem_append, List.mem_singleton] at hm
      rw [ha]
      by_cases hc : n = c.name
      · subst hc; simp
      · rw [Function.update_of_ne hc]; exact h.known n (hm.resolve_right hc)

theorem Inv.calls {r : Reg N} (h : Inv r) (cs : List (Call N)) : Inv (calls r cs) := by
  induction cs generalizing r with
  | nil => exact h
  | cons c cs ih => exact ih (h.call c)

theorem Inv.start (reserved : N → Option ℕ) (fresh : ℕ) : Inv (start reserved fresh) :=
  ⟨rfl, List.nodup_nil, by simp [Registry.start]⟩

theorem fieldType_persists {r : Reg N} (hi : Inv r) (name : N) (ty : FieldType)
    (h : fieldType r name = some ty) (cs : List (Call N)) :
    fieldType (calls r cs) name = some ty := by
  induction cs generalizing r with
  | nil => exact h
  | cons c cs ih =>
    refine ih (hi.call c) ?_
    show fieldType (call r c).1 name = some ty
    have hk : name ∈ r.names ∧ r.types[r.names.idxOf name]? = some ty := by
      unfold fieldType at h
      cases ha : r.attr name with
      | none => rw [ha] at h; simp at h
      | some o =>
        rw [ha] at h; dsimp only at h
        split_ifs at h with hm
        exact ⟨hm, h⟩
    rcases call_cases r c with h' | ⟨hn, o, ha, ⟨-, h1, h2⟩ | ⟨-, h1, ⟨ty', -, h2⟩, -⟩⟩
    · rw [h']; exact h
    · unfold fieldType
      have hne : name ≠ c.name := by rintro rfl; exact hi.known _ hk.1 hn
      rw [ha, Function.update_of_ne hne, h1, h2]
      exact h
    · unfold fieldType
      have hne : name ≠ c.name := by rintro rfl; exact hi.known _ hk.1 hn
      rw [ha, Function.update_of_ne hne, h1, h2]
      obtain ⟨o', ho'⟩ := Option.ne_none_iff_exists'.1 (hi.known _ hk.1)
      rw [ho']; dsimp only
      rw [if_pos (by simp [hk.1]), List.idxOf_append_of_mem hk.1, List.getElem?_append_left]
      · exact hk.2
      · rw [← hi.len]; exact List.idxOf_lt_length_iff.2 hk.1

/-- C18: `field_type(name)` reports for ever the type given when the field was created (or the
documented default), after any history of calls. -/
theorem C18_field_type (reserved : N → Option ℕ) (fresh : ℕ) (before after : List (Call N))
    (c : Call N) (hnew : (calls (start reserved fresh) before).attr c.name = none) (o : ℕ)
    (h : (call (calls (start reserved fresh) before) c).2 = .ret o) :
    fieldType (calls (call (calls (start reserved fresh) before) c).1 after) c.name = typeOf c
      ∧ typeOf c ≠ none := by
  have hi := (Inv.start reserved fresh).calls before
  generalize calls (start reserved fresh) before = r at *
  rcases call_cases r c with h' | ⟨hn, o', ha, ⟨hr, -, -⟩ | ⟨hr, h1, ⟨ty, hty, h2⟩, -⟩⟩
  · exfalso
    have := C18_same_object r c o h [] c rfl
    rw [calls, List.foldl_nil] at this
    have hat : (call r c).1.attr c.name = none := by rw [h', hnew]
    rcases hf : c.field with _ | ⟨q, b⟩ <;> rcases hs : c.space with _ | m
    · simp [call, hnew, hf, hs] at h
    · cases m with
      | true => simp [call, hnew, hf, hs] at h
      | false => cases ht : typeOf c <;> simp [call, hnew, hf, hs, finish, ht] at hat
    · cases b with
      | false => simp [call, hnew, hf, hs] at h
      | true => cases ht : typeOf c <;> simp [call, hnew, hf, hs, finish, ht] at hat
    · simp [call, hnew, hf, hs] at h
  · rw [hr] at h; cases h
  · rw [hty]
    refine ⟨fieldType_persists (hi.call c) _ _ ?_ after, by simp⟩
    have hnot : c.name ∉ r.names := fun hm => hi.known _ hm hn
    unfold fieldType
    rw [ha, Function.update_self, h1, h2]; dsimp only
    rw [if_pos (by simp), List.idxOf_append_of_notMem hnot]
    simp [hi.len]

/-- C18: asking for an unknown name without field or space (or with both) raises and changes
nothing. -/
theorem C18_unknown_raises (r : Reg N) (c : Call N) (h : r.attr c.name = none)
    (hb : (c.field = none ∧ c.space = none) ∨ (c.field ≠ none ∧ c.space ≠ none)) :
    call r c = (r, .raised) := by
  rcases hb with ⟨h1, h2⟩ | ⟨h1, h2⟩
  · simp [call, h, h1, h2]
  · obtain ⟨f, hf⟩ := Option.ne_none_iff_exists'.1 h1
    obtain ⟨s, hs⟩ := Option.ne_none_iff_exists'.1 h2
    simp [call, h, hf, hs]

/-- C18: asking for a known name changes nothing. -/
theorem C18_lookup_pure (r : Reg N) (c : Call N) (o : ℕ) (h : r.attr c.name = some o) :
    call r c = (r, .ret o) := call_known r c o h

/-- C18: after any history in which no call raised, every name to be picked up is registered, with
its field and type. -/
theorem C18_pick_up_registered (reserved : N → Option ℕ) (fresh : ℕ) (cs : List (Call N))
    (hok : ∀ pre c post, cs = pre ++ c :: post →
      (call (calls (start reserved fresh) pre) c).2 ≠ .raised) (n : N)
    (hn : n ∈ (calls (start reserved fresh) cs).toPickUp) :
    n ∈ (calls (start reserved fresh) cs).names ∧
    (calls (start reserved fresh) cs).attr n ≠ none ∧
    fieldType (calls (start reserved fresh) cs) n ≠ none := by
  have hi := (Inv.start reserved fresh).calls cs
  have key : ∀ cs, (∀ pre c post, cs = pre ++ c :: post →
      (call (calls (start reserved fresh) pre) c).2 ≠ .raised) →
      ∀ n ∈ (calls (start reserved fresh) cs).toPickUp,
        n ∈ (calls (start reserved fresh) cs).names := by
    intro cs
    induction cs using List.reverseRecOn with
    | nil => simp [calls, Registry.start]
    | append_singleton cs c ih =>
      intro hok n hn
      have hih := ih (fun pre c' post h => hok pre c' (post ++ [c]) (by simp [h]))
      have hc := hok cs c [] (by simp)
      rw [calls, List.foldl_append, List.foldl_cons, List.foldl_nil] at hn ⊢
      rw [← calls] at hn ⊢
      rcases call_cases (calls (start reserved fresh) cs) c with
        h' | ⟨-, o, -, ⟨hr, -⟩ | ⟨-, h1, -, h3⟩⟩
      · rw [h'] at hn ⊢; exact hih n hn
      · exact absurd hr hc
      · rw [h3] at hn; rw [h1]
        split_ifs at hn with hp
        · rcases List.mem_append.1 hn with hn | hn
          · exact List.mem_append_left _ (hih n hn)
          · exact List.mem_append_right _ hn
        · exact List.mem_append_left _ (hih n hn)
  have hm := key cs hok n hn
  refine ⟨hm, hi.known n hm, ?_⟩
  unfold fieldType
  obtain ⟨o, ho⟩ := Option.ne_none_iff_exists'.1 (hi.known n hm)
  rw [ho]; dsimp only
  rw [if_pos hm, ne_eq, List.getElem?_eq_none_iff, ← hi.len]
  have := List.idxOf_lt_length_iff.2 hm
  omega

/-- What is not protected: a call with a field type that is not permitted raises only after the
field has been entered, so that the same call succeeds when repeated, and the field then has no
type (for every unknown name). -/
theorem C18_bad_type_refuted (r : Reg N) (hi : Inv r) (c : Call N) (h : r.attr c.name = none)
    (hs : c.space = some false) (hf : c.field = none) (hb : c.ftype = .bad) :
    (call r c).2 = .raised ∧ (∃ o, (call (call r c).1 c).2 = .ret o) ∧
    fieldType (call r c).1 c.name = none := by
  have ht : typeOf c = none := by simp [typeOf, hb]
  have e : call r c = ({ r with
        attr := Function.update r.attr c.name (some r.fresh)
        fields := r.fields ++ [r.fresh]
        fresh := r.fresh + 1
        toDump := if c.dump then r.toDump ++ [c.name] else r.toDump
        toPickUp := if c.pickUp then r.toPickUp ++ [c.name] else r.toPickUp }, .raised) := by
    simp [call, h, hs, hf, finish, ht]
  rw [e]
  refine ⟨rfl, ⟨r.fresh, by rw [call_known _ _ r.fresh (by simp)]⟩, ?_⟩
  have hnot : c.name ∉ r.names := fun hm => hi.known _ hm h
  simp [fieldType, hnot]

/-- A history meeting the hypotheses: a prognostic pointer, then a created diagnostic. -/
example : let cs : List (Call String) :=
      [⟨"u", some (7, true), none, true, true, .given .prognostic⟩,
       ⟨"Vorticity", none, some false, true, false, .default⟩]
    let r := calls (start (fun n => if n = "X" then some 0 else none) 100) cs
    r.toPickUp = ["u"] ∧ fieldType r "Vorticity" = some .diagnostic ∧
    fieldType r "u" = some .prognostic ∧ fieldType r "X" = none := by decide

end RegistryProps
end Gusto.Props
