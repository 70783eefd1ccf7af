import Verif.Model.Configuration

set_option autoImplicit false
set_option linter.unusedSectionVars false
set_option linter.unusedSimpArgs false

/-! C54: configuration objects. -/

namespace Gusto.Props.ConfigProps
open Gusto Gusto.Config

/-! ### Specification -/

/-- The class declares the attribute. -/
def Declared (c : Cls) (n : String) : Prop := (c.attrs.lookup n).isSome = true

instance (c : Cls) (n : String) : Decidable (Declared c n) := inferInstanceAs (Decidable (_ = _))

/-- The value may be stored under the name: it is not a bare number, or the name is one of the six exceptions. -/
def Storable (n : String) (v : Val) : Prop :=
  (∀ i, v ≠ .int i) ∧ (∀ q, v ≠ .float q) ∨
  n ∈ ["dumpfreq", "pddumpfreq", "chkptfreq", "fixed_subcycles", "max_subcycles", "subcycle_by_courant"]

/-- The value last given to `n` in a list of assignments, in order, if any. -/
def lastGiven (n : String) (l : List (String × Val)) : Option Val := (l.reverse.lookup n)

theorem storable_iff (n : String) (v : Val) :
    Storable n v ↔ (isNumber v && !(nonConstants.contains n)) = false := by
  rw [Bool.and_eq_false_iff, Bool.not_eq_false', List.contains_iff_mem]
  unfold Storable nonConstants
  cases v <;> simp [isNumber]

theorem lookup_cons_ne {β : Type*} {a b : String} (h : a ≠ b) (v : β) (l : List (String × β)) :
    List.lookup a ((b, v) :: l) = List.lookup a l := by
  rw [List.lookup_cons]
  have : (a == b) = false := by simpa using h
  rw [this]

theorem get_put_self (o : Obj) (n : String) (v : Val) : (o.put n v).get? n = some v := by
  simp [Obj.get?, Obj.put]

theorem get_put_ne (o : Obj) (n m : String) (h : m ≠ n) (v : Val) : (o.put n v).get? m = o.get? m := by
  simp [Obj.get?, Obj.put, lookup_cons_ne h]

/-- **C54** (one assignment).  It succeeds exactly if the object has the attribute and the value is storable; then the
attribute has the value and nothing else changes; otherwise `AttributeError` is raised and nothing changes. -/
theorem C54_set_partial (o : Obj) (n : String) (v : Val) :
    ((setattr o n v).2 = none ↔ (o.get? n).isSome = true ∧ Storable n v) ∧
    ((setattr o n v).2 = none → (setattr o n v).1.get? n = some v ∧
      ∀ m, m ≠ n → (setattr o n v).1.get? m = o.get? m) ∧
    ((setattr o n v).2 ≠ none → (setattr o n v).2 = some .attributeError ∧ (setattr o n v).1 = o) := by
  rw [storable_iff]
  unfold setattr
  cases h1 : o.has n
  · have : (o.get? n).isSome = false := h1
    simp [this]
  · have : (o.get? n).isSome = true := h1
    cases h2 : (isNumber v && !(nonConstants.contains n))
    · simp only [this, h2]
      refine ⟨by simp, ?_, by simp⟩
      intro _
      exact ⟨get_put_self o n v, fun m hm => get_put_ne o n m hm v⟩
    · simp only [this, h2]
      simp

example : (setattr ⟨outputParameters, []⟩ "dumpfreq" (.int 3)).2 = none := by decide
example : (setattr ⟨outputParameters, []⟩ "dumpfrequency" (.int 3)).2 = some .attributeError := by decide

theorem setattr_cls (o : Obj) (n : String) (v : Val) : (setattr o n v).1.cls = o.cls := by
  unfold setattr
  split
  · rfl
  · split <;> rfl

theorem assignAll_cls (l : List (String × Val)) : ∀ o, (assignAll o l).cls = o.cls := by
  induction l with
  | nil => intro o; rfl
  | cons p l ih => intro o; rw [assignAll, ih, setattr_cls]

/-- The accepted assignments of a history on an object of class `c`. -/
def accepted (c : Cls) (l : List (String × Val)) : List (String × Val) :=
  l.filter fun p => (c.attrs.lookup p.1).isSome && !(isNumber p.2 && !(nonConstants.contains p.1))

/-- Objects only hold attributes of their class. -/
def WF (o : Obj) : Prop := ∀ n, (o.own.lookup n).isSome = true → Declared o.cls n

theorem has_iff (o : Obj) (h : WF o) (n : String) : o.has n = (o.cls.attrs.lookup n).isSome := by
  unfold Obj.has Obj.get?
  cases hl : o.own.lookup n with
  | none => rfl
  | some v =>
    have := h n (by rw [hl]; rfl)
    unfold Declared at this
    rw [this]; rfl

theorem setattr_wf (o : Obj) (h : WF o) (n : String) (v : Val) : WF (setattr o n v).1 := by
  unfold setattr
  split
  · exact h
  split
  · exact h
  · rename_i h1 _
    intro m hm
    by_cases hmn : m = n
    · subst hmn
      have : o.has m = true := by simpa using h1
      rw [has_iff o h] at this
      exact this
    · apply h m
      simpa [Obj.put, lookup_cons_ne hmn] using hm

theorem lastGiven_cons (n : String) (p : String × Val) (l : List (String × Val)) :
    lastGiven n (p :: l) = (lastGiven n l).or (if n = p.1 then some p.2 else none) := by
  unfold lastGiven
  rw [List.reverse_cons, List.lookup_append]
  congr 1
  by_cases h : n = p.1
  · obtain ⟨a, b⟩ := p
    subst h; simp
  · rw [if_neg h]
    obtain ⟨a, b⟩ := p
    rw [lookup_cons_ne h]; rfl

theorem assignAll_get (l : List (String × Val)) : ∀ o, WF o → ∀ n,
    (assignAll o l).get? n = (lastGiven n (accepted o.cls l)).or (o.get? n) := by
  induction l with
  | nil => intro o _ n; simp [assignAll, lastGiven, accepted]
  | cons p l ih =>
    obtain ⟨m, v⟩ := p
    intro o hw n
    rw [assignAll, ih _ (setattr_wf o hw m v), setattr_cls]
    have hset : (setattr o m v).1.get? n =
        if ((o.cls.attrs.lookup m).isSome && !(isNumber v && !(nonConstants.contains m))) = true ∧ n = m then some v
        else o.get? n := by
      unfold setattr
      rw [has_iff o hw]
      cases h1 : (o.cls.attrs.lookup m).isSome
      · simp
      · cases h2 : (isNumber v && !(nonConstants.contains m))
        · by_cases hn : n = m
          · subst hn; simp [get_put_self]
          · simp [get_put_ne o m n hn, hn]
        · simp
    rw [hset]
    unfold accepted
    rw [List.filter_cons]
    dsimp only
    cases h1 : ((o.cls.attrs.lookup m).isSome && !(isNumber v && !(nonConstants.contains m)))
    · simp
    · rw [if_pos rfl, lastGiven_cons]
      dsimp only
      by_cases hn : n = m
      · simp [hn, Option.or_assoc]
      · simp [hn]

/-- **C54** (histories).  After any sequence of assignments, accepted or not, on a fresh object: names the class does
not declare are not attributes, and a declared attribute has the value of the last assignment to it that was storable,
or its default. -/
theorem C54_history_partial (c : Cls) (l : List (String × Val)) (n : String) :
    (¬ Declared c n → (assignAll ⟨c, []⟩ l).get? n = none) ∧
    (Declared c n → ∃ s : List (String × Val), (∀ p, p ∈ s ↔ p ∈ l ∧ Declared c p.1 ∧ Storable p.1 p.2) ∧ s.Sublist l ∧
      (assignAll ⟨c, []⟩ l).get? n = (lastGiven n s).or (c.attrs.lookup n)) := by
  have hw : WF ⟨c, []⟩ := by intro m hm; simp at hm
  have key := assignAll_get l ⟨c, []⟩ hw n
  have hg : (⟨c, []⟩ : Obj).get? n = c.attrs.lookup n := by simp [Obj.get?]
  rw [hg] at key
  have hmem : ∀ p, p ∈ accepted c l ↔ p ∈ l ∧ Declared c p.1 ∧ Storable p.1 p.2 := by
    intro p
    unfold accepted Declared
    rw [List.mem_filter, Bool.and_eq_true, storable_iff, Bool.not_eq_true']
  refine ⟨fun hn => ?_, fun _ => ⟨accepted c l, hmem, List.filter_sublist, key⟩⟩
  rw [key]
  have h1 : c.attrs.lookup n = none := by
    unfold Declared at hn
    rw [Bool.not_eq_true, Option.isSome_eq_false_iff, Option.isNone_iff_eq_none] at hn
    exact hn
  have h2 : lastGiven n (accepted c l) = none := by
    unfold lastGiven
    rw [List.lookup_eq_none_iff]
    intro p hp
    rw [List.mem_reverse] at hp
    have h3 := ((hmem p).1 hp).2.1
    simp only [beq_eq_false_iff_ne, ne_eq, bne_iff_ne]
    rintro rfl
    exact hn h3
  rw [h1, h2]; rfl

example : (assignAll ⟨subcyclingOptions, []⟩
    [("fixed_subcycles", .int 3), ("typo", .int 1), ("fixed_subcycles", .int 5)]).get? "fixed_subcycles" = some (.int 5) := by
  decide

/-- **C54** (constructor).  `Cls(**kwargs)` succeeds exactly if every keyword is declared and storable; then each keyword
has its value, every other attribute its default; otherwise it raises `AttributeError`. -/
theorem C54_construct_partial (c : Cls) (kw : List (String × Val)) (hkw : (kw.map Prod.fst).Nodup) :
    ((∃ o, construct c kw = .ok o) ↔ ∀ p ∈ kw, Declared c p.1 ∧ Storable p.1 p.2) ∧
    (∀ o, construct c kw = .ok o → ∀ n, o.get? n = (kw.lookup n).or (c.attrs.lookup n)) ∧
    (∀ e, construct c kw = .error e → e = .attributeError) := by
  have gen : ∀ (kw : List (String × Val)), (kw.map Prod.fst).Nodup → ∀ o, WF o →
      ((∃ o', initLoop o kw = .ok o') ↔ ∀ p ∈ kw, Declared o.cls p.1 ∧ Storable p.1 p.2) ∧
      (∀ o', initLoop o kw = .ok o' → ∀ n, o'.get? n = (kw.lookup n).or (o.get? n)) ∧
      (∀ e, initLoop o kw = .error e → e = .attributeError) := by
    intro kw
    induction kw with
    | nil =>
      intro _ o _
      refine ⟨by simp [initLoop], ?_, by simp [initLoop]⟩
      intro o' ho n
      simp only [initLoop, Except.ok.injEq] at ho
      subst ho
      simp
    | cons p kw ih =>
      obtain ⟨m, v⟩ := p
      intro hnd o hw
      rw [List.map_cons, List.nodup_cons] at hnd
      obtain ⟨ih1, ih2, ih3⟩ := ih hnd.2 (setattr o m v).1 (setattr_wf o hw m v)
      obtain ⟨s1, s2, s3⟩ := C54_set_partial o m v
      rw [show (o.get? m).isSome = o.has m from rfl, has_iff o hw] at s1
      have hst : initLoop o ((m, v) :: kw) = match (setattr o m v).2 with
          | some e => .error e
          | none => initLoop (setattr o m v).1 kw := by
        rw [initLoop]
        rcases setattr o m v with ⟨a, _ | b⟩ <;> rfl
      rw [hst]
      cases he : (setattr o m v).2 with
      | none =>
        have hd := s1.1 he
        obtain ⟨g1, g2⟩ := s2 he
        rw [setattr_cls] at ih1
        refine ⟨?_, ?_, ih3⟩
        · simp only
          rw [ih1]
          constructor
          · intro h q hq
            rcases List.mem_cons.1 hq with rfl | hq
            · exact hd
            · exact h q hq
          · intro h q hq
            exact h q (List.mem_cons_of_mem _ hq)
        · intro o' ho n
          rw [ih2 o' ho n]
          by_cases hn : n = m
          · subst hn
            have : kw.lookup n = none := by
              rw [List.lookup_eq_none_iff]
              intro q hq
              simp only [beq_eq_false_iff_ne, ne_eq, bne_iff_ne]
              rintro rfl
              exact hnd.1 (List.mem_map.2 ⟨q, hq, rfl⟩)
            rw [this, g1]
            simp
          · rw [g2 n hn, lookup_cons_ne hn]
      | some e =>
        have h3 := s3 (by rw [he]; simp)
        refine ⟨?_, by simp, ?_⟩
        · simp only [reduceCtorEq, exists_false, false_iff]
          intro h
          have := s1.2 (h (m, v) (List.mem_cons_self ..))
          rw [he] at this
          cases this
        · intro e' he'
          simp only [Except.error.injEq] at he'
          rw [he] at h3
          rw [← he']
          simpa using h3.1
  have := gen kw hkw ⟨c, []⟩ (by intro m hm; simp at hm)
  simpa [construct, Obj.get?] using this

example : ∃ o, construct outputParameters [("dumpfreq", .int 10), ("dirname", .str "results")] = .ok o :=
  (C54_construct_partial _ _ (by decide)).1.2 (by
    intro p hp
    simp only [List.mem_cons, List.not_mem_nil, or_false] at hp
    rcases hp with rfl | rfl <;> refine ⟨by decide, by simp [Storable]⟩)

/-- **C54** (refutation).  Declared attributes with a numeric default to which no number can be assigned: `diagfreq` and
`tolerance` of `OutputParameters`, `h` and `M` of `RexiParameters`, in every state of the object. -/
theorem C54_numbers_refuted :
    (∀ c n, (c, n) ∈ [(outputParameters, "diagfreq"), (outputParameters, "tolerance"), (rexiParameters, "h"),
      (rexiParameters, "M")] → Declared c n) ∧
    (∀ (o : Obj) (n : String) (v : Val), n ∈ ["diagfreq", "tolerance", "h", "M"] →
      ((∃ i, v = .int i) ∨ ∃ q, v = .float q) → setattr o n v = (o, some .attributeError)) ∧
    (∀ l : List (String × Val), ∀ i : ℤ, (assignAll ⟨outputParameters, []⟩ l).get? "diagfreq" = some (.int i) → i = 1) := by
  have hset : ∀ (o : Obj) (n : String) (v : Val), n ∈ ["diagfreq", "tolerance", "h", "M"] →
      ((∃ i, v = .int i) ∨ ∃ q, v = .float q) → setattr o n v = (o, some .attributeError) := by
    intro o n v hn hv
    have h1 : isNumber v = true := by rcases hv with ⟨i, rfl⟩ | ⟨q, rfl⟩ <;> rfl
    have h2 : nonConstants.contains n = false := by
      simp only [List.mem_cons, List.not_mem_nil, or_false] at hn
      rcases hn with rfl | rfl | rfl | rfl <;> decide
    unfold setattr
    split
    · rfl
    · rw [h1, h2]; rfl
  refine ⟨?_, hset, ?_⟩
  · intro c n h
    simp only [List.mem_cons, Prod.mk.injEq, List.not_mem_nil, or_false] at h
    rcases h with ⟨rfl, rfl⟩ | ⟨rfl, rfl⟩ | ⟨rfl, rfl⟩ | ⟨rfl, rfl⟩ <;> decide
  · intro l i hi
    obtain ⟨s, hs, -, hg⟩ := (C54_history_partial outputParameters l "diagfreq").2 (by decide)
    rw [hg] at hi
    cases hl : lastGiven "diagfreq" s with
    | none =>
      rw [hl] at hi
      have : outputParameters.attrs.lookup "diagfreq" = some (.int 1) := by decide
      rw [this] at hi
      simpa using hi.symm
    | some v =>
      rw [hl] at hi
      simp only [Option.some_or, Option.some.injEq] at hi
      subst hi
      have hmem : ("diagfreq", Val.int i) ∈ s := by
        unfold lastGiven at hl
        have := List.lookup_eq_some_iff.1 hl
        obtain ⟨a, b, hab, -⟩ := this
        have : ("diagfreq", Val.int i) ∈ s.reverse := by rw [hab]; simp
        exact List.mem_reverse.1 this
      have := ((hs _).1 hmem).2.2
      rcases this with ⟨h, -⟩ | h
      · exact absurd rfl (h i)
      · simp at h

/-- **C54** (subcycling options).  After any constructor call and any assignments, `check_options` raises `ValueError`
exactly if neither `fixed_subcycles` nor `subcycle_by_courant` is `None`. -/
theorem C54_check_options (l : List (String × Val)) :
    checkOptions (assignAll ⟨subcyclingOptions, []⟩ l) =
      (if (assignAll ⟨subcyclingOptions, []⟩ l).get? "fixed_subcycles" ≠ some .none ∧
          (assignAll ⟨subcyclingOptions, []⟩ l).get? "subcycle_by_courant" ≠ some .none
        then .error .valueError else .ok ()) := by
  unfold checkOptions
  by_cases h1 : (assignAll ⟨subcyclingOptions, []⟩ l).get? "fixed_subcycles" = some .none <;>
  by_cases h2 : (assignAll ⟨subcyclingOptions, []⟩ l).get? "subcycle_by_courant" = some .none <;>
  simp [h1, h2]

/-- **C54** (subcycling options, from the assignments).  Starting from the defaults and assigning storable values,
`check_options` raises exactly if the last values given to both options exist and are not `None`. -/
theorem C54_check_options_history (l : List (String × Val)) (hl : ∀ p ∈ l, Declared subcyclingOptions p.1 ∧ Storable p.1 p.2) :
    checkOptions (assignAll ⟨subcyclingOptions, []⟩ l) = .error .valueError ↔
      (∃ v, lastGiven "fixed_subcycles" l = some v ∧ v ≠ .none) ∧
      (∃ v, lastGiven "subcycle_by_courant" l = some v ∧ v ≠ .none) := by
  have hacc : accepted subcyclingOptions l = l := by
    unfold accepted
    rw [List.filter_eq_self]
    intro p hp
    obtain ⟨h1, h2⟩ := hl p hp
    rw [storable_iff] at h2
    unfold Declared at h1
    rw [h1, h2]; rfl
  have hw : WF ⟨subcyclingOptions, []⟩ := by intro m hm; simp at hm
  have hg := fun n => assignAll_get l ⟨subcyclingOptions, []⟩ hw n
  simp only [hacc] at hg
  rw [C54_check_options, hg, hg]
  have e1 : (⟨subcyclingOptions, []⟩ : Obj).get? "fixed_subcycles" = some .none := by decide
  have e2 : (⟨subcyclingOptions, []⟩ : Obj).get? "subcycle_by_courant" = some .none := by decide
  rw [e1, e2]
  cases lastGiven "fixed_subcycles" l <;> cases lastGiven "subcycle_by_courant" l <;> simp

example : checkOptions (assignAll ⟨subcyclingOptions, []⟩
    [("fixed_subcycles", .int 3), ("subcycle_by_courant", .float (1/2))]) = .error .valueError := by decide

/-! ### Equation parameters -/

/-- What is stored for a value: numbers and Constants become functions in the real space of the mesh. -/
def stored (m : ℕ) : Val → Val
  | .int i => .real m i
  | .float q => .real m q
  | .const q => .real m q
  | v => v

theorem stored_eq (m : ℕ) (v : Val) : stored m v = (numeric v).elim v (fun q => .real m q) := by
  cases v <;> rfl

theorem psetattr_some (o : Obj) (m : ℕ) (n : String) (v : Val) :
    psetattr o (some m) n v = if o.has n then .ok (o.put n (stored m v)) else .error .attributeError := by
  unfold psetattr
  rw [stored_eq]
  cases o.has n
  · rfl
  · cases numeric v <;> rfl

theorem put_wf (o : Obj) (h : WF o) (n : String) (v : Val) (hn : o.has n = true) : WF (o.put n v) := by
  intro m hm
  by_cases hmn : m = n
  · subst hmn
    rw [has_iff o h] at hn
    exact hn
  · apply h m
    simpa [Obj.put, lookup_cons_ne hmn] using hm

theorem pinit_gen (m : ℕ) (l : List (String × Val)) : ∀ o, WF o →
    ((∃ o', pinitLoop (some m) o l = .ok o') ↔ ∀ p ∈ l, Declared o.cls p.1) ∧
    (∀ o', pinitLoop (some m) o l = .ok o' → ∀ n, o'.get? n = ((lastGiven n l).map (stored m)).or (o.get? n)) ∧
    (∀ e, pinitLoop (some m) o l = .error e → e = .attributeError) := by
  induction l with
  | nil =>
    intro o _
    refine ⟨by simp [pinitLoop], ?_, by simp [pinitLoop]⟩
    intro o' ho n
    simp only [pinitLoop, Except.ok.injEq] at ho
    subst ho
    simp [lastGiven]
  | cons p l ih =>
    obtain ⟨k, v⟩ := p
    intro o hw
    rw [pinitLoop, psetattr_some]
    cases hk : o.has k
    · refine ⟨?_, by simp, ?_⟩
      · simp only [Bool.false_eq_true, if_false, reduceCtorEq, exists_false, false_iff]
        intro h
        have := h (k, v) (List.mem_cons_self ..)
        rw [has_iff o hw] at hk
        unfold Declared at this
        rw [hk] at this
        cases this
      · intro e he
        simpa using he.symm
    · obtain ⟨i1, i2, i3⟩ := ih (o.put k (stored m v)) (put_wf o hw k _ hk)
      simp only [if_true]
      refine ⟨?_, ?_, i3⟩
      · rw [i1]
        constructor
        · intro h q hq
          rcases List.mem_cons.1 hq with rfl | hq
          · rw [has_iff o hw] at hk; exact hk
          · exact h q hq
        · intro h q hq
          exact h q (List.mem_cons_of_mem _ hq)
      · intro o' ho n
        rw [i2 o' ho n, lastGiven_cons]
        by_cases hn : n = k
        · subst hn
          rw [get_put_self]
          cases lastGiven n l <;> simp
        · rw [get_put_ne o k n hn]
          simp [hn]

theorem lookup_mem {β : Type*} {l : List (String × β)} {n : String} {v : β} (h : l.lookup n = some v) : (n, v) ∈ l := by
  obtain ⟨a, b, hab, -⟩ := List.lookup_eq_some_iff.1 h
  rw [hab]; simp

theorem lookup_nodup {β : Type*} {l : List (String × β)} (hl : (l.map Prod.fst).Nodup) {n : String} {v : β}
    (h : (n, v) ∈ l) : l.lookup n = some v := by
  induction l with
  | nil => simp at h
  | cons p l ih =>
    obtain ⟨k, w⟩ := p
    rw [List.map_cons, List.nodup_cons] at hl
    rcases List.mem_cons.1 h with h | h2
    · obtain ⟨rfl, rfl⟩ := Prod.mk.inj h
      simp
    · rw [lookup_cons_ne, ih hl.2 h2]
      rintro rfl
      exact hl.1 (List.mem_map.2 ⟨_, h2, rfl⟩)

theorem lookup_isSome_mem {β : Type*} {l : List (String × β)} {n : String} :
    (l.lookup n).isSome = true ↔ n ∈ l.map Prod.fst := by
  rw [← not_iff_not, Bool.not_eq_true, Option.isSome_eq_false_iff, Option.isNone_iff_eq_none, List.lookup_eq_none_iff]
  simp only [List.mem_map, not_exists, not_and, bne_iff_ne, ne_eq]
  constructor
  · intro h p hp he
    exact h p hp he.symm
  · intro h p hp he
    exact h p hp he.symm

/-- **C54** (equation parameters).  With a mesh, the constructor succeeds exactly if every keyword is a declared
parameter (otherwise `AttributeError`); then every parameter given has its value and every other its default, numbers
and Constants as functions in the real space of that mesh, everything else unchanged. -/
theorem C54_parameters (c : Cls) (m : ℕ) (kw : List (String × Val)) (hmesh : Declared c "mesh")
    (hnum : c.attrs.lookup "mesh" = some .none) (hc : (c.attrs.map Prod.fst).Nodup)
    (hkw : (kw.map Prod.fst).Nodup) (hkm : "mesh" ∉ kw.map Prod.fst) :
    ((∃ o, pconstruct c (some m) kw = .ok o) ↔ ∀ p ∈ kw, Declared c p.1) ∧
    (∀ o, pconstruct c (some m) kw = .ok o →
      o.get? "mesh" = some (.other m) ∧
      ∀ n, n ≠ "mesh" → o.get? n = ((kw.lookup n).or (c.attrs.lookup n)).map (stored m)) ∧
    (∀ e, pconstruct c (some m) kw = .error e → e = .attributeError) := by
  have hw : WF ⟨c, [("mesh", meshVal (some m))]⟩ := by
    intro n hn
    rw [lookup_isSome_mem] at hn
    simp only [List.map_cons, List.map_nil, List.mem_singleton] at hn
    subst hn; exact hmesh
  have hnm : ∀ n v, (n, v) ∈ numericMembers c ↔ c.attrs.lookup n = some v ∧ (numeric v).isSome = true := by
    intro n v
    unfold numericMembers
    rw [List.mem_filter]
    simp only [Bool.and_eq_true, decide_eq_true_eq]
    constructor
    · rintro ⟨-, h1, h2⟩; exact ⟨h2, h1⟩
    · rintro ⟨h2, h1⟩; exact ⟨lookup_mem h2, h1, h2⟩
  have hnn : ((numericMembers c).map Prod.fst).Nodup :=
    hc.sublist (List.filter_sublist.map _)
  obtain ⟨g1, g2, g3⟩ := pinit_gen m
    ((numericMembers c).map (fun p => (p.1, (kw.lookup p.1).getD p.2)) ++
      kw.filter fun p => !((numericMembers c).map Prod.fst).contains p.1) ⟨c, [("mesh", meshVal (some m))]⟩ hw
  set params := (numericMembers c).map (fun p => (p.1, (kw.lookup p.1).getD p.2)) ++
      kw.filter fun p => !((numericMembers c).map Prod.fst).contains p.1 with hparams
  have hpd : (params.map Prod.fst).Nodup := by
    rw [hparams, List.map_append, List.map_map]
    rw [List.nodup_append]
    refine ⟨by simpa [Function.comp_def] using hnn, hkw.sublist (List.filter_sublist.map _), ?_⟩
    intro a ha b hb hab
    subst hab
    simp only [List.mem_map, List.mem_filter, Function.comp_apply] at ha hb
    obtain ⟨p, hp, rfl⟩ := ha
    obtain ⟨q, ⟨hq, hq2⟩, hq3⟩ := hb
    rw [hq3] at hq2
    have : p.1 ∈ (numericMembers c).map Prod.fst := List.mem_map_of_mem hp
    rw [Bool.not_eq_true', List.contains_eq_mem, decide_eq_false_iff_not] at hq2
    exact hq2 this
  have hlast : ∀ n, lastGiven n params = params.lookup n := by
    intro n
    unfold lastGiven
    have hr : (params.reverse.map Prod.fst).Nodup := by
      rw [List.map_reverse]; exact (List.reverse_perm _).nodup_iff.2 hpd
    cases h : params.lookup n with
    | some v => exact lookup_nodup hr (List.mem_reverse.2 (lookup_mem h))
    | none =>
      cases h2 : params.reverse.lookup n with
      | none => rfl
      | some v =>
        have := lookup_nodup hpd (List.mem_reverse.1 (lookup_mem h2))
        rw [h] at this; cases this
  have hlook : ∀ n, params.lookup n = (kw.lookup n).or
      (if ((c.attrs.lookup n).bind numeric).isSome then c.attrs.lookup n else none) := by
    intro n
    by_cases hmem : n ∈ (numericMembers c).map Prod.fst
    · obtain ⟨⟨n', v⟩, hv, rfl⟩ := List.mem_map.1 hmem
      dsimp only
      obtain ⟨h1, h2⟩ := (hnm n' v).1 hv
      have : (n', (kw.lookup n').getD v) ∈ params := by
        rw [hparams, List.mem_append]
        left
        exact List.mem_map.2 ⟨(n', v), hv, rfl⟩
      rw [lookup_nodup hpd this, h1]
      simp only [Option.bind_some, h2, if_true]
      cases kw.lookup n' <;> rfl
    · have hb : ((c.attrs.lookup n).bind numeric).isSome = false := by
        cases h : c.attrs.lookup n with
        | none => rfl
        | some v =>
          simp only [Option.bind_some]
          by_contra hne
          rw [Bool.not_eq_false] at hne
          exact hmem (List.mem_map.2 ⟨(n, v), (hnm n v).2 ⟨h, hne⟩, rfl⟩)
      rw [hb]
      simp only [Bool.false_eq_true, if_false, Option.or_none]
      cases h : kw.lookup n with
      | some v =>
        refine lookup_nodup hpd ?_
        rw [hparams, List.mem_append]
        right
        rw [List.mem_filter]
        refine ⟨lookup_mem h, ?_⟩
        simp only [Bool.not_eq_true', List.contains_eq_mem, decide_eq_false_iff_not]
        exact hmem
      | none =>
        rw [List.lookup_eq_none_iff] at h ⊢
        intro p hp
        rw [hparams, List.mem_append] at hp
        rcases hp with hp | hp
        · obtain ⟨q, hq, rfl⟩ := List.mem_map.1 hp
          simp only [bne_iff_ne, ne_eq]
          rintro rfl
          exact hmem (List.mem_map_of_mem hq)
        · exact h p (List.mem_filter.1 hp).1
  refine ⟨?_, ?_, g3⟩
  · unfold pconstruct
    rw [g1]
    constructor
    · intro h p hp
      by_cases hmem : p.1 ∈ (numericMembers c).map Prod.fst
      · obtain ⟨q, hq, hqp⟩ := List.mem_map.1 hmem
        have h1 := ((hnm q.1 q.2).1 hq).1
        unfold Declared
        rw [← hqp, h1]; rfl
      · refine h p ?_
        rw [hparams, List.mem_append]
        right
        rw [List.mem_filter]
        refine ⟨hp, ?_⟩
        simp only [Bool.not_eq_true', List.contains_eq_mem, decide_eq_false_iff_not]
        exact hmem
    · intro h p hp
      rw [hparams, List.mem_append] at hp
      rcases hp with hp | hp
      · obtain ⟨q, hq, rfl⟩ := List.mem_map.1 hp
        have h1 := ((hnm q.1 q.2).1 hq).1
        unfold Declared
        dsimp only
        rw [h1]; rfl
      · exact h p (List.mem_filter.1 hp).1
  · intro o ho
    have hget := g2 o ho
    constructor
    · rw [hget, hlast, hlook, hnum]
      have : kw.lookup "mesh" = none := by
        cases h : kw.lookup "mesh" with
        | none => rfl
        | some v =>
          exact absurd (List.mem_map_of_mem (f := Prod.fst) (lookup_mem h)) hkm
      rw [this]
      simp [numeric, Obj.get?, meshVal]
    · intro n hn
      rw [hget, hlast, hlook]
      have h0 : (⟨c, [("mesh", meshVal (some m))]⟩ : Obj).get? n = c.attrs.lookup n := by
        simp [Obj.get?, lookup_cons_ne hn]
      rw [h0]
      cases kw.lookup n with
      | some v => simp
      | none =>
        cases h : c.attrs.lookup n with
        | none => simp
        | some v =>
          cases v <;> simp [numeric, stored]

/-- **C54** (without a mesh).  A class with a numeric default cannot be constructed without a mesh. -/
theorem C54_no_mesh (c : Cls) (kw : List (String × Val)) (n : String) (v : Val) (l : List (String × Val))
    (h : numericMembers c = (n, v) :: l) (hk : kw.lookup n = none) :
    pconstruct c none kw = .error .unboundLocal := by
  have hmem : (n, v) ∈ numericMembers c := by rw [h]; simp
  unfold numericMembers at hmem
  rw [List.mem_filter] at hmem
  simp only [Bool.and_eq_true, decide_eq_true_eq] at hmem
  obtain ⟨-, h1, h2⟩ := hmem
  unfold pconstruct
  rw [h, List.map_cons, List.cons_append, pinitLoop]
  dsimp only
  rw [hk, Option.getD_none]
  have : psetattr ⟨c, [("mesh", meshVal none)]⟩ none n v = .error .unboundLocal := by
    unfold psetattr
    have hh : (⟨c, [("mesh", meshVal none)]⟩ : Obj).has n = true := by
      unfold Obj.has Obj.get?
      cases hq : List.lookup n [("mesh", meshVal none)] with
      | some w => rfl
      | none => dsimp only; rw [h2]; rfl
    rw [hh]
    obtain ⟨q, hq⟩ := Option.isSome_iff_exists.1 h1
    rw [hq]; rfl
  rw [this]

/-- The hypotheses are met by all parameter classes. -/
example : ∀ c ∈ [boussinesqParameters, compressibleParameters, shallowWaterParameters, spongeLayerParameters,
    diffusionParameters, boundaryLayerParameters, heldSuarezParameters],
    c.attrs.lookup "mesh" = some .none ∧ (c.attrs.map Prod.fst).Nodup := by decide

example : ∃ o, pconstruct shallowWaterParameters (some 7) [("H", .int 5960), ("rotation", .other 23), ("f0", .float (1/10000))] = .ok o ∧
    o.get? "H" = some (.real 7 5960) ∧ o.get? "g" = some (.real 7 (980616/100000)) ∧ o.get? "beta" = some .none := by
  obtain ⟨h1, h2, -⟩ := C54_parameters shallowWaterParameters 7
    [("H", .int 5960), ("rotation", .other 23), ("f0", .float (1/10000))] (by decide) (by decide) (by decide)
    (by decide) (by decide)
  obtain ⟨o, ho⟩ := h1.2 (by
    intro p hp
    simp only [List.mem_cons, List.not_mem_nil, or_false] at hp
    rcases hp with rfl | rfl | rfl <;> decide)
  obtain ⟨-, hg⟩ := h2 o ho
  refine ⟨o, ho, ?_, ?_, ?_⟩
  · rw [hg _ (by decide)]; rfl
  · rw [hg _ (by decide)]; rfl
  · rw [hg _ (by decide)]; rfl

end Gusto.Props.ConfigProps
