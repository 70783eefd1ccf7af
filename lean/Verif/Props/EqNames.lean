import Verif.Model.EqNames
import Verif.Props.EquationSet

set_option autoImplicit false
set_option linter.unusedSectionVars false
set_option linter.unusedSimpArgs false

/-! C137: the prognostic variables and function spaces of the equation sets, and the user's objects that the constructors
share. -/

namespace Gusto.Props.EqNamesProps
open Gusto Gusto.EqSet Gusto.EqNames Gusto.Props.EqSetProps

/-! ### Specification -/

/-- The name of the space of a variable, as documented: the user's if `space_names` is given, otherwise the default. -/
def requested (O : Objs) (c : Call) (f : String) : Option String :=
  match c.dict with
  | none => (ownDict c.kind).lookup f
  | some i => (O.dicts i).lookup f

/-- The tracers that are passed. -/
def passed (O : Objs) (c : Call) : List Tracer :=
  match c.tracers with
  | none => []
  | some j => O.tracers j

/-! ### Lemmas -/

theorem lookup_enter (d : Dict) (t : Tracer) (f : String) :
    (enter d t).lookup f = (d.lookup f).or (if f = t.name then some t.space else none) := by
  unfold enter
  cases hl : d.lookup t.name with
  | some s =>
    simp only
    by_cases hf : f = t.name
    · subst hf; simp [hl]
    · simp [hf]
  | none =>
    simp only
    rw [List.lookup_append]
    by_cases hf : f = t.name
    · subst hf; simp [hl, List.lookup]
    · have : (f == t.name) = false := by simpa using hf
      simp [List.lookup, this, hf]

theorem not_clash (d : Dict) (t : Tracer) : ¬ clash d t ↔ ∀ s, d.lookup t.name = some s → s = t.space := by
  unfold clash
  cases d.lookup t.name <;> simp

/-- Entries of the dictionary are kept, and new ones come from the tracers; whether or not an exception is raised. -/
theorem addAll_dict (known : String → Bool) (ts : List Tracer) : ∀ n : Names,
    (∀ f s, n.spaceNames.lookup f = some s → (addAll known n ts).1.spaceNames.lookup f = some s) ∧
    (∀ f s, (addAll known n ts).1.spaceNames.lookup f = some s →
      n.spaceNames.lookup f = some s ∨ ∃ t ∈ ts, t.name = f ∧ t.space = s) := by
  induction ts with
  | nil => intro n; exact ⟨fun f s h => h, fun f s h => Or.inl h⟩
  | cons t ts ih =>
    intro n
    have key : ∀ f s, (enter n.spaceNames t).lookup f = some s → n.spaceNames.lookup f = some s ∨ (t.name = f ∧ t.space = s) := by
      intro f s h
      rw [lookup_enter] at h
      cases hl : n.spaceNames.lookup f with
      | some x => rw [hl] at h; simp at h; exact Or.inl (by rw [h])
      | none =>
        rw [hl] at h
        by_cases hf : f = t.name
        · simp [hf] at h; exact Or.inr ⟨hf.symm, h⟩
        · simp [hf] at h
    have keep : ∀ f s, n.spaceNames.lookup f = some s → (enter n.spaceNames t).lookup f = some s := by
      intro f s h; rw [lookup_enter, h]; rfl
    rw [addAll]
    split
    · exact ⟨fun f s h => h, fun f s h => Or.inl h⟩
    split
    · exact ⟨fun f s h => h, fun f s h => Or.inl h⟩
    split
    · obtain ⟨h1, h2⟩ := ih { fields := n.fields ++ [t.name], spaceNames := enter n.spaceNames t, spaces := n.spaces ++ [t.space] }
      refine ⟨fun f s h => h1 f s (keep f s h), fun f s h => ?_⟩
      rcases h2 f s h with h | ⟨x, hx, e⟩
      · rcases key f s h with h | h
        · exact Or.inl h
        · exact Or.inr ⟨t, List.mem_cons_self .., h⟩
      · exact Or.inr ⟨x, List.mem_cons_of_mem _ hx, e⟩
    · refine ⟨fun f s h => keep f s h, fun f s h => ?_⟩
      rcases key f s h with h | h
      · exact Or.inl h
      · exact Or.inr ⟨t, List.mem_cons_self .., h⟩

/-- What the loop accepts and what it gives. -/
theorem addAll_spec (known : String → Bool) (ts : List Tracer) : ∀ n : Names,
    ((addAll known n ts).2 = none ↔ NamesNodup ts ∧ (∀ t ∈ ts, t.name ∉ n.fields) ∧ (∀ t ∈ ts, known t.space = true) ∧
      ∀ t ∈ ts, ∀ s, n.spaceNames.lookup t.name = some s → s = t.space) ∧
    ((addAll known n ts).2 = none → (addAll known n ts).1.fields = n.fields ++ ts.map Tracer.name ∧
      (addAll known n ts).1.spaces = n.spaces ++ ts.map Tracer.space ∧
      ∀ t ∈ ts, (addAll known n ts).1.spaceNames.lookup t.name = some t.space) := by
  induction ts with
  | nil => intro n; simp [addAll, NamesNodup]
  | cons t ts ih =>
    intro n
    rw [addAll]
    split
    · rename_i hin
      simp [hin]
    rename_i hin
    split
    · rename_i hcl
      refine ⟨?_, by simp⟩
      simp only [reduceCtorEq, false_iff]
      rintro ⟨-, -, -, h⟩
      exact (not_clash _ _).2 (h t (List.mem_cons_self ..)) hcl
    rename_i hcl
    rw [not_clash] at hcl
    split
    · rename_i hk
      obtain ⟨i1, i2⟩ := ih { fields := n.fields ++ [t.name], spaceNames := enter n.spaceNames t, spaces := n.spaces ++ [t.space] }
      have hd := addAll_dict known ts { fields := n.fields ++ [t.name], spaceNames := enter n.spaceNames t, spaces := n.spaces ++ [t.space] }
      have ht : (enter n.spaceNames t).lookup t.name = some t.space := by
        rw [lookup_enter]
        cases hl : n.spaceNames.lookup t.name with
        | some s => rw [hcl s hl]; rfl
        | none => simp
      constructor
      · rw [i1]
        unfold NamesNodup
        simp only [List.map_cons, List.nodup_cons, List.mem_map, not_exists, not_and, List.forall_mem_cons, List.mem_append,
          List.mem_singleton, not_or]
        constructor
        · rintro ⟨h1, h2, h3, h4⟩
          refine ⟨⟨fun x hx he => (h2 x hx).2 he, h1⟩, ⟨hin, fun x hx => (h2 x hx).1⟩, ⟨hk, h3⟩, hcl, ?_⟩
          intro x hx s hs
          exact h4 x hx s (by rw [lookup_enter, hs]; rfl)
        · rintro ⟨⟨h1, h2⟩, ⟨-, h3⟩, ⟨-, h4⟩, -, h5⟩
          refine ⟨h2, fun x hx => ⟨h3 x hx, fun he => h1 x hx he⟩, h4, ?_⟩
          intro x hx s hs
          rw [lookup_enter, if_neg (fun he => h1 x hx he), Option.or_none] at hs
          exact h5 x hx s hs
      · intro h
        obtain ⟨e1, e2, e3⟩ := i2 h
        refine ⟨by rw [e1]; simp, by rw [e2]; simp, ?_⟩
        intro x hx
        rcases List.mem_cons.1 hx with rfl | hx
        · exact hd.1 _ _ ht
        · exact e3 x hx
    · rename_i hk
      simp [hk]

theorem lookups_spec (d : Dict) (fs : List String) :
    (∀ l, lookups d fs = .ok l ↔ fs.map (fun f => d.lookup f) = l.map some) ∧
    ((∃ l, lookups d fs = .ok l) ↔ ∀ f ∈ fs, ∃ s, d.lookup f = some s) := by
  induction fs with
  | nil =>
    refine ⟨fun l => ?_, by simp [lookups]⟩
    cases l <;> simp [lookups]
  | cons f fs ih =>
    obtain ⟨i1, i2⟩ := ih
    rw [lookups]
    cases hf : d.lookup f with
    | none =>
      simp only [reduceCtorEq, false_iff, exists_false]
      refine ⟨fun l h => ?_, fun h => ?_⟩
      · cases l <;> simp [hf] at h
      · obtain ⟨s, hs⟩ := h f (List.mem_cons_self ..)
        rw [hf] at hs; cases hs
    | some s =>
      simp only
      cases hl : lookups d fs with
      | error e =>
        rw [hl] at i1 i2
        simp only [reduceCtorEq, false_iff, exists_false] at i1 i2 ⊢
        refine ⟨fun l h => ?_, fun h => i2 (fun f hf => h f (List.mem_cons_of_mem _ hf))⟩
        cases l with
        | nil => simp at h
        | cons a l =>
          simp only [List.map_cons, List.cons.injEq] at h
          exact i1 l h.2
      | ok l0 =>
        rw [hl] at i1 i2
        refine ⟨fun l => ?_, ?_⟩
        · cases l with
          | nil => simp
          | cons a l =>
            have := i1 l
            simp only [Except.ok.injEq, List.map_cons, List.cons.injEq, hf, Option.some.injEq] at this ⊢
            rw [this]
        · have := i2.1 ⟨l0, rfl⟩
          simp only [Except.ok.injEq, exists_eq', List.forall_mem_cons, true_iff]
          exact ⟨⟨s, hf⟩, this⟩

theorem baseSpaces_spec (known : String → Bool) (d : Dict) (fs : List String) :
    (∀ l, baseSpaces known d fs = .ok l → fs.map (fun f => d.lookup f) = l.map some) ∧
    ((∃ l, baseSpaces known d fs = .ok l) ↔ ∀ f ∈ fs, ∃ s, d.lookup f = some s ∧ known s = true) := by
  obtain ⟨h1, h2⟩ := lookups_spec d fs
  unfold baseSpaces
  cases hl : lookups d fs with
  | error e =>
    rw [hl] at h2
    simp only [reduceCtorEq, exists_false, false_iff, false_implies, implies_true, true_and] at h2 ⊢
    exact fun h => h2 (fun f hf => (h f hf).imp fun s hs => hs.1)
  | ok l =>
    have hm := (h1 l).1 hl
    simp only
    constructor
    · intro l' h
      split at h
      · cases h; exact hm
      · cases h
    · have hx : l.all known = true ↔ ∀ f ∈ fs, ∃ s, d.lookup f = some s ∧ known s = true := by
        rw [List.all_eq_true]
        constructor
        · intro h f hf
          have : d.lookup f ∈ l.map some := by rw [← hm]; exact List.mem_map_of_mem hf
          obtain ⟨s, hs, e⟩ := List.mem_map.1 this
          exact ⟨s, e.symm, h s hs⟩
        · intro h s hs
          have : some s ∈ fs.map (fun f => d.lookup f) := by rw [hm]; exact List.mem_map_of_mem hs
          obtain ⟨f, hf, e⟩ := List.mem_map.1 this
          obtain ⟨s', e', k⟩ := h f hf
          rw [e] at e'; cases e'; exact k
      rw [← hx]
      split <;> simp_all

/-- A list in the right order is left as it is. -/
theorem reorder_ordered (ts : List Tracer) (h : Ordered ts) : reorder ts = ts := by
  have step : ∀ i, swapStep ts i = ts := by
    intro i
    unfold swapStep
    split
    · rfl
    rename_i t ht
    split
    · rename_i he
      split
      · rfl
      rename_i j hj
      obtain ⟨hjl, hjn, -⟩ := List.findIdx?_eq_some_iff_getElem.1 hj
      have hjr : ts[j]? = some ts[j] := by simp [hjl]
      have hdj : some ts[j].name = t.density := by simpa using hjn
      have := h i j t ts[j] ht hjr he hdj.symm
      rw [if_neg (by omega)]
    · rfl
  unfold reorder
  generalize List.range (ts.length - 1) = l
  induction l with
  | nil => rfl
  | cons a l ih => rw [List.foldl_cons, step, ih]

theorem startTracers_eq (O : Objs) (c : Call) : startTracers O c = passed O c := rfl

/-! ### C137 -/

/-- **C137** (spaces).  A set is built exactly if tracers are passed only to classes that take them, every variable has a
requested (or default) space that the domain has, the names of the tracers differ from each other and from those of the
variables, their spaces exist and do not contradict the dictionary.  Then its variables are those of the class in order,
followed by all the tracers, a tracer after its reference density, and the spaces are the requested ones in the same order.
Missing: the shallow-water classes with a given dictionary, see the refutation. -/
theorem C137_spaces_partial (known : String → Bool) (O : Objs) (c : Call) (hu : c.dict = none ∨ usesGiven c.kind = true) :
    ((∃ b, (construct known c O).2 = .ok b) ↔
      (refusesTracers c.kind = true → c.tracers = none) ∧
      (∀ f ∈ fieldNames c.kind, ∃ s, requested O c f = some s ∧ known s = true) ∧
      NamesNodup (passed O c) ∧ (∀ t ∈ passed O c, t.name ∉ fieldNames c.kind ∧ known t.space = true) ∧
      ∀ t ∈ passed O c, ∀ s, requested O c t.name = some s → s = t.space) ∧
    (∀ b, (construct known c O).2 = .ok b → ∃ us : List Tracer, us.Perm (passed O c) ∧ (NoChains (passed O c) → Ordered us) ∧
      b.fields = fieldNames c.kind ++ us.map Tracer.name ∧
      b.spaces.map some = (fieldNames c.kind).map (requested O c) ++ us.map (fun t => some t.space)) := by
  have hd : requested O c = fun f => (startDict O c).lookup f := by
    funext f
    unfold requested startDict
    rcases hu with h | h
    · simp [h]
    · cases c.dict <;> simp [h]
  have hp : (reorder (passed O c)).Perm (passed O c) := fold_perm _ _
  have hnn : NamesNodup (reorder (passed O c)) ↔ NamesNodup (passed O c) := (hp.map Tracer.name).nodup_iff
  obtain ⟨b1, b2⟩ := baseSpaces_spec known (startDict O c) (fieldNames c.kind)
  rw [hd]
  by_cases hr : (refusesTracers c.kind && c.tracers.isSome) = true
  · have hcon : (construct known c O).2 = .error .noTracers := by unfold construct; rw [if_pos hr]
    rw [hcon]
    rw [Bool.and_eq_true, Option.isSome_iff_ne_none] at hr
    refine ⟨?_, by simp⟩
    simp only [reduceCtorEq, exists_false, false_iff]
    exact fun h => hr.2 (h.1 hr.1)
  · have hr' : refusesTracers c.kind = true → c.tracers = none := by
      intro h
      by_contra hne
      exact hr (by rw [Bool.and_eq_true, Option.isSome_iff_ne_none]; exact ⟨h, hne⟩)
    cases hb : baseSpaces known (startDict O c) (fieldNames c.kind) with
    | error e =>
      have hcon : (construct known c O).2 = .error e := by unfold construct; rw [if_neg hr]; simp only [hb]
      rw [hcon]
      rw [hb] at b2
      simp only [reduceCtorEq, exists_false, false_iff] at b2
      refine ⟨?_, by simp⟩
      simp only [reduceCtorEq, exists_false, false_iff]
      exact fun h => b2 h.2.1
    | ok l =>
      have hm := b1 l hb
      have hk := b2.1 ⟨l, hb⟩
      obtain ⟨s1, s2⟩ := addAll_spec known (reorder (passed O c)) ⟨fieldNames c.kind, startDict O c, l⟩
      cases ha : addAll known ⟨fieldNames c.kind, startDict O c, l⟩ (reorder (passed O c)) with
      | mk n e =>
        rw [ha] at s1 s2
        rw [hnn] at s1
        simp only [hp.mem_iff] at s1 s2
        cases e with
        | some e =>
          have hcon : (construct known c O).2 = .error e := by
            unfold construct; rw [if_neg hr]; simp only [hb, startTracers_eq, ha]
          rw [hcon]
          simp only [reduceCtorEq, false_iff] at s1
          refine ⟨?_, by simp⟩
          simp only [reduceCtorEq, exists_false, false_iff]
          rintro ⟨-, -, h1, h2, h3⟩
          exact s1 ⟨h1, fun t ht => (h2 t ht).1, fun t ht => (h2 t ht).2, h3⟩
        | none =>
          have hcon : (construct known c O).2 = .ok ⟨n.fields, n.spaces⟩ := by
            unfold construct; rw [if_neg hr]; simp only [hb, startTracers_eq, ha]
          rw [hcon]
          have s1' := s1.1 rfl
          have s2' := s2 rfl
          refine ⟨⟨fun _ => ⟨hr', hk, s1'.1, fun t ht => ⟨s1'.2.1 t ht, s1'.2.2.1 t ht⟩, s1'.2.2.2⟩, fun _ => ⟨_, rfl⟩⟩, ?_⟩
          intro b hbb
          cases hbb
          refine ⟨reorder (passed O c), hp, fun hc => (C55_order_partial _ s1'.1 hc).2, s2'.1, ?_⟩
          simp only
          rw [s2'.2.1, List.map_append, hm, List.map_map]
          rfl

/-- **C137** (defaults).  Without `space_names` and tracers, on a domain with the spaces `HDiv`, `L2` and `theta`, the
variables and spaces are the documented ones. -/
theorem C137_defaults (known : String → Bool) (O : Objs) (h1 : known "HDiv" = true) (h2 : known "L2" = true)
    (h3 : known "theta" = true) :
    (∀ k ∈ [Kind.shallowWater, .linearShallowWater],
      (construct known ⟨k, none, none⟩ O) = (O, .ok ⟨["u", "D"], ["HDiv", "L2"]⟩)) ∧
    (∀ k ∈ [Kind.thermal false, .linearThermal false],
      (construct known ⟨k, none, none⟩ O) = (O, .ok ⟨["u", "D", "b"], ["HDiv", "L2", "L2"]⟩)) ∧
    (∀ k ∈ [Kind.thermal true, .linearThermal true],
      (construct known ⟨k, none, none⟩ O) = (O, .ok ⟨["u", "D", "b_e", "q_t"], ["HDiv", "L2", "L2", "L2"]⟩)) ∧
    (∀ k ∈ [Kind.shallowWater1d, .linearShallowWater1d],
      (construct known ⟨k, none, none⟩ O) = (O, .ok ⟨["u", "v", "D"], ["HDiv", "L2", "L2"]⟩)) ∧
    (∀ k ∈ [Kind.boussinesq, .linearBoussinesq],
      (construct known ⟨k, none, none⟩ O) = (O, .ok ⟨["u", "p", "b"], ["HDiv", "L2", "theta"]⟩)) ∧
    (∀ k ∈ [Kind.euler, .hydrostatic],
      (construct known ⟨k, none, none⟩ O) = (O, .ok ⟨["u", "rho", "theta"], ["HDiv", "L2", "theta"]⟩)) := by
  refine ⟨?_, ?_, ?_, ?_, ?_, ?_⟩ <;>
  · intro k hk
    simp only [List.mem_cons, List.not_mem_nil, or_false] at hk
    rcases hk with rfl | rfl <;>
    simp [construct, refusesTracers, baseSpaces, startDict, fieldNames, ownDict, lookups, List.lookup, h1, h2, h3,
      startTracers, reorder, addAll, writeDict, writeTracers]

/-- **C137** (request ignored, refuted).  The six shallow-water classes build the same set whatever dictionary is given:
a request for another space has no effect and raises no error. -/
theorem C137_ignored_refuted (known : String → Bool) (O : Objs) (k : Kind) (hk : usesGiven k = false) (i : ℕ) (t : Option ℕ) :
    construct known ⟨k, some i, t⟩ O = construct known ⟨k, none, t⟩ O := by
  unfold construct
  simp [startDict, hk, startTracers, writeDict, writeTracers]

/-- Which classes ignore the dictionary. -/
theorem C137_ignored_classes_refuted (k : Kind) : usesGiven k = false ↔
    k = .shallowWater ∨ k = .linearShallowWater ∨ (∃ e, k = .thermal e) ∨ (∃ e, k = .linearThermal e) ∨
    k = .shallowWater1d ∨ k = .linearShallowWater1d := by
  cases k <;> simp [usesGiven]

theorem construct_objs (known : String → Bool) (O : Objs) (c : Call) :
    (∀ i, (construct known c O).1.dicts i = O.dicts i ∨
      (c.dict = some i ∧ usesGiven c.kind = true ∧ ∃ l, (construct known c O).1.dicts i =
        (addAll known ⟨fieldNames c.kind, O.dicts i, l⟩ (reorder (passed O c))).1.spaceNames)) ∧
    (∀ j, (construct known c O).1.tracers j = O.tracers j ∨
      (c.tracers = some j ∧ (construct known c O).1.tracers j = reorder (O.tracers j))) := by
  have main : ∀ d l, (∀ i, (writeTracers (writeDict O c d) c l).dicts i = O.dicts i ∨ (c.dict = some i ∧ usesGiven c.kind = true ∧
      (writeTracers (writeDict O c d) c l).dicts i = d)) ∧
      ∀ j, (writeTracers (writeDict O c d) c l).tracers j = O.tracers j ∨ (c.tracers = some j ∧
        (writeTracers (writeDict O c d) c l).tracers j = l) := by
    intro d l
    obtain ⟨k, di, tj⟩ := c
    constructor
    · intro i
      cases di with
      | none => left; cases tj <;> simp [writeTracers, writeDict]
      | some a =>
        by_cases hu : usesGiven k = true
        · by_cases ha : a = i
          · subst ha
            right; refine ⟨rfl, hu, ?_⟩
            cases tj <;> simp [writeTracers, writeDict, hu]
          · left
            cases tj <;> simp [writeTracers, writeDict, hu, Function.update_of_ne (Ne.symm ha)]
        · left
          cases tj <;> simp [writeTracers, writeDict, hu]
    · intro j
      have hw : (writeDict O ⟨k, di, tj⟩ d).tracers = O.tracers := by
        unfold writeDict
        cases di with
        | none => rfl
        | some a => simp only; split <;> rfl
      cases tj with
      | none => left; simp [writeTracers, hw]
      | some a =>
        by_cases ha : a = j
        · subst ha; right; simp [writeTracers]
        · left; simp [writeTracers, Function.update_of_ne (Ne.symm ha), hw]
  unfold construct
  split
  · exact ⟨fun _ => Or.inl rfl, fun _ => Or.inl rfl⟩
  simp only
  split
  · exact ⟨fun _ => Or.inl rfl, fun _ => Or.inl rfl⟩
  rename_i l hl
  have fin : ∀ n : Names, n = (addAll known ⟨fieldNames c.kind, startDict O c, l⟩ (reorder (startTracers O c))).1 →
      (∀ i, (writeTracers (writeDict O c n.spaceNames) c (reorder (startTracers O c))).dicts i = O.dicts i ∨
      (c.dict = some i ∧ usesGiven c.kind = true ∧ ∃ l,
        (writeTracers (writeDict O c n.spaceNames) c (reorder (startTracers O c))).dicts i =
        (addAll known ⟨fieldNames c.kind, O.dicts i, l⟩ (reorder (passed O c))).1.spaceNames)) ∧
      (∀ j, (writeTracers (writeDict O c n.spaceNames) c (reorder (startTracers O c))).tracers j = O.tracers j ∨
      (c.tracers = some j ∧ (writeTracers (writeDict O c n.spaceNames) c (reorder (startTracers O c))).tracers j
        = reorder (O.tracers j))) := by
    intro n hn
    obtain ⟨m1, m2⟩ := main n.spaceNames (reorder (startTracers O c))
    constructor
    · intro i
      rcases m1 i with h | ⟨h1, h2, h3⟩
      · exact Or.inl h
      · refine Or.inr ⟨h1, h2, l, ?_⟩
        rw [h3, hn]
        have : startDict O c = O.dicts i := by simp [startDict, h1, h2]
        rw [this]
        rfl
    · intro j
      rcases m2 j with h | ⟨h1, h2⟩
      · exact Or.inl h
      · refine Or.inr ⟨h1, ?_⟩
        rw [h2]
        simp [startTracers, h1]
  split
  · rename_i n e ha
    exact fin n (by rw [ha])
  · rename_i n ha
    exact fin n (by rw [ha])

/-- **C137** (side effects).  A constructor changes at most the dictionary and the list that are passed to it.  It keeps every
entry of the dictionary and adds only entries of the passed tracers; it leaves the dictionary alone if the class ignores it.
The list keeps its tracers, and is left alone if it is already in the right order. -/
theorem C137_effects (known : String → Bool) (O : Objs) (c : Call) :
    (∀ i, c.dict ≠ some i ∨ usesGiven c.kind = false → (construct known c O).1.dicts i = O.dicts i) ∧
    (∀ i f s, (O.dicts i).lookup f = some s → ((construct known c O).1.dicts i).lookup f = some s) ∧
    (∀ i f s, ((construct known c O).1.dicts i).lookup f = some s → (O.dicts i).lookup f = some s ∨
      ∃ t ∈ passed O c, t.name = f ∧ t.space = s) ∧
    (∀ j, c.tracers ≠ some j → (construct known c O).1.tracers j = O.tracers j) ∧
    (∀ j, ((construct known c O).1.tracers j).Perm (O.tracers j)) ∧
    (∀ j, Ordered (O.tracers j) → (construct known c O).1.tracers j = O.tracers j) := by
  obtain ⟨h1, h2⟩ := construct_objs known O c
  refine ⟨?_, ?_, ?_, ?_, ?_, ?_⟩
  · intro i hi
    rcases h1 i with h | ⟨ha, hb, -⟩
    · exact h
    · rcases hi with hi | hi
      · exact absurd ha hi
      · rw [hb] at hi; cases hi
  · intro i f s hs
    rcases h1 i with h | ⟨-, -, l, h⟩
    · rw [h]; exact hs
    · rw [h]; exact (addAll_dict known _ _).1 f s hs
  · intro i f s hs
    rcases h1 i with h | ⟨-, -, l, h⟩
    · rw [h] at hs; exact Or.inl hs
    · rw [h] at hs
      rcases (addAll_dict known _ _).2 f s hs with h | ⟨t, ht, e⟩
      · exact Or.inl h
      · exact Or.inr ⟨t, (fold_perm _ _).mem_iff.1 ht, e⟩
  · intro j hj
    rcases h2 j with h | ⟨ha, -⟩
    · exact h
    · exact absurd ha hj
  · intro j
    rcases h2 j with h | ⟨-, h⟩
    · rw [h]
    · rw [h]; exact fold_perm _ _
  · intro j hj
    rcases h2 j with h | ⟨-, h⟩
    · exact h
    · rw [h]; exact reorder_ordered _ hj

/-- **C137** (histories).  Whatever sets have been built before, or refused, the entries of every dictionary are still there
and every list has its tracers. -/
theorem C137_history (known : String → Bool) (cs : List Call) : ∀ O : Objs,
    (∀ i f s, (O.dicts i).lookup f = some s → ((run known O cs).dicts i).lookup f = some s) ∧
    (∀ j, ((run known O cs).tracers j).Perm (O.tracers j)) := by
  induction cs with
  | nil => intro O; exact ⟨fun _ _ _ h => h, fun _ => List.Perm.refl _⟩
  | cons c cs ih =>
    intro O
    obtain ⟨e1, e2, e3, e4, e5, e6⟩ := C137_effects known O c
    obtain ⟨i1, i2⟩ := ih (construct known c O).1
    exact ⟨fun i f s h => i1 i f s (e2 i f s h), fun j => (i2 j).trans (e5 j)⟩

/-- **C137** (shared dictionary, refuted).  Once a dictionary has an entry for a tracer, entered by a constructor or by the
user, no later constructor that uses this dictionary accepts a tracer of this name in another space. -/
theorem C137_reuse_refuted (known : String → Bool) (O : Objs) (i : ℕ) (cs : List Call) (c : Call) (hc : c.dict = some i)
    (hu : usesGiven c.kind = true) (t : Tracer) (s : String) (hs : (O.dicts i).lookup t.name = some s) (hne : s ≠ t.space)
    (ht : t ∈ passed (run known O cs) c) : ¬ ∃ b, (construct known c (run known O cs)).2 = .ok b := by
  rw [(C137_spaces_partial known _ c (Or.inr hu)).1]
  rintro ⟨-, -, -, -, h⟩
  refine hne (h t ht s ?_)
  simp only [requested, hc]
  exact (C137_history known cs O).1 i _ _ hs

theorem addAll_sim (known : String → Bool) (ts : List Tracer) : ∀ n n' : Names, n'.fields = n.fields → n'.spaces = n.spaces →
    (∀ t ∈ ts, clash n'.spaceNames t ↔ clash n.spaceNames t) →
    (addAll known n' ts).2 = (addAll known n ts).2 ∧ (addAll known n' ts).1.fields = (addAll known n ts).1.fields ∧
      (addAll known n' ts).1.spaces = (addAll known n ts).1.spaces := by
  induction ts with
  | nil => intro n n' h1 h2 _; exact ⟨rfl, h1, h2⟩
  | cons t ts ih =>
    intro n n' h1 h2 h3
    have ht := h3 t (List.mem_cons_self ..)
    rw [addAll, addAll, h1]
    by_cases hin : t.name ∈ n.fields
    · rw [if_pos hin, if_pos hin]; exact ⟨rfl, h1, h2⟩
    rw [if_neg hin, if_neg hin]
    by_cases hc : clash n.spaceNames t
    · rw [if_pos hc, if_pos (ht.2 hc)]; exact ⟨rfl, rfl, h2⟩
    rw [if_neg hc, if_neg (fun h => hc (ht.1 h))]
    by_cases hk : known t.space = true
    · rw [if_pos hk, if_pos hk]
      refine ih _ _ rfl (by rw [h2]) ?_
      intro x hx
      have hxc := h3 x (List.mem_cons_of_mem _ hx)
      by_cases hxn : x.name = t.name
      · have e1 : (enter n.spaceNames t).lookup x.name = some t.space := by
          rw [hxn, lookup_enter]
          cases hl : n.spaceNames.lookup t.name with
          | some s => rw [(not_clash _ _).1 hc s hl]; rfl
          | none => simp
        have e2 : (enter n'.spaceNames t).lookup x.name = some t.space := by
          rw [hxn, lookup_enter]
          cases hl : n'.spaceNames.lookup t.name with
          | some s => rw [(not_clash _ _).1 (fun h => hc (ht.1 h)) s hl]; rfl
          | none => simp
        simp only [clash, e1, e2]
      · have e1 : (enter n.spaceNames t).lookup x.name = n.spaceNames.lookup x.name := by
          rw [lookup_enter, if_neg hxn, Option.or_none]
        have e2 : (enter n'.spaceNames t).lookup x.name = n'.spaceNames.lookup x.name := by
          rw [lookup_enter, if_neg hxn, Option.or_none]
        unfold clash at hxc ⊢
        simp only [e1, e2]
        exact hxc
    · rw [if_neg hk, if_neg hk]; exact ⟨rfl, rfl, h2⟩

theorem lookups_congr (d d' : Dict) (fs : List String) (h : ∀ f ∈ fs, d'.lookup f = d.lookup f) :
    lookups d' fs = lookups d fs := by
  induction fs with
  | nil => rfl
  | cons f fs ih =>
    rw [lookups, lookups, h f (List.mem_cons_self ..), ih fun g hg => h g (List.mem_cons_of_mem _ hg)]

theorem construct_sim (known : String → Bool) (O O' : Objs) (c : Call)
    (h1 : reorder (passed O' c) = reorder (passed O c))
    (h2 : ∀ f ∈ fieldNames c.kind, (startDict O' c).lookup f = (startDict O c).lookup f)
    (h3 : ∀ t ∈ passed O c, clash (startDict O' c) t ↔ clash (startDict O c) t) :
    (construct known c O').2 = (construct known c O).2 := by
  unfold construct
  split
  · rfl
  have hb : baseSpaces known (startDict O' c) (fieldNames c.kind) = baseSpaces known (startDict O c) (fieldNames c.kind) := by
    unfold baseSpaces
    rw [lookups_congr _ _ _ h2]
  simp only [hb, startTracers_eq, h1]
  cases baseSpaces known (startDict O c) (fieldNames c.kind) with
  | error e => rfl
  | ok l =>
    simp only
    obtain ⟨e1, e2, e3⟩ := addAll_sim known (reorder (passed O c)) ⟨fieldNames c.kind, startDict O c, l⟩
      ⟨fieldNames c.kind, startDict O' c, l⟩ rfl rfl (fun t ht => h3 t ((fold_perm _ _).mem_iff.1 ht))
    cases ha : addAll known ⟨fieldNames c.kind, startDict O c, l⟩ (reorder (passed O c)) with
    | mk n e =>
      cases ha' : addAll known ⟨fieldNames c.kind, startDict O' c, l⟩ (reorder (passed O c)) with
      | mk n' e' =>
        rw [ha, ha'] at e1 e2 e3
        simp only at e1 e2 e3
        subst e1
        cases e' <;> simp [e2, e3]

theorem reorder_twice (ts : List Tracer) (hn : NamesNodup ts) (hc : NoChains ts) : reorder (reorder ts) = reorder ts :=
  reorder_ordered _ (C55_order_partial ts hn hc).2

theorem run_state (known : String → Bool) (σ : String → String) (cs : List Call) : ∀ O : Objs,
    (∀ j, NamesNodup (O.tracers j) ∧ NoChains (O.tracers j)) → (∀ j, ∀ t ∈ O.tracers j, t.space = σ t.name) →
    (∀ j, reorder ((run known O cs).tracers j) = reorder (O.tracers j)) ∧
    (∀ i f s, ((run known O cs).dicts i).lookup f = some s → (O.dicts i).lookup f = some s ∨ s = σ f) := by
  induction cs with
  | nil => intro O _ _; exact ⟨fun _ => rfl, fun _ _ _ h => Or.inl h⟩
  | cons c cs ih =>
    intro O hn hs
    obtain ⟨e1, e2, e3, e4, e5, e6⟩ := C137_effects known O c
    obtain ⟨i1, i2⟩ := ih (construct known c O).1
      (fun j => ⟨names_perm (e5 j) (hn j).1, noChains_perm (e5 j) (hn j).2⟩)
      (fun j t ht => hs j t ((e5 j).mem_iff.1 ht))
    refine ⟨fun j => ?_, fun i f s h => ?_⟩
    · rw [run, i1 j]
      rcases (construct_objs known O c).2 j with h | ⟨-, h⟩
      · rw [h]
      · rw [h, reorder_twice _ (hn j).1 (hn j).2]
    · rcases i2 i f s h with h | h
      · rcases e3 i f s h with h | ⟨t, ht, he, hse⟩
        · exact Or.inl h
        · right
          unfold passed at ht
          cases hct : c.tracers with
          | none => rw [hct] at ht; simp at ht
          | some j =>
            rw [hct] at ht
            rw [← hse, ← he]
            exact hs j t ht
      · exact Or.inr h

/-- **C137** (shared objects).  If the tracers of a name have the same space in all lists of the program, the names in a list
differ and there are no chains of densities, dictionaries and lists can be shared freely: a constructor whose dictionary
has a space for each of its own variables gives the same set, or the same exception, after any history of constructors as
it would at the start. -/
theorem C137_shared (known : String → Bool) (σ : String → String) (O : Objs) (cs : List Call) (c : Call)
    (hn : ∀ j, NamesNodup (O.tracers j) ∧ NoChains (O.tracers j)) (hs : ∀ j, ∀ t ∈ O.tracers j, t.space = σ t.name)
    (hf : ∀ i, c.dict = some i → ∀ f ∈ fieldNames c.kind, ∃ s, (O.dicts i).lookup f = some s) :
    (construct known c (run known O cs)).2 = (construct known c O).2 := by
  obtain ⟨r1, r2⟩ := run_state known σ cs O hn hs
  obtain ⟨k1, k2⟩ := C137_history known cs O
  have hstart : ∀ P : Objs, startDict P c = match c.dict with
      | none => ownDict c.kind
      | some i => if usesGiven c.kind then P.dicts i else ownDict c.kind := fun _ => rfl
  refine construct_sim known O _ c ?_ ?_ ?_
  · unfold passed
    cases c.tracers with
    | none => rfl
    | some j => exact r1 j
  · intro f hff
    rw [hstart, hstart]
    cases hd : c.dict with
    | none => rfl
    | some i =>
      simp only
      split
      · obtain ⟨s, h⟩ := hf i hd f hff
        rw [h]
        exact k1 i f s h
      · rfl
  · intro t ht
    rw [hstart, hstart]
    cases hd : c.dict with
    | none => rfl
    | some i =>
      simp only
      split
      · have hts : t.space = σ t.name := by
          unfold passed at ht
          cases hct : c.tracers with
          | none => rw [hct] at ht; simp at ht
          | some j => rw [hct] at ht; exact hs j t ht
        have : ¬ clash ((run known O cs).dicts i) t ↔ ¬ clash (O.dicts i) t := by
          rw [not_clash, not_clash]
          constructor
          · intro h s hss
            exact h s (k1 i _ _ hss)
          · intro h s hss
            rcases r2 i _ _ hss with h' | h'
            · exact h s h'
            · rw [h', hts]
        exact not_iff_not.1 this
      · rfl

/-- **C137** (repetition).  A constructor that has succeeded gives the same set when it is called again with the same objects,
if there is no chain of densities. -/
theorem C137_repeat (known : String → Bool) (O : Objs) (c : Call) (b : Built) (h : (construct known c O).2 = .ok b)
    (hc : NoChains (passed O c)) : (construct known c (construct known c O).1).2 = .ok b := by
  obtain ⟨e1, e2, e3, e4, e5, e6⟩ := C137_effects known O c
  rw [← h]
  have hstart : ∀ P : Objs, startDict P c = match c.dict with
      | none => ownDict c.kind
      | some i => if usesGiven c.kind then P.dicts i else ownDict c.kind := fun _ => rfl
  by_cases hu : c.dict = none ∨ usesGiven c.kind = true
  · obtain ⟨p1, p2, p3, p4, p5⟩ := (C137_spaces_partial known O c hu).1.1 ⟨b, h⟩
    have hreq : requested O c = fun f => (startDict O c).lookup f := by
      funext f
      unfold requested startDict
      rcases hu with h | h
      · simp [h]
      · cases c.dict <;> simp [h]
    refine construct_sim known O _ c ?_ ?_ ?_
    · cases hct : c.tracers with
      | none => simp [passed, hct]
      | some j =>
        simp only [passed, hct]
        simp only [passed, hct] at p3 hc
        rcases (construct_objs known O c).2 j with h | ⟨-, h⟩
        · rw [h]
        · rw [h, reorder_twice _ p3 hc]
    · intro f hf
      rw [hstart, hstart]
      cases hd : c.dict with
      | none => rfl
      | some i =>
        simp only
        split
        · obtain ⟨s, hs, -⟩ := p2 f hf
          simp only [requested, hd] at hs
          rw [hs]
          exact e2 i f s hs
        · rfl
    · intro t ht
      rw [hstart, hstart]
      cases hd : c.dict with
      | none => rfl
      | some i =>
        simp only
        split
        · have n1 : ¬ clash (O.dicts i) t := by
            rw [not_clash]
            intro s hs
            exact p5 t ht s (by simp only [requested, hd]; exact hs)
          have n2 : ¬ clash ((construct known c O).1.dicts i) t := by
            rw [not_clash]
            intro s hs
            rcases e3 i _ _ hs with h' | ⟨t', ht', he, hse⟩
            · exact (not_clash _ _).1 n1 s h'
            · have : t' = t := List.inj_on_of_nodup_map p3 ht' ht he
              rw [← hse, this]
          simp [n1, n2]
        · rfl
  · have hd : ∃ i, c.dict = some i := by
      cases hd : c.dict with
      | none => exact absurd (Or.inl hd) hu
      | some i => exact ⟨i, rfl⟩
    obtain ⟨i, hd⟩ := hd
    have hu' : usesGiven c.kind = false := by
      cases hx : usesGiven c.kind with
      | true => exact absurd (Or.inr hx) hu
      | false => rfl
    have hsd : ∀ P, startDict P c = ownDict c.kind := by intro P; simp [startDict, hd, hu']
    refine construct_sim known O _ c ?_ (by intro f _; rw [hsd, hsd]) (by intro t _; rw [hsd, hsd])
    have p3 : NamesNodup (passed O c) := by
      have hig := C137_ignored_refuted known O c.kind hu' i c.tracers
      have hcc : (⟨c.kind, some i, c.tracers⟩ : Call) = c := by rw [← hd]
      rw [hcc] at hig
      rw [hig] at h
      exact ((C137_spaces_partial known O ⟨c.kind, none, c.tracers⟩ (Or.inl rfl)).1.1 ⟨b, h⟩).2.2.1
    cases hct : c.tracers with
    | none => simp [passed, hct]
    | some j =>
      simp only [passed, hct]
      simp only [passed, hct] at p3 hc
      rcases (construct_objs known O c).2 j with h | ⟨-, h⟩
      · rw [h]
      · rw [h, reorder_twice _ p3 hc]

/-! ### Examples -/

/-- A domain with the usual spaces. -/
def usual (s : String) : Bool := s ∈ ["HDiv", "L2", "theta", "DG", "H1"]

/-- A user's objects: dictionary 0 with `theta` in `DG`; list 0 with vapour in `DG`, list 1 in `theta`, list 2 in a space that
does not exist, list 3 a chain, list 4 a mixing ratio before its density. -/
def objs : Objs where
  dicts := fun _ => [("u", "HDiv"), ("rho", "L2"), ("theta", "DG")]
  tracers := fun j => match j with
    | 0 => [⟨"vapour", "DG", .advective, none⟩]
    | 1 => [⟨"vapour", "theta", .advective, none⟩]
    | 2 => [⟨"vapour", "thta", .advective, none⟩]
    | 3 => chain
    | 4 => [⟨"m", "DG", .tracerConservative, some "d"⟩, ⟨"d", "DG", .conservative, none⟩]
    | _ => []

/-- The request is used by the compressible equations, with the tracer after the variables. -/
example : (construct usual ⟨.euler, some 0, some 0⟩ objs).2 =
    .ok ⟨["u", "rho", "theta", "vapour"], ["HDiv", "L2", "DG", "DG"]⟩ := by decide

example : (construct usual ⟨.euler, some 0, some 4⟩ objs).2 =
    .ok ⟨["u", "rho", "theta", "d", "m"], ["HDiv", "L2", "DG", "DG", "DG"]⟩ ∧
    (construct usual ⟨.euler, some 0, some 4⟩ (construct usual ⟨.euler, some 0, some 4⟩ objs).1).2 =
    .ok ⟨["u", "rho", "theta", "d", "m"], ["HDiv", "L2", "DG", "DG", "DG"]⟩ := by decide

/-- The shallow-water equations do not use it: the depth stays in `L2` although the dictionary says `DG`. -/
theorem C137_depth_refuted : ∃ O : Objs, (O.dicts 0).lookup "D" = some "DG" ∧
    (construct usual ⟨.shallowWater, some 0, none⟩ O).2 = .ok ⟨["u", "D"], ["HDiv", "L2"]⟩ := by
  exact ⟨⟨fun _ => [("u", "HDiv"), ("D", "DG")], fun _ => []⟩, by decide, by decide⟩

/-- **C137** (shared dictionary, example).  Vapour in `DG` and then, in another set, in `theta`: the second set is refused if
it uses the dictionary of the first, and accepted if it does not. -/
theorem C137_second_set_refuted :
    (∃ b, (construct usual ⟨.euler, some 0, some 0⟩ objs).2 = .ok b) ∧
    (construct usual ⟨.euler, some 0, some 1⟩ (construct usual ⟨.euler, some 0, some 0⟩ objs).1).2 = .error .conflict ∧
    ∃ b, (construct usual ⟨.euler, some 1, some 1⟩ (construct usual ⟨.euler, some 0, some 0⟩ objs).1).2 = .ok b :=
  ⟨⟨_, by rfl⟩, by decide, ⟨_, by rfl⟩⟩

/-- **C137** (retry, refuted).  A constructor that has failed because a tracer names a space that does not exist has entered
this name in the user's dictionary: with the name corrected, the constructor fails again. -/
theorem C137_retry_refuted :
    (construct usual ⟨.euler, some 0, some 2⟩ objs).2 = .error .noSpace ∧
    (construct usual ⟨.euler, some 0, some 1⟩ (construct usual ⟨.euler, some 0, some 2⟩ objs).1).2 = .error .conflict ∧
    ∃ b, (construct usual ⟨.euler, some 0, some 1⟩ objs).2 = .ok b :=
  ⟨by decide, by decide, ⟨_, by rfl⟩⟩

/-- **C137** (chains, refuted).  With a chain of densities, the same call repeated gives the variables in another order. -/
theorem C137_chain_refuted :
    (construct usual ⟨.shallowWater, none, some 3⟩ objs).2 =
      .ok ⟨["u", "D", "d", "m", "e"], ["HDiv", "L2", "DG", "DG", "DG"]⟩ ∧
    (construct usual ⟨.shallowWater, none, some 3⟩ (construct usual ⟨.shallowWater, none, some 3⟩ objs).1).2 =
      .ok ⟨["u", "D", "e", "d", "m"], ["HDiv", "L2", "DG", "DG", "DG"]⟩ := by decide

/-- **C137** (empty list, refuted).  The Boussinesq and one-dimensional sets refuse even an empty list of tracers. -/
theorem C137_empty_refuted (known : String → Bool) (O : Objs) (k : Kind) (hk : refusesTracers k = true) (d : Option ℕ) (j : ℕ) :
    construct known ⟨k, d, some j⟩ O = (O, .error .noTracers) := by
  simp [construct, hk]

/-- Every list is a mixing ratio before its density. -/
def objs2 : Objs where
  dicts := fun _ => [("u", "HDiv"), ("rho", "L2"), ("theta", "DG")]
  tracers := fun _ => [⟨"m", "DG", .tracerConservative, some "d"⟩, ⟨"d", "DG", .conservative, none⟩]

/-- The hypotheses of the theorem on shared objects are met: after any history the set is the one built at the start. -/
example (cs : List Call) : (construct usual ⟨.euler, some 0, some 4⟩ (run usual objs2 cs)).2 =
    .ok ⟨["u", "rho", "theta", "d", "m"], ["HDiv", "L2", "DG", "DG", "DG"]⟩ := by
  rw [C137_shared usual (fun _ => "DG") objs2 cs _ ?_ ?_ ?_]
  · rfl
  · refine fun j => ⟨by simp [objs2, NamesNodup], ?_⟩
    intro t ht r hr he hd
    simp only [objs2, List.mem_cons, List.not_mem_nil, or_false] at ht hr
    rcases ht with rfl | rfl <;> rcases hr with rfl | rfl <;> simp_all
  · intro j t ht
    simp only [objs2, List.mem_cons, List.not_mem_nil, or_false] at ht
    rcases ht with rfl | rfl <;> rfl
  · intro i _ f hf
    simp only [fieldNames, List.mem_cons, List.not_mem_nil, or_false] at hf
    rcases hf with rfl | rfl | rfl <;> exact ⟨_, rfl⟩

end Gusto.Props.EqNamesProps
