import Verif.Model.DiagnosticLife
import Verif.Props.TopoSort

set_option autoImplicit false
set_option linter.unusedSectionVars false
set_option linter.unusedSimpArgs false

/-!
# C131, C132: dumped diagnostics agree with the dumped state; the life of a diagnostic field
-/

namespace Gusto.Props.DiagLifeProps
open Gusto Gusto.DiagLife Gusto.TopoSort Gusto.Props.TopoProps
variable {V : Type*}

/-! ### Specification -/

/-- The value of the diagnostic depends only on the fields that it requires. -/
def Local (d : Diag V) : Prop := ∀ s s' : String → V, (∀ r ∈ d.requires, s r = s' r) → d.eval s = d.eval s'

/-- In the state `s` the field of every diagnostic is the diagnostic of the fields of `s`. -/
def Consistent (ds : List (Diag V)) (s : String → V) : Prop := ∀ d ∈ ds, s d.name = d.eval s

/-- Every diagnostic comes after the diagnostics whose fields it requires. -/
def Ordered (ds : List (Diag V)) : Prop :=
  ∀ a d b, ds = a ++ d :: b → ∀ r ∈ d.requires, r ∉ (d :: b).map Diag.name

/-! ### Auxiliary facts -/

theorem computeAll_cons (d : Diag V) (ds : List (Diag V)) (s : String → V) :
    computeAll (d :: ds) s = computeAll ds (Function.update s d.name (d.eval s)) := rfl

theorem computeAll_other (ds : List (Diag V)) (s : String → V) (n : String) (h : n ∉ ds.map Diag.name) :
    computeAll ds s n = s n := by
  induction ds generalizing s with
  | nil => rfl
  | cons d ds ih =>
    simp only [List.map_cons, List.mem_cons, not_or] at h
    rw [computeAll_cons, ih _ h.2, Function.update_of_ne h.1]

theorem Ordered.tail {d : Diag V} {ds : List (Diag V)} (h : Ordered (d :: ds)) : Ordered ds :=
  fun a e b hab r hr => h (d :: a) e b (by rw [hab]; rfl) r hr

theorem consistent_computeAll (ds : List (Diag V)) (hn : (ds.map Diag.name).Nodup) (ho : Ordered ds)
    (hl : ∀ d ∈ ds, Local d) (s : String → V) : Consistent ds (computeAll ds s) := by
  induction ds generalizing s with
  | nil => intro d hd; simp at hd
  | cons d ds ih =>
    rw [List.map_cons, List.nodup_cons] at hn
    intro e he
    rcases List.mem_cons.1 he with rfl | he
    · rw [computeAll_cons, computeAll_other _ _ _ hn.1, Function.update_self]
      refine hl _ (by simp) _ _ fun r hr => ?_
      have := ho [] _ _ rfl r hr
      simp only [List.map_cons, List.mem_cons, not_or] at this
      rw [computeAll_other _ _ _ this.2, Function.update_of_ne this.1]
    · rw [computeAll_cons]
      exact ih hn.2 ho.tail (fun d hd => hl d (by simp [hd])) _ e he

theorem consistent_unique (ds : List (Diag V)) (ho : Ordered ds) (hl : ∀ d ∈ ds, Local d) (s s' : String → V)
    (hs : Consistent ds s) (hs' : Consistent ds s') (hout : ∀ n, n ∉ ds.map Diag.name → s n = s' n) : s = s' := by
  have key : ∀ a b, ds = a ++ b → ∀ n ∈ a.map Diag.name, s n = s' n := by
    intro a
    induction a using List.reverseRecOn with
    | nil => intro b _ n hn; simp at hn
    | append_singleton a d ih =>
      intro b hab n hn
      have hab' : ds = a ++ d :: b := by rw [hab]; simp
      rw [List.map_append, List.mem_append] at hn
      rcases hn with hn | hn
      · exact ih (d :: b) hab' n hn
      · simp only [List.map_cons, List.map_nil, List.mem_singleton] at hn
        subst hn
        have hd : d ∈ ds := by rw [hab']; simp
        rw [hs d hd, hs' d hd]
        refine hl d hd _ _ fun r hr => ?_
        by_cases hra : r ∈ a.map Diag.name
        · exact ih (d :: b) hab' r hra
        · refine hout r ?_
          rw [hab', List.map_append, List.mem_append, not_or]
          exact ⟨hra, ho a d b hab' r hr⟩
  funext n
  by_cases hn : n ∈ ds.map Diag.name
  · exact key ds [] (by simp) n hn
  · exact hout n hn

theorem byName_eq (ds : List (Diag V)) (hn : (ds.map Diag.name).Nodup) (d : Diag V) (hd : d ∈ ds) :
    byName ds d.name = some d := by
  unfold byName
  cases h : ds.reverse.find? fun e => e.name = d.name with
  | none =>
    have := List.find?_eq_none.1 h d (by simpa using hd)
    simp at this
  | some e =>
    have h1 := List.find?_some h
    have h2 : e ∈ ds := by simpa using List.mem_of_find?_eq_some h
    rw [List.inj_on_of_nodup_map hn h2 hd (by simpa using h1)]

theorem filterMap_byName (ds : List (Diag V)) (hn : (ds.map Diag.name).Nodup) (sched : List String)
    (hs : ∀ n ∈ sched, n ∈ ds.map Diag.name) : (sched.filterMap (byName ds)).map Diag.name = sched ∧
      ∀ d ∈ sched.filterMap (byName ds), d ∈ ds := by
  induction sched with
  | nil => simp
  | cons n sched ih =>
    obtain ⟨h1, h2⟩ := ih fun m hm => hs m (by simp [hm])
    obtain ⟨d, hd, rfl⟩ := List.mem_map.1 (hs n (by simp))
    have hb := byName_eq ds hn d hd
    rw [List.filterMap_cons_some hb]
    refine ⟨by rw [List.map_cons, h1], fun e he => ?_⟩
    rcases List.mem_cons.1 he with rfl | he
    · exact hd
    · exact h2 e he

/-- What a successful setup gives, when no diagnostic is mistaken for a field that is there anyway. -/
theorem setsUp_ordered (ds ds' : List (Diag V)) (fields fields' : List (String × FType))
    (hn : (ds.map Diag.name).Nodup) (hav : ∀ d ∈ ds, d.name ∉ nonDiagnostics fields ds)
    (h : SetsUp ds fields ds' fields') : ds'.Perm ds ∧ Ordered ds' := by
  obtain ⟨sched, hs, rfl, rfl⟩ := h
  have hnm : (ds.map fun d => (d.name, d.requires)).map Prod.fst = ds.map Diag.name := by
    rw [List.map_map]; rfl
  have hn' : ((ds.map fun d => (d.name, d.requires)).map Prod.fst).Nodup := by rw [hnm]; exact hn
  obtain ⟨hp, ho⟩ := C17_setup_diagnostics _ _ hn' sched hs
  rw [hnm] at hp
  obtain ⟨h1, h2⟩ := filterMap_byName ds hn sched fun n hm => hp.subset hm
  have hnd' : ((sched.filterMap (byName ds)).map Diag.name).Nodup := by rw [h1]; exact hp.nodup_iff.2 hn
  refine ⟨?_, ?_⟩
  · rw [List.perm_ext_iff_of_nodup hnd'.of_map hn.of_map]
    intro d
    refine ⟨h2 d, fun hd => ?_⟩
    have : d.name ∈ sched := hp.symm.subset (List.mem_map_of_mem hd)
    exact List.mem_filterMap.2 ⟨d.name, this, byName_eq ds hn d hd⟩
  · intro a d b hab r hr
    have hd : d ∈ ds := h2 d (by rw [hab]; simp)
    have hsched : sched = a.map Diag.name ++ d.name :: b.map Diag.name := by
      rw [← h1, hab]; simp
    have hr' := ho (a.map Diag.name) d.name (b.map Diag.name) hsched (d.name, d.requires)
      (List.mem_map_of_mem hd) rfl r hr
    have hnd2 : (a.map Diag.name ++ (d :: b).map Diag.name).Nodup := by
      rw [hab, List.map_append] at hnd'
      exact hnd'
    rcases hr' with hr' | hr'
    · exact fun hc => (List.nodup_append.1 hnd2).2.2 r hr' r hc rfl
    · intro hc
      obtain ⟨e, he, rfl⟩ := List.mem_map.1 hc
      exact hav e (h2 e (by rw [hab]; exact List.mem_append_right _ he)) hr'

/-! ### C131 -/

/-- C131: one dump.  Let the diagnostics have different names, let each read only what it requires, and let none have the
name of a field that is not a diagnostic.  After `setup_diagnostics`, whatever the fields contain, `dump` leaves all other
fields alone and makes the field of every diagnostic the diagnostic of the dumped fields (including the dumped
diagnostics); a second evaluation changes nothing. -/
theorem C131_dump_consistent (ds ds' : List (Diag V)) (fields fields' : List (String × FType))
    (hn : (ds.map Diag.name).Nodup) (hl : ∀ d ∈ ds, Local d) (hav : ∀ d ∈ ds, d.name ∉ nonDiagnostics fields ds)
    (h : SetsUp ds fields ds' fields') (s : String → V) :
    (∀ d ∈ ds, computeAll ds' s d.name = d.eval (computeAll ds' s)) ∧
    (∀ n, n ∉ ds.map Diag.name → computeAll ds' s n = s n) ∧
    computeAll ds' (computeAll ds' s) = computeAll ds' s := by
  obtain ⟨hp, ho⟩ := setsUp_ordered ds ds' fields fields' hn hav h
  have hn' : (ds'.map Diag.name).Nodup := ((hp.map Diag.name).nodup_iff).2 hn
  have hl' : ∀ d ∈ ds', Local d := fun d hd => hl d (hp.subset hd)
  have hc : ∀ s, Consistent ds' (computeAll ds' s) := fun s => consistent_computeAll ds' hn' ho hl' s
  refine ⟨fun d hd => hc s d (hp.symm.subset hd), fun n hnn => ?_, ?_⟩
  · exact computeAll_other _ _ _ fun hm => hnn ((hp.map Diag.name).subset hm)
  · exact consistent_unique ds' ho hl' _ _ (hc _) (hc s) fun n hnn => computeAll_other _ _ _ hnn

/-- C131: the dumped diagnostics do not depend on the order in which the user lists the diagnostics, nor on what their
fields held before: they are determined by the fields which are not diagnostics. -/
theorem C131_order_independent (ds₁ ds₂ ds₁' ds₂' : List (Diag V)) (fields fields₁' fields₂' : List (String × FType))
    (hp : ds₁.Perm ds₂) (hn : (ds₁.map Diag.name).Nodup) (hl : ∀ d ∈ ds₁, Local d)
    (hav : ∀ d ∈ ds₁, d.name ∉ nonDiagnostics fields ds₁) (h₁ : SetsUp ds₁ fields ds₁' fields₁')
    (h₂ : SetsUp ds₂ fields ds₂' fields₂') (s t : String → V) (hst : ∀ n, n ∉ ds₁.map Diag.name → s n = t n) :
    computeAll ds₁' s = computeAll ds₂' t := by
  have hn₂ : (ds₂.map Diag.name).Nodup := ((hp.map Diag.name).nodup_iff).1 hn
  have hav₂ : ∀ d ∈ ds₂, d.name ∉ nonDiagnostics fields ds₂ := by
    intro d hd hm
    refine hav d (hp.symm.subset hd) ?_
    unfold nonDiagnostics at hm ⊢
    simp only [List.mem_append, List.mem_filter, List.mem_map, List.mem_flatMap, decide_eq_true_eq] at hm ⊢
    have hiff : ∀ n : String, (∃ a ∈ ds₂, a.name = n) ↔ ∃ a ∈ ds₁, a.name = n := fun n =>
      ⟨fun ⟨a, ha, e⟩ => ⟨a, hp.symm.subset ha, e⟩, fun ⟨a, ha, e⟩ => ⟨a, hp.subset ha, e⟩⟩
    have hiff2 : ∀ n : String, (∃ a ∈ ds₂, n ∈ a.requires) ↔ ∃ a ∈ ds₁, n ∈ a.requires := fun n =>
      ⟨fun ⟨a, ha, e⟩ => ⟨a, hp.symm.subset ha, e⟩, fun ⟨a, ha, e⟩ => ⟨a, hp.subset ha, e⟩⟩
    simp only [hiff, hiff2] at hm
    exact hm
  have hl₂ : ∀ d ∈ ds₂, Local d := fun d hd => hl d (hp.symm.subset hd)
  obtain ⟨p₁, o₁⟩ := setsUp_ordered _ _ _ _ hn hav h₁
  have c₁ := C131_dump_consistent ds₁ ds₁' fields fields₁' hn hl hav h₁ s
  have c₂ := C131_dump_consistent ds₂ ds₂' fields fields₂' hn₂ hl₂ hav₂ h₂ t
  refine consistent_unique ds₁' o₁ (fun d hd => hl d (p₁.subset hd)) _ _ (fun d hd => c₁.1 d (p₁.subset hd))
    (fun d hd => c₂.1 d (hp.subset (p₁.subset hd))) fun n hnn => ?_
  have hn1 : n ∉ ds₁.map Diag.name := fun hm => hnn ((p₁.map Diag.name).symm.subset hm)
  rw [c₁.2.1 n hn1, c₂.2.1 n fun hm => hn1 ((hp.map Diag.name).symm.subset hm), hst n hn1]

theorem addField_mem (fields : List (String × FType)) (d : Diag V) (f : String × FType) (hd : d.toDump = true)
    (hf : f ∈ addField fields d) : f ∈ fields ∨ f = (d.name, .diagnostic) := by
  unfold addField at hf
  split at hf
  · exact Or.inl hf
  · rcases List.mem_append.1 hf with h | h
    · exact Or.inl h
    · right; simpa [hd] using h

theorem addFields_mem (ds : List (Diag V)) (fields : List (String × FType)) (f : String × FType)
    (hd : ∀ d ∈ ds, d.toDump = true) (hf : f ∈ ds.foldl addField fields) :
    f ∈ fields ∨ ∃ d ∈ ds, f = (d.name, .diagnostic) := by
  induction ds generalizing fields with
  | nil => exact Or.inl hf
  | cons d ds ih =>
    rcases ih _ (fun e he => hd e (by simp [he])) hf with h | ⟨e, he, h⟩
    · rcases addField_mem fields d f (hd d (by simp)) h with h | h
      · exact Or.inl h
      · exact Or.inr ⟨d, by simp, h⟩
    · exact Or.inr ⟨e, by simp [he], h⟩

/-- What is kept over the life of a process: the diagnostics are a rearrangement of those of the user, and fields with the
name of a diagnostic are diagnostics. -/
structure Keeps (ds : List (Diag V)) (p : Proc V) : Prop where
  perm : p.ds.Perm ds
  types : ∀ f ∈ p.fields, f.1 ∈ ds.map Diag.name → f.2 = .diagnostic

theorem Keeps.available {ds : List (Diag V)} {p : Proc V} (h : Keeps ds p)
    (hb : ∀ d ∈ ds, ∀ e ∈ ds, d.name ∈ e.requires → endsIn d.name "_bar" = false ∧ endsIn d.name "_init" = false)
    (d : Diag V) (hd : d ∈ p.ds) : d.name ∉ nonDiagnostics p.fields p.ds := by
  intro hm
  unfold nonDiagnostics at hm
  simp only [List.mem_append, List.mem_filter, List.mem_map, List.mem_flatMap, decide_eq_true_eq] at hm
  rcases hm with (⟨f, ⟨hf, hc⟩, hfn⟩ | ⟨⟨e, he, hr⟩, hx⟩) | ⟨⟨e, he, hr⟩, hx⟩
  · rcases hc with hc | hc
    · exact hc (h.types f hf (hfn ▸ List.mem_map_of_mem (h.perm.subset hd)))
    · exact hc ⟨d, hd, hfn.symm⟩
  · rw [(hb d (h.perm.subset hd) e (h.perm.subset he) hr).1] at hx; cases hx
  · rw [(hb d (h.perm.subset hd) e (h.perm.subset he) hr).2] at hx; cases hx

theorem Keeps.event {ds : List (Diag V)} {p q : Proc V} (h : Keeps ds p) (hn : (ds.map Diag.name).Nodup)
    (ht : ∀ d ∈ ds, d.toDump = true)
    (hb : ∀ d ∈ ds, ∀ e ∈ ds, d.name ∈ e.requires → endsIn d.name "_bar" = false ∧ endsIn d.name "_init" = false)
    (he : Event p q) : Keeps ds q := by
  cases he with
  | @run ds' fields' hs =>
    have hn' : (p.ds.map Diag.name).Nodup := ((h.perm.map Diag.name).nodup_iff).2 hn
    obtain ⟨hp, -⟩ := setsUp_ordered _ _ _ _ hn' (h.available hb) hs
    obtain ⟨sched, -, -, rfl⟩ := hs
    refine ⟨hp.trans h.perm, fun f hf hfn => ?_⟩
    rcases addFields_mem _ _ _ (fun d hd => ht d (h.perm.subset (hp.subset hd))) hf with hf | ⟨d, -, rfl⟩
    · exact h.types f hf hfn
    · rfl
  | change st => exact ⟨h.perm, h.types⟩
  | dump => exact ⟨h.perm, h.types⟩

/-- C131: the whole life of a process.  The user's diagnostics have different names, read only what they require, and are to
be dumped; at the start no field has the name of a diagnostic.  After any sequence of `run`s, changes of the fields and
dumps, the next `run` sets up the diagnostics so that every dump, after any changes of the fields, is consistent. -/
theorem C131_every_dump (ds : List (Diag V)) (fields : List (String × FType)) (s0 : String → V)
    (hn : (ds.map Diag.name).Nodup) (hl : ∀ d ∈ ds, Local d) (ht : ∀ d ∈ ds, d.toDump = true)
    (hf : ∀ d ∈ ds, d.name ∉ fields.map Prod.fst)
    (hb : ∀ d ∈ ds, ∀ e ∈ ds, d.name ∈ e.requires → endsIn d.name "_bar" = false ∧ endsIn d.name "_init" = false)
    (p q : Proc V) (hist : Relation.ReflTransGen Event ⟨ds, fields, s0⟩ p)
    (hs : SetsUp p.ds p.fields q.ds q.fields) (s : String → V) :
    (∀ d ∈ ds, computeAll q.ds s d.name = d.eval (computeAll q.ds s)) ∧
    ∀ n, n ∉ ds.map Diag.name → computeAll q.ds s n = s n := by
  have hk : Keeps ds p := by
    clear hs
    induction hist with
    | refl =>
      exact ⟨List.Perm.refl _, fun f hff hm => by
        obtain ⟨d, hd, he⟩ := List.mem_map.1 hm
        exact absurd (List.mem_map.2 ⟨f, hff, he.symm⟩) (hf d hd)⟩
    | tail _ he ih => exact Keeps.event ih hn ht hb he
  have hn' : (p.ds.map Diag.name).Nodup := ((hk.perm.map Diag.name).nodup_iff).2 hn
  obtain ⟨h1, h2, -⟩ := C131_dump_consistent p.ds q.ds p.fields q.fields hn' (fun d hd => hl d (hk.perm.subset hd))
    (hk.available hb) hs s
  exact ⟨fun d hd => h1 d (hk.perm.symm.subset hd), fun n hnn => h2 n fun hm => hnn ((hk.perm.map Diag.name).subset hm)⟩

/-- The setup of acyclic requirements succeeds: if all requirements are fields that are there or diagnostics, and the
diagnostics can be numbered so that each requires only diagnostics with smaller numbers. -/
theorem C131_setup_succeeds (ds : List (Diag V)) (fields : List (String × FType)) (hn : (ds.map Diag.name).Nodup)
    (hreq : ∀ d ∈ ds, ∀ r ∈ d.requires, r ∈ nonDiagnostics fields ds ∨ r ∈ ds.map Diag.name)
    (rank : String → ℕ) (hrank : ∀ d ∈ ds, ∀ r ∈ d.requires, r ∈ ds.map Diag.name → rank r < rank d.name) :
    ∃ ds' fields', SetsUp ds fields ds' fields' := by
  set fd := fieldDeps (ds.map fun d => (d.name, d.requires)) (nonDiagnostics fields ds) with hfd
  have hmap : fd.map Prod.fst = ds.map Diag.name := by
    rw [hfd, fieldDeps, List.map_map, List.map_map]; rfl
  have hneeds : ∀ f d, Needs fd f d → ∃ e ∈ ds, e.name = f ∧ d ∈ e.requires ∧ d ∉ nonDiagnostics fields ds := by
    rintro f d ⟨e, he, rfl, hd⟩
    rw [hfd, fieldDeps, List.map_map, List.mem_map] at he
    obtain ⟨a, ha, rfl⟩ := he
    simp only [Function.comp, List.mem_filter, List.mem_dedup, decide_eq_true_eq] at hd
    exact ⟨a, ha, rfl, hd.1, hd.2⟩
  have hw : WellFormed fd := by
    refine ⟨by rw [hmap]; exact hn, fun e he => ?_⟩
    rw [hfd, fieldDeps, List.mem_map] at he
    obtain ⟨a, -, rfl⟩ := he
    exact (List.nodup_dedup _).filter _
  have hkeys : ∀ f d, Needs fd f d → d ∈ fd.map Prod.fst := by
    intro f d h
    obtain ⟨e, he, -, hr, hna⟩ := hneeds f d h
    rw [hmap]
    exact (hreq e he d hr).resolve_left hna
  obtain ⟨sched, hs⟩ := (C17_ok_iff fd hw).2 ⟨hkeys, fun f hf => by
    have : ∀ a b, Relation.TransGen (Needs fd) a b → rank b < rank a := by
      intro a b hab
      have one : ∀ a b, Needs fd a b → rank b < rank a := by
        intro a b h
        have hm := hkeys a b h
        obtain ⟨e, he, rfl, hr, -⟩ := hneeds a b h
        exact hrank e he b hr (hmap ▸ hm)
      induction hab with
      | single h => exact one _ _ h
      | tail _ h ih => exact (one _ _ h).trans ih
    exact lt_irrefl _ (this f f hf)⟩
  exact ⟨_, _, sched, hs, rfl, rfl⟩

/-- The example: a speed derived from `u` which is not dumped, and its square. -/
def speed : Diag ℤ := { name := "speed", requires := ["u"], toDump := false, eval := fun s => s "u" }
/-- See `speed`. -/
def square : Diag ℤ := { name := "square", requires := ["speed"], toDump := true, eval := fun s => s "speed" ^ 2 }

example : Local speed ∧ Local square := by
  constructor <;> intro s s' h
  · exact h "u" (by simp [speed])
  · simp only [square]; rw [h "speed" (by simp [square])]

theorem sorts_first : Sorts (fieldDeps ([speed, square].map fun d => (d.name, d.requires))
    (nonDiagnostics [("u", .other)] [speed, square])) (.ok ["speed", "square"]) := by
  have hfd : fieldDeps ([speed, square].map fun d => (d.name, d.requires))
      (nonDiagnostics [("u", .other)] [speed, square]) = [("speed", []), ("square", ["speed"])] := by decide
  rw [hfd]
  generalize hf : ([("speed", []), ("square", ["speed"])] : List (String × List String)) = fd
  have h0 : (init fd).roots = ["speed"] := by subst hf; decide
  have s1 : (step (init fd)).roots = ["square"] := by subst hf; decide
  have s2 : (step (step (init fd))).roots = [] ∧ (step (step (init fd))).sched = ["speed", "square"] ∧
    (∀ f ∈ fd.map Prod.fst, ((step (step (init fd))).ins f).length = 0) := by subst hf; decide
  rw [← s2.2.1]
  exact .ok (n := 2) (by subst hf; decide) (.iter (by simp [h0]) (.iter (by simp [s1]) (.stop (by simp [s2.1])))) s2.2.2

theorem sorts_second : Sorts (fieldDeps ([speed, square].map fun d => (d.name, d.requires))
    (nonDiagnostics [("u", .other), ("speed", .derived), ("square", .diagnostic)] [speed, square]))
    (.ok ["square", "speed"]) := by
  have hfd : fieldDeps ([speed, square].map fun d => (d.name, d.requires))
      (nonDiagnostics [("u", .other), ("speed", .derived), ("square", .diagnostic)] [speed, square]) =
      [("speed", []), ("square", [])] := by decide
  rw [hfd]
  generalize hf : ([("speed", []), ("square", [])] : List (String × List String)) = fd
  have h0 : (init fd).roots = ["speed", "square"] := by subst hf; decide
  have s1 : (step (init fd)).roots = ["speed"] := by subst hf; decide
  have s2 : (step (step (init fd))).roots = [] ∧ (step (step (init fd))).sched = ["square", "speed"] ∧
    (∀ f ∈ fd.map Prod.fst, ((step (step (init fd))).ins f).length = 0) := by subst hf; decide
  rw [← s2.2.1]
  exact .ok (n := 2) (by subst hf; decide) (.iter (by simp [h0]) (.iter (by simp [s1]) (.stop (by simp [s2.1])))) s2.2.2

/-- C131, discrepancy: diagnostics with `to_dump=False` are taken for fields of the state when `run` is called a second
time.  The first `run` orders the speed before its square; the second one, of the same process, orders them the other way
round, and every dump then has the square of the speed of the dump before. -/
theorem C131_second_run_refuted (s0 : String → ℤ) :
    ∃ p q : Proc ℤ, Relation.ReflTransGen Event ⟨[speed, square], [("u", .other)], s0⟩ p ∧
      SetsUp p.ds p.fields q.ds q.fields ∧
      ∀ s, computeAll p.ds s "square" = s "u" ^ 2 ∧ computeAll q.ds s "square" = s "speed" ^ 2 := by
  have hb : ∀ l, (l = ["speed", "square"] → l.filterMap (byName [speed, square]) = [speed, square]) ∧
      (l = ["square", "speed"] → l.filterMap (byName [speed, square]) = [square, speed]) := by
    intro l
    have h1 : byName [speed, square] "speed" = some speed :=
      byName_eq [speed, square] (by decide) speed (by simp)
    have h2 : byName [speed, square] "square" = some square :=
      byName_eq [speed, square] (by decide) square (by simp)
    constructor <;> rintro rfl <;> simp [List.filterMap, h1, h2]
  have hf1 : [("u", FType.other), ("speed", .derived), ("square", .diagnostic)] =
    [speed, square].foldl addField [("u", .other)] := by decide
  have hf2 : [("u", FType.other), ("speed", .derived), ("square", .diagnostic)] =
    [square, speed].foldl addField [("u", .other), ("speed", .derived), ("square", .diagnostic)] := by decide
  refine ⟨⟨[speed, square], [("u", .other), ("speed", .derived), ("square", .diagnostic)], s0⟩,
    ⟨[square, speed], [("u", .other), ("speed", .derived), ("square", .diagnostic)], s0⟩,
    .single (.run ⟨_, sorts_first, ((hb _).1 rfl).symm, hf1⟩), ⟨_, sorts_second, ((hb _).2 rfl).symm, hf2⟩,
    fun s => ⟨?_, ?_⟩⟩
  · simp [computeAll, speed, square]
  · simp [computeAll, speed, square]

/-- Three diagnostics in a chain, listed in the wrong order, are set up; so the hypotheses of the theorems above are met. -/
example : ∃ ds' fields', SetsUp [{ square with name := "fourth", requires := ["square"], eval := fun s => s "square" ^ 2 },
    square, { speed with toDump := true }] [("u", .other)] ds' fields' := by
  refine C131_setup_succeeds _ _ (by decide) (by decide)
    (fun n => if n = "speed" then 0 else if n = "square" then 1 else 2) (by decide)

/-! ### C132 -/

/-- C132: the methods of evaluation.  A diagnostic can be made exactly with the four documented methods, `'solve'` only where
it is implemented. -/
theorem C132_construct (method : String) (si : Bool) :
    (∃ m, construct method si = .ok m) ↔
      method = "interpolate" ∨ method = "project" ∨ method = "assign" ∨ (method = "solve" ∧ si = true) := by
  unfold construct
  by_cases h1 : method = "interpolate"
  · subst h1; simp
  by_cases h2 : method = "project"
  · subst h2; simp
  by_cases h3 : method = "solve"
  · subst h3; cases si <;> simp
  by_cases h4 : method = "assign"
  · subst h4; simp
  simp [h1, h2, h3, h4]

/-- C132, discrepancy: an unknown method is meant to be reported by an assertion which names it, but the message of the
assertion fails (`AttributeError`) for every such method. -/
theorem C132_message_refuted (method : String) (si : Bool) (h : method ∉ ["interpolate", "project", "solve", "assign"]) :
    construct method si = .error .attributeError ∧ construct method si ≠ .error .assertionError := by
  simp only [List.mem_cons, List.not_mem_nil, or_false, not_or] at h
  simp [construct, h.1, h.2.1, h.2.2.1, h.2.2.2]

theorem lookup_append_self (l : List (String × FSpace)) (n : String) (s : FSpace) (h : l.lookup n = none) :
    (l ++ [(n, s)]).lookup n = some s := by
  induction l with
  | nil => simp
  | cons a l ih =>
    obtain ⟨k, v⟩ := a
    simp only [List.cons_append, List.lookup_cons] at h ⊢
    cases hk : n == k <;> simp only [hk] at h ⊢
    · exact ih h
    · cases h

theorem lookup_append_some (l l' : List (String × FSpace)) (n : String) (s : FSpace) (h : l.lookup n = some s) :
    (l ++ l').lookup n = some s := by
  induction l with
  | nil => simp at h
  | cons a l ih =>
    obtain ⟨k, v⟩ := a
    simp only [List.cons_append, List.lookup_cons] at h ⊢
    cases hk : n == k <;> simp only [hk] at h ⊢
    · exact ih h
    · exact h

/-- C132: setting up a diagnostic again, with whatever arguments and whatever else has happened, changes nothing. -/
theorem C132_setup_once (dg0 : ℕ) (d d' : Field) (e e' e₂ : Env) (arg arg₂ : Option FSpace)
    (h : setup dg0 d e arg = .ok (d', e')) : setup dg0 d' e₂ arg₂ = .ok (d', e₂) := by
  have : d'.initialised = true := by
    unfold setup at h
    split at h
    · cases h; assumption
    · dsimp only at h
      split at h
      · cases h
      · split at h
        · cases h
        · cases h; rfl
  simp [setup, this]

/-- The space of a diagnostic, in words: the one given to the constructor, else the one given to `setup`, else the space
`DG0` of the domain, which is made if there is none. -/
def Chosen (dg0 : ℕ) (d : Field) (e : Env) (arg : Option FSpace) (s : FSpace) : Prop :=
  d.space = some s ∨ (d.space = none ∧ arg = some s) ∨
    (d.space = none ∧ arg = none ∧ (e.spaces.lookup "DG0" = some s ∨
      (e.spaces.lookup "DG0" = none ∧ s = ⟨some "DG0", dg0⟩)))

theorem chooseSpace_spec (dg0 : ℕ) (d : Field) (e : Env) (arg : Option FSpace) :
    Chosen dg0 d e arg (chooseSpace dg0 d e arg).1 ∧
    (∀ n s, e.spaces.lookup n = some s → (chooseSpace dg0 d e arg).2.spaces.lookup n = some s) ∧
    (d.space = none → arg = none →
      (chooseSpace dg0 d e arg).2.spaces.lookup "DG0" = some (chooseSpace dg0 d e arg).1) ∧
    (chooseSpace dg0 d e arg).2.fields = e.fields ∧ (chooseSpace dg0 d e arg).2.toDump = e.toDump ∧
    (chooseSpace dg0 d e arg).2.toPickUp = e.toPickUp := by
  unfold chooseSpace Chosen
  cases hs : d.space with
  | some s => simp
  | none =>
    cases ha : arg with
    | some s => simp
    | none =>
      cases hd : e.spaces.lookup "DG0" with
      | some s => simp [hd]
      | none =>
        refine ⟨by simp, fun n s hn => lookup_append_some _ _ _ _ hn, fun _ _ => lookup_append_self _ _ _ hd,
          rfl, rfl, rfl⟩

theorem stateField_spec (e : Env) (name : String) (s : FSpace) (dump : Bool) :
    (stateField e name s dump).2.spaces = e.spaces ∧ (stateField e name s dump).2.toPickUp = e.toPickUp ∧
    (∀ n t, e.fields.lookup n = some t → (stateField e name s dump).2.fields.lookup n = some t) ∧
    (stateField e name s dump).2.fields.lookup name = some (stateField e name s dump).1 ∧
    (e.fields.lookup name = none → (stateField e name s dump).1 = s ∧
      (stateField e name s dump).2.toDump = e.toDump ++ if dump then [name] else []) ∧
    (∀ t, e.fields.lookup name = some t → (stateField e name s dump).1 = t ∧
      (stateField e name s dump).2.toDump = e.toDump) := by
  unfold stateField
  cases h : e.fields.lookup name with
  | some t => simp [h]
  | none =>
    refine ⟨rfl, rfl, fun n t hn => lookup_append_some _ _ _ _ hn, lookup_append_self _ _ _ h, fun _ => ⟨rfl, ?_⟩, by simp⟩
    cases dump <;> simp

/-- C132: the setup of a new diagnostic.  It succeeds exactly if the space has a name and there is something to evaluate;
then the space is the documented one, the domain knows a space of that name, the spaces and fields that were there are
untouched, nothing is added to the fields to be picked up, and the diagnostic has its field in the state. -/
theorem C132_setup (dg0 : ℕ) (d : Field) (e : Env) (arg : Option FSpace) (hi : d.initialised = false) :
    ∃ s, Chosen dg0 d e arg s ∧
      ((s.name = none ∨ (d.method ≠ .solve ∧ d.hasExpr = false)) → setup dg0 d e arg = .error .assertionError) ∧
      ∀ n, s.name = some n → (d.method = .solve ∨ d.hasExpr = true) →
        ∃ d' e', setup dg0 d e arg = .ok (d', e') ∧ d'.initialised = true ∧ d'.name = d.name ∧ d'.method = d.method ∧
          d'.space = some s ∧ (∃ t, e'.spaces.lookup n = some t) ∧
          (∀ m t, e.spaces.lookup m = some t → e'.spaces.lookup m = some t) ∧
          (∀ m t, e.fields.lookup m = some t → e'.fields.lookup m = some t) ∧
          e'.toPickUp = e.toPickUp ∧ d'.field = e'.fields.lookup d.name ∧
          (d.space = none → arg = none → e'.spaces.lookup "DG0" = some s) ∧
          (e.fields.lookup d.name = none → d'.field = some s ∧ e'.toDump = e.toDump ++ (if d.toDump then [d.name] else []) ∧
            ((d.method = .solve → d.hasSolver = true) → compute d' = .ok ())) := by
  obtain ⟨c1, c2, c3, c4, c5, c6⟩ := chooseSpace_spec dg0 d e arg
  set c := chooseSpace dg0 d e arg with hc
  refine ⟨c.1, c1, ?_, ?_⟩
  · intro h
    unfold setup
    rw [hi, if_neg (by simp)]
    dsimp only
    rw [← hc]
    cases hn : c.1.name with
    | none => rfl
    | some n =>
      rw [hn] at h
      simp only [reduceCtorEq, false_or] at h
      dsimp only
      rw [if_pos ⟨h.1, by simp [h.2]⟩]
  · intro n hn hex
    set e1 : Env := match c.2.spaces.lookup n with
        | some _ => c.2
        | none => { c.2 with spaces := c.2.spaces ++ [(n, c.1)] } with he1
    obtain ⟨f1, f2, f3, f4, f5, f6⟩ := stateField_spec e1 d.name c.1 d.toDump
    have hsp : (∃ t, e1.spaces.lookup n = some t) ∧
        (∀ m t, c.2.spaces.lookup m = some t → e1.spaces.lookup m = some t) ∧ e1.fields = c.2.fields ∧
        e1.toDump = c.2.toDump ∧ e1.toPickUp = c.2.toPickUp := by
      cases hl : c.2.spaces.lookup n with
      | some t =>
        have : e1 = c.2 := by rw [he1, hl]
        rw [this]
        exact ⟨⟨t, hl⟩, fun m t h => h, rfl, rfl, rfl⟩
      | none =>
        have : e1 = { c.2 with spaces := c.2.spaces ++ [(n, c.1)] } := by rw [he1, hl]
        rw [this]
        exact ⟨⟨c.1, lookup_append_self _ _ _ hl⟩, fun m t h => lookup_append_some _ _ _ _ h, rfl, rfl, rfl⟩
    obtain ⟨g1, g2, g3, g4, g5⟩ := hsp
    refine ⟨{ d with
        space := some c.1
        field := some (stateField e1 d.name c.1 d.toDump).1
        initialised := true
        evaluator := if d.method = .solve then d.hasSolver else true }, (stateField e1 d.name c.1 d.toDump).2, ?_, rfl, rfl,
        rfl, rfl, ?_, ?_, ?_, ?_, f4.symm, ?_, ?_⟩
    · unfold setup
      rw [hi, if_neg (by simp)]
      dsimp only
      rw [← hc, hn]
      dsimp only
      rw [if_neg (by rintro ⟨h1, h2⟩; rcases hex with h | h
                     · exact h1 h
                     · simp [h] at h2)]
      rfl
    · rw [f1]; exact g1
    · intro m t h; rw [f1]; exact g2 m t (c2 m t h)
    · intro m t h; exact f3 m t (by rw [g3, c4]; exact h)
    · rw [f2, g5, c6]
    · intro h1 h2; rw [f1]; exact g2 _ _ (c3 h1 h2)
    · intro hnew
      obtain ⟨k1, k2⟩ := f5 (by rw [g3, c4]; exact hnew)
      refine ⟨by rw [k1], by rw [k2, g4, c5], fun hsol => ?_⟩
      unfold compute
      dsimp only
      rw [k1]
      by_cases hm : d.method = .solve
      · simp [hm, hsol hm]
      · simp [hm]

theorem setup_keeps_dg0 (dg0 : ℕ) (d d' : Field) (e e' : Env) (arg : Option FSpace)
    (h : setup dg0 d e arg = .ok (d', e')) :
    (∀ t, e.spaces.lookup "DG0" = some t → e'.spaces.lookup "DG0" = some t) ∧
    (d.initialised = false → d.space = none → arg = none → ∃ t, d'.space = some t ∧ e'.spaces.lookup "DG0" = some t) := by
  by_cases hi : d.initialised = true
  · rw [setup, if_pos hi] at h
    cases h
    exact ⟨fun t ht => ht, fun h => by rw [hi] at h; cases h⟩
  · obtain ⟨s, -, h1, h2⟩ := C132_setup dg0 d e arg (by simpa using hi)
    cases hn : s.name with
    | none => rw [h1 (Or.inl hn)] at h; cases h
    | some n =>
      by_cases hex : d.method = .solve ∨ d.hasExpr = true
      · obtain ⟨d2, e2, k, -, -, -, k4, -, k6, -, -, -, k10, -⟩ := h2 n hn hex
        rw [k] at h
        cases h
        exact ⟨fun t ht => k6 _ t ht, fun _ hs ha => ⟨s, k4, k10 hs ha⟩⟩
      · rw [not_or] at hex
        rw [h1 (Or.inr ⟨hex.1, by simpa using hex.2⟩)] at h; cases h

/-- C132: all diagnostics without a space, set up in any order and mixed with any others, share one space: the `DG0` of the
domain. -/
theorem C132_default_space (dg0 : ℕ) (ds : List (Field × Option FSpace)) (e e' : Env) (ds' : List Field)
    (h : setupMany dg0 ds e = .ok (ds', e')) :
    (∀ t, e.spaces.lookup "DG0" = some t → e'.spaces.lookup "DG0" = some t) ∧ ds'.length = ds.length ∧
    ∀ (i : ℕ) (d d' : Field), ds[i]? = some (d, none) → ds'[i]? = some d' → d.initialised = false → d.space = none →
      ∃ t, d'.space = some t ∧ e'.spaces.lookup "DG0" = some t := by
  induction ds generalizing e ds' with
  | nil =>
    cases h
    exact ⟨fun t ht => ht, rfl, by simp⟩
  | cons a ds ih =>
    obtain ⟨d0, a0⟩ := a
    rw [setupMany] at h
    cases h1 : setup dg0 d0 e a0 with
    | error x => rw [h1] at h; cases h
    | ok r =>
      obtain ⟨d1, e1⟩ := r
      rw [h1] at h
      cases h2 : setupMany dg0 ds e1 with
      | error x =>
        simp only [bind, Except.bind, h2] at h
        cases h
      | ok r =>
        obtain ⟨ds2, e2⟩ := r
        simp only [bind, Except.bind, h2, pure, Except.pure] at h
        cases h
        obtain ⟨i1, i2, i3⟩ := ih e1 ds2 h2
        obtain ⟨k1, k2⟩ := setup_keeps_dg0 dg0 d0 d1 e e1 a0 h1
        refine ⟨fun t ht => i1 t (k1 t ht), by simp [i2], fun i d d' hd hd' hi hs => ?_⟩
        cases i with
        | zero =>
          simp only [List.getElem?_cons_zero, Option.some.injEq, Prod.mk.injEq] at hd hd'
          obtain ⟨rfl, rfl⟩ := hd
          subst hd'
          obtain ⟨t, t1, t2⟩ := k2 hi hs rfl
          exact ⟨t, t1, i1 t t2⟩
        | succ i =>
          simp only [List.getElem?_cons_succ] at hd hd'
          exact i3 i d d' hd hd' hi hs

/-- C132, discrepancy: a diagnostic whose name is that of a field in another space is set up without complaint, writes to
that field, and fails when it is interpolated. -/
theorem C132_same_name_refuted :
    ∃ (d d' : Field) (e e' : Env), e.fields.lookup d.name = some ⟨some "theta", 2⟩ ∧
      setup 0 d e none = .ok (d', e') ∧ d'.field = some ⟨some "theta", 2⟩ ∧ compute d' = .error .valueError :=
  ⟨⟨"theta", .interpolate, none, true, false, true, false, none, false⟩, _,
    ⟨[("theta", ⟨some "theta", 2⟩)], [("theta", ⟨some "theta", 2⟩)], ["theta"], ["theta"]⟩, _, by decide,
    by exact rfl, by decide, by decide⟩

/-- C132, discrepancy: a space whose name is already taken is not added to the domain: the name then stands for another
space than that of the diagnostic (netCDF output would use its coordinates). -/
theorem C132_space_name_refuted :
    ∃ (d d' : Field) (e e' : Env) (s t : FSpace), setup 0 d e none = .ok (d', e') ∧ d'.field = some s ∧
      s.name = some "DG1" ∧ e'.spaces.lookup "DG1" = some t ∧ s ≠ t :=
  ⟨⟨"speed", .interpolate, some ⟨some "DG1", 5⟩, true, false, true, false, none, false⟩, _,
    ⟨[("DG1", ⟨some "DG1", 1⟩)], [], [], []⟩, _, ⟨some "DG1", 5⟩, ⟨some "DG1", 1⟩, by exact rfl, by decide, by decide,
    by decide, by decide⟩

/-- Two diagnostics without space in a domain without DG0, and one with its own space in between. -/
example : ∃ r, setupMany 7 [(⟨"a", .interpolate, none, true, false, true, false, none, false⟩, none),
    (⟨"b", .project, some ⟨some "HDiv", 3⟩, true, false, true, false, none, false⟩, none),
    (⟨"c", .solve, none, false, true, false, false, none, false⟩, none)] ⟨[], [], [], []⟩ = .ok r ∧
    r.2.toDump = ["a", "b"] ∧ r.2.spaces.length = 2 := ⟨_, by exact rfl, by decide, by decide⟩
end Gusto.Props.DiagLifeProps
