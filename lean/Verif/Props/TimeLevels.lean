import Verif.Model.TimeLevels
import Verif.Props.Multilevel
import Mathlib.Data.List.Nodup
import Mathlib.Data.List.Range

set_option autoImplicit false
set_option linter.unusedSectionVars false
set_option linter.unusedSimpArgs false

/-!
# C149: the time levels hold the fields they should
-/

namespace Gusto.Props.TimeLevelsProps
open Gusto Gusto.TimeLevels

variable {V : Type*}

/-- The names that an equation and its auxiliary equations give to fields. -/
def allNames (e : Eqn) (aux : List Eqn) : List String :=
  e.name :: ((if e.n > 1 then e.subs.getD [] else []) ++ aux.map Eqn.name)

/-- The values of the components of field `name` at level `l`; `none` if there is no such field. -/
def read (F : Fields) (h : Heap V) (l : ℕ) (name : String) : Option (List V) := (lookup F name).map fun c => c.map (h l)

/-- All cells of a level. -/
def cells (F : Fields) : List ℕ := F.flatMap (·.2)

theorem mem_cells {F : Fields} {c : ℕ} : c ∈ cells F ↔ ∃ e ∈ F, c ∈ e.2 := by simp [cells, List.mem_flatMap]

theorem lookup_mem {F : Fields} {name : String} {s : List ℕ} (h : lookup F name = some s) : (name, s) ∈ F := by
  unfold lookup at h
  obtain ⟨e, he, rfl⟩ := Option.map_eq_some_iff.1 h
  have h1 := List.mem_reverse.1 (List.mem_of_find?_eq_some he)
  have h2 : e.1 = name := by simpa using List.find?_some he
  rw [← h2]
  exact h1

theorem lookup_of_mem {F : Fields} (hF : (F.map (·.1)).Nodup) {e : String × List ℕ} (he : e ∈ F) : lookup F e.1 = some e.2 := by
  unfold lookup
  cases hf : F.reverse.find? (fun x => decide (x.1 = e.1)) with
  | none =>
    have := List.find?_eq_none.1 hf e (List.mem_reverse.2 he)
    simp at this
  | some x =>
    have h1 := List.mem_reverse.1 (List.mem_of_find?_eq_some hf)
    have h2 : x.1 = e.1 := by simpa using List.find?_some hf
    have : x = e := List.inj_on_of_nodup_map hF h1 he h2
    simp [this]

theorem assign_same (h : Heap V) (dst src : ℕ) (d : List ℕ) :
    assign h dst d src d = some fun l c => if l = dst ∧ c ∈ d then h src c else h l c := by
  have key : ∀ (d : List ℕ) (h' : Heap V), (d.zip d).foldl (fun h' p => put h' dst p.1 (h src p.2)) h' =
      fun l c => if l = dst ∧ c ∈ d then h src c else h' l c := by
    intro d
    induction d with
    | nil => intro h'; funext l c; simp
    | cons a d ih =>
      intro h'
      rw [List.zip_cons_cons, List.foldl_cons, ih]
      funext l c
      by_cases h1 : l = dst
      · by_cases h2 : c ∈ d
        · simp [h1, h2]
        · by_cases h3 : c = a
          · subst h3; simp [h1, h2, put]
          · simp [h1, h2, h3, put]
      · simp [h1, put]
  rw [assign, if_pos rfl, key]

theorem copyLevel_spec (F : Fields) (hF : (F.map (·.1)).Nodup) (dst src : ℕ) (hne : dst ≠ src) (h : Heap V) :
    copyLevel F dst src h = some fun l c => if l = dst ∧ c ∈ cells F then h src c else h l c := by
  have key : ∀ (G : Fields), (∀ e ∈ G, e ∈ F) → ∀ h : Heap V,
      G.foldlM (fun h e => (lookup F e.1).bind fun s => assign h dst e.2 src s) h =
        some fun l c => if l = dst ∧ c ∈ cells G then h src c else h l c := by
    intro G
    induction G with
    | nil => intro _ h; simp [cells]
    | cons e G ih =>
      intro hG h
      rw [List.foldlM_cons, lookup_of_mem hF (hG e List.mem_cons_self), Option.bind_some, assign_same]
      change (G.foldlM _ _) = _
      rw [ih (fun x hx => hG x (List.mem_cons_of_mem _ hx))]
      congr 1
      funext l c
      have hc : c ∈ cells (e :: G) ↔ c ∈ e.2 ∨ c ∈ cells G := by simp [cells]
      by_cases h1 : l = dst
      · by_cases h2 : c ∈ cells G <;> by_cases h3 : c ∈ e.2 <;> simp [h1, h2, h3, hc, hne.symm]
      · simp [h1]
  exact key F (fun _ h => h) h

theorem shift_spec (F : Fields) (hF : (F.map (·.1)).Nodup) (p : ℕ) (h : Heap V) :
    (List.range p).foldlM (fun h i => copyLevel F i (i + 1) h) h =
      some fun l c => if l < p ∧ c ∈ cells F then h (l + 1) c else h l c := by
  induction p with
  | zero => simp
  | succ p ih =>
    rw [List.range_succ, List.foldlM_append, ih]
    simp only [Option.bind_eq_bind, Option.bind_some, List.foldlM_cons, List.foldlM_nil]
    rw [copyLevel_spec F hF _ _ (by omega)]
    simp only [Option.bind_some, Option.pure_def, Option.some.injEq]
    funext l c
    by_cases hc : c ∈ cells F
    · by_cases h1 : l = p
      · subst h1; simp [hc]
      · by_cases h2 : l < p
        · simp [h1, h2, hc, Nat.lt_succ_of_lt h2]
        · have : ¬ l < p + 1 := by omega
          simp [h1, h2, hc, this]
    · simp [hc]

theorem update_spec (F : Fields) (hF : (F.map (·.1)).Nodup) (p : ℕ) (hp : 0 < p) (h : Heap V) :
    update F p h = some fun l c => if l < p ∧ c ∈ cells F then h (l + 1) c else h l c := by
  obtain ⟨q, rfl⟩ := Nat.exists_eq_succ_of_ne_zero hp.ne'
  have := shift_spec F hF (q + 1) h
  rw [List.range_succ, List.foldlM_append] at this
  rw [← this, update]
  simp

theorem read_congr {F : Fields} {h h' : Heap V} {l l' : ℕ} (e : ∀ c ∈ cells F, h' l' c = h l c) (name : String) :
    read F h' l' name = read F h l name := by
  unfold read
  cases hl : lookup F name with
  | none => rfl
  | some s =>
    have hm := lookup_mem hl
    simp only [Option.map_some, Option.some.injEq]
    exact List.map_congr_left fun c hc => e c (mem_cells.2 ⟨_, hm, hc⟩)

/-! ### What the timestepper holds -/

theorem addField_names {F F' : Fields} {name : String} {n : ℕ} {subs : Option (List String)} (h : addField F name n subs = .ok F') :
    F'.map (·.1) = F.map (·.1) ++ name :: (if n > 1 then subs.getD [] else []) := by
  unfold addField at h
  split at h
  · cases h
  · simp only at h
    split at h
    · rename_i hn
      split at h
      · cases h
      · rename_i names
        split at h
        · cases h
        · rename_i hlen
          split at h
          · cases h
          · cases h
            have hl : names.length = n := by simpa using hlen
            simp only [List.map_append, List.map_cons, List.map_nil, if_pos hn, Option.getD_some, List.append_assoc,
              List.cons_append, List.nil_append]
            congr 2
            rw [← List.unzip_fst, List.unzip_zip_left (by simp [hl])]
    · rename_i hn
      cases h
      simp [hn]

theorem addEquation_names {F F' : Fields} {e : Eqn} (h : addEquation F e = .ok F') : F'.map (·.1) = F.map (·.1) ++ [e.name] := by
  rw [addField_names h]
  simp

theorem aux_names {F F' : Fields} {aux : List Eqn} (h : aux.foldlM addEquation F = .ok F') :
    F'.map (·.1) = F.map (·.1) ++ aux.map Eqn.name := by
  induction aux generalizing F with
  | nil => cases h; simp
  | cons e aux ih =>
    rw [List.foldlM_cons] at h
    cases hA : addEquation F e with
    | error _ => rw [hA] at h; cases h
    | ok F1 =>
      rw [hA] at h
      rw [ih h, addEquation_names hA]
      simp

theorem setup_names {e : Eqn} {aux : List Eqn} {F : Fields} (h : setup e aux = .ok F) : F.map (·.1) = allNames e aux := by
  unfold setup at h
  cases hN : newFields e with
  | error _ => rw [hN] at h; cases h
  | ok F0 =>
    rw [hN] at h
    have h' : aux.foldlM addEquation F0 = .ok F := h
    rw [aux_names h', addField_names hN]
    simp [allNames]

/-- C149: the containers are built if and only if no field is called `X`, a mixed equation gives as many names as it has components, and
every auxiliary equation has a single component. -/
theorem C149_accepts (e : Eqn) (aux : List Eqn) :
    (∃ F, setup e aux = .ok F) ↔
      e.name ≠ "X" ∧ (e.n > 1 → ∃ names, e.subs = some names ∧ names.length = e.n ∧ "X" ∉ names) ∧
      ∀ a ∈ aux, a.name ≠ "X" ∧ a.n ≤ 1 := by
  have haux : ∀ (aux : List Eqn) (F : Fields), (∃ F', aux.foldlM addEquation F = .ok F') ↔ ∀ a ∈ aux, a.name ≠ "X" ∧ a.n ≤ 1 := by
    intro aux
    induction aux with
    | nil => intro F; simp [pure, Except.pure]
    | cons a aux ih =>
      intro F
      rw [List.foldlM_cons]
      by_cases h1 : a.name = "X"
      · simp [addEquation, addField, h1, bind, Except.bind]
      · by_cases h2 : a.n > 1
        · simp only [addEquation, addField, h1, h2, if_true, if_false]
          constructor
          · rintro ⟨F', hF'⟩; cases hF'
          · intro h
            have := (h a List.mem_cons_self).2
            omega
        · have e1 : addEquation F a = .ok (F ++ [(a.name, List.range' (size F) a.n)]) := by simp [addEquation, addField, h1, h2]
          rw [e1]
          change (∃ F', aux.foldlM addEquation _ = .ok F') ↔ _
          rw [ih]
          constructor
          · intro h b hb
            rcases List.mem_cons.1 hb with rfl | hb
            · exact ⟨h1, by omega⟩
            · exact h b hb
          · intro h b hb
            exact h b (List.mem_cons_of_mem _ hb)
  have hnew : (∃ F, newFields e = .ok F) ↔
      e.name ≠ "X" ∧ (e.n > 1 → ∃ names, e.subs = some names ∧ names.length = e.n ∧ "X" ∉ names) := by
    unfold newFields addField
    by_cases h1 : e.name = "X"
    · simp [h1]
    · by_cases h2 : e.n > 1
      · cases hs : e.subs with
        | none => simp [h1, h2]
        | some names =>
          by_cases h3 : names.length = e.n
          · by_cases h4 : "X" ∈ names
            · simp [h1, h2, h3, h4]
            · simp [h1, h2, h3, h4]
          · simp [h1, h2, h3]
      · simp [h1, h2]
  constructor
  · rintro ⟨F, hF⟩
    unfold setup at hF
    cases hN : newFields e with
    | error _ => rw [hN] at hF; cases hF
    | ok F0 =>
      rw [hN] at hF
      obtain ⟨a, b⟩ := hnew.1 ⟨F0, hN⟩
      exact ⟨a, b, (haux aux F0).1 ⟨F, hF⟩⟩
  · rintro ⟨a, b, c⟩
    obtain ⟨F0, hN⟩ := hnew.2 ⟨a, b⟩
    obtain ⟨F, hF⟩ := (haux aux F0).2 c
    refine ⟨F, ?_⟩
    unfold setup
    rw [hN]
    exact hF

/-- C149: `update` shifts the levels: for every equation with auxiliary equations whose fields have different names, and every content of
the memory, it raises nothing; afterwards each field of each previous level is what it was one level later, and the fields of level
`n+1` are unchanged. -/
theorem C149_update (e : Eqn) (aux : List Eqn) (F : Fields) (hs : setup e aux = .ok F) (hn : (allNames e aux).Nodup) (p : ℕ) (hp : 0 < p)
    (h : Heap V) :
    ∃ h', update F p h = some h' ∧ (∀ l < p, ∀ name, read F h' l name = read F h (l + 1) name) ∧
      ∀ name, read F h' p name = read F h p name := by
  rw [← setup_names hs] at hn
  refine ⟨_, update_spec F hn p hp h, fun l hl name => read_congr (fun c hc => by simp [hl, hc]) name,
    fun name => read_congr (fun c hc => by simp) name⟩

/-- The levels as a list of states, oldest first. -/
def levels (F : Fields) (p : ℕ) (h : Heap V) : Multilevel.Levels (String → Option (List V)) where
  previous := (List.range p).map fun l => read F h l
  np1 := read F h p

/-- C149: field by field, with mixed Functions and their components in one memory, `update` does what the model of the multi-level
schemes takes it to do with whole states. -/
theorem C149_refines (e : Eqn) (aux : List Eqn) (F : Fields) (hs : setup e aux = .ok F) (hn : (allNames e aux).Nodup) (p : ℕ) (hp : 0 < p)
    (h : Heap V) : ∃ h', update F p h = some h' ∧ levels F p h' = (levels F p h).update := by
  obtain ⟨h', hu, h1, h2⟩ := C149_update e aux F hs hn p hp h
  refine ⟨h', hu, ?_⟩
  obtain ⟨q, rfl⟩ := Nat.exists_eq_succ_of_ne_zero hp.ne'
  have hne : (levels F (q + 1) h).previous ≠ [] := by simp [levels]
  have hprev : (levels F (q + 1) h').previous = (levels F (q + 1) h).update.previous := by
    rw [Multilevel.update_previous _ hne]
    simp only [levels]
    apply List.ext_getElem
    · simp
    · intro l hl1 hl2
      have hl : l < q + 1 := by simpa using hl1
      have e1 : read F h' l = read F h (l + 1) := funext fun name => h1 l hl name
      by_cases hq : l < q
      · rw [List.getElem_append_left (by simpa using hq)]
        simp only [List.getElem_tail, List.getElem_map, List.getElem_range]
        exact e1
      · have : l = q := by omega
        subst this
        rw [List.getElem_append_right (by simp)]
        simp only [List.getElem_map, List.getElem_range, List.length_tail, List.length_map, List.length_range, Nat.add_sub_cancel,
          Nat.sub_self, List.getElem_cons_zero]
        exact e1
  have hnp : (levels F (q + 1) h').np1 = (levels F (q + 1) h).update.np1 := funext fun name => h2 name
  cases hA : levels F (q + 1) h' with
  | mk a b =>
    cases hB : (levels F (q + 1) h).update with
    | mk c d =>
      rw [hA, hB] at hprev hnp
      simp only at hprev hnp
      rw [hprev, hnp]

/-- C149: `initialise` copies the initial conditions, which the user has put into the fields of level `n+1`, to level `n`, and leaves
level `n+1` as it is. -/
theorem C149_initialise (e : Eqn) (aux : List Eqn) (F : Fields) (hs : setup e aux = .ok F) (hn : (allNames e aux).Nodup) (p : ℕ)
    (hp : 0 < p) (h : Heap V) :
    ∃ h', initialise F p h = some h' ∧ (∀ name, read F h' (p - 1) name = read F h p name) ∧
      (∀ name, read F h' p name = read F h p name) ∧ ∀ l < p - 1, ∀ name, read F h' l name = read F h l name := by
  rw [← setup_names hs] at hn
  have hne : p - 1 ≠ p := by omega
  have key : ∀ (G : Fields), (∀ e ∈ G, e ∈ F) → ∀ h : Heap V,
      G.foldlM (fun h e => (lookup F e.1).bind fun s => (assign h (p - 1) e.2 p s).bind fun h => assign h p s (p - 1) e.2) h =
        some fun l c => if l = p - 1 ∧ c ∈ cells G then h p c else h l c := by
    intro G
    induction G with
    | nil => intro _ h; simp [cells]
    | cons e G ih =>
      intro hG h
      rw [List.foldlM_cons, lookup_of_mem hn (hG e List.mem_cons_self), Option.bind_some, assign_same, Option.bind_some, assign_same]
      change (G.foldlM _ _) = _
      rw [ih (fun x hx => hG x (List.mem_cons_of_mem _ hx))]
      congr 1
      funext l c
      have hc : c ∈ cells (e :: G) ↔ c ∈ e.2 ∨ c ∈ cells G := by simp [cells]
      by_cases h1 : l = p - 1
      · by_cases h2 : c ∈ cells G <;> by_cases h3 : c ∈ e.2 <;> simp [h1, h2, h3, hc, hne, hne.symm]
      · by_cases h4 : l = p
        · subst h4
          by_cases h3 : c ∈ e.2 <;> simp [h3, hc, hne.symm]
        · simp [h1, h4]
  refine ⟨_, key F (fun _ h => h) h, fun name => read_congr (fun c hc => by simp [hc]) name,
    fun name => read_congr (fun c hc => by simp [hne.symm]) name, fun l hl name => read_congr (fun c hc => ?_) name⟩
  have : l ≠ p - 1 := by omega
  simp [this]

/-! ### Views -/

theorem foldl_max (l : List ℕ) (m : ℕ) : l.foldl (fun m c => max m (c + 1)) m = max m (l.foldl (fun m c => max m (c + 1)) 0) := by
  induction l generalizing m with
  | nil => simp
  | cons a l ih => rw [List.foldl_cons, List.foldl_cons, ih, ih (max 0 (a + 1))]; omega

theorem lt_size {F : Fields} {c : ℕ} (h : c ∈ cells F) : c < size F := by
  have hl : ∀ (l : List ℕ), c ∈ l → c < l.foldl (fun m c => max m (c + 1)) 0 := by
    intro l
    induction l with
    | nil => intro h; cases h
    | cons a l ih =>
      intro h
      rw [List.foldl_cons, foldl_max]
      rcases List.mem_cons.1 h with rfl | h
      · omega
      · have := ih h; omega
  induction F with
  | nil => simp [cells] at h
  | cons e F ih =>
    have : c ∈ e.2 ∨ c ∈ cells F := by simpa [cells] using h
    rw [size]
    rcases this with h | h
    · have := hl _ h; omega
    · have := ih h; omega

theorem new_lookup {e : Eqn} {F : Fields} (h : newFields e = .ok F) {names : List String} (hn : e.n > 1) (hs : e.subs = some names) :
    names.length = e.n ∧ F = (e.name, List.range e.n) :: names.zip ((List.range e.n).map fun c => [c]) := by
  unfold newFields addField at h
  rw [hs] at h
  simp only [hn, if_true] at h
  split at h
  · cases h
  · split at h
    · cases h
    · rename_i hlen
      split at h
      · cases h
      · cases h
        refine ⟨by simpa using hlen, ?_⟩
        simp [size, List.range_eq_range']

theorem aux_extends {F F' : Fields} {aux : List Eqn} (h : aux.foldlM addEquation F = .ok F') :
    ∃ G, F' = F ++ G ∧ ∀ x ∈ G, ∀ c ∈ x.2, size F ≤ c := by
  induction aux generalizing F with
  | nil => cases h; exact ⟨[], by simp, by simp⟩
  | cons e aux ih =>
    rw [List.foldlM_cons] at h
    cases hA : addEquation F e with
    | error _ => rw [hA] at h; cases h
    | ok F1 =>
      rw [hA] at h
      obtain ⟨G, hG, hc⟩ := ih h
      have h1 : F1 = F ++ [(e.name, List.range' (size F) e.n)] := by
        unfold addEquation addField at hA
        split at hA
        · cases hA
        · simp only at hA
          split at hA
          · cases hA
          · cases hA; rfl
      have hsz : size F ≤ size F1 := by
        rw [h1]
        clear hA hG hc h1 h ih
        generalize List.range' (size F) e.n = r
        induction F with
        | nil => simp [size]
        | cons x F ih => simp only [List.cons_append, size]; omega
      refine ⟨(e.name, List.range' (size F) e.n) :: G, by rw [hG, h1]; simp, ?_⟩
      intro x hx c hcx
      rcases List.mem_cons.1 hx with rfl | hx
      · exact (List.mem_range'_1.1 hcx).1
      · exact hsz.trans (hc x hx c hcx)

/-- C149: the mixed field and its components are one memory: at every level, the mixed field read as a whole is the list of its
components read by name, whatever has been written. -/
theorem C149_views (e : Eqn) (aux : List Eqn) (F : Fields) (hs : setup e aux = .ok F) (hn : (allNames e aux).Nodup)
    (names : List String) (h1 : e.n > 1) (h2 : e.subs = some names) (h : Heap V) (l : ℕ) :
    ∃ vs : List V, read F h l e.name = some vs ∧ vs.length = names.length ∧
      ∀ i (hi : i < names.length) (hv : i < vs.length), read F h l names[i] = some [vs[i]] := by
  rw [← setup_names hs] at hn
  unfold setup at hs
  cases hN : newFields e with
  | error _ => rw [hN] at hs; cases hs
  | ok F0 =>
    rw [hN] at hs
    obtain ⟨hlen, hF0⟩ := new_lookup hN h1 h2
    obtain ⟨G, hG, -⟩ := aux_extends (show aux.foldlM addEquation F0 = .ok F from hs)
    have hm : (e.name, List.range e.n) ∈ F := by rw [hG, hF0]; simp
    refine ⟨(List.range e.n).map (h l), ?_, by simp [hlen], ?_⟩
    · unfold read
      rw [lookup_of_mem hn hm]
      rfl
    · intro i hi hv
      have hmi : (names[i], [i]) ∈ F := by
        rw [hG, hF0]
        refine List.mem_append_left _ (List.mem_cons_of_mem _ ?_)
        rw [List.mem_iff_getElem]
        refine ⟨i, by simpa [hlen] using hi, by simp⟩
      unfold read
      rw [lookup_of_mem hn hmi]
      simp

/-- C149: assigning to one component, or to the field of an auxiliary equation, changes no other component: different names other than
that of the mixed field are different memory. -/
theorem C149_separate (e : Eqn) (aux : List Eqn) (F : Fields) (hs : setup e aux = .ok F) (hn : (allNames e aux).Nodup)
    (names : List String) (h1 : e.n > 1) (h2 : e.subs = some names) (i : ℕ) (hi : i < names.length) (h : Heap V) (l src : ℕ) (s : List ℕ)
    (hl : s.length = 1) :
    ∃ d h', lookup F names[i] = some d ∧ assign h l d src s = some h' ∧
      (∀ j (hj : j < names.length), j ≠ i → read F h' l names[j] = read F h l names[j]) ∧
      (∀ a ∈ aux, read F h' l a.name = read F h l a.name) ∧
      read F h' l names[i] = some (s.map (h src)) := by
  have hnd := hn
  rw [← setup_names hs] at hn
  unfold setup at hs
  cases hN : newFields e with
  | error _ => rw [hN] at hs; cases hs
  | ok F0 =>
    rw [hN] at hs
    obtain ⟨hlen, hF0⟩ := new_lookup hN h1 h2
    have hauxn := aux_names (show aux.foldlM addEquation F0 = .ok F from hs)
    obtain ⟨G, hG, hc⟩ := aux_extends (show aux.foldlM addEquation F0 = .ok F from hs)
    have hmi : ∀ j (hj : j < names.length), (names[j], [j]) ∈ F := by
      intro j hj
      rw [hG, hF0]
      refine List.mem_append_left _ (List.mem_cons_of_mem _ ?_)
      rw [List.mem_iff_getElem]
      exact ⟨j, by simpa [hlen] using hj, by simp⟩
    have hin : i ∈ cells F0 := by
      rw [hF0]
      exact mem_cells.2 ⟨_, List.mem_cons_self, List.mem_range.2 (hlen ▸ hi)⟩
    obtain ⟨s0, rfl⟩ := List.length_eq_one_iff.1 hl
    refine ⟨[i], put h l i (h src s0), lookup_of_mem hn (hmi i hi), by simp [assign], ?_, ?_, ?_⟩
    · intro j hj hij
      unfold read
      rw [lookup_of_mem hn (hmi j hj)]
      simp [put, hij]
    · intro a ha
      have hGn : G.map (·.1) = aux.map Eqn.name := by
        rw [hG, List.map_append] at hauxn
        exact List.append_cancel_left hauxn
      have : a.name ∈ G.map (·.1) := by rw [hGn]; exact List.mem_map_of_mem ha
      obtain ⟨x, hx, hxa⟩ := List.mem_map.1 this
      unfold read
      rw [← hxa, lookup_of_mem hn (by rw [hG]; exact List.mem_append_right _ hx)]
      simp only [Option.map_some, Option.some.injEq]
      refine List.map_congr_left fun c hcx => ?_
      have h3 := hc x hx c hcx
      have h4 := lt_size hin
      have : c ≠ i := by omega
      simp [put, this]
    · unfold read
      rw [lookup_of_mem hn (hmi i hi)]
      simp [put]

/-! ### What fails -/

/-- C149 fails for mixed auxiliary equations: the names of their components are not passed on, and the constructor stops with
`TypeError: object of type 'NoneType' has no len()`. -/
theorem C149_mixed_auxiliary_refuted (e a : Eqn) (F : Fields) (h : setup e [] = .ok F) (ha : a.n > 1) (hx : a.name ≠ "X") :
    setup e [a] = .error .typeError := by
  unfold setup at h ⊢
  cases hN : newFields e with
  | error _ => rw [hN] at h; cases h
  | ok F0 => simp [bind, Except.bind, addEquation, addField, ha, hx, List.foldlM_cons]

/-- The shallow-water fields, and an auxiliary equation whose field has the name of one of them. -/
def sw : Eqn := ⟨"u_D", 2, some ["u", "D"]⟩
/-- The auxiliary equation. -/
def auxD : Eqn := ⟨"D", 1, none⟩

/-- C149 fails without a message for an auxiliary equation whose field has the name of a prognostic one: `update` then puts the field of
the auxiliary equation into the prognostic depth of level `n`, for every content of the memory. -/
theorem C149_name_clash_refuted (h : Heap V) :
    ∃ F h', setup sw [auxD] = .ok F ∧ update F 1 h = some h' ∧ read F h 1 "u_D" = some [h 1 0, h 1 1] ∧
      read F h' 0 "u_D" = some [h 1 0, h 1 2] := by
  refine ⟨[("u_D", [0, 1]), ("u", [0]), ("D", [1]), ("D", [2])], _, ?_, rfl, ?_, ?_⟩
  · simp [setup, newFields, addEquation, addField, sw, auxD, size, bind, Except.bind, pure, Except.pure, List.range'_succ]
  · simp [read, lookup]
  · simp [read, lookup, put]

/-- The hypotheses are met: shallow water with a tracer as auxiliary equation and three previous levels. -/
example (h : Heap ℚ) : ∃ F h', setup sw [⟨"q", 1, none⟩] = .ok F ∧ update F 3 h = some h' ∧
    read F h' 0 "D" = read F h 1 "D" ∧ read F h' 2 "u_D" = read F h 3 "u_D" ∧ read F h' 1 "q" = read F h 2 "q" ∧
    read F h 1 "q" = some [h 1 2] := by
  obtain ⟨F, hF⟩ := (C149_accepts sw [⟨"q", 1, none⟩]).2 (by simp [sw])
  obtain ⟨h', hu, h1, -⟩ := C149_update sw [⟨"q", 1, none⟩] F hF (by simp [allNames, sw]) 3 (by norm_num) h
  refine ⟨F, h', hF, hu, h1 0 (by norm_num) _, h1 2 (by norm_num) _, h1 1 (by norm_num) _, ?_⟩
  have : F = [("u_D", [0, 1]), ("u", [0]), ("D", [1]), ("q", [2])] := by
    have e : setup sw [⟨"q", 1, none⟩] = .ok [("u_D", [0, 1]), ("u", [0]), ("D", [1]), ("q", [2])] := by
      simp [setup, newFields, addEquation, addField, sw, size, bind, Except.bind, pure, Except.pure, List.range'_succ]
    rw [e] at hF
    cases hF
    rfl
  rw [this]
  simp [read, lookup]

end Gusto.Props.TimeLevelsProps
