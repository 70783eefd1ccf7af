import Verif.Spec.NetCDF
import Verif.Props.ParallelIO
import Mathlib.Data.Real.Basic
import Mathlib.Data.List.Dedup

set_option autoImplicit false
set_option linter.unusedSectionVars false
set_option linter.unusedSimpArgs false

/-!
# C133: the netCDF field file
-/

namespace Gusto.Props.NetCDFProps
open Gusto NetCDF ParallelIO Gusto.Props.ParallelProps
variable {α P : Type}

/-! ### Lists of names -/

theorem lookup_append_not {β : Type*} {l l' : List (String × β)} {n : String} (h : n ∉ l.map Prod.fst) :
    (l ++ l').lookup n = l'.lookup n := by
  induction l with
  | nil => rfl
  | cons a l ih =>
    simp only [List.map_cons, List.mem_cons, not_or] at h
    rw [List.cons_append, List.lookup_cons, beq_false_of_ne h.1]
    exact ih h.2

theorem lookup_of_mem {β : Type*} {l : List (String × β)} (hn : (l.map Prod.fst).Nodup) {a : String × β} (ha : a ∈ l) :
    l.lookup a.1 = some a.2 := by
  induction l with
  | nil => cases ha
  | cons b l ih =>
    simp only [List.map_cons, List.nodup_cons] at hn
    rw [List.lookup_cons]
    rcases List.mem_cons.1 ha with rfl | h
    · simp
    · have : a.1 ≠ b.1 := fun e => hn.1 (by rw [← e]; exact List.mem_map_of_mem h)
      rw [beq_false_of_ne this]
      exact ih hn.2 h

theorem lookup_none {β : Type*} {l : List (String × β)} {n : String} (h : n ∉ l.map Prod.fst) : l.lookup n = none := by
  have := lookup_append_not (l' := []) h
  simpa using this

theorem std_cons {c : String} (h : c ∈ ["x", "y", "z", "lon", "lat", "h"]) :
    c.toList = ['x'] ∨ c.toList = ['y'] ∨ c.toList = ['z'] ∨ c.toList = ['l', 'o', 'n'] ∨ c.toList = ['l', 'a', 't'] ∨ c.toList = ['h'] := by
  simp only [List.mem_cons, List.not_mem_nil, or_false] at h
  rcases h with rfl | rfl | rfl | rfl | rfl | rfl <;> simp

theorem coordVar_inj {c c' s s' : String} (h : c ∈ ["x", "y", "z", "lon", "lat", "h"]) (h' : c' ∈ ["x", "y", "z", "lon", "lat", "h"])
    (e : coordVar c s = coordVar c' s') : c = c' ∧ s = s' := by
  have e' := congrArg String.toList e
  simp only [coordVar, String.toList_append] at e'
  have key : c.toList = c'.toList ∧ s.toList = s'.toList := by
    rcases std_cons h with h1 | h1 | h1 | h1 | h1 | h1 <;> rcases std_cons h' with h2 | h2 | h2 | h2 | h2 | h2 <;>
      rw [h1, h2] at e' ⊢ <;> simp_all
  exact ⟨String.toList_injective key.1, String.toList_injective key.2⟩

theorem coordVar_ne_time {c s : String} (h : c ∈ ["x", "y", "z", "lon", "lat", "h"]) : coordVar c s ≠ "time" := by
  intro e
  have e' := congrArg String.toList e
  simp only [coordVar, String.toList_append] at e'
  rcases std_cons h with h1 | h1 | h1 | h1 | h1 | h1 <;> rw [h1] at e' <;> simp at e'

theorem coordDim_inj {s s' : String} (e : coordDim s = coordDim s') : s = s' := by
  have e' := congrArg String.toList e
  simp only [coordDim, String.toList_append, List.append_cancel_left_eq] at e'
  exact String.toList_injective e'

theorem coordDim_new (s : String) : coordDim s ∉ ["time", "dim_one", "dim_string"] := by
  intro h
  simp only [List.mem_cons, List.not_mem_nil, or_false] at h
  rcases h with h | h | h <;> · have := congrArg String.toList h; simp [coordDim, String.toList_append] at this

/-! ### Creating the file -/

theorem foldlM_ok {β γ : Type*} {step : β → γ → Except Err β} {b b' : β} {a : γ} (h : step b a = .ok b') (l : List γ) :
    (a :: l).foldlM step b = l.foldlM step b' := by
  rw [List.foldlM_cons, h]; rfl

theorem addVars (f : File α) (l : List (String × Var α)) (h : (f.vars.map Prod.fst ++ l.map Prod.fst).Nodup) (hg : f.groups = []) :
    l.foldlM (fun f m => addVar f m.1 m.2) f = .ok { f with vars := f.vars ++ l } := by
  induction l generalizing f with
  | nil => simp; rfl
  | cons a l ih =>
    have ha : a.1 ∉ f.vars.map Prod.fst := by
      intro hm
      rw [List.map_cons, List.nodup_append] at h
      exact h.2.2 _ hm _ (by simp) rfl
    rw [foldlM_ok (b' := { f with vars := f.vars ++ [a] }) (by simp [addVar, ha, hg]), ih]
    · simp
    · simpa using h
    · exact hg

/-- The coordinate variables of a space. -/
def spaceVars (lib : Library) (dom : Dom α P) (s : String) : List (String × Var α) :=
  dom.coords.map fun c => (coordVar c.1 s, .coord (coordDim s) (stored lib ((points dom s).map (List.map c.2)) fun _ => none))

theorem addSpaces (lib : Library) (dom : Dom α P) (chi : List String) (L : List String) (f : File α)
    (hd : (f.dims.map Prod.fst ++ (L.filter (· ∈ chi)).map coordDim).Nodup)
    (hv : (f.vars.map Prod.fst ++ (L.filter (· ∈ chi)).flatMap fun s => dom.coords.map fun c => coordVar c.1 s).Nodup) (hg : f.groups = []) :
    L.foldlM (addSpace lib dom chi) f = .ok { f with
      dims := f.dims ++ (L.filter (· ∈ chi)).map fun s => (coordDim s, some (points dom s).flatten.length)
      vars := f.vars ++ (L.filter (· ∈ chi)).flatMap (spaceVars lib dom) } := by
  induction L generalizing f with
  | nil => simp; rfl
  | cons s L ih =>
    by_cases hs : s ∈ chi
    · have hfil : (s :: L).filter (· ∈ chi) = s :: L.filter (· ∈ chi) := by simp [hs]
      rw [hfil] at hd hv ⊢
      have hsd : coordDim s ∉ f.dims.map Prod.fst := by
        intro hm
        rw [List.map_cons, List.nodup_append] at hd
        exact hd.2.2 _ hm _ (by simp) rfl
      have hv' : (f.vars.map Prod.fst ++ (spaceVars lib dom s).map Prod.fst).Nodup := by
        rw [List.flatMap_cons, ← List.append_assoc] at hv
        have := (List.nodup_append.1 hv).1
        simpa [spaceVars, Function.comp_def] using this
      have h1 := addVars { f with dims := f.dims ++ [(coordDim s, some (points dom s).flatten.length)] } (spaceVars lib dom s) hv' hg
      rw [spaceVars, List.foldlM_map] at h1
      rw [foldlM_ok (by simp only [addSpace, hs, not_true, if_false, addDim, hsd]; exact h1), ih]
      · simp [spaceVars]
      · simpa using hd
      · simpa [List.flatMap_cons, spaceVars, Function.comp_def] using hv
      · exact hg
    · have hfil : (s :: L).filter (· ∈ chi) = L.filter (· ∈ chi) := by simp [hs]
      rw [hfil] at hd hv ⊢
      rw [foldlM_ok (b' := f) (by simp [addSpace, hs])]
      exact ih f hd hv hg

/-- The groups of the fields, with given values. -/
def mkGroups (flds : List Field) (V : Field → ℕ → ℕ → Option α) : List (String × FieldGroup α) :=
  flds.map fun g => (g.name, ⟨coordDim g.space, V g⟩)

theorem mkGroups_keys (flds : List Field) (V : Field → ℕ → ℕ → Option α) : (mkGroups flds V).map Prod.fst = flds.map Field.name := by
  simp [mkGroups]

theorem addFields (chi : List String) (L done : List Field) (f : File α) (hn : ((done ++ L).map Field.name).Nodup)
    (hv : ∀ g ∈ L, g.name ∉ f.vars.map Prod.fst) (hg : f.groups = mkGroups (done.filter (·.space ∈ chi)) fun _ _ _ => none) :
    L.foldlM (addField chi) f = .ok { f with groups := mkGroups ((done ++ L).filter (·.space ∈ chi)) fun _ _ _ => none } := by
  induction L generalizing done f with
  | nil => simp only [List.append_nil, List.foldlM_nil]; rw [← hg]; rfl
  | cons g L ih =>
    have e : done ++ g :: L = (done ++ [g]) ++ L := by simp
    rw [e] at hn ⊢
    by_cases hs : g.space ∈ chi
    · have h1 : g.name ∉ f.vars.map Prod.fst := hv g (by simp)
      have h2 : g.name ∉ f.groups.map Prod.fst := by
        rw [hg, mkGroups_keys]
        intro hm
        obtain ⟨g', hg', e'⟩ := List.mem_map.1 hm
        have hn' := (List.nodup_append.1 (by rwa [List.map_append] at hn)).1
        rw [List.map_append] at hn'
        exact (List.nodup_append.1 hn').2.2 _ (List.mem_map_of_mem (List.mem_of_mem_filter hg')) _ (by simp) e'
      rw [foldlM_ok (b' := { f with groups := f.groups ++ [(g.name, ⟨coordDim g.space, fun _ _ => none⟩)] })
        (by simp only [addField, hs, not_true, if_false, addGroup, h1, h2, or_self])]
      exact ih (done ++ [g]) { f with groups := f.groups ++ [(g.name, ⟨coordDim g.space, fun _ _ => none⟩)] } hn
        (fun g' hg' => hv g' (by simp [hg'])) (by simp [hg, mkGroups, hs])
    · rw [foldlM_ok (b' := f) (by simp [addField, hs])]
      exact ih (done ++ [g]) f hn (fun g' hg' => hv g' (by simp [hg'])) (by simp [hg, hs])

/-- The registered spaces after the set-up. -/
theorem register_fold (dom : Dom α P) (L : List String) (hL : ∀ s ∈ L, ∃ sp, dom.spaces.lookup s = some sp) (chi : List String) :
    ∃ chi', L.foldlM (registerSpace dom) chi = .ok chi' ∧ ∀ s, s ∈ chi' ↔ s ∈ chi ∨ s ∈ L ∧ IsScalar dom s := by
  induction L generalizing chi with
  | nil => exact ⟨chi, rfl, by simp⟩
  | cons n L ih =>
    obtain ⟨sp, hsp⟩ := hL n (by simp)
    have hL' : ∀ s ∈ L, ∃ sp, dom.spaces.lookup s = some sp := fun s hs => hL s (by simp [hs])
    by_cases hn : n ∈ chi
    · obtain ⟨chi', h1, h2⟩ := ih hL' chi
      refine ⟨chi', by rw [foldlM_ok (b' := chi) (by simp [registerSpace, hn])]; exact h1, fun s => ?_⟩
      rw [h2]
      constructor
      · rintro (h | h)
        · exact Or.inl h
        · exact Or.inr ⟨by simp [h.1], h.2⟩
      · rintro (h | ⟨h, h'⟩)
        · exact Or.inl h
        · rcases List.mem_cons.1 h with rfl | h
          · exact Or.inl hn
          · exact Or.inr ⟨h, h'⟩
    · by_cases hc : sp.components > 1
      · obtain ⟨chi', h1, h2⟩ := ih hL' chi
        refine ⟨chi', by rw [foldlM_ok (b' := chi) (by simp [registerSpace, hn, hsp, hc])]; exact h1, fun s => ?_⟩
        rw [h2]
        have hns : ¬ IsScalar dom n := by
          rintro ⟨sp', e, h⟩
          rw [hsp] at e; cases e; omega
        constructor
        · rintro (h | h)
          · exact Or.inl h
          · exact Or.inr ⟨by simp [h.1], h.2⟩
        · rintro (h | ⟨h, h'⟩)
          · exact Or.inl h
          · rcases List.mem_cons.1 h with rfl | h
            · exact absurd h' hns
            · exact Or.inr ⟨h, h'⟩
      · obtain ⟨chi', h1, h2⟩ := ih hL' (chi ++ [n])
        refine ⟨chi', by rw [foldlM_ok (b' := chi ++ [n]) (by simp [registerSpace, hn, hsp, hc])]; exact h1, fun s => ?_⟩
        rw [h2]
        have hns : IsScalar dom n := ⟨sp, hsp, by omega⟩
        simp only [List.mem_append, List.mem_cons, List.not_mem_nil, or_false]
        constructor
        · rintro ((h | rfl) | h)
          · exact Or.inl h
          · exact Or.inr ⟨Or.inl rfl, hns⟩
          · exact Or.inr ⟨Or.inr h.1, h.2⟩
        · rintro (h | ⟨rfl | h, h'⟩)
          · exact Or.inl (Or.inl h)
          · exact Or.inl (Or.inr rfl)
          · exact Or.inr ⟨h, h'⟩

/-! ### The written arrays -/

theorem gather_eq {β : Type*} (locals : List (List β)) : gather locals = locals.flatten := by
  unfold gather
  split
  · rename_i h
    match locals, h with
    | [a], _ => simp
  · rfl

theorem stored_eq {lib : Library} {ranks : ℕ} (hlib : GoodLibrary lib ranks) (locals : List (List α)) (hl : locals.length = ranks) (i : ℕ) :
    stored lib locals (fun _ => none) i = locals.flatten[i]? := by
  unfold stored
  split
  · rename_i h
    exact C19_written locals lib.order (fun r hr => by rw [hl]; exact (hlib h).1 r hr) (fun r hr => (hlib h).2 r (by rwa [hl] at hr)) i
  · rw [gather_eq]

theorem stored_map {lib : Library} {ranks : ℕ} (hlib : GoodLibrary lib ranks) (pts : List (List P)) (hl : pts.length = ranks) (c : P → α)
    (i : ℕ) : stored lib (pts.map (List.map c)) (fun _ => none) i = pts.flatten[i]?.map c := by
  rw [stored_eq hlib _ (by simpa using hl), ← List.map_flatten, List.getElem?_map]

/-- The nodes of a space in the order of the ranks. -/
def nodes (dom : Dom α P) (s : String) : List P := (points dom s).flatten

/-! ### The state of a run -/

/-- A dump: time, state, and the nodes in the order of the run that made it. -/
structure Entry (α P : Type) where
  t : α
  state : String → P → α
  nodes : String → List P

/-- The file after the dumps `es`. -/
structure Inv (D : List (String × Option ℕ)) (R : List (String × Var α)) (flds : List Field) (es : List (Entry α P)) (s : Session α) : Prop where
  idx : s.idx = es.length
  file : ∃ v V, s.file = ⟨D, ("time", .time v) :: R, mkGroups flds V, es.length⟩ ∧ (∀ k, v k = es[k]?.map Entry.t) ∧
    ∀ g ∈ flds, ∀ j k, V g j k = es[k]?.bind fun e => (e.nodes g.space)[j]?.map (e.state g.name)

theorem time_map (R : List (String × Var α)) (hR : "time" ∉ R.map Prod.fst) (idx : ℕ) (t : α) :
    (R.map fun nv => match nv with
      | (n, .time v) => if n = "time" then (n, Var.time (Function.update v idx (some t))) else (n, .time v)
      | nv => nv) = R := by
  conv_rhs => rw [← List.map_id R]
  refine List.map_congr_left fun a ha => ?_
  obtain ⟨n, v⟩ := a
  have : n ≠ "time" := fun e => hR (by rw [← e]; exact List.mem_map_of_mem (f := Prod.fst) ha)
  cases v <;> simp [this]

theorem writeFields (lib : Library) (dom : Dom α P) (chi : List String) (idx : ℕ) (state : String → P → α)
    {D : List (String × Option ℕ)} {W : List (String × Var α)} {flds : List Field} (hn : (flds.map Field.name).Nodup)
    (hD : ∀ g ∈ flds, D.lookup (coordDim g.space) = some (some (nodes dom g.space).length))
    (L : List Field) (hL : ∀ g ∈ L, g.space ∈ chi → g ∈ flds) (V : Field → ℕ → ℕ → Option α) (len : ℕ) (hlen : idx + 1 ≤ len) :
    ∃ V', L.foldlM (writeField lib dom chi idx state) (⟨D, W, mkGroups flds V, len⟩ : File α) = .ok ⟨D, W, mkGroups flds V', len⟩ ∧
      (∀ g j k, k ≠ idx → V' g j k = V g j k) ∧
      (∀ g, (g ∉ L ∨ g.space ∉ chi) → ∀ j, V' g j idx = V g j idx) ∧
      ((L.map Field.name).Nodup → ∀ g ∈ L, g.space ∈ chi → ∀ j,
        V' g j idx = stored lib ((points dom g.space).map (List.map (state g.name))) (fun j => V g j idx) j) := by
  induction L generalizing V with
  | nil => exact ⟨V, rfl, fun _ _ _ _ => rfl, fun _ _ _ => rfl, fun _ g hg => by cases hg⟩
  | cons g L ih =>
    have hL' : ∀ g' ∈ L, g'.space ∈ chi → g' ∈ flds := fun g' hg' => hL g' (by simp [hg'])
    by_cases hs : g.space ∈ chi
    · have hgf := hL g (by simp) hs
      have hlook : (mkGroups flds V).lookup g.name = some (⟨coordDim g.space, V g⟩ : FieldGroup α) := by
        have hm : (g.name, (⟨coordDim g.space, V g⟩ : FieldGroup α)) ∈ mkGroups flds V :=
          List.mem_map_of_mem (f := fun g => (g.name, (⟨coordDim g.space, V g⟩ : FieldGroup α))) hgf
        exact lookup_of_mem (by rw [mkGroups_keys]; exact hn) hm
      have hlen' : (((points dom g.space).map (List.map (state g.name))).flatten).length = (nodes dom g.space).length := by
        rw [← List.map_flatten, List.length_map]; rfl
      set new : ℕ → ℕ → Option α := fun j k => if k = idx then
        stored lib ((points dom g.space).map (List.map (state g.name))) (fun j => V g j idx) j else V g j k with hnew
      have hstep : writeField lib dom chi idx state ⟨D, W, mkGroups flds V, len⟩ g = .ok ⟨D, W, mkGroups flds (Function.update V g new), len⟩ := by
        simp only [writeField, hs, not_true, if_false, hlook, hlen', hD g hgf, if_true, max_eq_left hlen]
        congr 2
        simp only [mkGroups, List.map_map]
        refine List.map_congr_left fun g' hg' => ?_
        simp only [Function.comp_apply]
        by_cases e : g' = g
        · subst e; simp [hnew]
        · have e' : g'.name ≠ g.name := fun h => e (List.inj_on_of_nodup_map hn hg' hgf h)
          rw [if_neg e', Function.update_of_ne e]
      rw [foldlM_ok hstep]
      obtain ⟨V', h1, h2, h3, h4⟩ := ih hL' (Function.update V g new)
      refine ⟨V', h1, fun g' j k hk => ?_, fun g' hg' j => ?_, fun hnd g' hg' hs' j => ?_⟩
      · rw [h2 g' j k hk]
        by_cases e : g' = g
        · subst e; simp [hnew, hk]
        · rw [Function.update_of_ne e]
      · have e : g' ≠ g := by
          rintro rfl
          rcases hg' with h | h
          · exact h (by simp)
          · exact h hs
        rw [h3 g' (hg'.imp (fun h h' => h (by simp [h'])) id), Function.update_of_ne e]
      · rw [List.map_cons, List.nodup_cons] at hnd
        rcases List.mem_cons.1 hg' with rfl | hgL
        · have : g' ∉ L := fun h => hnd.1 (List.mem_map_of_mem h)
          rw [h3 g' (Or.inl this), Function.update_self]
          simp [hnew]
        · have e : g' ≠ g := by rintro rfl; exact hnd.1 (List.mem_map_of_mem hgL)
          rw [h4 hnd.2 g' hgL hs', Function.update_of_ne e]
    · obtain ⟨V', h1, h2, h3, h4⟩ := ih hL' V
      refine ⟨V', by rw [foldlM_ok (b' := ⟨D, W, mkGroups flds V, len⟩) (by simp [writeField, hs])]; exact h1, h2, fun g' hg' j => ?_, fun hnd g' hg' hs' j => ?_⟩
      · by_cases e : g'.space ∈ chi
        · refine h3 g' (Or.inl fun h => ?_) j
          rcases hg' with h' | h'
          · exact h' (by simp [h])
          · exact h' e
        · exact h3 g' (Or.inr e) j
      · rw [List.map_cons, List.nodup_cons] at hnd
        rcases List.mem_cons.1 hg' with rfl | hgL
        · exact absurd hs' hs
        · exact h4 hnd.2 g' hgL hs' j

/-- One dump. -/
theorem write_inv {lib : Library} {ranks : ℕ} (hlib : GoodLibrary lib ranks) {dom : Dom α P} {toDump : List Field}
    (hnd : (toDump.map Field.name).Nodup) {D : List (String × Option ℕ)} {R : List (String × Var α)} (hR : "time" ∉ R.map Prod.fst)
    {es : List (Entry α P)} {s : Session α} (hs : Inv D R (toDump.filter (·.space ∈ s.chi)) es s)
    (hD : ∀ g ∈ toDump, g.space ∈ s.chi → D.lookup (coordDim g.space) = some (some (nodes dom g.space).length))
    (hr : ∀ g ∈ toDump, g.space ∈ s.chi → (points dom g.space).length = ranks) (t : α) (state : String → P → α) :
    ∃ s', write lib dom toDump s t state = .ok s' ∧ s'.chi = s.chi ∧
      Inv D R (toDump.filter (·.space ∈ s.chi)) (es ++ [⟨t, state, nodes dom⟩]) s' := by
  obtain ⟨chi, idx, file⟩ := s
  obtain ⟨hidx, v, V, hfile, hv, hV⟩ := hs
  simp only at hidx hfile hV hD hr ⊢
  subst hidx
  rw [hfile]
  set flds := toDump.filter (·.space ∈ chi) with hflds
  have hmem : ∀ g, g ∈ flds ↔ g ∈ toDump ∧ g.space ∈ chi := fun g => by simp [hflds]
  obtain ⟨V', h1, h2, h3, h4⟩ := writeFields lib dom chi es.length state
    (W := ("time", .time (Function.update v es.length (some t))) :: R) (flds := flds) (D := D)
    (by rw [hflds]; exact hnd.sublist (List.filter_sublist.map _)) (fun g hg => hD g ((hmem g).1 hg).1 ((hmem g).1 hg).2)
    toDump (fun g hg hs => (hmem g).2 ⟨hg, hs⟩) V (es.length + 1) le_rfl
  have hw : writeTime (⟨D, ("time", .time v) :: R, mkGroups flds V, es.length⟩ : File α) es.length t
      = ⟨D, ("time", .time (Function.update v es.length (some t))) :: R, mkGroups flds V, es.length + 1⟩ := by
    rw [writeTime, if_pos (by simp)]
    simp only [List.map_cons, if_true, Nat.le_add_right, max_eq_right]
    congr 2
    exact time_map R hR es.length t
  refine ⟨⟨chi, es.length + 1, ⟨D, ("time", .time (Function.update v es.length (some t))) :: R, mkGroups flds V', es.length + 1⟩⟩, ?_, rfl, ?_⟩
  · simp only [write, hw, h1]; rfl
  refine ⟨by simp, Function.update v es.length (some t), V', by simp, fun k => ?_, fun g hg j k => ?_⟩
  · by_cases hk : k = es.length
    · subst hk; simp
    · rw [Function.update_of_ne hk, hv]
      rcases Nat.lt_or_ge k es.length with h | h
      · rw [List.getElem?_append_left h]
      · rw [List.getElem?_eq_none h, List.getElem?_eq_none (by simp; omega)]
  · obtain ⟨hg1, hg2⟩ := (hmem g).1 hg
    by_cases hk : k = es.length
    · subst hk
      have hnone : (fun j => V g j es.length) = fun _ => none := by
        funext j; rw [hV g hg]; simp
      rw [h4 hnd g hg1 hg2, hnone, stored_map hlib _ (hr g hg1 hg2)]
      simp [nodes]
    · rw [h2 g j k hk, hV g hg]
      rcases Nat.lt_or_ge k es.length with h | h
      · rw [List.getElem?_append_left h]
      · rw [List.getElem?_eq_none h, List.getElem?_eq_none (by simp; omega)]

/-- A sequence of dumps. -/
theorem dumps_inv {lib : Library} {ranks : ℕ} (hlib : GoodLibrary lib ranks) {dom : Dom α P} {toDump : List Field}
    (hnd : (toDump.map Field.name).Nodup) {D : List (String × Option ℕ)} {R : List (String × Var α)} (hR : "time" ∉ R.map Prod.fst)
    (ds : List (α × (String → P → α))) {es : List (Entry α P)} {s : Session α} (hs : Inv D R (toDump.filter (·.space ∈ s.chi)) es s)
    (hD : ∀ g ∈ toDump, g.space ∈ s.chi → D.lookup (coordDim g.space) = some (some (nodes dom g.space).length))
    (hr : ∀ g ∈ toDump, g.space ∈ s.chi → (points dom g.space).length = ranks) :
    ∃ s', dumps lib dom toDump s ds = .ok s' ∧ s'.chi = s.chi ∧
      Inv D R (toDump.filter (·.space ∈ s.chi)) (es ++ ds.map fun d => ⟨d.1, d.2, nodes dom⟩) s' := by
  induction ds generalizing s es with
  | nil => exact ⟨s, rfl, rfl, by simpa using hs⟩
  | cons d ds ih =>
    obtain ⟨s1, h1, h2, h3⟩ := write_inv hlib hnd hR hs hD hr d.1 d.2
    rw [← h2] at h3 hD hr
    obtain ⟨s2, h4, h5, h6⟩ := ih h3 hD hr
    refine ⟨s2, ?_, h5.trans h2, ?_⟩
    · simp only [dumps, List.foldlM_cons, h1]
      exact h4
    · rw [← h2]; simpa using h6

/-! ### The whole file -/

/-- The dimensions of the file. -/
def fileDims (dom : Dom α P) (regs : List String) : List (String × Option ℕ) :=
  [("time", none), ("dim_one", some 1), ("dim_string", some 256)] ++ regs.map fun s => (coordDim s, some (nodes dom s).length)

/-- The variables of the file besides the time. -/
def fileVars (lib : Library) (dom : Dom α P) (regs : List String) : List (String × Var α) :=
  (dom.metadata.map fun m => (m.1, metaVar lib m.2)) ++ regs.flatMap (spaceVars lib dom)

theorem mem_spaceNames (toDump : List Field) (s : String) : s ∈ spaceNames toDump ↔ ∃ g ∈ toDump, g.space = s := by
  simp [spaceNames]

theorem vars_keys (lib : Library) (dom : Dom α P) (regs : List String) : (fileVars lib dom regs).map Prod.fst =
    dom.metadata.map Prod.fst ++ regs.flatMap fun s => dom.coords.map fun c => coordVar c.1 s := by
  simp [fileVars, spaceVars, List.map_flatMap, Function.comp_def]

section
variable {dom : Dom α P} {toDump : List Field} (hN : GoodNames dom toDump) {regs : List String} (hnd : regs.Nodup)
  (hregs : ∀ s ∈ regs, ∃ g ∈ toDump, g.space = s)
include hN hnd hregs

theorem coords_nodup : (regs.flatMap fun s => dom.coords.map fun c => coordVar c.1 s).Nodup := by
  rw [List.nodup_flatMap]
  refine ⟨fun s _ => ?_, ?_⟩
  · have := hN.coordsNodup
    rw [List.nodup_map_iff_inj_on (List.Nodup.of_map _ this)]
    intro a ha b hb e
    have := (coordVar_inj (hN.coords a ha) (hN.coords b hb) e).1
    exact List.inj_on_of_nodup_map hN.coordsNodup ha hb this
  · refine hnd.imp fun {s s'} hs => ?_
    intro n h1 h2
    obtain ⟨c, hc, rfl⟩ := List.mem_map.1 h1
    obtain ⟨c', hc', e⟩ := List.mem_map.1 h2
    exact hs (coordVar_inj (hN.coords c hc) (hN.coords c' hc') e.symm).2

theorem time_notin (lib : Library) : "time" ∉ (fileVars lib dom regs).map Prod.fst := by
  rw [vars_keys, List.mem_append, not_or]
  refine ⟨hN.metaTime, fun h => ?_⟩
  obtain ⟨s, -, h⟩ := List.mem_flatMap.1 h
  obtain ⟨c, hc, e⟩ := List.mem_map.1 h
  exact coordVar_ne_time (hN.coords c hc) e

theorem vars_nodup (lib : Library) : ((fileVars lib dom regs).map Prod.fst).Nodup := by
  rw [vars_keys, List.nodup_append]
  refine ⟨hN.metaNodup, coords_nodup hN hnd hregs, fun a ha b hb e => ?_⟩
  subst e
  obtain ⟨m, hm, rfl⟩ := List.mem_map.1 ha
  obtain ⟨s, hs, h⟩ := List.mem_flatMap.1 hb
  obtain ⟨c, hc, e⟩ := List.mem_map.1 h
  obtain ⟨g, hg, rfl⟩ := hregs s hs
  exact hN.metaCoord m hm c hc g hg e.symm

theorem dims_nodup : ((fileDims dom regs).map Prod.fst).Nodup := by
  simp only [fileDims, List.map_append, List.map_map]
  rw [List.nodup_append]
  refine ⟨by simp, ?_, fun a ha b hb e => ?_⟩
  · exact hnd.map fun a b e => coordDim_inj e
  · subst e
    obtain ⟨s, -, rfl⟩ := List.mem_map.1 hb
    exact coordDim_new s ha

theorem create_eq (lib : Library) (chi : List String) (hr : regs = (spaceNames toDump).filter (· ∈ chi)) :
    create lib dom chi (spaceNames toDump) toDump = .ok ⟨fileDims dom regs, ("time", .time fun _ => none) :: fileVars lib dom regs,
      mkGroups (toDump.filter (·.space ∈ chi)) fun _ _ _ => none, 0⟩ := by
  set f3 : File α := ⟨[("time", none), ("dim_one", some 1), ("dim_string", some 256)], [("time", .time fun _ => none)], [], 0⟩ with hf3
  have ht := time_notin hN hnd hregs lib
  have hv := vars_nodup hN hnd hregs lib
  have hd := dims_nodup hN hnd hregs
  rw [vars_keys] at ht hv
  rw [List.mem_append, not_or] at ht
  have hv' := List.nodup_append.1 hv
  have h1 := addVars f3 (dom.metadata.map fun m => (m.1, metaVar lib m.2)) (by
    simp only [hf3, List.map_map, Function.comp_def, List.map_cons, List.map_nil, List.singleton_append, List.nodup_cons]
    exact ⟨ht.1, hN.metaNodup⟩) rfl
  rw [List.foldlM_map] at h1
  set f4 : File α := { f3 with vars := f3.vars ++ dom.metadata.map fun m => (m.1, metaVar lib m.2) } with hf4
  have h2 := addSpaces lib dom chi (spaceNames toDump) f4 (by
    rw [← hr]
    simpa [fileDims, hf4, hf3, Function.comp_def] using hd) (by
    rw [← hr]
    have : f4.vars.map Prod.fst = "time" :: dom.metadata.map Prod.fst := by simp [hf4, hf3, Function.comp_def]
    rw [this, List.cons_append, List.nodup_cons]
    exact ⟨by rw [List.mem_append, not_or]; exact ht, hv⟩) rfl
  rw [← hr] at h2
  set f5 : File α := { f4 with
      dims := f4.dims ++ regs.map fun s => (coordDim s, some (points dom s).flatten.length)
      vars := f4.vars ++ regs.flatMap (spaceVars lib dom) } with hf5
  have h3 := addFields chi toDump [] f5 (by simpa using hN.fieldsNodup) (fun g hg => by
    have : f5.vars.map Prod.fst = "time" :: (dom.metadata.map Prod.fst ++ regs.flatMap fun s => dom.coords.map fun c => coordVar c.1 s) := by
      simp [hf5, hf4, hf3, spaceVars, List.map_flatMap, Function.comp_def]
    rw [this, List.mem_cons, List.mem_append, not_or, not_or]
    refine ⟨hN.fieldTime g hg, hN.fieldMeta g hg, fun h => ?_⟩
    obtain ⟨s, hs, h⟩ := List.mem_flatMap.1 h
    obtain ⟨c, hc, e⟩ := List.mem_map.1 h
    obtain ⟨g', hg', rfl⟩ := hregs s hs
    exact hN.fieldCoord g hg c hc g' hg' e.symm) rfl
  have e0 : create lib dom chi (spaceNames toDump) toDump =
      (dom.metadata.foldlM (fun f m => addVar f m.1 (metaVar lib m.2)) f3 >>= fun f =>
        (spaceNames toDump).foldlM (addSpace lib dom chi) f >>= fun f => toDump.foldlM (addField chi) f) := by
    simp [create, addDim, addVar, hf3]; rfl
  rw [e0, h1]
  change ((spaceNames toDump).foldlM (addSpace lib dom chi) f4 >>= fun f => toDump.foldlM (addField chi) f) = _
  rw [h2]
  change toDump.foldlM (addField chi) f5 = _
  rw [h3]
  simp [hf5, hf4, hf3, fileDims, fileVars, nodes]

end

/-- The state after the set-up of a new run. -/
theorem setup_inv (lib : Library) {ranks : ℕ} {dom : Dom α P} {chi : List String} {toDump : List Field} (hN : GoodNames dom toDump)
    (hG : GoodDomain dom chi toDump ranks) :
    ∃ s regs, setupNew lib dom chi toDump = .ok s ∧ regs.Nodup ∧ (∀ n, n ∈ regs ↔ ∃ g ∈ toDump, g.space = n ∧ IsScalar dom n) ∧
      (∀ g ∈ toDump, g.space ∈ s.chi ↔ IsScalar dom g.space) ∧
      Inv (fileDims dom regs) (fileVars lib dom regs) (toDump.filter (·.space ∈ s.chi)) ([] : List (Entry α P)) s := by
  obtain ⟨chi', h1, h2⟩ := register_fold dom (spaceNames toDump) (fun s hs => by
    obtain ⟨g, hg, rfl⟩ := (mem_spaceNames _ _).1 hs
    exact hG.exist g hg) chi
  set regs := (spaceNames toDump).filter (· ∈ chi') with hregs
  have hmem : ∀ g ∈ toDump, g.space ∈ chi' ↔ IsScalar dom g.space := fun g hg => by
    rw [h2]
    exact ⟨fun h => h.elim (hG.chi _) And.right, fun h => Or.inr ⟨(mem_spaceNames _ _).2 ⟨g, hg, rfl⟩, h⟩⟩
  have hnd : regs.Nodup := (List.nodup_dedup _).filter _
  have hr : ∀ n, n ∈ regs ↔ ∃ g ∈ toDump, g.space = n ∧ IsScalar dom n := fun n => by
    simp only [hregs, List.mem_filter, mem_spaceNames, decide_eq_true_eq]
    constructor
    · rintro ⟨⟨g, hg, rfl⟩, h⟩; exact ⟨g, hg, rfl, (hmem g hg).1 h⟩
    · rintro ⟨g, hg, rfl, h⟩; exact ⟨⟨g, hg, rfl⟩, (hmem g hg).2 h⟩
  have h3 := create_eq hN hnd (fun n hn => by obtain ⟨g, hg, e, -⟩ := (hr n).1 hn; exact ⟨g, hg, e⟩) lib chi' hregs
  refine ⟨⟨chi', 0, ⟨fileDims dom regs, ("time", .time fun _ => none) :: fileVars lib dom regs,
      mkGroups (toDump.filter (·.space ∈ chi')) fun _ _ _ => none, 0⟩⟩, regs, ?_, hnd, hr, hmem,
    ⟨rfl, fun _ => none, fun _ _ _ => none, rfl, fun k => by simp, fun g _ j k => by simp⟩⟩
  simp only [setupNew, h1]
  change (create lib dom chi' (spaceNames toDump) toDump >>= fun f => pure (⟨chi', 0, f⟩ : Session α)) = _
  rw [h3]; rfl

/-- What a reader sees of a file in a known state. -/
theorem Inv.read {lib : Library} {ranks : ℕ} (hlib : GoodLibrary lib ranks) {dom : Dom α P} {chi : List String} {toDump : List Field}
    (hN : GoodNames dom toDump) (hG : GoodDomain dom chi toDump ranks) {regs : List String} (hnd : regs.Nodup)
    (hregs : ∀ n, n ∈ regs ↔ ∃ g ∈ toDump, g.space = n ∧ IsScalar dom n) {flds : List Field} (hf : flds.Sublist toDump)
    {es : List (Entry α P)} {s : Session α} (hs : Inv (fileDims dom regs) (fileVars lib dom regs) flds es s) :
    s.file.length = es.length ∧ (∀ k, s.file.timeAt k = es[k]?.map Entry.t) ∧
    (∀ g ∈ toDump, IsScalar dom g.space → ∀ c ∈ dom.coords, ∀ j, s.file.coordAt c.1 g.space j = (nodes dom g.space)[j]?.map c.2) ∧
    (∀ g ∈ flds, ∀ j k, s.file.value g.name j k = es[k]?.bind fun e => (e.nodes g.space)[j]?.map (e.state g.name)) ∧
    ∀ n, n ∉ flds.map Field.name → s.file.groups.lookup n = none := by
  obtain ⟨hidx, v, V, hfile, hv, hV⟩ := hs
  have hreg' : ∀ n ∈ regs, ∃ g ∈ toDump, g.space = n := fun n hn => by obtain ⟨g, hg, e, -⟩ := (hregs n).1 hn; exact ⟨g, hg, e⟩
  refine ⟨by rw [hfile], fun k => ?_, fun g hg hsc c hc j => ?_, fun g hg j k => ?_, fun n hn => ?_⟩
  · rw [← hv, hfile]; simp [File.timeAt, List.lookup_cons]
  · have hne := coordVar_ne_time (s := g.space) (hN.coords c hc)
    have hm : (coordVar c.1 g.space, Var.coord (coordDim g.space) (stored lib ((points dom g.space).map (List.map c.2)) fun _ => none))
        ∈ fileVars lib dom regs :=
      List.mem_append_right _ (List.mem_flatMap.2 ⟨g.space, (hregs _).2 ⟨g, hg, rfl, hsc⟩, List.mem_map_of_mem (f := fun c =>
        (coordVar c.1 g.space, Var.coord (coordDim g.space) (stored lib ((points dom g.space).map (List.map c.2)) fun _ => none))) hc⟩)
    have hl : (fileVars lib dom regs).lookup (coordVar c.1 g.space) = _ := lookup_of_mem (vars_nodup hN hnd hreg' lib) hm
    have : s.file.vars.lookup (c.1 ++ "_" ++ g.space) = some (Var.coord (coordDim g.space)
        (stored lib ((points dom g.space).map (List.map c.2)) fun _ => none)) := by
      rw [hfile]
      simp only [List.lookup_cons]
      change (match coordVar c.1 g.space == "time" with | true => _ | false => _) = _
      rw [beq_false_of_ne hne]
      exact hl
    rw [File.coordAt, this]
    obtain ⟨sp, hsp, -⟩ := hsc
    exact stored_map hlib _ (by simp only [points, hsp]; exact hG.dist _ sp hsp) c.2 j
  · have hm : (g.name, (⟨coordDim g.space, V g⟩ : FieldGroup α)) ∈ mkGroups flds V :=
      List.mem_map_of_mem (f := fun g => (g.name, (⟨coordDim g.space, V g⟩ : FieldGroup α))) hg
    have hl := lookup_of_mem (by rw [mkGroups_keys]; exact hN.fieldsNodup.sublist (hf.map _)) hm
    rw [← hV g hg, File.value, hfile, hl]; rfl
  · rw [hfile]; exact lookup_none (by rw [mkGroups_keys]; exact hn)

theorem dim_lookup {dom : Dom α P} {toDump : List Field} (hN : GoodNames dom toDump) {regs : List String} (hnd : regs.Nodup)
    (hregs : ∀ n, n ∈ regs ↔ ∃ g ∈ toDump, g.space = n ∧ IsScalar dom n) {g : Field} (hg : g ∈ toDump) (hs : IsScalar dom g.space) :
    (fileDims dom regs).lookup (coordDim g.space) = some (some (nodes dom g.space).length) :=
  lookup_of_mem (a := (coordDim g.space, some (nodes dom g.space).length))
    (dims_nodup hN hnd (fun n hn => by obtain ⟨g, hg, e, -⟩ := (hregs n).1 hn; exact ⟨g, hg, e⟩))
    (List.mem_append_right _ (List.mem_map_of_mem (f := fun s => (coordDim s, some (nodes dom s).length)) ((hregs _).2 ⟨g, hg, rfl, hs⟩)))

/-! ### The theorems -/

/-- A run from the set-up on: `setup_dump` and then the dumps `ds`. -/
def newRun (lib : Library) (dom : Dom α P) (chi : List String) (toDump : List Field) (ds : List (α × (String → P → α))) :
    Except Err (Session α) := do
  let s ← setupNew lib dom chi toDump
  dumps lib dom toDump s ds

/-- A run that picks up with the file `old`. -/
def resumedRun (lib : Library) (dom : Dom α P) (chi : List String) (toDump : List Field) (old : Option (File α))
    (ds : List (α × (String → P → α))) : Except Err (Session α) := do
  let s ← setupPickUp dom chi toDump old
  dumps lib dom toDump s ds

theorem newRun_inv {lib : Library} {ranks : ℕ} (hlib : GoodLibrary lib ranks) {dom : Dom α P} {chi : List String} {toDump : List Field}
    (hN : GoodNames dom toDump) (hG : GoodDomain dom chi toDump ranks) (ds : List (α × (String → P → α))) :
    ∃ s regs flds, newRun lib dom chi toDump ds = .ok s ∧ regs.Nodup ∧ (∀ n, n ∈ regs ↔ ∃ g ∈ toDump, g.space = n ∧ IsScalar dom n) ∧
      flds.Sublist toDump ∧ (∀ g, g ∈ flds ↔ g ∈ toDump ∧ IsScalar dom g.space) ∧ (∀ g ∈ toDump, g.space ∈ s.chi ↔ IsScalar dom g.space) ∧
      flds = toDump.filter (·.space ∈ s.chi) ∧
      Inv (fileDims dom regs) (fileVars lib dom regs) flds (ds.map fun d => ⟨d.1, d.2, nodes dom⟩) s := by
  obtain ⟨s0, regs, h1, hnd, hr, hmem, hinv⟩ := setup_inv lib hN hG
  obtain ⟨s, h2, h3, h4⟩ := dumps_inv hlib hN.fieldsNodup
    (time_notin hN hnd (fun n hn => by obtain ⟨g, hg, e, -⟩ := (hr n).1 hn; exact ⟨g, hg, e⟩) lib) ds hinv
    (fun g hg hs => dim_lookup hN hnd hr hg ((hmem g hg).1 hs)) (fun g hg hs => by
      obtain ⟨sp, hsp, -⟩ := (hmem g hg).1 hs
      simp only [points, hsp]; exact hG.dist _ sp hsp)
  refine ⟨s, regs, toDump.filter (·.space ∈ s0.chi), ?_, hnd, hr, List.filter_sublist, fun g => ?_, by rw [h3]; exact hmem, by rw [h3],
    by simpa using h4⟩
  · simp only [newRun, h1]; exact h2
  · simp only [List.mem_filter, decide_eq_true_eq]
    exact ⟨fun h => ⟨h.1, (hmem g h.1).1 h.2⟩, fun h => ⟨h.1, (hmem g h.1).2 h.2⟩⟩

/-- **C133** (the record).  With usable names, a run makes its netCDF file and every dump without an error, and the file then records
every dump of every scalar-valued output field, at nodes whose coordinates are in the file in the same order, whether netCDF works
in parallel or not and in whatever order the ranks write. -/
theorem C133_record {lib : Library} {ranks : ℕ} (hlib : GoodLibrary lib ranks) {dom : Dom α P} {chi : List String} {toDump : List Field}
    (hN : GoodNames dom toDump) (hG : GoodDomain dom chi toDump ranks) (ds : List (α × (String → P → α))) (fields : List Field)
    (hf : ∀ g ∈ fields, g ∈ toDump ∧ IsScalar dom g.space) :
    ∃ s, newRun lib dom chi toDump ds = .ok s ∧ Records s.file dom.coords (fun n => (points dom n).flatten) fields ds := by
  obtain ⟨s, regs, flds, h1, hnd, hr, hsub, hfl, -, -, hinv⟩ := newRun_inv hlib hN hG ds
  obtain ⟨r1, r2, r3, r4, -⟩ := hinv.read hlib hN hG hnd hr hsub
  refine ⟨s, h1, by simpa using r1, fun k => ?_, fun g hg => r3 g (hf g hg).1 (hf g hg).2, fun g hg j k => ?_⟩
  · rw [r2]; simp [Function.comp_def]
  · rw [r4 g ((hfl g).2 (hf g hg))]; simp [Option.bind_map, Function.comp_def]; rfl

/-- **C133** (nothing else).  The file has no group for a field of a space with several components: such a field is announced for
output and silently (but for a warning in the log) not written, so that the claim for all fields is false. -/
theorem C133_vector_refuted {lib : Library} {ranks : ℕ} (hlib : GoodLibrary lib ranks) {dom : Dom α P} {chi : List String}
    {toDump : List Field} (hN : GoodNames dom toDump) (hG : GoodDomain dom chi toDump ranks) (ds : List (α × (String → P → α)))
    {g : Field} (hg : g ∈ toDump) (hv : ¬ IsScalar dom g.space) :
    ∃ s, newRun lib dom chi toDump ds = .ok s ∧ s.file.groups.lookup g.name = none ∧ ∀ j k, s.file.value g.name j k = none := by
  obtain ⟨s, regs, flds, h1, hnd, hr, hsub, hfl, -, -, hinv⟩ := newRun_inv hlib hN hG ds
  obtain ⟨-, -, -, -, r5⟩ := hinv.read hlib hN hG hnd hr hsub
  have h := r5 g.name (fun hm => by
    obtain ⟨g', hg', e⟩ := List.mem_map.1 hm
    obtain ⟨a, b⟩ := (hfl g').1 hg'
    rw [List.inj_on_of_nodup_map hN.fieldsNodup a hg e] at b
    exact hv b)
  exact ⟨s, h1, h, fun j k => by rw [File.value, h]; rfl⟩

/-- The resumed run, on a possibly different distribution of the same number of nodes. -/
theorem resumed_inv {lib lib' : Library} {ranks ranks' : ℕ} (hlib : GoodLibrary lib ranks) (hlib' : GoodLibrary lib' ranks')
    {dom dom' : Dom α P} {chi chi' : List String} {toDump : List Field}
    (hN : GoodNames dom toDump) (hG : GoodDomain dom chi toDump ranks) (hG' : GoodDomain dom' chi' toDump ranks')
    (hsc : ∀ g ∈ toDump, IsScalar dom' g.space ↔ IsScalar dom g.space)
    (hlen : ∀ g ∈ toDump, IsScalar dom g.space → (nodes dom' g.space).length = (nodes dom g.space).length)
    (ds ds' : List (α × (String → P → α))) :
    ∃ s s' regs flds, newRun lib dom chi toDump ds = .ok s ∧ resumedRun lib' dom' chi' toDump (some s.file) ds' = .ok s' ∧ regs.Nodup ∧
      (∀ n, n ∈ regs ↔ ∃ g ∈ toDump, g.space = n ∧ IsScalar dom n) ∧
      flds.Sublist toDump ∧ (∀ g, g ∈ flds ↔ g ∈ toDump ∧ IsScalar dom g.space) ∧
      Inv (fileDims dom regs) (fileVars lib dom regs) flds
        ((ds.map fun d => ⟨d.1, d.2, nodes dom⟩) ++ ds'.map fun d => ⟨d.1, d.2, nodes dom'⟩) s' := by
  obtain ⟨s, regs, flds, h1, hnd, hr, hsub, hfl, -, -, hinv⟩ := newRun_inv hlib hN hG ds
  obtain ⟨chi2, h2, h3⟩ := register_fold dom' (spaceNames toDump) (fun s hs => by
    obtain ⟨g, hg, rfl⟩ := (mem_spaceNames _ _).1 hs
    exact hG'.exist g hg) chi'
  have hmem : ∀ g ∈ toDump, g.space ∈ chi2 ↔ IsScalar dom g.space := fun g hg => by
    rw [h3, ← hsc g hg]
    exact ⟨fun h => h.elim (hG'.chi _) And.right, fun h => Or.inr ⟨(mem_spaceNames _ _).2 ⟨g, hg, rfl⟩, h⟩⟩
  have hfe : flds = toDump.filter (·.space ∈ chi2) := by
    obtain ⟨s1, regs1, flds1, e1, -, -, -, -, hmem1, e2, hinv1⟩ := newRun_inv hlib hN hG ds
    rw [h1] at e1; cases e1
    have : flds = flds1 := by
      obtain ⟨-, v, V, e, -⟩ := hinv
      obtain ⟨-, v', V', e', -⟩ := hinv1
      rw [e] at e'
      have hk := congrArg (fun f : File α => f.groups.map Prod.fst) e'
      simp only [mkGroups_keys] at hk
      rw [e2]
      have hd : flds.Sublist toDump := hsub
      refine List.Sublist.eq_of_length ?_ ?_
      · have : flds = flds.filter (·.space ∈ s.chi) := by
          rw [List.filter_eq_self.2]
          intro g hg
          have := (hfl g).1 hg
          simpa using (hmem1 g this.1).2 this.2
        rw [this]
        exact hd.filter _
      · rw [← e2]
        simpa using congrArg List.length hk
    rw [this, e2]
    refine List.filter_congr fun g hg => ?_
    rw [decide_eq_decide, hmem1 g hg, hmem g hg]
  have htime : "time" ∈ s.file.vars.map Prod.fst := by
    obtain ⟨-, v, V, e, -⟩ := hinv
    rw [e]; simp
  have hl : s.file.length = s.idx := by
    obtain ⟨hi, v, V, e, -⟩ := hinv
    rw [e, hi]
  have hinv2 : Inv (fileDims dom regs) (fileVars lib dom regs) (toDump.filter (·.space ∈ chi2)) (ds.map fun d => ⟨d.1, d.2, nodes dom⟩)
      (⟨chi2, s.file.length, s.file⟩ : Session α) := by
    rw [← hfe]
    exact ⟨by rw [hl]; exact hinv.idx, hinv.file⟩
  obtain ⟨s', h4, -, h6⟩ := dumps_inv (dom := dom') (s := (⟨chi2, s.file.length, s.file⟩ : Session α)) hlib' hN.fieldsNodup
    (time_notin hN hnd (fun n hn => by obtain ⟨g, hg, e, -⟩ := (hr n).1 hn; exact ⟨g, hg, e⟩) lib) ds' hinv2
    (fun g hg hs => by
      have hs' := (hmem g hg).1 hs
      rw [hlen g hg hs']; exact dim_lookup hN hnd hr hg hs') (fun g hg hs => by
      obtain ⟨sp, hsp, -⟩ := (hsc g hg).2 ((hmem g hg).1 hs)
      simp only [points, hsp]; exact hG'.dist _ sp hsp)
  refine ⟨s, s', regs, flds, h1, ?_, hnd, hr, hsub, hfl, by rw [hfe]; exact h6⟩
  simp only [resumedRun, setupPickUp, h2]
  change (if "time" ∈ s.file.vars.map Prod.fst then _ else _) >>= _ = _
  rw [if_pos htime]
  exact h4

/-- **C133** (pick-up).  A run that picks up appends its dumps: if it numbers the nodes as the first run did, the file records the
dumps of both. -/
theorem C133_pick_up {lib lib' : Library} {ranks ranks' : ℕ} (hlib : GoodLibrary lib ranks) (hlib' : GoodLibrary lib' ranks')
    {dom dom' : Dom α P} {chi chi' : List String} {toDump : List Field}
    (hN : GoodNames dom toDump) (hG : GoodDomain dom chi toDump ranks) (hG' : GoodDomain dom' chi' toDump ranks')
    (hsc : ∀ g ∈ toDump, IsScalar dom' g.space ↔ IsScalar dom g.space)
    (hnum : ∀ g ∈ toDump, IsScalar dom g.space → (points dom' g.space).flatten = (points dom g.space).flatten)
    (ds ds' : List (α × (String → P → α))) (fields : List Field) (hf : ∀ g ∈ fields, g ∈ toDump ∧ IsScalar dom g.space) :
    ∃ s s', newRun lib dom chi toDump ds = .ok s ∧ resumedRun lib' dom' chi' toDump (some s.file) ds' = .ok s' ∧
      Records s'.file dom.coords (fun n => (points dom n).flatten) fields (ds ++ ds') := by
  obtain ⟨s, s', regs, flds, h1, h2, hnd, hr, hsub, hfl, hinv⟩ := resumed_inv hlib hlib' hN hG hG' hsc
    (fun g hg hs => congrArg List.length (hnum g hg hs)) ds ds'
  obtain ⟨r1, r2, r3, r4, -⟩ := hinv.read hlib hN hG hnd hr hsub
  refine ⟨s, s', h1, h2, by simpa using r1, fun k => ?_, fun g hg => r3 g (hf g hg).1 (hf g hg).2, fun g hg j k => ?_⟩
  · rw [r2, ← List.getElem?_map, ← List.getElem?_map]; simp [Function.comp_def]
  · rw [r4 g ((hfl g).2 (hf g hg))]
    have e : nodes dom' g.space = nodes dom g.space := hnum g (hf g hg).1 (hf g hg).2
    rcases Nat.lt_or_ge k ds.length with h | h
    · rw [List.getElem?_append_left (by simpa using h), List.getElem?_append_left h]
      simp [Option.bind_map, Function.comp_def]; rfl
    · rw [List.getElem?_append_right (by simpa using h), List.getElem?_append_right h]
      simp [Option.bind_map, Function.comp_def, e]; rfl

/-- **C133** (pick-up with another distribution of the mesh).  If the run that picks up numbers the nodes of an output field
differently, for instance because it has another number of ranks, its values are written under the coordinates of other nodes: for
some state the file is not a record of the dumps. -/
theorem C133_renumbered_refuted [Nontrivial α] {lib lib' : Library} {ranks ranks' : ℕ} (hlib : GoodLibrary lib ranks)
    (hlib' : GoodLibrary lib' ranks') {dom dom' : Dom α P} {chi chi' : List String} {toDump : List Field}
    (hN : GoodNames dom toDump) (hG : GoodDomain dom chi toDump ranks) (hG' : GoodDomain dom' chi' toDump ranks')
    (hsc : ∀ g ∈ toDump, IsScalar dom' g.space ↔ IsScalar dom g.space)
    (hlen : ∀ g ∈ toDump, IsScalar dom g.space → (points dom' g.space).flatten.length = (points dom g.space).flatten.length)
    {g : Field} (hg : g ∈ toDump) (hs : IsScalar dom g.space) (hne : (points dom' g.space).flatten ≠ (points dom g.space).flatten)
    (ds : List (α × (String → P → α))) (t : α) :
    ∃ state s s', newRun lib dom chi toDump ds = .ok s ∧ resumedRun lib' dom' chi' toDump (some s.file) [(t, state)] = .ok s' ∧
      ¬ Records s'.file dom.coords (fun n => (points dom n).flatten) [g] (ds ++ [(t, state)]) := by
  classical
  have hl := hlen g hg hs
  have hex : ∃ j : ℕ, (points dom' g.space).flatten[j]? ≠ (points dom g.space).flatten[j]? := by
    by_contra h
    push Not at h
    exact hne (List.ext_getElem? h)
  obtain ⟨j, hj⟩ := hex
  obtain ⟨a, b, hab⟩ := exists_pair_ne α
  have hj1 : j < (points dom g.space).flatten.length := by
    by_contra h
    push Not at h
    exact hj (by rw [List.getElem?_eq_none h, List.getElem?_eq_none (by omega)])
  have hj2 : j < (points dom' g.space).flatten.length := by omega
  set p := (points dom g.space).flatten[j] with hp
  set q := (points dom' g.space).flatten[j] with hq
  have hpq : q ≠ p := by
    intro e; apply hj
    rw [List.getElem?_eq_getElem hj1, List.getElem?_eq_getElem hj2, ← hp, ← hq, e]
  set state : String → P → α := fun _ x => if x = p then a else b with hst
  obtain ⟨s, s', regs, flds, h1, h2, hnd, hr, hsub, hfl, hinv⟩ := resumed_inv hlib hlib' hN hG hG' hsc hlen ds [(t, state)]
  obtain ⟨-, -, -, r4, -⟩ := hinv.read hlib hN hG hnd hr hsub
  refine ⟨state, s, s', h1, h2, fun hR => ?_⟩
  have e1 := hR.values g (by simp) j ds.length
  have e2 := r4 g ((hfl g).2 ⟨hg, hs⟩) j ds.length
  rw [e1, List.getElem?_append_right (by simp), List.getElem?_append_right (by simp)] at e2
  simp only [List.length_map, Nat.sub_self, List.map_cons, List.map_nil, List.getElem?_cons_zero, Option.bind_some, nodes,
    List.getElem?_eq_getElem hj1, List.getElem?_eq_getElem hj2, Option.map_some, ← hp, ← hq, hst, if_true, if_neg hpq] at e2
  exact hab (Option.some.inj e2)

/-- **C133** (a field that the first run did not write).  If the run that picks up announces a further scalar field, its first dump
fails. -/
theorem C133_new_field {lib : Library} {dom' : Dom α P} {chi' : List String} {toDump' : List Field} {old : File α}
    (hall : ∀ g ∈ toDump', IsScalar dom' g.space) {g : Field} (hg : g ∈ toDump') (hnew : old.groups.lookup g.name = none)
    (d : α × (String → P → α)) (ds : List (α × (String → P → α))) :
    ∃ e, resumedRun lib dom' chi' toDump' (some old) (d :: ds) = .error e := by
  have hstep : ∀ (chi : List String) (idx : ℕ) (L : List Field) (f : File α), (∀ g ∈ L, g.space ∈ chi) → g ∈ L → f.groups.lookup g.name = none →
      ∃ e, L.foldlM (writeField lib dom' chi idx d.2) f = .error e := by
    intro chi idx L
    induction L with
    | nil => intro f _ h; cases h
    | cons g' L ih =>
      intro f hc hgL hf
      rw [List.foldlM_cons]
      rcases hw : writeField lib dom' chi idx d.2 f g' with e | f'
      · exact ⟨e, rfl⟩
      change ∃ e, L.foldlM (writeField lib dom' chi idx d.2) f' = .error e
      have hs' := hc g' (by simp)
      simp only [writeField, hs', not_true, if_false] at hw
      rcases List.mem_cons.1 hgL with e | hgL
      · subst e; rw [hf] at hw; simp at hw
      · refine ih f' (fun g hg => hc g (by simp [hg])) hgL ?_
        split at hw
        · simp at hw
        · split at hw
          · simp only [Except.ok.injEq] at hw
            rw [← hw]
            simp only
            have : ∀ (l : List (String × FieldGroup α)) (F : String × FieldGroup α → FieldGroup α), l.lookup g.name = none →
                (l.map fun ng => if ng.1 = g'.name then (ng.1, F ng) else ng).lookup g.name = none := by
              intro l F
              induction l with
              | nil => simp
              | cons a l ih =>
                intro h
                rw [List.lookup_cons] at h
                rw [List.map_cons, List.lookup_cons]
                by_cases e : g.name = a.1
                · rw [e] at h; simp at h
                · rw [beq_false_of_ne e] at h
                  have e' : (if a.1 = g'.name then (a.1, F a) else a).1 = a.1 := by split <;> rfl
                  rw [e', beq_false_of_ne e]
                  exact ih h
            exact this _ _ hf
          · simp at hw
  rcases hc : (spaceNames toDump').foldlM (registerSpace dom') chi' with e | chi2
  · exact ⟨e, by simp only [resumedRun, setupPickUp, hc]; rfl⟩
  by_cases ht : "time" ∈ old.vars.map Prod.fst
  · have hin : ∀ g ∈ toDump', g.space ∈ chi2 := by
      obtain ⟨chi3, h3, h4⟩ := register_fold dom' (spaceNames toDump') (fun s hs => by
        obtain ⟨g, hg, rfl⟩ := (mem_spaceNames _ _).1 hs
        obtain ⟨sp, h, -⟩ := hall g hg
        exact ⟨sp, h⟩) chi'
      rw [hc] at h3; cases h3
      exact fun g hg => (h4 _).2 (Or.inr ⟨(mem_spaceNames _ _).2 ⟨g, hg, rfl⟩, hall g hg⟩)
    obtain ⟨e, he⟩ := hstep chi2 old.length toDump' (writeTime old old.length d.1) hin hg (by
      rw [writeTime, if_pos ht]; exact hnew)
    refine ⟨e, ?_⟩
    simp only [resumedRun, setupPickUp, hc]
    change (if "time" ∈ old.vars.map Prod.fst then _ else _) >>= _ = _
    rw [if_pos ht]
    change dumps lib dom' toDump' ⟨chi2, old.length, old⟩ (d :: ds) = _
    simp only [dumps, List.foldlM_cons, write, he]
    rfl
  · refine ⟨.noSuchName "time", ?_⟩
    simp only [resumedRun, setupPickUp, hc]
    change (if "time" ∈ old.vars.map Prod.fst then _ else _) >>= _ = _
    rw [if_neg ht]; rfl

/-- **C133** (a lost file).  If the file is missing when a run picks up, rank 0 raises an error while all the other ranks wait for its
broadcast for ever. -/
theorem C133_missing_file_refuted (r : ℕ) : pickUpIndex (none : Option (File α)) r = if r = 0 then .raises .noFile else .blocked := rfl

/-- **C133** (names).  The metadata and coordinate names that gusto itself uses never collide with each other, whatever the names of
the spaces. -/
theorem C133_own_names (m c s : String) (hm : m ∈ ["extruded", "domain_type", "domain_extent_x", "domain_extent_y", "domain_extent_z"])
    (hc : c ∈ ["x", "y", "z", "lon", "lat", "h"]) : m ≠ c ++ "_" ++ s := by
  intro e
  have e' := congrArg String.toList e
  simp only [String.toList_append] at e'
  simp only [List.mem_cons, List.not_mem_nil, or_false] at hm
  rcases hm with rfl | rfl | rfl | rfl | rfl <;> rcases std_cons hc with h1 | h1 | h1 | h1 | h1 | h1 <;> rw [h1] at e' <;> simp at e'

/-- **C133** (metadata).  Every entry of the metadata of the domain is in the file: numbers as they are, `None` and Booleans as
words, strings up to 64 characters unchanged (of longer ones, the beginning). -/
theorem C133_metadata {lib : Library} {ranks : ℕ} (hlib : GoodLibrary lib ranks) {dom : Dom α P} {chi : List String} {toDump : List Field}
    (hN : GoodNames dom toDump) (hG : GoodDomain dom chi toDump ranks) (ds : List (α × (String → P → α))) :
    ∃ s, newRun lib dom chi toDump ds = .ok s ∧ ∀ m ∈ dom.metadata,
      (∀ x, m.2 = .num x → s.file.vars.lookup m.1 = some (.num x)) ∧
      (m.2 = .none → s.file.vars.lookup m.1 = some (.text "None".toList)) ∧
      (m.2 = .bool true → s.file.vars.lookup m.1 = some (.text "True".toList)) ∧
      (m.2 = .bool false → s.file.vars.lookup m.1 = some (.text "False".toList)) ∧
      (∀ t, m.2 = .text t → t.length ≤ 64 → s.file.vars.lookup m.1 = some (.text t.toList)) ∧
      (∀ t, m.2 = .text t → lib.recent = true → s.file.vars.lookup m.1 = some (.text (t.toList.take 64))) := by
  obtain ⟨s, regs, flds, h1, hnd, hr, -, -, -, -, hidx, v, V, hfile, -⟩ := newRun_inv hlib hN hG ds
  have hreg' : ∀ n ∈ regs, ∃ g ∈ toDump, g.space = n := fun n hn => by obtain ⟨g, hg, e, -⟩ := (hr n).1 hn; exact ⟨g, hg, e⟩
  refine ⟨s, h1, fun m hm => ?_⟩
  have hl : s.file.vars.lookup m.1 = some (metaVar lib m.2) := by
    have hne : m.1 ≠ "time" := fun e => hN.metaTime (by rw [← e]; exact List.mem_map_of_mem hm)
    rw [hfile]
    simp only [List.lookup_cons, beq_false_of_ne hne]
    exact lookup_of_mem (a := (m.1, metaVar lib m.2)) (vars_nodup hN hnd hreg' lib)
      (List.mem_append_left _ (List.mem_map_of_mem (f := fun m => (m.1, metaVar lib m.2)) hm))
  rw [hl]
  refine ⟨fun x e => by rw [e]; rfl, fun e => by rw [e]; rfl, fun e => by rw [e]; rfl, fun e => by rw [e]; rfl, fun t e h => ?_, fun t e h => ?_⟩
  · rw [e]
    simp only [metaVar]
    rw [List.take_of_length_le]
    rw [String.length_toList]; split <;> omega
  · rw [e]; simp [metaVar, h]

/-! ### An example: two ranks, a scalar and a vector field -/

/-- Three nodes on two ranks. -/
def exDom : Dom ℝ ℕ where
  coords := [("x", fun p => (p : ℝ))]
  spaces := [("DG", ⟨1, [[0, 2], [1]]⟩), ("HDiv", ⟨2, [[5], [6]]⟩)]
  metadata := [("extruded", .bool false), ("domain_type", .text "interval"), ("domain_extent_x", .num 3)]

/-- The same mesh on three ranks. -/
def exDom' : Dom ℝ ℕ where
  coords := [("x", fun p => (p : ℝ))]
  spaces := [("DG", ⟨1, [[0], [1], [2]]⟩), ("HDiv", ⟨2, [[5], [6], []]⟩)]
  metadata := [("extruded", .bool false), ("domain_type", .text "interval"), ("domain_extent_x", .num 3)]

def exFields : List Field := [⟨"D", "DG"⟩, ⟨"u", "HDiv"⟩]

theorem ex_names : GoodNames exDom exFields := by
  constructor <;> simp [exDom, exFields]

theorem ex_domain : GoodDomain exDom [] exFields 2 := by
  constructor
  · intro s sp h
    simp only [exDom, List.lookup_cons] at h
    split at h
    · cases h; rfl
    · split at h
      · cases h; rfl
      · simp at h
  · simp [exDom, exFields, List.lookup_cons]
  · simp

theorem ex_domain' : GoodDomain exDom' [] exFields 3 := by
  constructor
  · intro s sp h
    simp only [exDom', List.lookup_cons] at h
    split at h
    · cases h; rfl
    · split at h
      · cases h; rfl
      · simp at h
  · simp [exDom', exFields, List.lookup_cons]
  · simp

theorem ex_scalar : IsScalar exDom "DG" := ⟨_, rfl, le_rfl⟩
theorem ex_vector : ¬ IsScalar exDom "HDiv" := by
  rintro ⟨sp, h, h'⟩
  simp [exDom, List.lookup_cons] at h
  subst h; simp at h'
theorem ex_vector' : ¬ IsScalar exDom' "HDiv" := by
  rintro ⟨sp, h, h'⟩
  simp [exDom', List.lookup_cons] at h
  subst h; simp at h'

/-- Parallel netCDF, rank 1 writes first: the file records `D`, and the last node is the one of rank 1. -/
example (ds : List (ℝ × (String → ℕ → ℝ))) : ∃ s, newRun ⟨true, [1, 0], true⟩ exDom [] exFields ds = .ok s ∧
    Records s.file exDom.coords (fun n => (points exDom n).flatten) [⟨"D", "DG"⟩] ds ∧ (points exDom "DG").flatten = [0, 2, 1] := by
  obtain ⟨s, h1, h2⟩ := C133_record (lib := ⟨true, [1, 0], true⟩) (ranks := 2)
    (fun _ => ⟨by simp, fun r hr => by simp; omega⟩) ex_names ex_domain ds [⟨"D", "DG"⟩] (by simp [exFields, ex_scalar])
  exact ⟨s, h1, h2, rfl⟩

/-- The velocity is not written. -/
example : ∃ s, newRun ⟨true, [1, 0], true⟩ exDom [] exFields [((7 : ℝ), fun _ _ => 1)] = .ok s ∧ s.file.groups.lookup "u" = none := by
  obtain ⟨s, h1, h2, -⟩ := C133_vector_refuted (lib := ⟨true, [1, 0], true⟩) (ranks := 2)
    (fun _ => ⟨by simp, fun r hr => by simp; omega⟩) ex_names ex_domain [((7 : ℝ), fun _ _ => 1)] (g := ⟨"u", "HDiv"⟩) (by simp [exFields]) ex_vector
  exact ⟨s, h1, h2⟩

/-- Picking up on three ranks spoils the file. -/
example (ds : List (ℝ × (String → ℕ → ℝ))) (t : ℝ) :
    ∃ state s s', newRun ⟨true, [1, 0], true⟩ exDom [] exFields ds = .ok s ∧
      resumedRun ⟨true, [0, 1, 2], true⟩ exDom' [] exFields (some s.file) [(t, state)] = .ok s' ∧
      ¬ Records s'.file exDom.coords (fun n => (points exDom n).flatten) [⟨"D", "DG"⟩] (ds ++ [(t, state)]) :=
  C133_renumbered_refuted (ranks := 2) (ranks' := 3) (fun _ => ⟨by simp, fun r hr => by simp; omega⟩)
    (fun _ => ⟨by simp, fun r hr => by simp; omega⟩) ex_names ex_domain ex_domain'
    (by
      simp only [exFields, List.mem_cons, List.not_mem_nil, or_false, forall_eq_or_imp, forall_eq]
      exact ⟨⟨fun _ => ex_scalar, fun _ => ⟨_, rfl, le_rfl⟩⟩, ⟨fun h => absurd h ex_vector', fun h => absurd h ex_vector⟩⟩)
    (by
      simp only [exFields, List.mem_cons, List.not_mem_nil, or_false, forall_eq_or_imp, forall_eq]
      exact ⟨fun _ => rfl, fun h => absurd h ex_vector⟩)
    (by simp [exFields]) ex_scalar (by decide) ds t

end Gusto.Props.NetCDFProps
