import Verif.Model.Columns
import Mathlib.Tactic.NormNum
import Mathlib.Tactic.Ring
import Mathlib.Algebra.Order.Ring.Rat
import Mathlib.Data.List.Count
import Mathlib.Data.List.GetD

set_option autoImplicit false
set_option linter.unusedSectionVars false
set_option linter.unusedSimpArgs false

/-! # C33: column data -/

namespace Gusto.Props.ColumnProps
open Gusto.Columns
variable {K H : Type*} [Zero K] [LinearOrder K] [LinearOrder H]

/-! ### The sorted frame -/

theorem mem_frame {round : H → H} {field : List K} {coords : List (H × K)} {r : Row K H} :
    r ∈ frame round field coords ↔ field[r.index]? = some r.field ∧
      ∃ x, coords[r.index]? = some (x, r.z) ∧ r.hori = round x := by
  unfold frame
  simp only [List.mem_map]
  constructor
  · rintro ⟨⟨⟨f, x, z⟩, i⟩, h, rfl⟩
    have := List.mem_zipIdx_iff_getElem?.mp h
    rw [List.getElem?_zip_eq_some] at this
    exact ⟨this.1, x, this.2, rfl⟩
  · rintro ⟨h1, x, h2, h3⟩
    refine ⟨((r.field, x, r.z), r.index), List.mem_zipIdx_iff_getElem?.mpr ?_, ?_⟩
    · rw [List.getElem?_zip_eq_some]; exact ⟨h1, h2⟩
    · simp [← h3]

theorem frame_index (round : H → H) (field : List K) (coords : List (H × K))
    (hl : field.length = coords.length) :
    (frame round field coords).map Row.index = List.range field.length := by
  unfold frame
  rw [List.map_map]
  have : (Row.index ∘ fun (p : (K × H × K) × ℕ) => (⟨p.1.1, round p.1.2.1, p.1.2.2, p.2⟩ : Row K H))
      = Prod.snd := rfl
  rw [this, List.zipIdx_map_snd]
  simp [hl, List.range_eq_range']

theorem frame_length (round : H → H) (field : List K) (coords : List (H × K))
    (hl : field.length = coords.length) : (frame round field coords).length = field.length := by
  have := congrArg List.length (frame_index round field coords hl)
  simpa using this

/-- What sorting sees of a row. -/
def strip (r : Row K H) : H × K × ℕ := (r.hori, r.z, r.index)

theorem frame_strip (round : H → H) (field field' : List K) (coords : List (H × K))
    (hl : field.length = coords.length) (hl' : field'.length = coords.length) :
    (frame round field coords).map strip = (frame round field' coords).map strip := by
  apply List.ext_getElem
  · simp [frame, hl, hl']
  · intro i h1 h2
    simp [frame, strip]

theorem sorted_strip (round : H → H) (field field' : List K) (coords : List (H × K))
    (hl : field.length = coords.length) (hl' : field'.length = coords.length) :
    ((frame round field coords).mergeSort rowLE).map strip =
      ((frame round field' coords).mergeSort rowLE).map strip := by
  have h : ∀ f : List K, ((frame round f coords).mergeSort rowLE).map strip =
      ((frame round f coords).map strip).mergeSort
        (fun a b => decide (toLex (a.1, a.2.1) ≤ toLex (b.1, b.2.1))) := fun f =>
    List.map_mergeSort fun a _ b _ => rfl
  rw [h, h, frame_strip round field field' coords hl hl']

theorem fromSorted_cons (close : H → H → Bool) (others : Bool) (data : List (Row K H))
    (first : Row K H) (hd : data.head? = some first) :
    fromSorted close others data =
      if (data.filter fun r => close r.hori first.hori).length = 0 then .error "ZeroDivisionError"
      else if data.length % (data.filter fun r => close r.hori first.hori).length = 0 ∧ others = true then
        .ok { numHori := data.length / (data.filter fun r => close r.hori first.hori).length
              numLevels := (data.filter fun r => close r.hori first.hori).length
              field := fun h lev => (data.map Row.field).getD
                (lev + h * (data.filter fun r => close r.hori first.hori).length) 0
              index := fun h lev => (data.map Row.index).getD
                (lev + h * (data.filter fun r => close r.hori first.hori).length) 0 }
      else .error "RuntimeError" := by
  cases data with
  | nil => simp at hd
  | cons f rest =>
    obtain rfl : f = first := by simpa using hd
    rfl

/-- The result of a successful call in terms of the sorted frame. -/
theorem get_ok {round : H → H} {close : H → H → Bool} {others : Bool} {field : List K}
    {coords : List (H × K)} {cd : ColumnData K} (hl : field.length = coords.length)
    (h : getColumnData round close others field coords = .ok cd) :
    let data := (frame round field coords).mergeSort rowLE
    0 < cd.numLevels ∧ cd.numHori * cd.numLevels = field.length ∧ others = true ∧
      cd.field = (fun h lev => (data.map Row.field).getD (lev + h * cd.numLevels) 0) ∧
      cd.index = (fun h lev => (data.map Row.index).getD (lev + h * cd.numLevels) 0) ∧
      ∃ first, data.head? = some first ∧
        cd.numLevels = (data.filter fun r => close r.hori first.hori).length := by
  intro data
  have hlen : data.length = field.length := by
    simp only [data, List.length_mergeSort]; exact frame_length round field coords hl
  unfold getColumnData at h
  change fromSorted close others data = _ at h
  cases hd : data.head? with
  | none =>
    rw [List.head?_eq_none_iff.mp hd] at h
    simp [fromSorted] at h
  | some first =>
    rw [fromSorted_cons close others data first hd] at h
    split at h
    · simp at h
    · rename_i hne
      split at h
      · rename_i hok
        simp only [Except.ok.injEq] at h
        subst h
        refine ⟨Nat.pos_of_ne_zero hne, ?_, hok.2, rfl, rfl, first, rfl, rfl⟩
        show data.length / _ * _ = _
        rw [Nat.div_mul_cancel (Nat.dvd_of_mod_eq_zero hok.1), hlen]
      · simp at h

theorem sorted_perm (round : H → H) (field : List K) (coords : List (H × K))
    (hl : field.length = coords.length) :
    (((frame round field coords).mergeSort rowLE).map Row.index).Perm (List.range field.length) := by
  rw [← frame_index round field coords hl]
  exact (List.mergeSort_perm _ _).map _

/-- Positions in the arrays are the pairs of a column and a level. -/
theorem pos_lt {nH nL h l : ℕ} (hh : h < nH) (hl : l < nL) : l + h * nL < nH * nL := by
  calc l + h * nL < nL + h * nL := by omega
    _ = (h + 1) * nL := by ring
    _ ≤ nH * nL := Nat.mul_le_mul_right _ hh

/-- Effect of `set_field_from_column_data` when the values are a function of the index. -/
theorem setField_apply (nH nL : ℕ) (col : ℕ → ℕ → K) (index : ℕ → ℕ → ℕ) (V : ℕ → K)
    (hV : ∀ h < nH, ∀ l < nL, col h l = V (index h l)) (field : ℕ → K) (p : ℕ) :
    ((∃ h < nH, ∃ l < nL, index h l = p) → setField nH nL col index field p = V p) ∧
      ((¬∃ h < nH, ∃ l < nL, index h l = p) → setField nH nL col index field p = field p) := by
  have inner : ∀ (l : ℕ), l < nL → ∀ m ≤ nH, ∀ f : ℕ → K,
      ((∃ h < m, index h l = p) → (List.range m).foldl
        (fun f h => Function.update f (index h l) (col h l)) f p = V p) ∧
      ((¬∃ h < m, index h l = p) → (List.range m).foldl
        (fun f h => Function.update f (index h l) (col h l)) f p = f p) := by
    intro l hl m
    induction m with
    | zero => intro _ f; simp
    | succ m ih =>
      intro hm f
      obtain ⟨i1, i2⟩ := ih (by omega) f
      rw [List.range_succ, List.foldl_append, List.foldl_cons, List.foldl_nil]
      by_cases he : index m l = p
      · refine ⟨fun _ => ?_, fun hn => absurd ⟨m, by omega, he⟩ hn⟩
        rw [← he, Function.update_self, hV m (by omega) l hl]
      · rw [Function.update_of_ne (Ne.symm he)]
        refine ⟨?_, fun hn => i2 fun ⟨i, hi, he'⟩ => hn ⟨i, by omega, he'⟩⟩
        rintro ⟨i, hi, he'⟩
        rcases Nat.lt_succ_iff_lt_or_eq.mp hi with h' | h'
        · exact i1 ⟨i, h', he'⟩
        · subst h'; exact absurd he' he
  have outer : ∀ m ≤ nL,
      ((∃ h < nH, ∃ l < m, index h l = p) → setField nH m col index field p = V p) ∧
      ((¬∃ h < nH, ∃ l < m, index h l = p) → setField nH m col index field p = field p) := by
    intro m
    unfold setField
    induction m with
    | zero => intro _; simp
    | succ m ih =>
      intro hm
      obtain ⟨i1, i2⟩ := ih (by omega)
      rw [List.range_succ, List.foldl_append, List.foldl_cons, List.foldl_nil]
      obtain ⟨j1, j2⟩ := inner m (by omega) nH le_rfl ((List.range m).foldl (fun field lev =>
        (List.range nH).foldl (fun field h => Function.update field (index h lev) (col h lev)) field)
        field)
      by_cases he : ∃ h < nH, index h m = p
      · refine ⟨fun _ => j1 he, fun hn => ?_⟩
        obtain ⟨h, hh, e⟩ := he
        exact absurd ⟨h, hh, m, by omega, e⟩ hn
      · rw [j2 he]
        refine ⟨?_, fun hn => i2 fun ⟨h, hh, l, hl, e⟩ => hn ⟨h, hh, l, by omega, e⟩⟩
        rintro ⟨h, hh, l, hl, e⟩
        rcases Nat.lt_succ_iff_lt_or_eq.mp hl with h' | h'
        · exact i1 ⟨h, hh, l, h', e⟩
        · subst h'; exact absurd ⟨h, hh, e⟩ he
  exact outer nL le_rfl

/-- Every degree of freedom appears at exactly one place of the index array. -/
theorem index_bij {round : H → H} {close : H → H → Bool} {others : Bool} {field : List K}
    {coords : List (H × K)} {cd : ColumnData K} (hl : field.length = coords.length)
    (h : getColumnData round close others field coords = .ok cd) :
    (∀ a < cd.numHori, ∀ l < cd.numLevels, cd.index a l < field.length) ∧
    (∀ p < field.length, ∃ a < cd.numHori, ∃ l < cd.numLevels, cd.index a l = p) ∧
    (∀ a < cd.numHori, ∀ l < cd.numLevels, ∀ a' < cd.numHori, ∀ l' < cd.numLevels,
      cd.index a l = cd.index a' l' → a = a' ∧ l = l') := by
  obtain ⟨hpos, hmul, _, _, hidx, _⟩ := get_ok hl h
  set data := (frame round field coords).mergeSort rowLE with hdata
  have hperm := sorted_perm round field coords hl
  rw [← hdata] at hperm
  have hlen : (data.map Row.index).length = field.length := by
    rw [hperm.length_eq, List.length_range]
  have hget : ∀ a < cd.numHori, ∀ l < cd.numLevels, ∃ hk : l + a * cd.numLevels < (data.map Row.index).length,
      cd.index a l = (data.map Row.index)[l + a * cd.numLevels] := by
    intro a ha l hl'
    have hk : l + a * cd.numLevels < (data.map Row.index).length := by
      rw [hlen, ← hmul]; exact pos_lt ha hl'
    refine ⟨hk, ?_⟩
    rw [hidx]
    dsimp only
    rw [List.getD_eq_getElem _ _ hk]
  have hnd : (data.map Row.index).Nodup := hperm.nodup_iff.mpr List.nodup_range
  refine ⟨fun a ha l hl' => ?_, fun p hp => ?_, fun a ha l hl' a' ha' l' hl'' he => ?_⟩
  · obtain ⟨hk, e⟩ := hget a ha l hl'
    rw [e]
    exact List.mem_range.mp (hperm.mem_iff.mp (List.getElem_mem hk))
  · have : p ∈ data.map Row.index := hperm.mem_iff.mpr (List.mem_range.mpr hp)
    obtain ⟨k, hk, e⟩ := List.mem_iff_getElem.mp this
    have hk' : k < cd.numHori * cd.numLevels := by rw [hmul, ← hlen]; exact hk
    have h1 : k / cd.numLevels < cd.numHori := Nat.div_lt_of_lt_mul (by rw [mul_comm]; exact hk')
    have h2 : k % cd.numLevels < cd.numLevels := Nat.mod_lt _ hpos
    refine ⟨k / cd.numLevels, h1, k % cd.numLevels, h2, ?_⟩
    obtain ⟨hk2, e2⟩ := hget _ h1 _ h2
    rw [e2, ← e]
    congr 1
    rw [mul_comm]; exact Nat.mod_add_div k cd.numLevels
  · obtain ⟨hk, e⟩ := hget a ha l hl'
    obtain ⟨hk', e'⟩ := hget a' ha' l' hl''
    rw [e, e'] at he
    have := (List.Nodup.getElem_inj_iff hnd).mp he
    have q1 : a = a' := by
      have := congrArg (· / cd.numLevels) this
      simpa [Nat.add_mul_div_right _ _ hpos, Nat.div_eq_of_lt hl', Nat.div_eq_of_lt hl''] using this
    subst q1
    exact ⟨rfl, by omega⟩

theorem field_index {round : H → H} {close : H → H → Bool} {others : Bool} {field : List K}
    {coords : List (H × K)} {cd : ColumnData K} (hl : field.length = coords.length)
    (h : getColumnData round close others field coords = .ok cd) :
    ∀ a < cd.numHori, ∀ l < cd.numLevels, cd.field a l = field.getD (cd.index a l) 0 := by
  obtain ⟨hpos, hmul, _, hf, hidx, _⟩ := get_ok hl h
  set data := (frame round field coords).mergeSort rowLE with hdata
  have hlen : data.length = field.length := by
    simp only [hdata, List.length_mergeSort]; exact frame_length round field coords hl
  intro a ha l hl'
  have hk : l + a * cd.numLevels < data.length := by rw [hlen, ← hmul]; exact pos_lt ha hl'
  rw [hf, hidx]
  dsimp only
  rw [List.getD_eq_getElem (data.map Row.field) _ (by simpa using hk),
    List.getD_eq_getElem (data.map Row.index) _ (by simpa using hk), List.getElem_map, List.getElem_map]
  have hm : data[l + a * cd.numLevels] ∈ frame round field coords :=
    (List.mergeSort_perm _ _).mem_iff.mp (List.getElem_mem hk)
  have := (mem_frame.mp hm).1
  rw [List.getD_eq_getElem?_getD, this]; rfl

/-- **C33** (round trip).  For all coordinates, all roundings and all fields: if `get_column_data`
succeeds, `set_field_from_column_data` with the unmodified arrays restores every degree of freedom of
the field, whatever the field contains in the meantime. -/
theorem C33_round_trip (round : H → H) (close : H → H → Bool) (others : Bool) (field : List K)
    (coords : List (H × K)) (hl : field.length = coords.length) (cd : ColumnData K)
    (h : getColumnData round close others field coords = .ok cd) (prev : ℕ → K) (p : ℕ)
    (hp : p < field.length) :
    setField cd.numHori cd.numLevels cd.field cd.index prev p = field.getD p 0 := by
  obtain ⟨_, hcov, _⟩ := index_bij hl h
  exact (setField_apply cd.numHori cd.numLevels cd.field cd.index (fun p => field.getD p 0)
    (field_index hl h) prev p).1 (hcov p hp)

/-- **C33** (opposite round trip).  After writing arbitrary column data `D` with
`set_field_from_column_data`, `get_column_data` returns the same index array and `D`. -/
theorem C33_set_then_get (round : H → H) (close : H → H → Bool) (others : Bool) (field : List K)
    (coords : List (H × K)) (hl : field.length = coords.length) (cd : ColumnData K)
    (h : getColumnData round close others field coords = .ok cd) (D : ℕ → ℕ → K) (prev : ℕ → K) :
    ∃ cd', getColumnData round close others
        ((List.range field.length).map (setField cd.numHori cd.numLevels D cd.index prev)) coords = .ok cd' ∧
      cd'.numHori = cd.numHori ∧ cd'.numLevels = cd.numLevels ∧ cd'.index = cd.index ∧
      ∀ a < cd.numHori, ∀ l < cd.numLevels, cd'.field a l = D a l := by
  obtain ⟨hpos, hmul, ho, hf, hidx, first, hfirst, hlev⟩ := get_ok hl h
  obtain ⟨hlt, hcov, hinj⟩ := index_bij hl h
  set data := (frame round field coords).mergeSort rowLE with hdata
  set field' := (List.range field.length).map (setField cd.numHori cd.numLevels D cd.index prev)
    with hfield'
  have hl' : field'.length = coords.length := by simp [hfield', hl]
  set data' := (frame round field' coords).mergeSort rowLE with hdata'
  have hlen : data.length = field.length := by
    simp only [hdata, List.length_mergeSort]; exact frame_length round field coords hl
  have hlen' : data'.length = field.length := by
    simp only [hdata', List.length_mergeSort, frame_length round field' coords hl']; simp [hfield']
  have hstrip : data'.map strip = data.map strip :=
    sorted_strip round field' field coords hl' hl
  have hindex : data'.map Row.index = data.map Row.index := by
    have := congrArg (List.map fun s : H × K × ℕ => s.2.2) hstrip
    rw [List.map_map, List.map_map] at this
    exact this
  have hfilter : ∀ a : H, (data'.filter fun r => close r.hori a).length =
      (data.filter fun r => close r.hori a).length := by
    intro a
    have := congrArg (fun L => (List.filter (fun s : H × K × ℕ => close s.1 a) L).length) hstrip
    rw [List.filter_map, List.filter_map, List.length_map, List.length_map] at this
    exact this
  -- the first row
  obtain ⟨rest, hd⟩ : ∃ rest, data = first :: rest := by
    cases hd : data with
    | nil => rw [hd] at hfirst; simp at hfirst
    | cons a r => rw [hd] at hfirst; simp at hfirst; subst hfirst; exact ⟨r, rfl⟩
  obtain ⟨first', rest', hd', hff⟩ : ∃ f' r', data' = f' :: r' ∧ f'.hori = first.hori := by
    cases hd' : data' with
    | nil => rw [hd', hd] at hstrip; simp at hstrip
    | cons a r =>
      rw [hd', hd] at hstrip
      simp [strip] at hstrip
      exact ⟨a, r, rfl, hstrip.1.1⟩
  have hlev' : (data'.filter fun r => close r.hori first'.hori).length = cd.numLevels := by
    rw [hff, hfilter, hlev]
  let cd' : ColumnData K :=
    { numHori := data'.length / cd.numLevels
      numLevels := cd.numLevels
      field := fun h lev => (data'.map Row.field).getD (lev + h * cd.numLevels) 0
      index := fun h lev => (data'.map Row.index).getD (lev + h * cd.numLevels) 0 }
  have hget : getColumnData round close others field' coords = .ok cd' := by
    unfold getColumnData
    change (match data' with
      | [] => _
      | first :: _ => _) = _
    rw [hd']
    dsimp only
    rw [← hd', hlev', if_neg (by omega), if_pos ⟨by rw [hlen', ← hmul]; exact Nat.mul_mod_left _ _, ho⟩]
  refine ⟨cd', hget, ?_, rfl, ?_, ?_⟩
  · show data'.length / cd.numLevels = _
    rw [hlen', ← hmul, Nat.mul_div_cancel _ hpos]
  · rw [hidx]
    show (fun h lev => (data'.map Row.index).getD (lev + h * cd.numLevels) 0) = _
    rw [hindex]
  · intro a ha l hll
    have hk : l + a * cd.numLevels < data'.length := by rw [hlen', ← hmul]; exact pos_lt ha hll
    show (data'.map Row.field).getD (l + a * cd.numLevels) 0 = _
    rw [List.getD_eq_getElem _ _ (by simpa using hk), List.getElem_map]
    have hm : data'[l + a * cd.numLevels] ∈ frame round field' coords :=
      (List.mergeSort_perm _ _).mem_iff.mp (List.getElem_mem hk)
    have h1 := (mem_frame.mp hm).1
    have hi : data'[l + a * cd.numLevels].index = cd.index a l := by
      rw [hidx]
      dsimp only
      rw [← hindex, List.getD_eq_getElem _ _ (by simpa using hk), List.getElem_map]
    rw [hi, hfield', List.getElem?_map, List.getElem?_range (hlt a ha l hll), Option.map_some] at h1
    have h2 := Option.some.inj h1
    rw [← h2]
    -- values as a function of the index
    classical
    let V : ℕ → K := fun p =>
      if hp : p < field.length then
        D (Classical.choose (hcov p hp)) (Classical.choose (Classical.choose_spec (hcov p hp)).2)
      else 0
    have hV : ∀ a < cd.numHori, ∀ l < cd.numLevels, D a l = V (cd.index a l) := by
      intro a ha l hl'
      have hp := hlt a ha l hl'
      simp only [V, dif_pos hp]
      have s1 := Classical.choose_spec (hcov _ hp)
      have s2 := Classical.choose_spec s1.2
      obtain ⟨e1, e2⟩ := hinj _ s1.1 _ s2.1 a ha l hl' s2.2
      rw [e2, e1]
    rw [(setField_apply cd.numHori cd.numLevels D cd.index V hV prev _).1 ⟨a, ha, l, hll, rfl⟩,
      hV a ha l hll]

/-! ### Columns -/

/-- A sorted list in which every member occurs `L` times consists of blocks of length `L`. -/
theorem sorted_blocks (L : ℕ) (hL : 0 < L) : ∀ (n : ℕ) (hs : List H), hs.length = n →
    hs.Pairwise (· ≤ ·) → (∀ a ∈ hs, hs.count a = L) →
    ∃ ds : List H, ds.Pairwise (· < ·) ∧ hs = ds.flatMap (List.replicate L) ∧ ∀ d ∈ ds, d ∈ hs := by
  intro n
  induction n using Nat.strong_induction_on with
  | _ n ih =>
    intro hs hn hsort hcount
    cases hhs : hs with
    | nil => exact ⟨[], List.Pairwise.nil, rfl, by simp⟩
    | cons a t =>
      rw [← hhs]
      have ha : a ∈ hs := by rw [hhs]; exact List.mem_cons_self ..
      have hmin : ∀ b ∈ hs, a ≤ b := by
        rw [hhs] at hsort ⊢
        intro b hb
        rcases List.mem_cons.mp hb with rfl | hb
        · exact le_refl _
        · exact List.rel_of_pairwise_cons hsort hb
      set rest := hs.filter (fun b => b ≠ a) with hrest
      have hfst : hs.filter (fun b => b = a) = List.replicate L a := by
        rw [← hcount a ha]
        rw [← List.filter_beq]
        apply List.filter_congr
        intro b _
        simp [beq_eq_decide]
      have hperm : (List.replicate L a ++ rest).Perm hs := by
        rw [← hfst]
        have := List.filter_append_perm (fun b => decide (b = a)) hs
        refine List.Perm.trans ?_ this
        have e : (fun b : H => decide (b ≠ a)) = fun b => !decide (b = a) := by
          funext b; simp
        rw [hrest, e]
      have hrs : rest.Pairwise (· ≤ ·) := hsort.filter _
      have hgt : ∀ b ∈ rest, a < b := fun b hb => by
        obtain ⟨h1, h2⟩ := List.mem_filter.mp hb
        exact lt_of_le_of_ne (hmin b h1) fun e => by simp [e] at h2
      have heq : List.replicate L a ++ rest = hs := by
        refine List.Perm.eq_of_pairwise (fun a b _ _ h1 h2 => le_antisymm h1 h2) ?_ hsort hperm
        rw [List.pairwise_append]
        refine ⟨List.pairwise_replicate.mpr (Or.inr (le_refl a)), hrs, fun b hb c hc => ?_⟩
        rw [(List.mem_replicate.mp hb).2]
        exact (hgt c hc).le
      have hlenr : rest.length < n := by
        have := congrArg List.length heq
        simp at this
        omega
      obtain ⟨ds, d1, d2, d3⟩ := ih rest.length hlenr rest rfl hrs fun b hb => by
        obtain ⟨h1, h2⟩ := List.mem_filter.mp hb
        rw [← hcount b h1]
        exact List.count_filter h2
      refine ⟨a :: ds, ?_, ?_, ?_⟩
      · rw [List.pairwise_cons]
        exact ⟨fun b hb => hgt b (d3 b hb), d1⟩
      · rw [List.flatMap_cons, ← d2, heq]
      · intro d hd
        rcases List.mem_cons.mp hd with rfl | hd
        · exact ha
        · exact (List.mem_filter.mp (d3 d hd)).1

theorem getElem?_blocks (L : ℕ) (ds : List H) (h l : ℕ) (hh : h < ds.length) (hl : l < L) :
    (ds.flatMap (List.replicate L))[l + h * L]? = ds[h]? := by
  induction ds generalizing h with
  | nil => simp at hh
  | cons d ds ih =>
    rw [List.flatMap_cons]
    cases h with
    | zero =>
      rw [List.getElem?_append_left (by simpa using hl)]
      simp [hl]
    | succ h =>
      rw [List.getElem?_append_right (by
        simp only [List.length_replicate]
        have : (h + 1) * L = h * L + L := by ring
        omega)]
      have e : l + (h + 1) * L - (List.replicate L d).length = l + h * L := by
        simp only [List.length_replicate]
        have : (h + 1) * L = h * L + L := by ring
        omega
      rw [e, ih h (by simpa using hh), List.getElem?_cons_succ]

/-- **C33** (columns).  Suppose every (rounded) horizontal position of the field occurs `L` times and
`close` identifies exactly the equal positions.  Then `get_column_data` succeeds with `L` levels; the
degrees of freedom of one column all have the same horizontal position, different columns have
different (increasing) positions, and the height does not decrease along a column. -/
theorem C33_columns (round : H → H) (close : H → H → Bool) (field : List K) (coords : List (H × K))
    (hl : field.length = coords.length) (L : ℕ) (hne : coords ≠ [])
    (hcount : ∀ a ∈ coords, (coords.map fun c => round c.1).count (round a.1) = L)
    (hclose : ∀ a ∈ coords, ∀ b ∈ coords, close (round a.1) (round b.1) = true ↔ round a.1 = round b.1) :
    ∃ cd, getColumnData round close true field coords = .ok cd ∧ cd.numLevels = L ∧
      cd.numHori * L = field.length ∧
      ∃ pos : ℕ → H, (∀ a a', a < a' → a' < cd.numHori → pos a < pos a') ∧
        (∀ a < cd.numHori, ∀ l < L, ∃ x z, coords[cd.index a l]? = some (x, z) ∧ round x = pos a) ∧
        (∀ a < cd.numHori, ∀ l l', l ≤ l' → l' < L → ∀ x z x' z',
          coords[cd.index a l]? = some (x, z) → coords[cd.index a l']? = some (x', z') → z ≤ z') := by
  set data := (frame round field coords).mergeSort rowLE with hdata
  have hlen : data.length = field.length := by
    simp only [hdata, List.length_mergeSort]; exact frame_length round field coords hl
  have hmem : ∀ r ∈ data, ∃ x, coords[r.index]? = some (x, r.z) ∧ r.hori = round x := fun r hr =>
    (mem_frame.mp ((List.mergeSort_perm _ _).mem_iff.mp hr)).2
  have hframeH : (frame round field coords).map Row.hori = coords.map fun c => round c.1 := by
    apply List.ext_getElem
    · simp [frame, hl]
    · intro i h1 h2
      simp [frame]
  have hpermH : (data.map Row.hori).Perm (coords.map fun c => round c.1) := by
    rw [← hframeH]; exact (List.mergeSort_perm _ _).map _
  have hsorted : data.Pairwise fun a b => toLex (a.hori, a.z) ≤ toLex (b.hori, b.z) := by
    have := List.pairwise_mergeSort (le := rowLE (K := K) (H := H))
      (fun a b c h1 h2 => by
        simp only [rowLE, decide_eq_true_eq] at h1 h2 ⊢; exact le_trans h1 h2)
      (fun a b => by
        simp only [rowLE, Bool.or_eq_true, decide_eq_true_eq]; exact le_total _ _)
      (frame round field coords)
    rw [← hdata] at this
    exact this.imp fun h => by simpa [rowLE] using h
  have hsH : (data.map Row.hori).Pairwise (· ≤ ·) := by
    rw [List.pairwise_map]
    refine hsorted.imp fun {a b} h => ?_
    rcases (Prod.Lex.toLex_le_toLex).mp h with h | h
    · exact h.le
    · exact h.1.le
  have hcnt : ∀ a ∈ data.map Row.hori, (data.map Row.hori).count a = L := by
    intro a ha
    have ha' := hpermH.mem_iff.mp ha
    obtain ⟨c, hc, rfl⟩ := List.mem_map.mp ha'
    rw [hpermH.count_eq]; exact hcount c hc
  have hLpos : 0 < L := by
    obtain ⟨c, hc⟩ := List.exists_mem_of_ne_nil _ hne
    rw [← hcount c hc]
    exact List.count_pos_iff.mpr (List.mem_map.mpr ⟨c, hc, rfl⟩)
  obtain ⟨ds, d1, d2, _⟩ := sorted_blocks L hLpos _ _ rfl hsH hcnt
  have hdl : ds.length * L = field.length := by
    have := congrArg List.length d2
    rw [List.length_map, hlen, List.length_flatMap] at this
    simp at this
    omega
  -- the call
  cases hd : data with
  | nil =>
    exfalso
    rw [hd] at hlen
    simp at hlen
    exact hne (List.length_eq_zero_iff.mp (by omega))
  | cons first rest =>
  have hfm : first ∈ data := by rw [hd]; exact List.mem_cons_self ..
  have hnl : (data.filter fun r => close r.hori first.hori).length = L := by
    rw [← hcnt first.hori (List.mem_map.mpr ⟨first, hfm, rfl⟩), List.count_eq_countP,
      List.countP_map, ← List.countP_eq_length_filter]
    apply List.countP_congr
    intro r hr
    obtain ⟨x, hx, hx'⟩ := hmem r hr
    obtain ⟨y, hy, hy'⟩ := hmem first hfm
    have := hclose _ (List.mem_of_getElem? hx) _ (List.mem_of_getElem? hy)
    dsimp only at this
    rw [← hx', ← hy'] at this
    simp [this]
  let cd : ColumnData K :=
    { numHori := data.length / L
      numLevels := L
      field := fun h lev => (data.map Row.field).getD (lev + h * L) 0
      index := fun h lev => (data.map Row.index).getD (lev + h * L) 0 }
  have hget : getColumnData round close true field coords = .ok cd := by
    unfold getColumnData
    rw [← hdata, fromSorted_cons close true data first (by rw [hd]; rfl), hnl, if_neg (by omega),
      if_pos ⟨by rw [hlen, ← hdl]; exact Nat.mul_mod_left _ _, rfl⟩]
  have hnH : cd.numHori = ds.length := by
    show data.length / L = _
    rw [hlen, ← hdl, Nat.mul_div_cancel _ hLpos]
  have hrow : ∀ a < ds.length, ∀ l < L, ∃ hk : l + a * L < data.length,
      cd.index a l = data[l + a * L].index ∧ some data[l + a * L].hori = ds[a]? := by
    intro a ha l hll
    have hk : l + a * L < data.length := by rw [hlen, ← hdl]; exact pos_lt ha hll
    refine ⟨hk, ?_, ?_⟩
    · show (data.map Row.index).getD (l + a * L) 0 = _
      rw [List.getD_eq_getElem _ _ (by simpa using hk), List.getElem_map]
    · rw [← getElem?_blocks L ds a l ha hll, ← d2, List.getElem?_map, List.getElem?_eq_getElem hk]
      rfl
  refine ⟨cd, hget, rfl, by rw [hnH]; exact hdl, fun a => ds.getD a first.hori, ?_, ?_, ?_⟩
  · intro a a' h1 h2
    rw [hnH] at h2
    dsimp only
    rw [List.getD_eq_getElem _ _ (by omega), List.getD_eq_getElem _ _ h2]
    exact List.pairwise_iff_getElem.mp d1 a a' (by omega) h2 h1
  · intro a ha l hll
    rw [hnH] at ha
    obtain ⟨hk, e1, e2⟩ := hrow a ha l hll
    obtain ⟨x, hx, hx'⟩ := hmem _ (List.getElem_mem hk)
    refine ⟨x, data[l + a * L].z, by rw [e1]; exact hx, ?_⟩
    dsimp only
    rw [List.getD_eq_getElem?_getD, ← e2, ← hx']; rfl
  · intro a ha l l' h1 h2 x z x' z' hc hc'
    rw [hnH] at ha
    obtain ⟨hk, e1, e2⟩ := hrow a ha l (by omega)
    obtain ⟨hk', e1', e2'⟩ := hrow a ha l' h2
    obtain ⟨y, hy, _⟩ := hmem _ (List.getElem_mem hk)
    obtain ⟨y', hy', _⟩ := hmem _ (List.getElem_mem hk')
    rw [e1, hy] at hc
    rw [e1', hy'] at hc'
    have hz : z = data[l + a * L].z := (congrArg Prod.snd (Option.some.inj hc)).symm
    have hz' : z' = data[l' + a * L].z := (congrArg Prod.snd (Option.some.inj hc')).symm
    rcases Nat.lt_or_ge l l' with hlt | hge
    · have hle := List.pairwise_iff_getElem.mp hsorted (l + a * L) (l' + a * L) hk hk' (by omega)
      have hhe : data[l + a * L].hori = data[l' + a * L].hori := by
        rw [← e2'] at e2; exact Option.some.inj e2
      rcases (Prod.Lex.toLex_le_toLex).mp hle with h | h
      · exact absurd hhe h.ne
      · rw [hz, hz']; exact h.2
    · have : l = l' := by omega
      subst this
      rw [hz, hz']

/-- Two columns of two levels, given in a mixed order. -/
def exCoords : List (ℚ × ℚ) := [(1, 5), (0, 3), (1, 2), (0, 4)]

example : exCoords ≠ [] ∧ (∀ a ∈ exCoords, (exCoords.map fun c => id c.1).count (id a.1) = 2) ∧
    (∀ a ∈ exCoords, ∀ b ∈ exCoords, isclose (id a.1) (id b.1) = true ↔ id a.1 = id b.1) := by
  refine ⟨by simp [exCoords], by decide +kernel, by decide +kernel⟩

/-- **C33** (errors).  With data, the call fails exactly when the number of points close to the first
sorted point does not divide the number of points, here or on another rank. -/
theorem C33_error (round : H → H) (close : H → H → Bool) (hrefl : ∀ a, close a a = true)
    (others : Bool) (field : List K) (coords : List (H × K)) (hl : field.length = coords.length)
    (hne : coords ≠ []) :
    ∃ first ∈ coords, (∀ c ∈ coords, round first.1 ≤ round c.1) ∧
      let n := (coords.filter fun c => close (round c.1) (round first.1)).length
      ((∃ cd, getColumnData round close others field coords = .ok cd) ↔
        n ∣ coords.length ∧ others = true) ∧
      (¬(n ∣ coords.length ∧ others = true) →
        getColumnData round close others field coords = .error "RuntimeError") := by
  set data := (frame round field coords).mergeSort rowLE with hdata
  have hlen : data.length = coords.length := by
    rw [← hl]; simp only [hdata, List.length_mergeSort]; exact frame_length round field coords hl
  have hmem : ∀ r ∈ data, ∃ x, coords[r.index]? = some (x, r.z) ∧ r.hori = round x := fun r hr =>
    (mem_frame.mp ((List.mergeSort_perm _ _).mem_iff.mp hr)).2
  have hframeH : (frame round field coords).map Row.hori = coords.map fun c => round c.1 := by
    apply List.ext_getElem
    · simp [frame, hl]
    · intro i h1 h2
      simp [frame]
  have hpermH : (data.map Row.hori).Perm (coords.map fun c => round c.1) := by
    rw [← hframeH]; exact (List.mergeSort_perm _ _).map _
  have hsorted : data.Pairwise fun a b => toLex (a.hori, a.z) ≤ toLex (b.hori, b.z) := by
    have := List.pairwise_mergeSort (le := rowLE (K := K) (H := H))
      (fun a b c h1 h2 => by
        simp only [rowLE, decide_eq_true_eq] at h1 h2 ⊢; exact le_trans h1 h2)
      (fun a b => by
        simp only [rowLE, Bool.or_eq_true, decide_eq_true_eq]; exact le_total _ _)
      (frame round field coords)
    rw [← hdata] at this
    exact this.imp fun h => by simpa [rowLE] using h
  cases hd : data with
  | nil =>
    exfalso
    rw [hd] at hlen
    simp at hlen
    exact hne (List.length_eq_zero_iff.mp (by omega))
  | cons first rest =>
  have hfm : first ∈ data := by rw [hd]; exact List.mem_cons_self ..
  obtain ⟨x, hx, hx'⟩ := hmem first hfm
  refine ⟨(x, first.z), List.mem_of_getElem? hx, ?_, ?_⟩
  · intro c hc
    have hcm : round c.1 ∈ data.map Row.hori :=
      hpermH.mem_iff.mpr (List.mem_map.mpr ⟨c, hc, rfl⟩)
    obtain ⟨r, hr, hre⟩ := List.mem_map.mp hcm
    rw [← hre, ← hx']
    rw [hd] at hr hsorted
    rcases List.mem_cons.mp hr with rfl | hr
    · exact le_refl _
    · rcases (Prod.Lex.toLex_le_toLex).mp (List.rel_of_pairwise_cons hsorted hr) with h | h
      · exact h.le
      · exact h.1.le
  · dsimp only
    have hn : (data.filter fun r => close r.hori first.hori).length =
        (coords.filter fun c => close (round c.1) (round x)).length := by
      rw [← List.countP_eq_length_filter, ← List.countP_eq_length_filter, ← hx']
      have e1 := List.countP_map (p := fun a => close a first.hori) (f := Row.hori) (l := data)
      have e2 := List.countP_map (p := fun a => close a first.hori)
        (f := fun c : H × K => round c.1) (l := coords)
      have e3 := hpermH.countP_eq (fun a => close a first.hori)
      rw [e1, e2] at e3
      exact e3
    have hpos : (data.filter fun r => close r.hori first.hori).length ≠ 0 := by
      have : first ∈ data.filter fun r => close r.hori first.hori :=
        List.mem_filter.mpr ⟨hfm, hrefl _⟩
      intro h0
      rw [List.length_eq_zero_iff] at h0
      rw [h0] at this
      simp at this
    rw [← hn]
    have hg : getColumnData round close others field coords =
        if data.length % (data.filter fun r => close r.hori first.hori).length = 0 ∧ others = true then
          .ok { numHori := data.length / (data.filter fun r => close r.hori first.hori).length
                numLevels := (data.filter fun r => close r.hori first.hori).length
                field := fun h lev => (data.map Row.field).getD
                  (lev + h * (data.filter fun r => close r.hori first.hori).length) 0
                index := fun h lev => (data.map Row.index).getD
                  (lev + h * (data.filter fun r => close r.hori first.hori).length) 0 }
        else .error "RuntimeError" := by
      unfold getColumnData
      rw [← hdata, fromSorted_cons close others data first (by rw [hd]; rfl), if_neg hpos]
    rw [hg, hlen]
    simp only [Nat.dvd_iff_mod_eq_zero]
    constructor
    · split
      · rename_i h; simp [h]
      · rename_i h; simp [h]
    · intro h; rw [if_neg h]

/-- **C33** (refuted part).  `numpy.isclose` uses a tolerance relative to the first coordinate: two
columns of one level each at `x = 1000000` and `x = 1000001` are returned as one column of two
levels. -/
theorem C33_isclose_refuted :
    ∃ cd, getColumnData (K := ℚ) (H := ℚ) id isclose true [7, 8] [(1000000, 0), (1000001, 0)] = .ok cd ∧
      cd.numHori = 1 ∧ cd.numLevels = 2 ∧ cd.field 0 0 = 7 ∧ cd.field 0 1 = 8 := by
  have hs : (frame (K := ℚ) (H := ℚ) id [7, 8] [(1000000, 0), (1000001, 0)]).mergeSort rowLE =
      [⟨7, 1000000, 0, 0⟩, ⟨8, 1000001, 0, 1⟩] := by
    have hf : frame (K := ℚ) (H := ℚ) id [7, 8] [(1000000, 0), (1000001, 0)] =
      [⟨7, 1000000, 0, 0⟩, ⟨8, 1000001, 0, 1⟩] := rfl
    rw [hf]
    apply List.mergeSort_of_pairwise
    simp [rowLE, Prod.Lex.toLex_le_toLex]
    norm_num
  have hc : ([⟨7, 1000000, 0, 0⟩, ⟨8, 1000001, 0, 1⟩] : List (Row ℚ ℚ)).filter
      (fun r => isclose r.hori 1000000) = [⟨7, 1000000, 0, 0⟩, ⟨8, 1000001, 0, 1⟩] := by
    have h1 : isclose (1000000 : ℚ) 1000000 = true := by decide +kernel
    have h2 : isclose (1000001 : ℚ) 1000000 = true := by decide +kernel
    simp [h1, h2]
  refine ⟨⟨1, 2, fun h lev => ([7, 8] : List ℚ).getD (lev + h * 2) 0,
    fun h lev => [0, 1].getD (lev + h * 2) 0⟩, ?_, rfl, rfl, rfl, rfl⟩
  unfold getColumnData
  rw [hs, fromSorted_cons _ _ _ ⟨7, 1000000, 0, 0⟩ rfl]
  dsimp only
  rw [hc]
  rfl

end Gusto.Props.ColumnProps
