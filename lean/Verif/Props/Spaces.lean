import Verif.Model.Spaces
import Mathlib.Tactic.Ring
import Mathlib.Tactic.FieldSimp
import Mathlib.Tactic.Linarith
import Mathlib.Tactic.NormNum

set_option autoImplicit false
set_option linter.unusedSectionVars false
set_option linter.unusedSimpArgs false

/-!
# C85: function spaces and degrees
-/

namespace Gusto.Props.SpacesProps
open Gusto.Spaces

/-! ### Names -/

theorem append_left_inj {p s t : String} (h : p ++ s = p ++ t) : s = t := by
  have := congrArg String.toList h
  simp only [String.toList_append, List.append_cancel_left_eq] at this
  exact String.toList_injective this

theorem pre_ne (p q : String) (s t : String) (i : ℕ) (hp : i < p.toList.length) (hq : i < q.toList.length)
    (h : p.toList[i]'hp ≠ q.toList[i]'hq) : p ++ s ≠ q ++ t := by
  intro he
  have he := congrArg String.toList he
  simp only [String.toList_append] at he
  apply h
  have h1 : (p.toList ++ s.toList)[i]? = (q.toList ++ t.toList)[i]? := by rw [he]
  rw [List.getElem?_append_left hp, List.getElem?_append_left hq, List.getElem?_eq_getElem hp,
    List.getElem?_eq_getElem hq] at h1
  exact Option.some.inj h1

/-- The kinds of spaces of a complex. -/
def kinds : List String := ["H1", "HCurl", "HDiv", "L2", "DG", "theta"]

theorem kinds_ne {p q : String} (hp : p ∈ kinds) (hq : q ∈ kinds) (hne : p ≠ q) (s t : String) : p ++ s ≠ q ++ t := by
  simp only [kinds, List.mem_cons, List.not_mem_nil, or_false] at hp hq
  rcases hp with rfl | rfl | rfl | rfl | rfl | rfl <;> rcases hq with rfl | rfl | rfl | rfl | rfl | rfl <;>
    first
    | exact absurd rfl hne
    | exact pre_ne _ _ s t 0 (by decide) (by decide) (by decide)
    | exact pre_ne _ _ s t 1 (by decide) (by decide) (by decide)

theorem suffix_inj_aux {a b : ℕ} (h : a.repr = b.repr) : a = b := by
  have := congrArg String.toList h
  rw [Nat.toList_repr, Nat.toList_repr] at this
  rw [← Nat.ofDigitChars_ten_toDigits (n := a), this, Nat.ofDigitChars_ten_toDigits]

theorem list_split {x : Char} {a b c d : List Char} (ha : x ∉ a) (hc : x ∉ c) (h : a ++ x :: b = c ++ x :: d) :
    a = c ∧ b = d := by
  induction a generalizing c with
  | nil =>
    cases c with
    | nil => simpa using h
    | cons y c =>
      simp only [List.nil_append, List.cons_append, List.cons.injEq] at h
      exact absurd (by rw [h.1]; exact List.mem_cons_self) hc
  | cons z a ih =>
    cases c with
    | nil =>
      simp only [List.nil_append, List.cons_append, List.cons.injEq] at h
      exact absurd (by rw [h.1]; exact List.mem_cons_self) ha
    | cons y c =>
      simp only [List.cons_append, List.cons.injEq] at h
      have := ih (fun hx => ha (List.mem_cons_of_mem _ hx)) (fun hx => hc (List.mem_cons_of_mem _ hx)) h.2
      exact ⟨by rw [h.1, this.1], this.2⟩

/-! ### C85: building -/

theorem storeCont_ok (d : DeRham) (suf : String) (c c' : String → Option (Option Cont)) (h : storeCont d suf c = .ok c') :
    ∀ n, (∀ k ∈ kinds, n ≠ k ++ suf) → n ≠ "H1, HCurl" ++ suf → c' n = c n := by
  intro n hn hn'
  have h1 : n ≠ "HDiv" ++ suf := hn "HDiv" (by decide)
  have h2 : n ≠ "L2" ++ suf := hn "L2" (by decide)
  have h3 : n ≠ "DG" ++ suf := hn "DG" (by decide)
  have h4 : n ≠ "theta" ++ suf := hn "theta" (by decide)
  simp only [storeCont, List.foldlM_cons, List.foldlM_nil] at h
  have step : ∀ (k : String) (c0 c1 : String → Option (Option Cont)), n ≠ k ++ suf →
      (if d.has k then
        match d.cont k with
        | some x => Except.ok (setName c0 (k ++ suf) x)
        | none => Except.error Err.keyError
      else Except.ok c0) = Except.ok c1 → c1 n = c0 n := by
    intro k c0 c1 hk he
    split at he
    · split at he
      · cases he; simp [setName, hk]
      · cases he
    · cases he; rfl
  simp only [bind, Except.bind] at h
  split at h
  · cases h
  · rename_i v1 e1
    split at h
    · cases h
    · rename_i v2 e2
      split at h
      · cases h
      · rename_i v3 e3
        split at h
        · cases h
        · rename_i v4 e4
          split at h
          · cases h
          · rename_i v5 e5
            cases h
            rw [step _ _ _ h4 e5, step _ _ _ h3 e4, step _ _ _ h2 e3, step _ _ _ h1 e2, step _ _ _ hn' e1]

theorem bind_ok {ε α β : Type} {x : Except ε α} {f : α → Except ε β} {b : β} (h : x.bind f = .ok b) :
    ∃ a, x = .ok a ∧ f a = .ok b := by
  cases x with
  | error e => cases h
  | ok a => exact ⟨a, rfl, h⟩

theorem map_ok {ε α β : Type} {x : Except ε α} {f : α → β} {b : β} (h : x.map f = .ok b) : ∃ a, x = .ok a ∧ f a = b := by
  cases x with
  | error e => cases h
  | ok a => exact ⟨a, rfl, by simpa [Except.map] using h⟩

/-- C85: after a complex has been built the container returns its spaces under their names with the suffix, the `L2` space
also as `DG`; all other names are as before, and the degrees are remembered. -/
theorem C85_built (m : MeshInfo) (s s' : Spaces) (family : Option String) (h : ℕ) (v : Option ℕ) (name : Option String)
    (hb : build m s family h v name = .ok s') :
    ∃ d, buildComplex m family h v = .ok d ∧
      s'.call ("H1" ++ suffix s h v name) = .ok (some d.h1) ∧
      s'.call ("HCurl" ++ suffix s h v name) = .ok d.hcurl ∧
      s'.call ("HDiv" ++ suffix s h v name) = .ok (some d.hdiv) ∧
      s'.call ("L2" ++ suffix s h v name) = .ok (some d.l2) ∧
      s'.call ("DG" ++ suffix s h v name) = .ok (some d.l2) ∧
      (∀ t, d.theta = some t → s'.call ("theta" ++ suffix s h v name) = .ok (some t)) ∧
      (∀ n, (∀ k ∈ kinds, n ≠ k ++ suffix s h v name) → s'.attr n = s.attr n) ∧
      (∀ n, (∀ k ∈ kinds, n ≠ k ++ suffix s h v name) → n ≠ "H1, HCurl" ++ suffix s h v name → s'.cont n = s.cont n) ∧
      s'.keys = (h, v) :: s.keys ∧ (h, v) ∉ s.keys := by
  generalize hs : suffix s h v name = suf at hb ⊢
  unfold build at hb
  rw [hs] at hb
  simp only at hb
  split at hb
  · cases hb
  rename_i hnk
  obtain ⟨d, hd, hb⟩ := bind_ok hb
  obtain ⟨c, hc, hb⟩ := map_ok hb
  have ne : ∀ p q : String, p ∈ kinds → q ∈ kinds → p ≠ q → (p ++ suf = q ++ suf) = False := by
    intro p q hp hq hpq; simp only [kinds_ne hp hq hpq suf suf]
  refine ⟨d, hd, ?_, ?_, ?_, ?_, ?_, ?_, ?_, ?_, ?_, hnk⟩
  · rw [← hb]
    cases ht : d.theta <;>
      simp [Spaces.call, setName, ne "H1" "DG" (by decide) (by decide) (by decide),
        ne "H1" "L2" (by decide) (by decide) (by decide), ne "H1" "HDiv" (by decide) (by decide) (by decide),
        ne "H1" "HCurl" (by decide) (by decide) (by decide), ne "H1" "theta" (by decide) (by decide) (by decide)]
  · rw [← hb]
    cases ht : d.theta <;>
      simp [Spaces.call, setName, ne "HCurl" "DG" (by decide) (by decide) (by decide),
        ne "HCurl" "L2" (by decide) (by decide) (by decide), ne "HCurl" "HDiv" (by decide) (by decide) (by decide),
        ne "HCurl" "theta" (by decide) (by decide) (by decide)]
  · rw [← hb]
    cases ht : d.theta <;>
      simp [Spaces.call, setName, ne "HDiv" "DG" (by decide) (by decide) (by decide),
        ne "HDiv" "L2" (by decide) (by decide) (by decide), ne "HDiv" "theta" (by decide) (by decide) (by decide)]
  · rw [← hb]
    cases ht : d.theta <;>
      simp [Spaces.call, setName, ne "L2" "DG" (by decide) (by decide) (by decide),
        ne "L2" "theta" (by decide) (by decide) (by decide)]
  · rw [← hb]
    cases ht : d.theta <;>
      simp [Spaces.call, setName, ne "DG" "theta" (by decide) (by decide) (by decide)]
  · intro t ht
    rw [← hb]
    simp [Spaces.call, setName, ht]
  · intro n hn
    rw [← hb]
    have h1 := hn "H1" (by decide)
    have h2 := hn "HCurl" (by decide)
    have h3 := hn "HDiv" (by decide)
    have h4 := hn "L2" (by decide)
    have h5 := hn "DG" (by decide)
    have h6 := hn "theta" (by decide)
    cases ht : d.theta <;> simp [setName, h1, h2, h3, h4, h5, h6]
  · intro n hn hn'
    rw [← hb]
    exact storeCont_ok d suf s.cont c hc n hn hn'
  · rw [← hb]

/-- C85: building the same degrees twice is refused. -/
theorem C85_duplicate (m : MeshInfo) (s s' : Spaces) (family family' : Option String) (h : ℕ) (v : Option ℕ)
    (name name' : Option String) (hb : build m s family h v name = .ok s') :
    build m s' family' h v name' = .error .runtimeError := by
  obtain ⟨_, _, _, _, _, _, _, _, _, _, hk, _⟩ := C85_built m s s' family h v name hb
  unfold build
  simp [hk]

/-- C85: complexes of different degrees built with default names on an extruded mesh never overwrite each other: their
suffixes differ (and differ from the empty suffix of the first). -/
theorem C85_names_distinct (s t : Spaces) (h v h' v' : ℕ) (hs : s.keys ≠ []) (ht : t.keys ≠ [])
    (hne : (h, v) ≠ (h', v')) (p q : String) (hp : p ∈ kinds) (hq : q ∈ kinds) :
    p ++ suffix s h (some v) none ≠ q ++ suffix t h' (some v') none ∧ p ++ suffix s h (some v) none ≠ q ++ "" := by
  have hu : ∀ n : ℕ, '_' ∉ n.repr.toList := by
    intro n; rw [Nat.toList_repr]; exact Nat.underscore_not_in_toDigits
  have hne0 : suffix s h (some v) none ≠ "" := by
    simp only [suffix, hs, if_false]
    split
    · intro he
      have := congrArg String.toList he
      simp at this
    · exact Nat.repr_ne_empty
  have key : suffix s h (some v) none ≠ suffix t h' (some v') none := by
    simp only [suffix, hs, ht, if_false]
    intro he
    have he := congrArg String.toList he
    split at he <;> split at he <;> rename_i c c'
    · simp only [String.toList_append, List.append_assoc] at he
      have := list_split (x := '_') (hu h) (hu h') (by simpa using he)
      apply hne
      have h1 := suffix_inj_aux (String.toList_injective this.1)
      have h2 : v = v' := by
        have h3 : Nat.toDigits 10 v = Nat.toDigits 10 v' := by simpa using this.2
        rw [← Nat.ofDigitChars_ten_toDigits (n := v), h3, Nat.ofDigitChars_ten_toDigits]
      rw [h1, h2]
    · apply hu h'
      rw [← he]; simp
    · apply hu h
      rw [he]; simp
    · have h1 := suffix_inj_aux (String.toList_injective he)
      rw [not_ne_iff] at c c'
      apply hne; rw [← c, ← c', h1]
  by_cases hpq : p = q
  · subst hpq
    exact ⟨fun he => key (append_left_inj he), fun he => hne0 (append_left_inj he)⟩
  · exact ⟨kinds_ne hp hq hpq _ _, kinds_ne hp hq hpq _ _⟩

/-- But without vertical degree the suffix of degree `h` is that of the degrees `(h, h)`, and the second complex replaces
the spaces of the first. -/
theorem C85_names_clash (s : Spaces) (h : ℕ) : suffix s h none none = suffix s h (some h) none := by
  simp [suffix]

/-- C85: an unknown family is refused with a message. -/
theorem C85_unknown_family (m : MeshInfo) (s : Spaces) (f : String) (h : ℕ) (v : Option ℕ) (name : Option String)
    (hf : f ∉ implemented) (hk : (h, v) ∉ s.keys) :
    build m s (some f) h v name = .error .notImplemented := by
  have : ∃ g, (some f : Option String) = some g ∧ g ∉ implemented := ⟨f, rfl, hf⟩
  unfold build
  simp only [hk, if_false]
  unfold buildComplex
  simp only [this, if_true]
  rfl

/-- The family `"DG"`, listed as implemented, and `None`, which passes the check, end in a KeyError. -/
theorem C85_dg_family_refuted (m : MeshInfo) (h : ℕ) (v : Option ℕ) :
    "DG" ∈ implemented ∧ buildComplex m (some "DG") h v = .error .keyError ∧
    buildComplex m none h v = .error .keyError := by
  refine ⟨by decide, ?_, ?_⟩
  · simp [buildComplex, implemented, buildBase, hdivOf, hcurlOf, Except.bind]
  · simp [buildComplex, buildBase, Except.bind]

/-! ### C85: the spaces form a complex -/

/-- Specification: the dimension of an element on its cell (the standard dimension formulas; sums are direct). -/
def dim : Elt → ℚ
  | .fe "CG" "triangle" d => (d + 1) * (d + 2) / 2
  | .fe "DG" "triangle" d => (d + 1) * (d + 2) / 2
  | .fe "Bubble" "triangle" d => (d - 1) * (d - 2) / 2
  | .fe "RTF" "triangle" d => d * (d + 2)
  | .fe "RTE" "triangle" d => d * (d + 2)
  | .fe "BDMF" "triangle" d => (d + 1) * (d + 2)
  | .fe "BDME" "triangle" d => (d + 1) * (d + 2)
  | .fe "BDFM" "triangle" d => (d + 1) * (d + 2) - 3
  | .fe "CG" "quadrilateral" d => (d + 1) ^ 2
  | .fe "DG" "quadrilateral" d => (d + 1) ^ 2
  | .fe "RTCF" "quadrilateral" d => 2 * d * (d + 1)
  | .fe "RTCE" "quadrilateral" d => 2 * d * (d + 1)
  | .fe "S" "quadrilateral" d => (d ^ 2 + 3 * d + 6) / 2
  | .fe "BDMCF" "quadrilateral" d => (d + 1) * (d + 2) + 2
  | .fe "BDMCE" "quadrilateral" d => (d + 1) * (d + 2) + 2
  | .fe "CG" "interval" d => d + 1
  | .fe "DG" "interval" d => d + 1
  | .fe _ _ _ => 0
  | .equispacedDG1 _ => 0
  | .tp h v => dim h * dim v
  | .hdiv e => dim e
  | .hcurl e => dim e
  | .plus a b => dim a + dim b

def triangleFamilies : List String := ["RT", "RTE", "RTF", "BDM", "BDME", "BDMF"]
def quadFamilies : List String := ["RTCE", "RTCF"]

/-- C85: on triangles and quadrilaterals the spaces of every family and degree form an exact sequence on each cell, by
dimension, both with HDiv and with HCurl in the middle; the L2 space has the requested degree. -/
theorem C85_complex_exact (f c : String) (k : ℕ) (v : Option ℕ)
    (hfc : f ∈ triangleFamilies ∧ c = "triangle" ∨ f ∈ quadFamilies ∧ c = "quadrilateral") :
    ∃ d e, buildComplex ⟨false, c, 2⟩ (some f) k v = .ok d ∧ d.l2 = .fe "DG" c k ∧ d.hcurl = some e ∧
      dim d.h1 - dim d.hdiv + dim d.l2 = 1 ∧ dim d.h1 - dim e + dim d.l2 = 1 := by
  simp only [triangleFamilies, quadFamilies, List.mem_cons, List.not_mem_nil, or_false] at hfc
  rcases hfc with ⟨hf, rfl⟩ | ⟨hf, rfl⟩
  · rcases hf with rfl | rfl | rfl | rfl | rfl | rfl <;>
    · simp [buildComplex, buildBase, implemented, hdivOf, hcurlOf, h1Degree, Except.map, Except.bind, dim]
      ring_nf
  · rcases hf with rfl | rfl <;>
    · simp [buildComplex, buildBase, implemented, hdivOf, hcurlOf, h1Degree, Except.map, Except.bind, dim]
      ring_nf

/-- C85: the same for the BDFM family with the degree that exists (`1`), which has no HCurl space. -/
theorem C85_bdfm_exact (v : Option ℕ) :
    ∃ d, buildComplex ⟨false, "triangle", 2⟩ (some "BDFM") 1 v = .ok d ∧ d.hcurl = none ∧
      dim d.h1 - dim d.hdiv + dim d.l2 = 1 := by
  refine ⟨_, by simp [buildComplex, buildBase, implemented, hdivOf, hcurlOf, h1Degree, Except.map, Except.bind]; rfl,
    by simp, ?_⟩
  simp [dim]; norm_num

/-- The serendipity family on quadrilaterals is paired with the full tensor product space instead of the polynomials of
total degree `k`: the sequence is exact in the lowest degree only. -/
theorem C85_serendipity_refuted (k : ℕ) (v : Option ℕ) :
    ∃ d, buildComplex ⟨false, "quadrilateral", 2⟩ (some "BDMCF") k v = .ok d ∧
      dim d.h1 - dim d.hdiv + dim d.l2 = 1 + k * (k + 1) / 2 := by
  refine ⟨_, by simp [buildComplex, buildBase, implemented, hdivOf, hcurlOf, h1Degree, Except.map, Except.bind]; rfl, ?_⟩
  simp [dim]; ring

/-- C85: on an interval the sequence is `H1 → L2`, HDiv is the H1 space. -/
theorem C85_interval_exact (k : ℕ) (v : Option ℕ) :
    ∃ d, buildComplex ⟨false, "interval", 1⟩ (some "CG") k v = .ok d ∧ d.hdiv = d.h1 ∧ dim d.h1 - dim d.l2 = 1 := by
  refine ⟨_, by simp [buildComplex, buildBase, implemented, hdivOf, hcurlOf, h1Degree, Except.map, Except.bind]; rfl,
    rfl, ?_⟩
  simp [dim]

/-- C85: on extruded meshes over triangles and quadrilaterals the four spaces form an exact sequence, in every pair of
degrees, and the `theta` space is the vertical part of HDiv. -/
theorem C85_extruded_exact (f c : String) (k l : ℕ)
    (hfc : f ∈ triangleFamilies ∧ c = "triangle" ∨ f ∈ quadFamilies ∧ c = "quadrilateral") :
    ∃ d e th hp, buildComplex ⟨true, c, 3⟩ (some f) k (some l) = .ok d ∧ d.hcurl = some e ∧ d.theta = some th ∧
      d.hdiv = .plus hp (.hdiv th) ∧ dim d.h1 - dim e + dim d.hdiv - dim d.l2 = 1 := by
  simp only [triangleFamilies, quadFamilies, List.mem_cons, List.not_mem_nil, or_false] at hfc
  rcases hfc with ⟨hf, rfl⟩ | ⟨hf, rfl⟩
  · rcases hf with rfl | rfl | rfl | rfl | rfl | rfl <;>
    · simp [buildComplex, buildBase, implemented, hdivOf, hcurlOf, h1Degree, Except.map, Except.bind, dim]
      ring_nf
  · rcases hf with rfl | rfl <;>
    · simp [buildComplex, buildBase, implemented, hdivOf, hcurlOf, h1Degree, Except.map, Except.bind, dim]
      ring_nf

/-- C85: in a vertical slice `H1 → HDiv → L2` is exact. -/
theorem C85_slice_exact (k l : ℕ) :
    ∃ d th hp, buildComplex ⟨true, "interval", 2⟩ (some "CG") k (some l) = .ok d ∧ d.theta = some th ∧
      d.hdiv = .plus hp (.hdiv th) ∧ dim d.h1 - dim d.hdiv + dim d.l2 = 1 := by
  refine ⟨_, _, _, by simp [buildComplex, buildBase, implemented, hdivOf, hcurlOf, h1Degree, Except.map, Except.bind]; rfl,
    rfl, rfl, ?_⟩
  simp [dim]; ring

/-- But its HCurl space has horizontal degree one too high: the sequence through HCurl is exact in no degree. -/
theorem C85_slice_hcurl_refuted (k l : ℕ) :
    ∃ d e, buildComplex ⟨true, "interval", 2⟩ (some "CG") k (some l) = .ok d ∧ d.hcurl = some e ∧
      dim d.h1 - dim e + dim d.l2 ≠ 1 := by
  refine ⟨_, _, by simp [buildComplex, buildBase, implemented, hdivOf, hcurlOf, h1Degree, Except.map, Except.bind]; rfl,
    rfl, ?_⟩
  simp [dim]
  intro h
  have : (0 : ℚ) ≤ (l : ℚ) := Nat.cast_nonneg l
  nlinarith [h]

/-! ### C85: continuity -/

/-- C85: the continuity of HDiv, L2 and theta is stored under the name of the space. -/
theorem C85_continuity (m : MeshInfo) (s s' : Spaces) (family : Option String) (h : ℕ) (v : Option ℕ)
    (name : Option String) (hb : build m s family h v name = .ok s') :
    s'.cont ("HDiv" ++ suffix s h v name) = some (some (if m.extruded then .dirs true true else .flat true)) ∧
    s'.cont ("L2" ++ suffix s h v name) = some (some (if m.extruded then .dirs false false else .flat false)) ∧
    (m.extruded = true → s'.cont ("theta" ++ suffix s h v name) = some (some (.dirs false true))) := by
  generalize hs : suffix s h v name = suf at hb ⊢
  unfold build at hb
  rw [hs] at hb
  simp only at hb
  split at hb
  · cases hb
  obtain ⟨d, hd, hb⟩ := bind_ok hb
  obtain ⟨c, hc, hb⟩ := map_ok hb
  rw [← hb]
  simp only
  have n1 : "L2" ++ suf ≠ "HDiv" ++ suf := kinds_ne (by decide) (by decide) (by decide) _ _
  have n2 : "theta" ++ suf ≠ "HDiv" ++ suf := kinds_ne (by decide) (by decide) (by decide) _ _
  have n3 : "theta" ++ suf ≠ "L2" ++ suf := kinds_ne (by decide) (by decide) (by decide) _ _
  unfold buildComplex at hd
  split at hd
  · cases hd
  obtain ⟨b, _, hd⟩ := bind_ok hd
  split at hd
  · rename_i hx
    split at hd
    · cases hd
    · cases hd
      simp only [storeCont, DeRham.has, bind, Except.bind, pure, Except.pure, setName, List.foldlM_cons,
        List.foldlM_nil] at hc
      simp at hc
      rw [← hc]
      simp [setName, n1, n2, n3, n1.symm, n2.symm, n3.symm, hx]
  · rename_i hx
    split at hd
    · cases hd
      simp only [storeCont, DeRham.has, bind, Except.bind, pure, Except.pure, setName, List.foldlM_cons,
        List.foldlM_nil] at hc
      simp at hc
      rw [← hc]
      simp [setName, n1, n2, n3, n1.symm, n2.symm, n3.symm, hx]
    · cases hd
      simp only [storeCont, DeRham.has, bind, Except.bind, pure, Except.pure, setName, List.foldlM_cons,
        List.foldlM_nil] at hc
      simp at hc
      rw [← hc]
      simp [setName, n1, n2, n3, n1.symm, n2.symm, n3.symm, hx]

/-- The continuity of H1, HCurl and DG is never stored. -/
theorem C85_continuity_refuted (m : MeshInfo) (family : Option String) (h : ℕ) (v : Option ℕ) (s' : Spaces)
    (hb : build m .empty family h v none = .ok s') :
    s'.cont "H1" = none ∧ s'.cont "HCurl" = none ∧ s'.cont "DG" = none := by
  unfold build at hb
  simp only [Spaces.empty, suffix, if_true, List.not_mem_nil, if_false] at hb
  obtain ⟨d, hd, hb⟩ := bind_ok hb
  obtain ⟨c, hc, hb⟩ := map_ok hb
  rw [← hb]
  simp only
  unfold buildComplex at hd
  split at hd
  · cases hd
  obtain ⟨b, _, hd⟩ := bind_ok hd
  split at hd
  · split at hd
    · cases hd
    · cases hd
      simp [storeCont, DeRham.has, bind, Except.bind, pure, Except.pure, setName] at hc
      rw [← hc]; decide
  · split at hd
    · cases hd
      simp [storeCont, DeRham.has, bind, Except.bind, pure, Except.pure, setName] at hc
      rw [← hc]; decide
    · cases hd
      simp [storeCont, DeRham.has, bind, Except.bind, pure, Except.pure, setName] at hc
      rw [← hc]; decide

/-! ### C85: adding spaces, and the degrees of a domain -/

/-- C85: a space can be added under a new name, or under any name if overwriting is allowed, and is then returned under
it; otherwise it is refused; other names are not affected. -/
theorem C85_add (m : MeshInfo) (s : Spaces) (n : String) (e : Elt) (cg ow : Bool) (c : Option Cont) :
    (s.call n ≠ .error .valueError ∧ ow = false → addSpace m s n e cg ow c = .error .runtimeError) ∧
    (¬ (s.call n ≠ .error .valueError ∧ ow = false) →
      ∃ s', addSpace m s n e cg ow c = .ok s' ∧ s'.call n = .ok (some e) ∧
        (∀ k, k ≠ n → s'.attr k = s.attr k ∧ s'.cont k = s.cont k) ∧ s'.keys = s.keys ∧ s'.cont n ≠ none ∧
        (∀ k, c = some k → s'.cont n = some (some k))) := by
  have hc : (s.call n ≠ .error .valueError) ↔ (s.attr n).isSome := by
    unfold Spaces.call
    cases s.attr n <;> simp
  rw [hc]
  unfold addSpace
  constructor
  · intro h; rw [if_pos h]
  · intro h
    rw [if_neg h]
    refine ⟨_, rfl, ?_, ?_, rfl, ?_, ?_⟩
    · simp [Spaces.call, setName]
    · intro k hk; simp [setName, hk]
    · simp [setName]
    · rintro k rfl; simp [setName]

/-- What the user may pass: on an extruded mesh either `degree` or both directional degrees; otherwise `degree` or
`horizontal_degree` alone. -/
def Allowed (m : MeshInfo) (degree h v : Option ℕ) : Prop :=
  if m.extruded then (degree ≠ none ∧ h = none ∧ v = none) ∨ (degree = none ∧ h ≠ none ∧ v ≠ none)
  else v = none ∧ ((degree ≠ none ∧ h = none) ∨ (degree = none ∧ h ≠ none))

/-- C85: exactly the allowed combinations of degrees pass the check. -/
theorem C85_check_degrees (m : MeshInfo) (degree h v : Option ℕ) :
    (checkDegreeArgs m degree h v = .ok () ↔ Allowed m degree h v) ∧
    (checkDegreeArgs m degree h v = .ok () ∨ checkDegreeArgs m degree h v = .error .valueError) := by
  unfold checkDegreeArgs Allowed
  cases hm : m.extruded <;> cases degree <;> cases h <;> cases v <;> simp

/-- C85: a domain has the requested degrees and quadrature degree. -/
theorem C85_domain (m : MeshInfo) (f : Option String) (degree h v quad : Option ℕ) (D : Dom)
    (hD : domain m f degree h v quad = .ok D) :
    Allowed m degree h v ∧ (∀ k, degree = some k → D.hDeg = k ∧ D.vDeg = some k) ∧
    (∀ k, h = some k → D.hDeg = k) ∧ (∀ k, v = some k → D.vDeg = some k) ∧
    (∀ q, quad = some q → D.quad = q) ∧
    (quad = none → ∃ k, D.vDeg = some k ∧ D.quad = 2 * max D.hDeg k + 3) ∧
    ∃ d, buildComplex m f D.hDeg D.vDeg = .ok d ∧ D.spaces.call "L2" = .ok (some d.l2) ∧
      D.spaces.call "DG" = .ok (some d.l2) ∧ D.spaces.call "HDiv" = .ok (some d.hdiv) ∧
      D.spaces.call "H1" = .ok (some d.h1) := by
  unfold domain at hD
  obtain ⟨_, hchk, hD⟩ := bind_ok hD
  have hal : Allowed m degree h v := ((C85_check_degrees m degree h v).1).1 hchk
  refine ⟨hal, ?_⟩
  simp only at hD
  split at hD
  · cases hD
  rename_i hd hhd
  obtain ⟨q, hq, hD⟩ := bind_ok hD
  obtain ⟨s, hs, hD⟩ := bind_ok hD
  obtain ⟨s2, hs2, hD⟩ := map_ok hD
  subst hD
  obtain ⟨d, hdd, c1, c2, c3, c4, c5, _, _, _, _, _⟩ := C85_built m _ s f hd _ none hs
  have hsuf : suffix Spaces.empty hd (v.orElse fun _ => degree) none = "" := by simp [suffix, Spaces.empty]
  rw [hsuf] at c1 c2 c3 c4 c5
  have keep : ∀ n, n ≠ "DG1_equispaced" → s2.attr n = s.attr n := by
    intro n hn
    unfold buildDG1 addSpace at hs2
    split at hs2
    · cases hs2
    · cases hs2; simp [setName, hn]
  have keepc : ∀ n, n ≠ "DG1_equispaced" → s2.call n = s.call n := by
    intro n hn; simp [Spaces.call, keep n hn]
  refine ⟨?_, ?_, ?_, ?_, ?_, d, hdd, ?_, ?_, ?_, ?_⟩
  · rintro k rfl
    unfold Allowed at hal
    cases hm : m.extruded <;> cases h <;> cases v <;> simp_all
  · rintro k rfl; simpa using hhd.symm
  · rintro k rfl; simp
  · rintro q' rfl; simpa using hq.symm
  · rintro rfl
    revert hq
    cases hv : (v.orElse fun _ => degree) with
    | none => simp
    | some k =>
      intro hq
      simp only [Except.ok.injEq] at hq
      exact ⟨k, rfl, hq.symm⟩
  · rw [keepc "L2" (by decide)]; simpa using c4
  · rw [keepc "DG" (by decide)]; simpa using c5
  · rw [keepc "HDiv" (by decide)]; simpa using c3
  · rw [keepc "H1" (by decide)]; simpa using c1

/-- But on a mesh that is not extruded `horizontal_degree` alone, which is allowed, fails with a TypeError, unless a
quadrature degree is given. -/
theorem C85_horizontal_only_refuted (m : MeshInfo) (hm : m.extruded = false) (f : Option String) (k : ℕ) :
    Allowed m none (some k) none ∧ domain m f none (some k) none none = .error .typeError := by
  constructor
  · simp [Allowed, hm]
  · simp [domain, checkDegreeArgs, hm, Except.bind]

/-- A concrete domain: an extruded mesh over quadrilaterals. -/
example : ∃ D, domain ⟨true, "quadrilateral", 3⟩ (some "RTCF") none (some 1) (some 2) none = .ok D ∧ D.quad = 7 ∧
    D.spaces.call "theta" = .ok (some (.tp (.fe "DG" "quadrilateral" 1) (.fe "CG" "interval" 3))) := by
  refine ⟨_, rfl, rfl, ?_⟩
  decide

end Gusto.Props.SpacesProps
