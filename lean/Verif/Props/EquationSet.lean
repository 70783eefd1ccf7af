import Verif.Model.EquationSet
import Mathlib.Analysis.Calculus.Deriv.Pow
import Mathlib.Analysis.Calculus.FDeriv.Add
import Mathlib.Analysis.Calculus.FDeriv.Linear
import Mathlib.Analysis.Calculus.FDeriv.Pow
import Mathlib.Algebra.Polynomial.Derivation
import Mathlib.Tactic.Ring
import Mathlib.Tactic.Linarith

set_option autoImplicit false
set_option linter.unusedSectionVars false
set_option linter.unusedSimpArgs false

/-! C55: order of active tracers.  C78: mass terms, tracer transport and boundary conditions of an equation set.
C60: linearisation. -/

namespace Gusto.Props.EqSetProps
open Gusto Gusto.EqSet
open Gusto.Forms hiding Err

/-! ### C55 -/

/-- In the list every conservatively transported tracer stands after its reference density. -/
def Ordered (ts : List Tracer) : Prop :=
  ∀ a b : ℕ, ∀ t r : Tracer, ts[a]? = some t → ts[b]? = some r → t.eqn = .tracerConservative →
    t.density = some r.name → b < a

/-- No reference density in the list is itself transported conservatively with a density. -/
def NoChains (ts : List Tracer) : Prop :=
  ∀ t ∈ ts, ∀ r ∈ ts, t.eqn = .tracerConservative → t.density = some r.name → r.eqn ≠ .tracerConservative

def NamesNodup (ts : List Tracer) : Prop := (ts.map Tracer.name).Nodup

instance (ts : List Tracer) : Decidable (NamesNodup ts) := inferInstanceAs (Decidable (List.Nodup _))

theorem swap_perm (ts : List Tracer) (i : ℕ) : (swapStep ts i).Perm ts := by
  unfold swapStep
  split
  · exact List.Perm.refl _
  · rename_i t ht
    split
    · split
      · exact List.Perm.refl _
      · split
        · split
          · exact List.Perm.refl _
          · rename_i j _ _ _ r hr
            obtain ⟨hi, hi'⟩ := List.getElem?_eq_some_iff.1 ht
            obtain ⟨hj, hj'⟩ := List.getElem?_eq_some_iff.1 hr
            have := List.set_set_perm hi hj
            rw [hi', hj'] at this
            exact this
        · exact List.Perm.refl _
    · exact List.Perm.refl _

theorem fold_perm (l : List ℕ) : ∀ ts, (l.foldl swapStep ts).Perm ts := by
  induction l with
  | nil => intro ts; exact List.Perm.refl _
  | cons i l ih => intro ts; exact (ih _).trans (swap_perm ts i)

theorem noChains_perm {ts us : List Tracer} (h : us.Perm ts) (hc : NoChains ts) : NoChains us :=
  fun t ht r hr => hc t (h.mem_iff.1 ht) r (h.mem_iff.1 hr)

theorem names_perm {ts us : List Tracer} (h : us.Perm ts) (hn : NamesNodup ts) : NamesNodup us :=
  (h.map Tracer.name).nodup_iff.2 hn

theorem idx_unique {ts : List Tracer} (hn : NamesNodup ts) {a b : ℕ} {t r : Tracer} (ha : ts[a]? = some t)
    (hb : ts[b]? = some r) (h : t.name = r.name) : a = b := by
  obtain ⟨ha1, ha2⟩ := List.getElem?_eq_some_iff.1 ha
  obtain ⟨hb1, hb2⟩ := List.getElem?_eq_some_iff.1 hb
  have := (List.nodup_iff_injective_getElem.1 hn) (a₁ := ⟨a, by simpa using ha1⟩) (a₂ := ⟨b, by simpa using hb1⟩)
    (by simp [ha2, hb2, h])
  simpa using this

/-- Tracers before position `i` are in order. -/
def Inv (i : ℕ) (ts : List Tracer) : Prop :=
  ∀ a b : ℕ, ∀ t r : Tracer, a < i → ts[a]? = some t → ts[b]? = some r → t.eqn = .tracerConservative →
    t.density = some r.name → b < a

theorem step_inv (i : ℕ) (ts : List Tracer) (hn : NamesNodup ts) (hc : NoChains ts) (h : Inv i ts) :
    Inv (i + 1) (swapStep ts i) := by
  have ext : (∀ t r b, ts[i]? = some t → ts[b]? = some r → t.eqn = .tracerConservative → t.density = some r.name → b < i) →
      Inv (i + 1) ts := by
    intro hx a b t r ha ht hr he hd
    rcases Nat.lt_succ_iff_lt_or_eq.1 ha with ha | rfl
    · exact h a b t r ha ht hr he hd
    · exact hx t r b ht hr he hd
  unfold swapStep
  split
  · rename_i h0
    exact ext (fun t r b ht => by rw [h0] at ht; cases ht)
  · rename_i t ht
    split
    · rename_i he
      split
      · rename_i hf
        rw [List.findIdx?_eq_none_iff] at hf
        refine ext (fun t' r b ht' hr _ hd => ?_)
        rw [ht] at ht'
        obtain rfl := Option.some.inj ht'
        have hmem : r ∈ ts := List.mem_of_getElem? hr
        have := hf r hmem
        simp [hd] at this
      · rename_i j hj
        obtain ⟨hjl, hjn, -⟩ := List.findIdx?_eq_some_iff_getElem.1 hj
        have hjr : ts[j]? = some ts[j] := by simp [hjl]
        have hdj : some ts[j].name = t.density := by simpa using hjn
        have htm : t ∈ ts := List.mem_of_getElem? ht
        have hrm : ts[j] ∈ ts := List.getElem_mem hjl
        have hrne : ts[j].eqn ≠ .tracerConservative := hc t htm _ hrm he hdj.symm
        split
        · rename_i hij
          rw [hjr]
          simp only
          intro a b s x ha hs hx hse hsd
          have hil : i < ts.length := by omega
          have hgi : ∀ c, ((ts.set i ts[j]).set j t)[c]? = if c = j then some t else if c = i then some ts[j] else ts[c]? := by
            intro c
            by_cases h1 : c = j
            · subst h1; simp [List.getElem?_set, hjl]
            · by_cases h2 : c = i
              · subst h2; simp [List.getElem?_set, h1, hil, Ne.symm h1]
              · simp [List.getElem?_set, h1, h2, Ne.symm h1, Ne.symm h2]
          rw [hgi] at hs hx
          rw [if_neg (by omega)] at hs
          by_cases hai : a = i
          · rw [if_pos hai] at hs
            obtain rfl := Option.some.inj hs
            exact absurd hse hrne
          · rw [if_neg hai] at hs
            have hal : a < i := by omega
            by_cases hbj : b = j
            · rw [if_pos hbj] at hx
              obtain rfl := Option.some.inj hx
              exact absurd he (hc s (List.mem_of_getElem? hs) t htm hse hsd)
            · rw [if_neg hbj] at hx
              by_cases hbi : b = i
              · rw [if_pos hbi] at hx
                obtain rfl := Option.some.inj hx
                have := h a j s _ hal hs hjr hse hsd
                omega
              · rw [if_neg hbi] at hx
                exact h a b s x hal hs hx hse hsd
        · rename_i hij
          refine ext (fun t' r b ht' hr he' hd => ?_)
          rw [ht] at ht'
          obtain rfl := Option.some.inj ht'
          have hbj : b = j := idx_unique hn hr hjr (by rw [hd] at hdj; exact (Option.some.inj hdj).symm)
          subst hbj
          have : b ≠ i := by
            rintro rfl
            rw [ht] at hjr
            have := Option.some.inj hjr
            rw [← this] at hrne
            exact hrne he
          omega
    · rename_i he
      refine ext (fun t' r b ht' _ he' _ => ?_)
      rw [ht] at ht'
      obtain rfl := Option.some.inj ht'
      exact absurd he' he

theorem reorder_inv (ts : List Tracer) (hn : NamesNodup ts) (hc : NoChains ts) :
    ∀ n, Inv n ((List.range n).foldl swapStep ts) := by
  intro n
  induction n with
  | zero => intro a b t r ha; omega
  | succ n ih =>
    rw [List.range_succ, List.foldl_append]
    exact step_inv n _ (names_perm (fold_perm _ _) hn) (noChains_perm (fold_perm _ _) hc) ih

/-- **C55** (reordering).  The reordered list has the same tracers; if the names differ and no reference density is
itself conservatively transported, every conservatively transported tracer stands after its reference density. -/
theorem C55_order_partial (ts : List Tracer) (hn : NamesNodup ts) (hc : NoChains ts) :
    (reorder ts).Perm ts ∧ Ordered (reorder ts) := by
  refine ⟨fold_perm _ _, ?_⟩
  have hp : (reorder ts).Perm ts := fold_perm _ _
  have hinv := reorder_inv ts hn hc (ts.length - 1)
  have hc' := noChains_perm hp hc
  intro a b t r ha hb he hd
  by_cases hlast : a < ts.length - 1
  · exact hinv a b t r hlast ha hb he hd
  · obtain ⟨hal, ha2⟩ := List.getElem?_eq_some_iff.1 ha
    obtain ⟨hbl, hb2⟩ := List.getElem?_eq_some_iff.1 hb
    have hlen := hp.length_eq
    have : b ≠ a := by
      rintro rfl
      rw [ha] at hb
      obtain rfl := Option.some.inj hb
      exact hc' t (List.mem_of_getElem? ha) t (List.mem_of_getElem? ha) he hd he
    omega

/-- The tracers of a chain `m`, with density `d`, with density `e`. -/
def chain : List Tracer :=
  [⟨"m", "DG", .tracerConservative, some "d"⟩, ⟨"d", "DG", .tracerConservative, some "e"⟩, ⟨"e", "DG", .conservative, none⟩]

/-- **C55** (refutation for chains).  With a chain of densities the order can be wrong: `d` stands before its reference
density `e`. -/
theorem C55_chain_refuted : NamesNodup chain ∧ ¬ Ordered (reorder chain) ∧
    (reorder chain).map Tracer.name = ["d", "m", "e"] := by
  refine ⟨by decide, ?_, by decide⟩
  intro h
  have := h 0 2 ⟨"d", "DG", .tracerConservative, some "e"⟩ ⟨"e", "DG", .conservative, none⟩ (by decide) (by decide) rfl rfl
  omega

example : NamesNodup [⟨"m", "theta", .tracerConservative, some "rho"⟩, ⟨"rho", "DG", .conservative, none⟩] ∧
    (reorder [⟨"m", "theta", .tracerConservative, some "rho"⟩, ⟨"rho", "DG", .conservative, none⟩]).map Tracer.name
      = ["rho", "m"] := by
  refine ⟨by decide, by decide⟩

theorem addLoop_spec (ts : List Tracer) : ∀ n : Names,
    ((∃ n', addLoop n ts = .ok n') ↔ NamesNodup ts ∧ (∀ t ∈ ts, t.name ∉ n.fields) ∧
      ∀ t ∈ ts, ∀ s, n.spaceNames.lookup t.name = some s → s = t.space) ∧
    (∀ n', addLoop n ts = .ok n' → n'.fields = n.fields ++ ts.map Tracer.name ∧
      n'.spaces = n.spaces ++ ts.map Tracer.space ∧ ∀ t ∈ ts, n'.spaceNames.lookup t.name = some t.space) := by
  induction ts with
  | nil =>
    intro n
    refine ⟨by simp [addLoop, NamesNodup], ?_⟩
    intro n' h
    simp only [addLoop, Except.ok.injEq] at h
    subst h; simp
  | cons t ts ih =>
    intro n
    rw [addLoop]
    have mono : ∀ (ts : List Tracer) (n n' : Names), addLoop n ts = .ok n' → ∀ x s, n.spaceNames.lookup x = some s →
        n'.spaceNames.lookup x = some s := by
      intro ts
      induction ts with
      | nil => intro n n' h x s hx; simp only [addLoop, Except.ok.injEq] at h; subst h; exact hx
      | cons t ts ih =>
        intro n n' h x s hx
        rw [addLoop] at h
        split at h
        · cases h
        split at h
        · split at h
          · exact ih _ _ h x s hx
          · cases h
        · refine ih _ _ h x s ?_
          simp only
          rw [List.lookup_append, hx]; rfl
    by_cases hin : t.name ∈ n.fields
    · rw [if_pos hin]
      refine ⟨?_, by simp⟩
      simp only [reduceCtorEq, exists_false, false_iff]
      rintro ⟨-, h, -⟩
      exact h t (List.mem_cons_self ..) hin
    · rw [if_neg hin]
      cases hl : n.spaceNames.lookup t.name with
      | some s =>
        simp only
        by_cases hs : s = t.space
        · rw [if_pos hs]
          obtain ⟨i1, i2⟩ := ih { fields := n.fields ++ [t.name], spaceNames := n.spaceNames, spaces := n.spaces ++ [t.space] }
          refine ⟨?_, ?_⟩
          · rw [i1]
            simp only [NamesNodup, List.map_cons, List.nodup_cons, List.mem_cons, forall_eq_or_imp, List.mem_append,
              List.mem_map, not_exists, not_and, List.not_mem_nil, or_false, not_or]
            constructor
            · rintro ⟨h1, h2, h3⟩
              refine ⟨⟨fun x hx he => (h2 x hx).2 he, h1⟩, ⟨hin, fun x hx => (h2 x hx).1⟩, ?_, h3⟩
              intro s' hs'
              rw [hl] at hs'
              rw [← Option.some.inj hs', hs]
            · rintro ⟨⟨h1, h2⟩, ⟨-, h3⟩, -, h4⟩
              exact ⟨h2, fun x hx => ⟨h3 x hx, fun he => h1 x hx he⟩, h4⟩
          · intro n' hn'
            obtain ⟨e1, e2, e3⟩ := i2 n' hn'
            refine ⟨by rw [e1]; simp, by rw [e2]; simp, ?_⟩
            intro x hx
            rcases List.mem_cons.1 hx with rfl | hx
            · have := mono _ _ _ hn' x.name s hl
              rw [this, hs]
            · exact e3 x hx
        · rw [if_neg hs]
          refine ⟨?_, by simp⟩
          simp only [reduceCtorEq, exists_false, false_iff]
          rintro ⟨-, -, h⟩
          exact hs (h t (List.mem_cons_self ..) s hl)
      | none =>
        simp only
        obtain ⟨i1, i2⟩ := ih { fields := n.fields ++ [t.name], spaceNames := n.spaceNames ++ [(t.name, t.space)],
                                spaces := n.spaces ++ [t.space] }
        have hlk : ∀ x, (n.spaceNames ++ [(t.name, t.space)]).lookup x =
            (n.spaceNames.lookup x).or (if x = t.name then some t.space else none) := by
          intro x
          rw [List.lookup_append]
          congr 1
          by_cases hx : x = t.name
          · simp [hx]
          · rw [List.lookup_cons]
            have : (x == t.name) = false := by simpa using hx
            rw [this, if_neg hx]; rfl
        refine ⟨?_, ?_⟩
        · rw [i1]
          simp only [NamesNodup, List.map_cons, List.nodup_cons, List.mem_cons, forall_eq_or_imp, List.mem_append,
            List.mem_map, not_exists, not_and, List.not_mem_nil, or_false, not_or]
          constructor
          · rintro ⟨h1, h2, h3⟩
            refine ⟨⟨fun x hx he => (h2 x hx).2 he, h1⟩, ⟨hin, fun x hx => (h2 x hx).1⟩, ?_, ?_⟩
            · intro s hs; rw [hl] at hs; cases hs
            · intro x hx s hs
              exact h3 x hx s (by rw [hlk, hs]; rfl)
          · rintro ⟨⟨h1, h2⟩, ⟨-, h3⟩, -, h4⟩
            refine ⟨h2, fun x hx => ⟨h3 x hx, fun he => h1 x hx he⟩, ?_⟩
            intro x hx s hs
            rw [hlk, if_neg (fun he => h1 x hx he), Option.or_none] at hs
            exact h4 x hx s hs
        · intro n' hn'
          obtain ⟨e1, e2, e3⟩ := i2 n' hn'
          refine ⟨by rw [e1]; simp, by rw [e2]; simp, ?_⟩
          intro x hx
          rcases List.mem_cons.1 hx with rfl | hx
          · exact mono _ _ _ hn' x.name x.space (by simp only; rw [hlk, hl]; simp)
          · exact e3 x hx

/-- **C55** (adding tracers).  Adding tracers succeeds exactly if their names differ from each other and from the existing
fields and no tracer contradicts the given names of spaces; then the fields are the old ones followed by the tracers
in the new order, each with its space, nothing lost or duplicated. -/
theorem C55_add_partial (n : Names) (ts : List Tracer) :
    ((∃ n', addTracers n ts = .ok n') ↔ NamesNodup ts ∧ (∀ t ∈ ts, t.name ∉ n.fields) ∧
      ∀ t ∈ ts, ∀ s, n.spaceNames.lookup t.name = some s → s = t.space) ∧
    (∀ n', addTracers n ts = .ok n' → ∃ us : List Tracer, us.Perm ts ∧ (NoChains ts → Ordered us) ∧
      n'.fields = n.fields ++ us.map Tracer.name ∧ n'.spaces = n.spaces ++ us.map Tracer.space ∧
      ∀ t ∈ ts, n'.spaceNames.lookup t.name = some t.space) := by
  have hp : (reorder ts).Perm ts := fold_perm _ _
  obtain ⟨h1, h2⟩ := addLoop_spec (reorder ts) n
  unfold addTracers
  refine ⟨?_, ?_⟩
  · rw [h1]
    have hn : NamesNodup (reorder ts) ↔ NamesNodup ts := (hp.map Tracer.name).nodup_iff
    rw [hn]
    simp only [hp.mem_iff]
  · intro n' hn'
    obtain ⟨e1, e2, e3⟩ := h2 n' hn'
    refine ⟨reorder ts, hp, ?_, e1, e2, fun t ht => e3 t (hp.mem_iff.2 ht)⟩
    intro hc
    have hnd := (h1.1 ⟨n', hn'⟩).1
    exact (C55_order_partial ts ((hp.map Tracer.name).nodup_iff.1 hnd) hc).2

/-- **C55** (existing names).  A tracer with the name of an existing field is refused with `ValueError`, unless an
earlier tracer is refused for its space. -/
theorem C55_duplicate (n : Names) (t : Tracer) (ht : t.name ∈ n.fields) : addTracers n [t] = .error .valueError := by
  simp [addTracers, reorder, addLoop, ht]

/-! ### C78 -/

variable {R : Type*} [CommRing R] [Algebra ℚ R] {d : ℕ}

theorem index_ok (fields : List String) (name : String) (i : ℕ) (h : index fields name = .ok i) :
    fields[i]? = some name := by
  unfold index at h
  split at h
  · rename_i j hj
    simp only [Except.ok.injEq] at h
    subst h
    obtain ⟨hl, hn, -⟩ := List.findIdx?_eq_some_iff_getElem.1 hj
    have hn' : fields[j] = name := by simpa using hn
    rw [List.getElem?_eq_getElem hl, hn']
  · cases h

theorem index_iff (fields : List String) (name : String) : (∃ i, index fields name = .ok i) ↔ name ∈ fields := by
  unfold index
  split
  · rename_i j hj
    obtain ⟨hl, hn, -⟩ := List.findIdx?_eq_some_iff_getElem.1 hj
    have hn' : fields[j] = name := by simpa using hn
    simp only [Except.ok.injEq, exists_eq', true_iff]
    rw [← hn']; exact List.getElem_mem hl
  · rename_i hj
    rw [List.findIdx?_eq_none_iff] at hj
    simp only [reduceCtorEq, exists_false, false_iff]
    intro hm
    simpa using hj name hm

/-- The conservatively transported tracer with the given name. -/
def ConsTracer (ts : List Tracer) (name rho : String) : Prop :=
  ∃ t ∈ ts, t.name = name ∧ t.eqn = .tracerConservative ∧ t.density.getD "" = rho

theorem massTerm_error (fields : List String) (i : ℕ) (name : String) (e : Err) (ts : List Tracer) :
    ts.foldl (fun (acc : Except Err (STerm R)) t =>
    match acc with
    | .error e => .error e
    | .ok m =>
      if name = t.name ∧ t.eqn = .tracerConservative then
        match index fields (t.density.getD "") with
        | .error e => .error e
        | .ok k => .ok { m with weighted := some fun X v => X i * X k * v i }
      else .ok m) (.error e) = .error e := by
  induction ts with
  | nil => rfl
  | cons t ts ih => exact ih

theorem massTerm_spec (fields : List String) (ts : List Tracer) (hn : NamesNodup ts) (i : ℕ) (name : String) (m : STerm R)
    (h : massTerm fields ts i name = .ok m) :
    m.prognostic = name ∧ m.form = (fun X v => X i * v i) ∧
    (m.weighted = none ↔ ¬ ∃ rho, ConsTracer ts name rho) ∧
    (∀ w, m.weighted = some w → ∃ rho k, ConsTracer ts name rho ∧ fields[k]? = some rho ∧
      w = fun X v => X i * X k * v i) := by
  unfold massTerm at h
  have gen : ∀ (ts : List Tracer) (m0 : STerm R), NamesNodup ts → ts.foldl (fun (acc : Except Err (STerm R)) t =>
    match acc with
    | .error e => .error e
    | .ok m =>
      if name = t.name ∧ t.eqn = .tracerConservative then
        match index fields (t.density.getD "") with
        | .error e => .error e
        | .ok k => .ok { m with weighted := some fun X v => X i * X k * v i }
      else .ok m) (.ok m0) = .ok m →
      m.prognostic = m0.prognostic ∧ m.form = m0.form ∧
      ((¬ ∃ rho, ConsTracer ts name rho) → m.weighted = m0.weighted) ∧
      ((∃ rho, ConsTracer ts name rho) → ∃ rho k, ConsTracer ts name rho ∧ fields[k]? = some rho ∧
        m.weighted = some fun X v => X i * X k * v i) := by
    intro ts
    induction ts with
    | nil =>
      intro m0 _ h
      simp only [List.foldl_nil, Except.ok.injEq] at h
      subst h
      exact ⟨rfl, rfl, fun _ => rfl, fun ⟨rho, t, ht, _⟩ => by cases ht⟩
    | cons t ts ih =>
      intro m0 hnd h
      unfold NamesNodup at hnd
      rw [List.map_cons, List.nodup_cons] at hnd
      rw [List.foldl_cons] at h
      simp only at h
      by_cases hc : name = t.name ∧ t.eqn = .tracerConservative
      · rw [if_pos hc] at h
        cases hi : index fields (t.density.getD "") with
        | error e => rw [hi] at h; simp only at h; rw [massTerm_error] at h; cases h
        | ok k =>
          rw [hi] at h
          obtain ⟨h1, h2, h3, h4⟩ := ih _ hnd.2 h
          have hno : ¬ ∃ rho, ConsTracer ts name rho := by
            rintro ⟨rho, t', ht', hn', _⟩
            exact hnd.1 (List.mem_map.2 ⟨t', ht', by rw [hn', hc.1]⟩)
          refine ⟨h1, h2, ?_, ?_⟩
          · intro hx
            exact absurd ⟨_, t, List.mem_cons_self .., hc.1.symm, hc.2, rfl⟩ hx
          · intro _
            refine ⟨_, k, ⟨t, List.mem_cons_self .., hc.1.symm, hc.2, rfl⟩, index_ok _ _ _ hi, ?_⟩
            rw [h3 hno]
      · rw [if_neg hc] at h
        obtain ⟨h1, h2, h3, h4⟩ := ih _ hnd.2 h
        have hiff : ∀ rho, ConsTracer (t :: ts) name rho ↔ ConsTracer ts name rho := by
          intro rho
          constructor
          · rintro ⟨t', ht', a, b, c⟩
            rcases List.mem_cons.1 ht' with rfl | ht'
            · exact absurd ⟨a.symm, b⟩ hc
            · exact ⟨t', ht', a, b, c⟩
          · rintro ⟨t', ht', x⟩
            exact ⟨t', List.mem_cons_of_mem _ ht', x⟩
        simp only [hiff]
        exact ⟨h1, h2, h3, h4⟩
  obtain ⟨h1, h2, h3, h4⟩ := gen ts _ hn h
  refine ⟨h1, h2, ?_, ?_⟩
  · constructor
    · intro hw hx
      obtain ⟨_, _, _, _, hs⟩ := h4 hx
      rw [hw] at hs; cases hs
    · intro hx; exact h3 hx
  · intro w hw
    by_cases hx : ∃ rho, ConsTracer ts name rho
    · obtain ⟨rho, k, a, b, c⟩ := h4 hx
      rw [hw] at c
      exact ⟨rho, k, a, b, Option.some.inj c⟩
    · rw [h3 hx] at hw; cases hw

/-- **C78** (mass terms).  There is one mass term for each prognostic, in order, labelled with its name, whose form is
the product of the field with its test function; exactly the conservatively transported tracers carry a mass-weighted
form, the product of the field, its reference density and the test function. -/
theorem C78_mass_terms (fields : List String) (ts : List Tracer) (hn : NamesNodup ts) (ms : List (STerm R))
    (h : massTerms fields ts = .ok ms) :
    ms.map STerm.prognostic = fields ∧
    ∀ (i : ℕ) (m : STerm R), ms[i]? = some m → m.form = (fun X v => X i * v i) ∧
      (m.weighted = none ↔ ¬ ∃ rho, ConsTracer ts m.prognostic rho) ∧
      (∀ w, m.weighted = some w → ∃ rho k, ConsTracer ts m.prognostic rho ∧ fields[k]? = some rho ∧
        w = fun X v => X i * X k * v i) := by
  have gen : ∀ (l : List String) (i0 : ℕ) (ms : List (STerm R)), massLoop fields ts i0 l = .ok ms →
      ms.map STerm.prognostic = l ∧ ∀ (i : ℕ) (m : STerm R), ms[i]? = some m → m.form = (fun X v => X (i0 + i) * v (i0 + i)) ∧
      (m.weighted = none ↔ ¬ ∃ rho, ConsTracer ts m.prognostic rho) ∧
      (∀ w, m.weighted = some w → ∃ rho k, ConsTracer ts m.prognostic rho ∧ fields[k]? = some rho ∧
        w = fun X v => X (i0 + i) * X k * v (i0 + i)) := by
    intro l
    induction l with
    | nil =>
      intro i0 ms h
      simp only [massLoop, Except.ok.injEq] at h
      subst h
      exact ⟨rfl, fun i m h => by simp at h⟩
    | cons name l ih =>
      intro i0 ms h
      rw [massLoop] at h
      cases hm : massTerm (R := R) fields ts i0 name with
      | error e => rw [hm] at h; cases h
      | ok m =>
        rw [hm] at h
        simp only at h
        cases hl : massLoop (R := R) fields ts (i0 + 1) l with
        | error e => rw [hl] at h; cases h
        | ok ms' =>
          rw [hl] at h
          simp only [Except.ok.injEq] at h
          subst h
          obtain ⟨h1, h2⟩ := ih (i0 + 1) ms' hl
          obtain ⟨s1, s2, s3, s4⟩ := massTerm_spec fields ts hn i0 name m hm
          refine ⟨by rw [List.map_cons, h1, s1], ?_⟩
          intro i m' hi
          cases i with
          | zero =>
            simp only [List.getElem?_cons_zero, Option.some.injEq] at hi
            subst hi
            rw [s1]
            exact ⟨s2, s3, s4⟩
          | succ i =>
            rw [List.getElem?_cons_succ] at hi
            have := h2 i m' hi
            rw [show i0 + 1 + i = i0 + (i + 1) by omega] at this
            exact this
  have := gen fields 0 ms h
  simpa using this

/-- What the transport term of a tracer must be: the form of its type in its own field. -/
def TransportSpec (D : Derivs R d) (u : Fin d → R) (fields : List String) (t : Tracer) (m : STerm R) : Prop :=
  m.prognostic = t.name ∧ ∃ i, fields[i]? = some t.name ∧
    ((t.eqn = .advective ∧ m.weighted = none ∧ m.transport = some .advective ∧
        m.form = fun X v => v i * ∑ j, u j * D j (X i)) ∨
     (t.eqn = .conservative ∧ m.weighted = none ∧ m.transport = some .conservative ∧
        m.form = fun X v => v i * ∑ j, D j (X i * u j)) ∨
     (t.eqn = .tracerConservative ∧ m.transport = some .advective ∧
        (m.form = fun X v => v i * ∑ j, u j * D j (X i)) ∧
        ∃ k, fields[k]? = some (t.density.getD "") ∧
          m.weighted = some fun X v => v i * ∑ j, D j (X i * X k * u j)))

/-- **C78** (tracer transport).  There is one transport term for every tracer that is transported, in order, each of the
type of the tracer and in the tracer's own field; tracers without transport have none. -/
theorem C78_tracer_transport (D : Derivs R d) (u : Option (Fin d → R)) (fields : List String) (ts : List Tracer)
    (ms : List (STerm R)) (h : tracerTransport D u fields ts = .ok ms) :
    ∃ u', u = some u' ∧
      List.Forall₂ (TransportSpec D u' fields) (ts.filter fun t => decide (t.eqn ≠ .noTransport)) ms := by
  unfold tracerTransport at h
  split at h
  · cases h
  · rename_i u'
    refine ⟨u', rfl, ?_⟩
    induction ts generalizing ms with
    | nil =>
      simp only [tracerLoop, Except.ok.injEq] at h
      subst h; exact List.Forall₂.nil
    | cons t ts ih =>
      rw [tracerLoop] at h
      rw [List.filter_cons]
      by_cases he : t.eqn = .noTransport
      · rw [if_pos he] at h
        simp only [he, ne_eq, not_true_eq_false, decide_false, Bool.false_eq_true, if_false]
        exact ih ms h
      · rw [if_neg he] at h
        simp only [ne_eq, he, not_false_eq_true, decide_true, if_true]
        cases hm : tracerTerm D u' fields t with
        | error e => rw [hm] at h; cases h
        | ok m =>
          rw [hm] at h
          simp only at h
          cases hl : tracerLoop D u' fields ts with
          | error e => rw [hl] at h; cases h
          | ok ms' =>
            rw [hl] at h
            simp only [Except.ok.injEq] at h
            subst h
            refine List.Forall₂.cons ?_ (ih ms' hl)
            unfold tracerTerm at hm
            cases hi : index fields t.name with
            | error e => rw [hi] at hm; cases hm
            | ok i =>
              rw [hi] at hm
              simp only at hm
              have hidx := index_ok _ _ _ hi
              cases hte : t.eqn with
              | advective =>
                rw [hte] at hm
                simp only [Except.ok.injEq] at hm
                subst hm
                exact ⟨rfl, i, hidx, Or.inl ⟨hte, rfl, rfl, rfl⟩⟩
              | conservative =>
                rw [hte] at hm
                simp only [Except.ok.injEq] at hm
                subst hm
                exact ⟨rfl, i, hidx, Or.inr (Or.inl ⟨hte, rfl, rfl, rfl⟩)⟩
              | tracerConservative =>
                rw [hte] at hm
                simp only at hm
                cases hk : index fields (t.density.getD "") with
                | error e => rw [hk] at hm; cases hm
                | ok k =>
                  rw [hk] at hm
                  simp only [Except.ok.injEq] at hm
                  subst hm
                  exact ⟨rfl, i, hidx, Or.inr (Or.inr ⟨hte, rfl, rfl, k, index_ok _ _ _ hk, rfl⟩)⟩
              | noTransport => exact absurd hte he
              | vectorInvariant => rw [hte] at hm; cases hm
              | circulation => rw [hte] at hm; cases hm

/-- **C78** (when transport terms exist).  They can be generated exactly if there is a velocity, every transported tracer
is a field with an advective, conservative or tracer-conservative equation, and the densities of the latter are
fields. -/
theorem C78_tracer_transport_ok (D : Derivs R d) (u : Option (Fin d → R)) (fields : List String) (ts : List Tracer) :
    (∃ ms, tracerTransport D u fields ts = .ok ms) ↔ u.isSome = true ∧ ∀ t ∈ ts, t.eqn ≠ .noTransport →
      t.name ∈ fields ∧ (t.eqn = .advective ∨ t.eqn = .conservative ∨
        (t.eqn = .tracerConservative ∧ t.density.getD "" ∈ fields)) := by
  cases u with
  | none => simp [tracerTransport]
  | some u =>
    simp only [tracerTransport, Option.isSome_some, true_and]
    have hterm : ∀ t : Tracer, t.eqn ≠ .noTransport → ((∃ m, tracerTerm D u fields t = .ok m) ↔
        t.name ∈ fields ∧ (t.eqn = .advective ∨ t.eqn = .conservative ∨
        (t.eqn = .tracerConservative ∧ t.density.getD "" ∈ fields))) := by
      intro t hne
      rw [← index_iff fields t.name, ← index_iff fields (t.density.getD "")]
      unfold tracerTerm
      cases hi : index fields t.name with
      | error e => simp
      | ok i =>
        cases hte : t.eqn with
        | noTransport => exact absurd hte hne
        | tracerConservative =>
          cases hk : index fields (t.density.getD "") <;> simp
        | _ => simp
    induction ts with
    | nil => simp [tracerLoop]
    | cons t ts ih =>
      rw [tracerLoop]
      by_cases he : t.eqn = .noTransport
      · rw [if_pos he]
        refine ih.trans ?_
        simp [he]
      · rw [if_neg he]
        have h1 := hterm t he
        cases hm : tracerTerm D u fields t with
        | error e =>
          rw [hm] at h1
          simp only [reduceCtorEq, exists_false, false_iff] at h1
          simp only [reduceCtorEq, exists_false, false_iff]
          intro hx
          exact h1 (hx t (List.mem_cons_self ..) he)
        | ok m =>
          rw [hm] at h1
          have h2 := h1.1 ⟨m, rfl⟩
          cases hl : tracerLoop D u fields ts with
          | error e =>
            rw [hl] at ih
            simp only [reduceCtorEq, exists_false, false_iff] at ih ⊢
            intro hx
            exact ih (fun t' ht' => hx t' (List.mem_cons_of_mem _ ht'))
          | ok ms =>
            rw [hl] at ih
            have h3 := ih.1 ⟨ms, rfl⟩
            simp only [Except.ok.injEq, exists_eq', true_iff]
            intro t' ht' hne
            rcases List.mem_cons.1 ht' with rfl | ht'
            · exact h2
            · exact h3 t' ht' hne

theorem fullName_ne (fields : List String) (h2 : 2 ≤ fields.length) : fullName fields ≠ "u" := by
  match fields, h2 with
  | a :: b :: l, _ =>
    intro h
    have h' := congrArg (fun s : String => s.toList) h
    simp only [fullName, String.toList_append] at h'
    have hm : '_' ∈ ("u" : String).toList := by
      rw [← h']
      simp
    revert hm
    decide

/-- **C78** (boundary conditions).  For a set of at least two distinct fields containing `u`, the conditions of the mixed
space are exactly: value 0 for the component of `u`, at bottom and top if the mesh is extruded and not periodic in the vertical,
then at the given boundaries, in order.  Without a field `u` `NotImplementedError` is raised. -/
theorem C78_boundary_conditions (fields : List String) (hf : fields.Nodup) (h2 : 2 ≤ fields.length) (extruded periodic : Bool) (ids : List String) :
    (∀ i, fields[i]? = some "u" → setBCs fields extruded periodic ids =
      .ok (((if extruded = true ∧ periodic = false then ["bottom", "top"] else []) ++ ids).map fun b => (i, ⟨0, b⟩))) ∧
    ("u" ∉ fields → setBCs fields extruded periodic ids = .error .notImplemented) := by
  refine ⟨?_, fun h => by simp [setBCs, h]⟩
  intro i hi
  unfold setBCs
  rw [if_pos (List.mem_of_getElem? hi)]
  congr 1
  have hb : (fun p : String × ℕ => (bcsOf fields extruded periodic ids p.1).map (fun b => (p.2, b))) =
      fun p => if p.1 = "u" then (uBCs extruded periodic ids).map (fun b => (p.2, b)) else [] := by
    funext p
    unfold bcsOf
    by_cases hp : p.1 = "u"
    · rw [if_pos hp, if_pos hp, if_neg]
      rw [hp]
      exact (fullName_ne fields h2).symm
    · simp [hp]
  rw [hb]
  have hu : uBCs extruded periodic ids = ((if extruded = true ∧ periodic = false then ["bottom", "top"] else []) ++ ids).map
      fun b => ⟨0, b⟩ := by
    unfold uBCs
    cases extruded <;> cases periodic <;> simp
  have gen : ∀ (l : List String) (k i : ℕ), l.Nodup → l[i]? = some "u" →
      ((l.zipIdx k).flatMap fun p => if p.1 = "u" then (uBCs extruded periodic ids).map (fun b => (p.2, b)) else []) =
      (uBCs extruded periodic ids).map (fun b => (k + i, b)) := by
    intro l
    induction l with
    | nil => intro k i _ h; simp at h
    | cons x l ih =>
      intro k i hnd h
      rw [List.nodup_cons] at hnd
      rw [List.zipIdx_cons, List.flatMap_cons]
      cases i with
      | zero =>
        simp only [List.getElem?_cons_zero, Option.some.injEq] at h
        subst h
        simp only [if_true, Nat.add_zero]
        have : ((l.zipIdx (k + 1)).flatMap fun p => if p.1 = "u" then (uBCs extruded periodic ids).map (fun b => (p.2, b)) else []) = [] := by
          rw [List.flatMap_eq_nil_iff]
          intro p hp
          rw [if_neg]
          intro he
          have : p.1 ∈ l := by
            obtain ⟨a, b⟩ := p
            exact List.fst_mem_of_mem_zipIdx hp
          rw [he] at this
          exact hnd.1 this
        rw [this, List.append_nil]
      | succ i =>
        rw [List.getElem?_cons_succ] at h
        have hne : x ≠ "u" := by
          rintro rfl
          exact hnd.1 (List.mem_of_getElem? h)
        simp only [if_neg hne, List.nil_append]
        rw [ih (k + 1) i hnd.2 h, show k + 1 + i = k + (i + 1) by omega]
  rw [gen fields 0 i hf hi, hu, List.map_map]
  simp [Function.comp_def]

/-- **C78** (one field, refuted).  For a set whose only field is `u` the name of the set is the name of the field, and no
condition is left, whatever boundaries are given. -/
theorem C78_single_refuted (extruded periodic : Bool) (ids : List String) :
    setBCs ["u"] extruded periodic ids = .ok [] := by
  simp [setBCs, bcsOf, fullName]

example : setBCs ["u", "rho", "theta"] true false ["1"] = .ok [(0, ⟨0, "bottom"⟩), (0, ⟨0, "top"⟩), (0, ⟨0, "1"⟩)] := by
  decide

noncomputable example : ∃ ms, tracerTransport (R := Polynomial ℚ) (fun _ : Fin 1 => Polynomial.derivative') (some fun _ => 1)
    ["u", "rho", "m"] [⟨"rho", "DG", .conservative, none⟩, ⟨"m", "DG", .tracerConservative, some "rho"⟩] = .ok ms :=
  (C78_tracer_transport_ok _ _ _ _).2 (by
    refine ⟨rfl, ?_⟩
    intro t ht
    simp only [List.mem_cons, List.not_mem_nil, or_false] at ht
    rcases ht with rfl | rfl <;> simp)

/-! ### C60 -/

section Linear
variable {E F : Type*} [NormedAddCommGroup E] [NormedSpace ℝ E] [NormedAddCommGroup F] [NormedSpace ℝ F]

/-- The symbolic derivative of every term is its derivative, and a term whose derivative UFL finds empty has the
derivative zero. -/
def Faithful (t : LTerm E F) : Prop :=
  ∀ x, ∃ L : E →L[ℝ] F, HasFDerivAt t.form L x ∧ (∀ h, t.dform x h = L h) ∧ (t.empty = true → L = 0)

/-- The linearisation label of a term, if it has one, is its derivative at the reference state. -/
def LinOK (Xref : E) (t : LTerm E F) : Prop :=
  ∀ l, t.lin = some l → ∃ L : E →L[ℝ] F, HasFDerivAt t.form L Xref ∧ ∀ h, l h = L h

/-- **C60** (adding linearisations).  `generate_linear_terms` changes no form and no label other than `linearisation`; a
term that had a linearisation keeps it; a term chosen by the map gets its derivative at the reference state, unless
UFL finds that derivative empty; the other terms get none. -/
theorem C60_generate (Xref : E) (p : LTerm E F → Bool) (res : List (LTerm E F)) :
    (∀ X, value (generateLinear Xref p res) X = value res X) ∧
    List.Forall₂ (fun t t' : LTerm E F => t'.form = t.form ∧ t'.labels = t.labels ∧
      (∀ l, t.lin = some l → t'.lin = some l) ∧
      (t.lin = none → p t = true → t.empty = false → t'.lin = some (t.dform Xref)) ∧
      (t.lin = none → (p t = false ∨ t.empty = true) → t'.lin = none)) res (generateLinear Xref p res) := by
  constructor
  · intro X
    unfold value generateLinear
    rw [List.map_map]
    congr 1
    refine List.map_congr_left fun t _ => ?_
    simp only [Function.comp_apply]
    split
    · unfold linearise; split <;> rfl
    · rfl
  · unfold generateLinear
    rw [List.forall₂_map_right_iff]
    rw [List.forall₂_same]
    intro t _
    cases hl : t.lin with
    | some l => simp [hl]
    | none =>
      cases hp : p t
      · simp [hl]
      · cases he : t.empty <;> simp [linearise, he, hl]

/-- After `generate_linear_terms` every label is the derivative, if the existing ones are. -/
theorem generate_ok (Xref : E) (p : LTerm E F → Bool) (res : List (LTerm E F)) (hf : ∀ t ∈ res, Faithful t)
    (hl : ∀ t ∈ res, LinOK Xref t) : ∀ t ∈ generateLinear Xref p res, LinOK Xref t := by
  intro t' ht'
  unfold generateLinear at ht'
  obtain ⟨t, ht, rfl⟩ := List.mem_map.1 ht'
  split
  · unfold linearise
    split
    · exact hl t ht
    · intro l hlin
      simp only [Option.some.injEq] at hlin
      obtain ⟨L, h1, h2, -⟩ := hf t ht Xref
      exact ⟨L, h1, fun h => by rw [← hlin]; exact h2 h⟩
  · exact hl t ht

theorem set_value (res : List (LTerm E F)) (X : E) :
    value (lineariseSet res) X = ((res.filterMap LTerm.lin).map fun l => l X).sum := by
  unfold value lineariseSet
  induction res with
  | nil => rfl
  | cons t res ih =>
    rw [List.flatMap_cons, List.map_append, List.sum_append, ih, List.filterMap_cons]
    cases t.lin <;> simp

/-- **C60** (linear set).  `linearise_equation_set` leaves a residual that is linear in the prognostic variables and is
the derivative at the reference state of the sum of the terms that have a linearisation. -/
theorem C60_linearise (Xref : E) (res : List (LTerm E F)) (hl : ∀ t ∈ res, LinOK Xref t) :
    ∃ L : E →L[ℝ] F, (∀ X, value (lineariseSet res) X = L X) ∧
      HasFDerivAt (fun X => value (res.filter fun t => t.lin.isSome) X) L Xref := by
  induction res with
  | nil =>
    refine ⟨0, fun X => by simp [lineariseSet, value], ?_⟩
    simpa [value] using hasFDerivAt_const (𝕜 := ℝ) (0 : F) Xref
  | cons t res ih =>
    obtain ⟨L, h1, h2⟩ := ih (fun s hs => hl s (List.mem_cons_of_mem _ hs))
    cases hlin : t.lin with
    | none =>
      refine ⟨L, ?_, ?_⟩
      · intro X
        rw [set_value, List.filterMap_cons, hlin, ← set_value, h1]
      · simpa [List.filter_cons, hlin] using h2
    | some l =>
      obtain ⟨L', d1, d2⟩ := hl t (List.mem_cons_self ..) l hlin
      refine ⟨L' + L, ?_, ?_⟩
      · intro X
        have := h1 X
        rw [set_value] at this
        rw [set_value, List.filterMap_cons, hlin]
        simp [this, d2]
      · have := d1.add h2
        simp only [List.filter_cons, hlin, Option.isSome_some, if_true]
        convert this using 1
        funext X; simp [value]

/-- **C60** (complete linearisation).  If the map chooses every term, the linearised set is the derivative at the
reference state of the whole residual: the dropped terms have derivative zero. -/
theorem C60_complete (Xref : E) (res : List (LTerm E F)) (hf : ∀ t ∈ res, Faithful t) (hl : ∀ t ∈ res, LinOK Xref t) :
    ∃ L : E →L[ℝ] F, (∀ X, value (lineariseSet (generateLinear Xref (fun _ => true) res)) X = L X) ∧
      HasFDerivAt (fun X => value res X) L Xref := by
  induction res with
  | nil =>
    refine ⟨0, fun X => by simp [generateLinear, lineariseSet, value], ?_⟩
    simpa [value] using hasFDerivAt_const (𝕜 := ℝ) (0 : F) Xref
  | cons t res ih =>
    obtain ⟨L, h1, h2⟩ := ih (fun s hs => hf s (List.mem_cons_of_mem _ hs)) (fun s hs => hl s (List.mem_cons_of_mem _ hs))
    have hcons : generateLinear Xref (fun _ => true) (t :: res) =
        (if t.lin.isNone && true then linearise Xref t else t) :: generateLinear Xref (fun _ => true) res := rfl
    have hadd : ∀ L' : E →L[ℝ] F, HasFDerivAt t.form L' Xref →
        HasFDerivAt (fun X => value (t :: res) X) (L' + L) Xref := by
      intro L' hL'
      have := hL'.add h2
      convert this using 1
      funext X; simp [value]
    cases hlin : t.lin with
    | some l =>
      obtain ⟨L', d1, d2⟩ := hl t (List.mem_cons_self ..) l hlin
      refine ⟨L' + L, ?_, hadd L' d1⟩
      intro X
      have hx := h1 X
      rw [set_value] at hx
      rw [set_value, hcons]
      simp [hlin, hx, d2]
    | none =>
      obtain ⟨L', d1, d2, d3⟩ := hf t (List.mem_cons_self ..) Xref
      cases he : t.empty
      · refine ⟨L' + L, ?_, hadd L' d1⟩
        intro X
        have hx := h1 X
        rw [set_value] at hx
        rw [set_value, hcons]
        simp [hlin, linearise, he, hx, d2]
      · rw [d3 he] at d1
        refine ⟨0 + L, ?_, hadd 0 d1⟩
        intro X
        have hx := h1 X
        rw [set_value] at hx
        rw [set_value, hcons]
        simp [hlin, linearise, he, hx]

/-- **C60** (dropped terms).  The terms of the linearised set are, in order, those that had a linearisation, with all
their labels. -/
theorem C60_terms (res : List (LTerm E F)) :
    (lineariseSet res).map (fun t => (t.labels, t.lin)) =
      (res.filter fun t => t.lin.isSome).map (fun t => (t.labels, t.lin)) ∧
    ∀ t ∈ lineariseSet res, t.lin = some t.form := by
  unfold lineariseSet
  constructor
  · induction res with
    | nil => rfl
    | cons t res ih =>
      rw [List.flatMap_cons, List.map_append, ih, List.filter_cons]
      cases h : t.lin <;> simp [h]
  · intro t ht
    rw [List.mem_flatMap] at ht
    obtain ⟨s, _, hs⟩ := ht
    cases h : s.lin with
    | none => rw [h] at hs; cases hs
    | some l =>
      rw [h] at hs
      simp only [List.mem_singleton] at hs
      subst hs; simp [h]

/-- **C60** (repetition).  Linearising a linearised set again changes nothing. -/
theorem C60_again (res : List (LTerm E F)) : lineariseSet (lineariseSet res) = lineariseSet res := by
  have h : ∀ l : List (LTerm E F), (∀ t ∈ l, t.lin = some t.form) → lineariseSet l = l := by
    intro l
    induction l with
    | nil => intro _; rfl
    | cons t l ih =>
      intro hl
      have h1 := ih (fun s hs => hl s (List.mem_cons_of_mem _ hs))
      unfold lineariseSet at h1 ⊢
      rw [List.flatMap_cons, h1]
      have e := hl t (List.mem_cons_self ..)
      obtain ⟨f, df, em, li, lab⟩ := t
      simp only at e
      subst e
      rfl
  exact h _ (C60_terms res).2

/-- **C60** (default).  Without a linearisation map no term gets a linearisation: a set with no linearised term becomes
empty. -/
theorem C60_default (Xref : E) (res : List (LTerm E F)) (h : ∀ t ∈ res, t.lin = none) :
    lineariseSet (generateLinear Xref (linearisationMap none) res) = [] := by
  unfold lineariseSet generateLinear
  rw [List.flatMap_eq_nil_iff]
  intro t' ht'
  obtain ⟨t, ht, rfl⟩ := List.mem_map.1 ht'
  simp [linearisationMap, h t ht]

/-- A quadratic and a constant term meet the hypotheses. -/
example : ∀ t ∈ ([⟨fun x => x ^ 2, fun x h => 2 * x * h, false, none, ["transport"]⟩,
    ⟨fun _ => 5, fun _ _ => 0, true, none, ["gravity"]⟩] : List (LTerm ℝ ℝ)), Faithful t ∧ LinOK 3 t := by
  intro t ht
  simp only [List.mem_cons, List.not_mem_nil, or_false] at ht
  rcases ht with rfl | rfl
  · refine ⟨fun x => ⟨(2 * x) • ContinuousLinearMap.id ℝ ℝ, ?_, ?_, by simp⟩, by simp [LinOK]⟩
    · have h1 : HasDerivAt (fun y : ℝ => y ^ 2) (2 * x) x := by simpa using hasDerivAt_pow 2 x
      have h2 : ((2 * x) • ContinuousLinearMap.id ℝ ℝ : ℝ →L[ℝ] ℝ) = ContinuousLinearMap.toSpanSingleton ℝ (2 * x) := by
        ext; simp
      rw [h2]
      exact h1.hasFDerivAt
    · intro h; simp
  · exact ⟨fun x => ⟨0, hasFDerivAt_const _ _, by simp, by simp⟩, by simp [LinOK]⟩

end Linear

end Gusto.Props.EqSetProps
