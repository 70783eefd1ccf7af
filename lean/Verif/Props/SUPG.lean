import Verif.Model.SUPG
import Mathlib.Tactic

set_option autoImplicit false
set_option linter.unusedSectionVars false
set_option linter.unusedSimpArgs false

/-!
# C135: SUPG

After the scheme and the velocity are set up, every term for which SUPG was asked for is tested against
`test + (u τ)·∇test`, with `u` the transporting velocity of the timestepper, every other term against `test`, and no velocity made on
the way is left in any form.
-/

namespace Gusto.Props.SUPGProps
open Gusto Gusto.SUPG

section terms
variable {U T D : Type*} [AddCommGroup T]

/-- A term with the value `x` for its transporting velocity (spec). -/
def withVelocity (t : Term U T D) (x : U) : Form U T D := fun v =>
  match t.vel with
  | some a => t.form (Function.update v a x)
  | none => t.form v

/-- The adjusted test function, `k` times (spec; it should be at most once). -/
def adjusted (S : U → T → T) (u : U) (k : ℕ) (φ : T) : T := (fun ψ => ψ + S u ψ)^[k] φ

/-- How often the options ask for SUPG in a term (spec): once for a field without list of labels, once for each label in the list. -/
def asked (subs : List (String × Option (List String))) (t : Term U T D) : ℕ :=
  (subs.map fun s => if t.prognostic = s.1 then
    (match s.2 with
      | none => 1
      | some ls => (ls.filter fun l => decide (l ∈ t.labels)).length) else 0).sum

/-- The form in the label `all_but_last` with the velocity replaced (spec). -/
def innerWith (b : ℕ) (i : Form U T D × Option ℕ) : Form U T D × Option ℕ :=
  (match i.2 with
    | some a => substForm a b i.1
    | none => i.1, i.2)

/-- The terms of an equation know nothing of the velocities numbered from `n` on, which are made later. -/
def Fresh (n : ℕ) (t : Term U T D) : Prop :=
  (∀ w, n ≤ w → ∀ v x, t.form (Function.update v w x) = t.form v) ∧ ∀ a, t.vel = some a → a < n

theorem withVelocity_fresh {n : ℕ} {t : Term U T D} (h : Fresh n t) {w : ℕ} (hw : n ≤ w) (x y : U) (v : ℕ → U) :
    withVelocity t x (Function.update v w y) = withVelocity t x v := by
  unfold withVelocity
  cases ha : t.vel with
  | none => exact h.1 w hw v y
  | some a =>
    have hlt := h.2 a ha
    simp only
    rw [Function.update_comm (by omega), h.1 w hw]

/-- A term of the equation after some passes, with the symbol `c` for the velocity (auxiliary). -/
structure Stage (S : String → U → T → T) (t0 : Term U T D) (k c : ℕ) (t : Term U T D) : Prop where
  labels : t.labels = t0.labels
  prog : t.prognostic = t0.prognostic
  inner : t.inner = t0.inner
  vel : t.vel = some c
  form : t.form = fun v φ => withVelocity t0 (v c) v (adjusted (S t0.prognostic) (v c) k φ)

/-- What the loop over the labels does to one term. -/
theorem fold_labels (S : U → T → T) (w : ℕ) (field : String) (ls : List String) (t : Term U T D) :
    ls.foldl (fun t l => if t.prognostic = field ∧ l ∈ t.labels then replaceTest S w t else t) t =
      { t with form := fun v φ => t.form v (adjusted S (v w)
          (if t.prognostic = field then (ls.filter fun l => decide (l ∈ t.labels)).length else 0) φ) } := by
  induction ls generalizing t with
  | nil => simp [adjusted]
  | cons l ls ih =>
    rw [List.foldl_cons, ih]
    by_cases h : t.prognostic = field ∧ l ∈ t.labels
    · rw [if_pos h]
      simp only [replaceTest, h.1, if_true, List.filter_cons, h.2, decide_true, List.length_cons]
      congr 1
      funext v φ
      congr 1
      unfold adjusted
      rw [Function.iterate_succ_apply']
    · rw [if_neg h]
      by_cases hp : t.prognostic = field
      · have hl : l ∉ t.labels := fun hl => h ⟨hp, hl⟩
        simp [hp, List.filter_cons, hl]
      · simp [hp]

theorem foldl_map {α β : Type*} (f : β → α → α) (ls : List β) (r : List α) :
    ls.foldl (fun r l => r.map fun t => f l t) r = r.map fun t => ls.foldl (fun t l => f l t) t := by
  induction ls generalizing r with
  | nil => simp
  | cons l ls ih => rw [List.foldl_cons, ih]; simp [List.map_map, Function.comp_def]

/-- One field of the options, on one term. -/
def fieldTerm (S : String → U → T → T) (w : ℕ) (s : String × Option (List String)) (t : Term U T D) : Term U T D :=
  let form : Form U T D := fun v φ => t.form v (adjusted (S s.1) (v w) (asked [s] t) φ)
  match t.vel with
  | some a => { t with form := substForm a w form, vel := some w }
  | none => { t with form := form, vel := some w }

theorem setupField_eq (S : String → U → T → T) (w : ℕ) (s : String × Option (List String)) (r : List (Term U T D)) :
    setupField S w s.1 s.2 r = r.map (fieldTerm S w s) := by
  obtain ⟨field, ls⟩ := s
  unfold setupField labelTerms
  cases ls with
  | none =>
    simp only [List.map_map]
    apply List.map_congr_left
    intro t _
    by_cases h : t.prognostic = field
    · cases hv : t.vel <;> simp [fieldTerm, h, hv, replaceTest, asked, adjusted]
    · cases hv : t.vel <;> simp [fieldTerm, h, hv, asked, adjusted]
  | some ls =>
    simp only
    rw [foldl_map (fun l (t : Term U T D) => if t.prognostic = field ∧ l ∈ t.labels then replaceTest (S field) w t else t)]
    simp only [List.map_map]
    apply List.map_congr_left
    intro t _
    simp only [Function.comp_apply, fold_labels]
    by_cases h : t.prognostic = field
    · cases hv : t.vel <;> simp [fieldTerm, h, hv, asked]
    · cases hv : t.vel <;> simp [fieldTerm, h, hv, asked]

theorem adjusted_add (S : U → T → T) (u : U) (k j : ℕ) (φ : T) : adjusted S u k (adjusted S u j φ) = adjusted S u (k + j) φ := by
  simp only [adjusted]; rw [Function.iterate_add_apply]

theorem asked_cons (s : String × Option (List String)) (subs : List (String × Option (List String))) (t : Term U T D) :
    asked (s :: subs) t = asked [s] t + asked subs t := by simp [asked]

theorem asked_congr (subs : List (String × Option (List String))) {t t' : Term U T D} (hl : t.labels = t'.labels)
    (hp : t.prognostic = t'.prognostic) : asked subs t = asked subs t' := by simp [asked, hl, hp]

theorem asked_other {s : String × Option (List String)} {t : Term U T D} (h : t.prognostic ≠ s.1) : asked [s] t = 0 := by
  simp [asked, h]

/-- The first pass. -/
theorem first_stage (S : String → U → T → T) (n : ℕ) (s : String × Option (List String)) {t : Term U T D} (hf : Fresh n t) {w : ℕ}
    (hw : n ≤ w) : Stage S t (asked [s] t) w (fieldTerm S w s t) := by
  have hS : ∀ (u : U) (φ : T), adjusted (S s.1) u (asked [s] t) φ = adjusted (S t.prognostic) u (asked [s] t) φ := by
    intro u φ
    by_cases h : t.prognostic = s.1
    · rw [h]
    · rw [asked_other h]; rfl
  cases hv : t.vel with
  | none =>
    refine ⟨?_, ?_, ?_, ?_, ?_⟩ <;> simp only [fieldTerm, hv]
    funext v φ
    simp only [withVelocity, hv, hS]
  | some a =>
    have hlt := hf.2 a hv
    refine ⟨?_, ?_, ?_, ?_, ?_⟩ <;> simp only [fieldTerm, hv]
    funext v φ
    simp only [withVelocity, hv, substForm, Function.update_of_ne (show w ≠ a by omega), hS]

/-- The later passes. -/
theorem next_stage (S : String → U → T → T) (n : ℕ) (s : String × Option (List String)) {t0 t : Term U T D} (hf : Fresh n t0)
    {k c w : ℕ} (hc : n ≤ c) (hcw : w ≠ c) (h : Stage S t0 k c t) : Stage S t0 (k + asked [s] t0) w (fieldTerm S w s t) := by
  have hS : ∀ (u : U) (φ : T), adjusted (S s.1) u (asked [s] t0) φ = adjusted (S t0.prognostic) u (asked [s] t0) φ := by
    intro u φ
    by_cases h : t0.prognostic = s.1
    · rw [h]
    · rw [asked_other h]; rfl
  refine ⟨?_, ?_, ?_, ?_, ?_⟩ <;> simp only [fieldTerm, h.vel, h.labels, h.prog, h.inner]
  funext v φ
  simp only [substForm, h.form, asked_congr [s] h.labels h.prog, Function.update_self, Function.update_of_ne hcw,
    withVelocity_fresh hf hc, hS, adjusted_add]

/-- The term the user means (spec): the adjusted test function `k` times, the velocity `b`. -/
def meant (S : String → U → T → T) (b k : ℕ) (t : Term U T D) : Term U T D :=
  { t with
    form := fun v φ => withVelocity t (v b) v (adjusted (S t.prognostic) (v b) k φ)
    vel := some b
    inner := t.inner.map (innerWith b) }

theorem final_stage (S : String → U → T → T) (n : ℕ) {t0 t : Term U T D} (hf : Fresh n t0) {k c b : ℕ} (hc : n ≤ c) (hb : b < n)
    (h : Stage S t0 k c t) : setupVelocity b [t] = [meant S b k t0] := by
  obtain ⟨f, l, p, v0, i⟩ := t
  obtain ⟨h1, h2, h3, h4, h5⟩ := h
  simp only at h1 h2 h3 h4 h5
  subst h1 h2 h3 h4 h5
  simp only [setupVelocity, List.map_cons, List.map_nil, meant, List.cons.injEq, and_true, Term.mk.injEq, true_and]
  refine ⟨?_, ?_⟩
  · funext v φ
    simp only [substForm, Function.update_self, withVelocity_fresh hf hc]
  · rfl

/-- **C135** (with options for several fields).  After the loop over the options and the setup of the velocity every term is tested
against the adjusted test function as often as the options ask for it, with the velocity `b` of the timestepper in the test function
and in the term: none of the velocities `n, n+1, …` made for the fields on the way is left. -/
theorem C135_suboptions (S : String → U → T → T) (n b : ℕ) (hb : b < n) (s : String × Option (List String))
    (subs : List (String × Option (List String))) (r : List (Term U T D)) (hr : ∀ t ∈ r, Fresh n t) :
    setupVelocity b (setupSub S n (s :: subs) r) = r.map fun t => meant S b (asked (s :: subs) t) t := by
  have later : ∀ (subs : List (String × Option (List String))) (w c : ℕ) (l : List (Term U T D × ℕ × Term U T D)), n ≤ c → c < w →
      (∀ p ∈ l, Fresh n p.1 ∧ Stage S p.1 p.2.1 c p.2.2) →
      setupVelocity b (setupSub S w subs (l.map fun p => p.2.2)) = l.map fun p => meant S b (p.2.1 + asked subs p.1) p.1 := by
    intro subs
    induction subs with
    | nil =>
      intro w c l hc _ hl
      simp only [setupSub]
      induction l with
      | nil => rfl
      | cons p l ih =>
        have h1 := final_stage S n (hl p List.mem_cons_self).1 hc hb (hl p List.mem_cons_self).2
        have h2 := ih fun q hq => hl q (List.mem_cons_of_mem _ hq)
        simp only [setupVelocity, List.map_cons, List.map_nil, List.cons.injEq, and_true] at h1 h2 ⊢
        exact ⟨by rw [h1]; simp [asked], h2⟩
    | cons s subs ih =>
      intro w c l hc hcw hl
      rw [setupSub, setupField_eq]
      have := ih (w + 1) w (l.map fun p => (p.1, p.2.1 + asked [s] p.1, fieldTerm S w s p.2.2)) (by omega) (by omega) (by
        intro q hq
        obtain ⟨p, hp, rfl⟩ := List.mem_map.1 hq
        exact ⟨(hl p hp).1, next_stage S n s (hl p hp).1 hc (by omega) (hl p hp).2⟩)
      simp only [List.map_map, Function.comp_def] at this ⊢
      rw [this]
      apply List.map_congr_left
      intro p _
      rw [asked_cons s subs p.1, add_assoc]
  rw [setupSub, setupField_eq]
  have := later subs (n + 1) n (r.map fun t => (t, asked [s] t, fieldTerm S n s t)) le_rfl (by omega) (by
    intro q hq
    obtain ⟨t, ht, rfl⟩ := List.mem_map.1 hq
    exact ⟨hr t ht, first_stage S n s (hr t ht) le_rfl⟩)
  simp only [List.map_map, Function.comp_def] at this
  rw [this]
  apply List.map_congr_left
  intro t _
  rw [asked_cons s subs t]

/-- **C135** (without options for fields).  Every term of the scheme is tested against the adjusted test function once. -/
theorem C135_all (S : U → T → T) (n b : ℕ) (hb : b < n) (r : List (Term U T D)) (hr : ∀ t ∈ r, Fresh n t) :
    setupVelocity b (setupAll S n r) = r.map fun t => meant (fun _ => S) b 1 t := by
  have h : setupAll S n r = r.map fun t => fieldTerm (fun _ => S) n (t.prognostic, none) t := by
    simp only [setupAll, labelTerms, List.map_map]
    apply List.map_congr_left
    intro t _
    cases hv : t.vel <;> simp [fieldTerm, hv, replaceTest, asked, adjusted]
  rw [h]
  clear h
  induction r with
  | nil => rfl
  | cons t r ih =>
    have h0 := first_stage (fun _ => S) n (t.prognostic, none) (hr t List.mem_cons_self) le_rfl
    have h1 := final_stage (fun _ => S) n (hr t List.mem_cons_self) le_rfl hb h0
    have h2 := ih fun q hq => hr q (List.mem_cons_of_mem _ hq)
    simp only [setupVelocity, List.map_cons, List.map_nil, List.cons.injEq, and_true] at h1 h2 ⊢
    exact ⟨by rw [h1]; simp [asked], h2⟩

/-- **C135** (each term at most once).  If no term of a listed field carries two of its listed labels and no field is listed twice, every
term is tested against `test` or `test + (u τ)·∇test`. -/
theorem C135_at_most_once (subs : List (String × Option (List String))) (t : Term U T D) (hn : (subs.map Prod.fst).Nodup)
    (h1 : ∀ ls, (t.prognostic, some ls) ∈ subs → (ls.filter fun l => decide (l ∈ t.labels)).length ≤ 1) :
    asked subs t ≤ 1 := by
  induction subs with
  | nil => simp [asked]
  | cons s subs ih =>
    rw [asked_cons]
    by_cases hp : t.prognostic = s.1
    · have h0 : asked subs t = 0 := by
        have : ∀ q ∈ subs, t.prognostic ≠ q.1 := by
          intro q hq hpq
          have := (List.nodup_cons.1 hn).1
          exact this (by rw [← hp, hpq]; exact List.mem_map_of_mem hq)
        unfold asked
        apply List.sum_eq_zero
        intro x hx
        obtain ⟨q, hq, rfl⟩ := List.mem_map.1 hx
        simp [this q hq]
      rw [h0]
      obtain ⟨f, ls⟩ := s
      simp only at hp
      subst hp
      cases ls with
      | none => simp [asked]
      | some ls =>
        have := h1 ls List.mem_cons_self
        simpa [asked] using this
    · rw [asked_other hp, zero_add]
      exact ih (List.nodup_cons.1 hn).2 fun ls hls => h1 ls (List.mem_cons_of_mem _ hls)

/-- **C135** (consistency).  Where the equation holds against every test function, it holds with SUPG in all the terms. -/
theorem C135_consistent [AddCommGroup D] (S : String → U → T → T) (b : ℕ) (v : ℕ → U) (r : List (Term U T D)) (field : String)
    (hr : ∀ t ∈ r, t.prognostic = field) (k : ℕ)
    (hsol : ∀ ψ, (r.map fun t => withVelocity t (v b) v ψ).sum = 0) (φ : T) :
    ((r.map (meant S b k)).map fun t => t.form v φ).sum = 0 := by
  rw [← hsol (adjusted (S field) (v b) k φ), List.map_map]
  congr 1
  apply List.map_congr_left
  intro t ht
  simp [meant, hr t ht]

/-- **C135** (budgets).  A test function without gradient along the flow, such as a constant, gives the equation without SUPG: SUPG changes no
total. -/
theorem C135_budget (S : String → U → T → T) (b k : ℕ) (v : ℕ → U) (t : Term U T D) (φ : T)
    (h0 : S t.prognostic (v b) φ = 0) : (meant S b k t).form v φ = withVelocity t (v b) v φ := by
  have : adjusted (S t.prognostic) (v b) k φ = φ := by
    unfold adjusted
    induction k with
    | zero => rfl
    | succ k ih => rw [Function.iterate_succ_apply, h0, add_zero, ih]
  simp [meant, this]

/-- **C135** (refuted: the forms for all but the last stage).  The form that an explicit Runge-Kutta scheme uses for all stages but the last
(advective-then-flux transport) keeps the standard test function, while the other terms of the stages get the adjusted one. -/
theorem C135_all_but_last_refuted (S : U → T → T) (n b : ℕ) (hb : b < n) (r : List (Term U T D)) (hr : ∀ t ∈ r, Fresh n t)
    (t : Term U T D) (ht : t ∈ r) (f : Form U T D) (a : ℕ) (hi : t.inner = some (f, some a)) :
    ∃ t' ∈ setupVelocity b (setupAll S n r), t'.prognostic = t.prognostic ∧ t'.labels = t.labels ∧
      t'.inner = some (fun v => f (Function.update v a (v b)), some a) ∧
      ∀ v φ, t'.form v φ = withVelocity t (v b) v (φ + S (v b) φ) := by
  rw [C135_all S n b hb r hr]
  refine ⟨_, List.mem_map_of_mem ht, rfl, rfl, ?_, ?_⟩
  · simp [meant, hi, innerWith]; rfl
  · intro v φ; rfl

end terms

section tau
variable {K : Type*} [Field K]

/-- **C135** (the parameter).  The default parameter is `default*dt` on the diagonal in the directions in which the space is continuous and
zero elsewhere; a space continuous in no named sense is refused, and so is a given parameter of another shape. -/
theorem C135_tau (dim : ℕ) (dflt dt : K) (e : Element) :
    (∀ tau, makeTau dim none dflt dt e = .ok tau →
      ∀ i j, tau i j = if i = j ∧ (isCg e = true ∨ e.sobolev.h1In i = true) then dflt * dt else 0) ∧
    (makeTau dim none dflt dt e = .error .value ↔ isCg e = false ∧ e.sobolev ≠ .hdiv ∧ ∀ o, e.sobolev ≠ .directional o) ∧
    (∀ shape tau, makeTau dim (some (shape, tau)) dflt dt e = if shape = (dim, dim) then .ok tau else .error .assertion) := by
  refine ⟨?_, ?_, ?_⟩
  · intro tau h i j
    unfold makeTau at h
    simp only at h
    split_ifs at h with hc
    · injection h with h
      subst h
      by_cases hij : i = j
      · subst hij; simp [hc]
      · simp [hij, Ne.symm hij]
    · cases hs : e.sobolev with
      | h1 => simp [hs] at h
      | l2 => simp [hs] at h
      | hcurl => simp [hs] at h
      | hdiv =>
        simp only [hs, Except.ok.injEq] at h
        subst h
        by_cases hij : i = j
        · subst hij; simp [hc, Sobolev.h1In]
        · simp [hij, Ne.symm hij]
      | directional o =>
        simp only [hs, Except.ok.injEq] at h
        subst h
        by_cases hij : i = j
        · subst hij; simp [hc]
        · simp [hij, Ne.symm hij]
  · unfold makeTau
    simp only
    cases hc : isCg e <;> cases hs : e.sobolev <;> simp
  · intro shape tau; rfl

/-- Refuted for velocities in HDiv: the default parameter vanishes, SUPG changes nothing, without a warning. -/
theorem C135_hdiv_refuted {X : Type*} (dim : ℕ) (dflt dt : K) (subs : List Sobolev) (hs : subs ≠ []) (hn : .h1 ∉ subs) (b : Bool)
    (D : Fin dim → (X → K) → (X → K)) (u : X → Fin dim → K) (test : X → K) :
    ∃ tau, makeTau dim none dflt dt (if b then .plain .hdiv else .vector subs .hdiv) = .ok tau ∧
      streamline D tau u test = 0 := by
  have hall : (subs.all fun s => decide (s = .h1)) = false := by
    cases subs with
    | nil => exact absurd rfl hs
    | cons s subs =>
      have : s ≠ .h1 := fun h => hn (by simp [h])
      simp [this]
  have hcg : isCg (if b then Element.plain .hdiv else .vector subs .hdiv) = false := by
    cases b
    · simpa [isCg] using hall
    · simp [isCg]
  have hsob : (if b then Element.plain .hdiv else .vector subs .hdiv).sobolev = .hdiv := by cases b <;> rfl
  refine ⟨_, by unfold makeTau; simp only [hcg, hsob]; rfl, ?_⟩
  funext x
  simp [streamline, Sobolev.h1In]

/-- **C135** (totals).  The streamline part of a constant test function vanishes, so by `C135_budget` totals do not change. -/
theorem C135_constant {X : Type*} {dim : ℕ} (D : Fin dim → (X → K) → (X → K)) (tau : Fin dim → Fin dim → K) (u : X → Fin dim → K)
    (c : K) (hD : ∀ j, D j (fun _ => c) = 0) : streamline D tau u (fun _ => c) = 0 := by
  funext x
  simp [streamline, hD]

variable [LinearOrder K] [IsStrictOrderedRing K]

/-- **C135** (dissipation).  In a space continuous in all directions the SUPG part of the transport term, tested against the solution itself,
is `default*dt*(u·∇q)²` at every point: never negative. -/
theorem C135_dissipation {X : Type*} (dim : ℕ) (dflt dt : K) (h1 : 0 ≤ dflt) (h2 : 0 ≤ dt) (e : Element) (he : isCg e = true)
    (D : Fin dim → (X → K) → (X → K)) (u : X → Fin dim → K) (q : X → K) :
    ∃ tau, makeTau dim none dflt dt e = .ok tau ∧
      (∀ x, streamline D tau u q x * (∑ j, u x j * D j q x) = dflt * dt * (∑ j, u x j * D j q x) ^ 2) ∧
      ∀ x, 0 ≤ streamline D tau u q x * (∑ j, u x j * D j q x) := by
  refine ⟨fun j i => if i = j then dflt * dt else 0, by simp [makeTau, he], ?_⟩
  have key : ∀ x, streamline D (fun j i : Fin dim => if i = j then dflt * dt else 0) u q x = dflt * dt * ∑ j, u x j * D j q x := by
    intro x
    simp only [streamline, mul_ite, mul_zero, Finset.sum_ite_eq, Finset.mem_univ, if_true, Finset.mul_sum]
    exact Finset.sum_congr rfl fun j _ => by ring
  refine ⟨fun x => by rw [key]; ring, fun x => ?_⟩
  rw [key, mul_assoc]
  have := mul_nonneg h1 h2
  nlinarith [mul_nonneg this (mul_self_nonneg (∑ j, u x j * D j q x))]

/-- **C135** (refuted: dissipation in spaces continuous in some directions only, such as the theta space).  For flow oblique to the levels the SUPG part
can be negative. -/
theorem C135_directional_refuted (dflt dt : K) (h1 : 0 < dflt) (h2 : 0 < dt) :
    ∃ (D : Fin 2 → (Unit → K) → (Unit → K)) (tau : Fin 2 → Fin 2 → K) (u : Unit → Fin 2 → K) (q : Unit → K),
      makeTau 2 none dflt dt (.plain (.directional [0, 1])) = .ok tau ∧
      streamline D tau u q () * (∑ j, u () j * D j q ()) < 0 := by
  refine ⟨fun j _ _ => if j = 0 then -2 else 1, fun j i => if i = j then (if j = 1 then dflt * dt else 0) else 0, fun _ _ => 1, 0, ?_, ?_⟩
  · simp only [makeTau, isCg, Element.sobolev]
    simp only [reduceCtorEq, decide_false, Bool.false_eq_true, if_false]
    congr 1
    funext j i
    fin_cases j <;> fin_cases i <;> simp [Sobolev.h1In]
  · have := mul_pos h1 h2
    simp [streamline, Fin.sum_univ_two]
    nlinarith

end tau

/-! ### Concrete cases -/
section concrete

/-- Two fields of a coupled equation, each with a time derivative and a transport term, over numbers: a velocity is a number, the streamline operator
is multiplication by `u/2`. -/
def demo : List (Term ℚ ℚ ℚ) :=
  [⟨fun _ φ => 3 * φ, ["time_derivative"], "f", none, none⟩,
   ⟨fun v φ => v 0 * φ, ["transport"], "f", some 0, some (fun v φ => 2 * v 0 * φ, some 0)⟩,
   ⟨fun _ φ => 5 * φ, ["time_derivative"], "q", none, none⟩,
   ⟨fun v φ => v 0 * φ, ["transport"], "q", some 0, none⟩]

theorem demo_fresh : ∀ t ∈ demo, Fresh 2 t := by
  intro t ht
  simp only [demo, List.mem_cons, List.not_mem_nil, or_false] at ht
  rcases ht with rfl | rfl | rfl | rfl <;> refine ⟨fun w hw v x => ?_, by simp⟩ <;> funext φ <;>
    simp [Function.update_of_ne (show (0 : ℕ) ≠ w by omega)]

/-- SUPG for the transport of `f` and all of `q`, velocity 4 (symbol 1), test function 1. -/
example : (setupVelocity 1 (setupSub (fun _ u φ => u / 2 * φ) 2 [("f", some ["transport"]), ("q", none)] demo)).map
    (fun t => t.form (fun i => if i = 1 then 4 else 0) 1) = [3, 12, 15, 12] := by
  rw [C135_suboptions _ 2 1 (by norm_num) _ _ _ demo_fresh]
  simp [demo, meant, withVelocity, adjusted, asked]
  norm_num

/-- A term with two of the listed labels gets the operator twice. -/
example : (setupVelocity 1 (setupSub (fun _ u φ => u / 2 * φ) 2 [("f", some ["transport", "horizontal_transport"])]
    [(⟨fun v φ => v 0 * φ, ["transport", "horizontal_transport"], "f", some 0, none⟩ : Term ℚ ℚ ℚ)])).map
    (fun t => t.form (fun i => if i = 1 then 4 else 0) 1) = [36] := by
  simp [setupVelocity, setupSub, setupField, labelTerms, replaceTest, substForm, Function.update]
  norm_num

end concrete

end Gusto.Props.SUPGProps
