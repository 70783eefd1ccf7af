import Verif.Model.CommonForms
import Mathlib.Algebra.Polynomial.Derivation
import Mathlib.Tactic.Ring
import Mathlib.Tactic.LinearCombination
import Mathlib.Tactic.NormNum
import Mathlib.Tactic.FinCases

set_option autoImplicit false
set_option linter.unusedSectionVars false
set_option linter.unusedSimpArgs false

/-! C56: splitting of transport terms.  C79: the common forms and their linearisations. -/

namespace Gusto.Props.FormProps
open Gusto Gusto.Forms

variable {R : Type*} [CommRing R] [Algebra ℚ R] {d : ℕ}

/-! ### Product rule and linearity -/

theorem div_outer (D : Derivs R d) (q : R) (u : Fin d → R) :
    div D (outer q u) = dot u (grad D q) + q * div D u := by
  simp only [div, outer, dot, grad, Derivation.leibniz, smul_eq_mul, Finset.sum_add_distrib, Finset.mul_sum]
  rw [add_comm]

theorem dot_add_left (a b c : Fin d → R) : dot (fun i => a i + b i) c = dot a c + dot b c := by
  simp only [dot, add_mul, Finset.sum_add_distrib]
theorem dot_sub_left (a b c : Fin d → R) : dot (fun i => a i - b i) c = dot a c - dot b c := by
  simp only [dot, sub_mul, Finset.sum_sub_distrib]
theorem dot_add_right (a b c : Fin d → R) : dot a (fun i => b i + c i) = dot a b + dot a c := by
  simp only [dot, mul_add, Finset.sum_add_distrib]

/-! ### The terms of the split -/

/-- The pair of terms that replaces a continuity term. -/
def contPair (D : Derivs R d) (e : Eqn R d) (vel : Fld R d → Fin d → R) (t : FTerm R d) : List (FTerm R d) :=
  match splitPair D e (t.prognostic.getD "") vel t.lin.isSome with
  | .ok l => l
  | .error _ => []

theorem contPair_not_cons (D : Derivs R d) (e : Eqn R d) (vel : Fld R d → Fin d → R) (t : FTerm R d) :
    ∀ s ∈ contPair D e vel t, isConservative s = false := by
  intro s hs
  unfold contPair splitPair at hs
  split at hs
  · rename_i l hl
    split at hl
    · split at hl
      · simp only [Except.ok.injEq] at hl
        subst hl
        simp only [List.mem_cons, List.not_mem_nil, or_false] at hs
        rcases hs with rfl | rfl <;> rfl
      · cases hl
    · simp only [Except.ok.injEq] at hl
      subst hl
      simp only [List.mem_cons, List.not_mem_nil, or_false] at hs
      rcases hs with rfl | rfl <;> rfl
  · cases hs

theorem filter_new (l : List (FTerm R d)) (h : ∀ s ∈ l, isConservative s = false) :
    l.filter (fun t => !isConservative t) = l := by
  rw [List.filter_eq_self]
  intro s hs
  simp [h s hs]

theorem splitLoop_spec (D : Derivs R d) (e : Eqn R d) (vel : Fld R d → Fin d → R) (hv : velocity e = .ok vel)
    (ts : List (FTerm R d)) : ∀ res res', splitContinuityLoop D e ts res = .ok res' →
      res' = if ts.any isConservative then
          res.filter (fun t => !isConservative t) ++ (ts.filter isConservative).flatMap (contPair D e vel)
        else res := by
  induction ts with
  | nil => intro res res' h; simpa [splitContinuityLoop] using h.symm
  | cons t ts ih =>
    intro res res' h
    rw [splitContinuityLoop] at h
    cases ht : isConservative t
    · rw [ht] at h
      simp only [Bool.false_eq_true, if_false] at h
      rw [ih _ _ h, List.any_cons, ht, Bool.false_or, List.filter_cons, ht]
      simp
    · rw [ht, hv] at h
      simp only [if_true] at h
      cases hp : splitPair D e (t.prognostic.getD "") vel t.lin.isSome with
      | error er => rw [hp] at h; cases h
      | ok new =>
        rw [hp] at h
        have hnew : contPair D e vel t = new := by unfold contPair; rw [hp]
        have hf : new.filter (fun t => !isConservative t) = new :=
          filter_new _ (by rw [← hnew]; exact contPair_not_cons D e vel t)
        rw [ih _ _ h, List.any_cons, ht, Bool.true_or, if_pos rfl, List.filter_cons, ht, if_pos rfl, List.flatMap_cons,
          hnew, List.filter_append, hf]
        by_cases ha : ts.any isConservative = true
        · rw [if_pos ha, List.filter_append, hf, List.filter_filter]
          simp [List.append_assoc]
        · rw [if_neg ha]
          have : ts.filter isConservative = [] := by
            rw [List.filter_eq_nil_iff]
            intro s hs hc
            exact ha (List.any_eq_true.2 ⟨s, hs, hc⟩)
          rw [this]; simp

/-- **C56** (continuity, terms).  A successful split keeps all terms that are not continuity terms, unchanged and in
order, at the front; the added terms are an advective term and a term without transport label for each continuity
term, with its prognostic; no continuity term remains. -/
theorem C56_continuity_terms (D : Derivs R d) (e : Eqn R d) (res res' : List (FTerm R d))
    (h : splitContinuity D e res = .ok res') :
    (∀ t ∈ res', t.transport ≠ some .conservative) ∧
    ∃ new : List (FTerm R d × FTerm R d), res' = (res.filter fun t => decide (t.transport ≠ some .conservative)) ++
        new.flatMap (fun p => [p.1, p.2]) ∧
      new.map (fun p => (p.1.prognostic, p.2.prognostic)) =
        (res.filter fun t => decide (t.transport = some .conservative)).map
          (fun t => (some (t.prognostic.getD ""), some (t.prognostic.getD ""))) ∧
      ∀ p ∈ new, p.1.transport = some .advective ∧ p.2.transport = none := by
  have hfil : (fun t : FTerm R d => decide (t.transport ≠ some .conservative)) = fun t => !isConservative t := by
    funext t; simp [isConservative]
  have hfil2 : (fun t : FTerm R d => decide (t.transport = some .conservative)) = isConservative := by
    funext t; simp [isConservative]
  rw [hfil, hfil2]
  by_cases hany : res.any isConservative = true
  · -- velocity available
    have hvel : ∃ vel, velocity e = .ok vel := by
      cases hv : velocity e with
      | ok vel => exact ⟨vel, rfl⟩
      | error er =>
        exfalso
        have : ∀ ts : List (FTerm R d), ts.any isConservative = true → ∀ r,
            splitContinuityLoop D e ts r ≠ .ok res' := by
          intro ts
          induction ts with
          | nil => intro h; simp at h
          | cons t ts ih =>
            intro h r
            rw [splitContinuityLoop]
            cases ht : isConservative t
            · rw [List.any_cons, ht, Bool.false_or] at h
              simpa using ih h r
            · rw [hv]; simp
        exact this res hany res h
    obtain ⟨vel, hv⟩ := hvel
    have hall : ∀ (ts r : List (FTerm R d)), splitContinuityLoop D e ts r = .ok res' →
        ∀ t ∈ ts.filter isConservative, ∃ l, splitPair D e (t.prognostic.getD "") vel t.lin.isSome = .ok l := by
      intro ts
      induction ts with
      | nil => intro r _ t ht; simp at ht
      | cons t ts ih =>
        intro r h s hs
        rw [splitContinuityLoop] at h
        cases ht : isConservative t
        · rw [ht] at h
          rw [List.filter_cons, ht] at hs
          exact ih r (by simpa using h) s (by simpa using hs)
        · rw [ht, hv] at h
          simp only [if_true] at h
          cases hp : splitPair D e (t.prognostic.getD "") vel t.lin.isSome with
          | error er => rw [hp] at h; cases h
          | ok new =>
            rw [hp] at h
            rw [List.filter_cons, ht] at hs
            simp only [if_true, List.mem_cons] at hs
            rcases hs with rfl | hs
            · exact ⟨new, hp⟩
            · exact ih _ h s hs
    have hpairs := hall res res h
    have hres := splitLoop_spec D e vel hv res res res' h
    rw [if_pos hany] at hres
    refine ⟨?_, ?_⟩
    · intro t ht hc
      rw [hres, List.mem_append] at ht
      have hct : isConservative t = true := by simp [isConservative, hc]
      rcases ht with ht | ht
      · simp [hct] at ht
      · rw [List.mem_flatMap] at ht
        obtain ⟨s, _, hs⟩ := ht
        rw [contPair_not_cons D e vel s t hs] at hct
        cases hct
    · clear h hall hany
      generalize res.filter isConservative = cs at hpairs hres
      subst hres
      induction cs with
      | nil => exact ⟨[], by simp⟩
      | cons t cs ih =>
        obtain ⟨new, h1, h2, h3⟩ := ih (fun s hs => hpairs s (List.mem_cons_of_mem _ hs))
        obtain ⟨l, hl⟩ := hpairs t (List.mem_cons_self ..)
        have hl2 : ∃ a b : FTerm R d, l = [a, b] ∧ a.prognostic = some (t.prognostic.getD "") ∧
            b.prognostic = some (t.prognostic.getD "") ∧ a.transport = some .advective ∧ b.transport = none := by
          unfold splitPair at hl
          split at hl
          · split at hl
            · simp only [Except.ok.injEq] at hl
              exact ⟨_, _, hl.symm, rfl, rfl, rfl, rfl⟩
            · cases hl
          · simp only [Except.ok.injEq] at hl
            exact ⟨_, _, hl.symm, rfl, rfl, rfl, rfl⟩
        obtain ⟨a, b, rfl, ha, hb, ha', hb'⟩ := hl2
        refine ⟨(a, b) :: new, ?_, ?_, ?_⟩
        · rw [List.flatMap_cons, List.flatMap_cons]
          have : contPair D e vel t = [a, b] := by unfold contPair; rw [hl]
          rw [this]
          rw [List.append_cancel_left_eq] at h1
          rw [h1]
        · simp [ha, hb, h2]
        · intro p hp
          rcases List.mem_cons.1 hp with rfl | hp
          · exact ⟨ha', hb'⟩
          · exact h3 p hp
  · have hno : ∀ t ∈ res, isConservative t = false := by
      intro t ht
      by_contra hc
      exact hany (List.any_eq_true.2 ⟨t, ht, by simpa using hc⟩)
    have hres : res' = res := by
      have : ∀ (ts r : List (FTerm R d)), (∀ t ∈ ts, isConservative t = false) →
          splitContinuityLoop D e ts r = .ok r := by
        intro ts
        induction ts with
        | nil => intro r _; rfl
        | cons t ts ih =>
          intro r ht
          rw [splitContinuityLoop, ht t (List.mem_cons_self ..)]
          simpa using ih r (fun s hs => ht s (List.mem_cons_of_mem _ hs))
      have h2 := this res res hno
      unfold splitContinuity at h
      rw [h2] at h
      simpa using h.symm
    subst hres
    refine ⟨?_, [], ?_, ?_, by simp⟩
    · intro t ht hc
      have := hno t ht
      simp [isConservative, hc] at this
    · rw [filter_new _ hno]; simp
    · have : res'.filter isConservative = [] := by
        rw [List.filter_eq_nil_iff]
        intro t ht
        rw [hno t ht]; simp
      rw [this]; rfl

/-- **C56** (continuity, success).  The split succeeds exactly if there is no continuity term, or the velocity is a
prognostic, or it is prescribed and no continuity term is linearised. -/
theorem C56_continuity_ok (D : Derivs R d) (e : Eqn R d) (res : List (FTerm R d)) :
    (∃ res', splitContinuity D e res = .ok res') ↔
      ∀ t ∈ res, t.transport = some .conservative →
        progU e = true ∨ (e.prescribedU.isSome = true ∧ t.lin = none) := by
  have hvel : (∃ vel, velocity e = .ok vel) ↔ progU e = true ∨ e.prescribedU.isSome = true := by
    unfold velocity progU
    cases e.fieldNames with
    | none => cases e.prescribedU <;> simp
    | some l =>
      by_cases hu : "u" ∈ l
      · simp [hu]
      · cases e.prescribedU <;> simp [hu]
  have key : ∀ (ts r : List (FTerm R d)), (∃ res', splitContinuityLoop D e ts r = .ok res') ↔
      ∀ t ∈ ts, isConservative t = true → progU e = true ∨ (e.prescribedU.isSome = true ∧ t.lin = none) := by
    intro ts
    induction ts with
    | nil => intro r; simp [splitContinuityLoop]
    | cons t ts ih =>
      intro r
      rw [splitContinuityLoop]
      cases ht : isConservative t
      · simp only [Bool.false_eq_true, if_false]
        rw [ih]
        constructor
        · intro h s hs hc
          rcases List.mem_cons.1 hs with rfl | hs
          · rw [ht] at hc; cases hc
          · exact h s hs hc
        · intro h s hs; exact h s (List.mem_cons_of_mem _ hs)
      · simp only [if_true]
        cases hv : velocity e with
        | error er =>
          have : ¬ ∃ vel, velocity e = .ok vel := by rw [hv]; simp
          rw [hvel, not_or] at this
          simp only [reduceCtorEq, exists_false, false_iff]
          intro h
          rcases h t (List.mem_cons_self ..) ht with h | h
          · exact this.1 h
          · exact this.2 h.1
        | ok vel =>
          have hok := hvel.1 ⟨vel, hv⟩
          by_cases hbad : t.lin.isSome = true ∧ progU e = false
          · simp only [splitPair, hbad.1, hbad.2, if_true, Bool.false_eq_true, if_false, reduceCtorEq, exists_false, false_iff]
            intro h
            rcases h t (List.mem_cons_self ..) ht with h | h
            · cases h
            · rw [h.2] at hbad; simp at hbad
          · have hsp : ∃ new, splitPair D e (t.prognostic.getD "") vel t.lin.isSome = .ok new := by
              unfold splitPair
              cases hl : t.lin.isSome
              · simp
              · cases hpu : progU e
                · exact absurd ⟨hl, hpu⟩ hbad
                · simp
            obtain ⟨new, hnew⟩ := hsp
            simp only [hnew]
            rw [ih]
            constructor
            · intro h s hs hc
              rcases List.mem_cons.1 hs with rfl | hs
              · cases hpu : progU e
                · right
                  rw [hpu] at hok
                  refine ⟨by simpa using hok, ?_⟩
                  cases hl : s.lin with
                  | none => rfl
                  | some x => exact absurd ⟨by rw [hl]; rfl, hpu⟩ hbad
                · left; rfl
              · exact h s hs hc
            · intro h s hs; exact h s (List.mem_cons_of_mem _ hs)
  have := key res res
  unfold splitContinuity
  rw [this]
  simp [isConservative]

theorem total_append (a b : List (FTerm R d)) (X : Fld R d) (v : String → R) :
    total (a ++ b) X v = total a X v + total b X v := by
  simp [total]

theorem total_filter (p : FTerm R d → Bool) (a : List (FTerm R d)) (X : Fld R d) (v : String → R) :
    total (a.filter fun t => !p t) X v + total (a.filter p) X v = total a X v := by
  induction a with
  | nil => simp [total]
  | cons t a ih =>
    simp only [total] at ih ⊢
    rw [List.filter_cons, List.filter_cons, List.map_cons, List.sum_cons, ← ih]
    cases p t <;> simp <;> ring

theorem velocity_some (e : Eqn R d) (h : progU e = true ∨ e.prescribedU.isSome = true) :
    ∃ vel, velocity e = .ok vel := by
  unfold velocity; unfold progU at h
  cases hf : e.fieldNames with
  | none => rw [hf] at h; cases hp : e.prescribedU with
    | none => rw [hp] at h; simp at h
    | some v => exact ⟨_, rfl⟩
  | some l =>
    rw [hf] at h
    by_cases hu : "u" ∈ l
    · exact ⟨_, by simp [hu]; rfl⟩
    · cases hp : e.prescribedU with
      | none => rw [hp] at h; simp [hu] at h
      | some v => exact ⟨_, by simp [hu]; rfl⟩

/-- **C56** (continuity, value).  If every term labelled conservative is the continuity form of its prognostic with
the velocity of the equation, the split residual has the same value for every state and test function. -/
theorem C56_continuity_value_partial (D : Derivs R d) (e : Eqn R d) (res res' : List (FTerm R d))
    (vel : Fld R d → Fin d → R) (hv : velocity e = .ok vel)
    (hc : ∀ t ∈ res, t.transport = some .conservative → ∃ name, t.prognostic = some name ∧
      ∀ X v, t.form X v = v name * ∑ i, D i (X.s name * vel X i))
    (h : splitContinuity D e res = .ok res') : ∀ X v, total res' X v = total res X v := by
  intro X v
  obtain ⟨res2, h2⟩ : ∃ r, r = res' := ⟨_, rfl⟩
  have hpairs := (C56_continuity_ok D e res).1 ⟨res', h⟩
  have hres := splitLoop_spec D e vel hv res res res' h
  split at hres
  · rw [hres, total_append, ← total_filter isConservative res X v]
    congr 1
    have hall : ∀ t ∈ res.filter isConservative, (∃ name, t.prognostic = some name ∧
      ∀ X v, t.form X v = v name * ∑ i, D i (X.s name * vel X i)) ∧
      (progU e = true ∨ (e.prescribedU.isSome = true ∧ t.lin = none)) := by
      intro t ht
      rw [List.mem_filter] at ht
      have ht2 : t.transport = some .conservative := by simpa [isConservative] using ht.2
      exact ⟨hc t ht.1 ht2, hpairs t ht.1 ht2⟩
    clear hres h hpairs hc h2
    generalize res.filter isConservative = cs at hall ⊢
    induction cs with
    | nil => simp [total]
    | cons t cs ih =>
      rw [List.flatMap_cons, total_append, ih (fun s hs => hall s (List.mem_cons_of_mem _ hs))]
      obtain ⟨⟨name, hn, hform⟩, hsp⟩ := hall t (List.mem_cons_self ..)
      have hp : total (contPair D e vel t) X v = t.form X v := by
        rw [hform X v]
        have hprod := div_outer D (X.s name) (vel X)
        simp only [div, outer] at hprod
        rw [hprod]
        unfold contPair splitPair
        rw [hn, Option.getD_some]
        cases hl : t.lin with
        | none => simp [total, advectionForm, div]; ring
        | some l =>
          have : progU e = true := by
            rcases hsp with h | h
            · exact h
            · rw [h.2] at hl; cases hl
          simp [total, advectionForm, div, this]; ring
      rw [hp]
      simp [total]
  · rw [hres]

/-- Linearised continuity term of the prognostic `D` with coefficients given by the reference state. -/
def linTerm (D : Derivs R d) (qbar : R) (ubar : Fin d → R) : FTerm R d :=
  { form := fun X v => v "D" * div D (outer (X.s "D") ubar) + v "D" * div D (outer qbar X.u),
    transport := some .conservative, prognostic := some "D" }

/-- Polynomials in one variable. -/
noncomputable def D1 : Derivs (Polynomial ℚ) 1 := fun _ => Polynomial.derivative'

noncomputable def eqn1 : Eqn (Polynomial ℚ) 1 := ⟨some ["u", "D"], none⟩

/-- **C56** (refutation for linear equations).  The continuity term of a linear equation set, labelled conservative, is
replaced by the nonlinear terms: the residual changes. -/
theorem C56_linear_refuted : ∃ (res' : List (FTerm (Polynomial ℚ) 1)) (X : Fld (Polynomial ℚ) 1) (v : String → Polynomial ℚ),
    splitContinuity D1 eqn1 [linTerm D1 1 0] = .ok res' ∧ total res' X v ≠ total [linTerm D1 1 0] X v := by
  refine ⟨_, ⟨fun _ => Polynomial.X, fun _ => Polynomial.X⟩, fun _ => 1, rfl, ?_⟩
  simp [total, linTerm, div, outer, advectionForm, dot, grad, D1, contPair, splitPair, eqn1,
    isConservative, velocity, progU]
  intro h
  have := congrArg (Polynomial.eval 1) h
  simp at this

/-- **C56** (linearisations, what the split attaches).  The linearisations of the two new terms add up to the
linearised divergence `div(qbar u')` plus `u . grad(qbar)` with the full velocity: a term without trial function. -/
theorem C56_linearisation_partial (D : Derivs R d) (e : Eqn R d) (name : String) (hu : progU e = true)
    (vel : Fld R d → Fin d → R) : ∃ a b la lb, splitPair D e name vel true = .ok [a, b] ∧
      a.lin = some la ∧ b.lin = some lb ∧
      ∀ X ref tr v, la X ref tr v + lb X ref tr v =
        v name * (∑ i, D i (ref.s name * tr.u i)) + v name * ∑ i, vel X i * D i (ref.s name) := by
  refine ⟨_, _, _, _, by simp only [splitPair, hu, if_true]; rfl, rfl, rfl, ?_⟩
  intro X ref tr v
  have hprod := div_outer D (ref.s name) tr.u
  simp only [div, outer] at hprod
  rw [hprod]
  simp only [linearAdvectionForm, dot, grad, div]
  ring

/-- **C56** (linearisations, refutation).  They are not the linearisation of the continuity term: with zero trial
functions they do not vanish. -/
theorem C56_linearisation_refuted : ∃ (a b : FTerm (Polynomial ℚ) 1) (la lb : LinForm (Polynomial ℚ) 1)
    (X ref tr : Fld (Polynomial ℚ) 1) (v : String → Polynomial ℚ),
    splitPair D1 eqn1 "D" (fun X => X.u) true = .ok [a, b] ∧ a.lin = some la ∧ b.lin = some lb ∧
    tr = ⟨fun _ => 0, fun _ => 0⟩ ∧ la X ref tr v + lb X ref tr v ≠ 0 ∧
    linearContinuityForm D1 (v "D") (tr.s "D") tr.u (ref.s "D") ref.u = 0 := by
  obtain ⟨a, b, la, lb, h1, h2, h3, h4⟩ := C56_linearisation_partial D1 eqn1 "D" (by simp [progU, eqn1]) (fun X => X.u)
  refine ⟨a, b, la, lb, ⟨fun _ => 0, fun _ => 1⟩, ⟨fun _ => Polynomial.X, fun _ => 0⟩, ⟨fun _ => 0, fun _ => 0⟩,
    fun _ => 1, h1, h2, h3, rfl, ?_, ?_⟩
  · rw [h4]
    simp [D1]
  · simp [linearContinuityForm, div, outer]

/-! ### Horizontal and vertical parts -/

theorem hvPair_adv (D : Derivs R d) (e : Eqn R d) (k : Fin d → R) (name : String) (vel : Fld R d → Fin d → R)
    (b : Bool) (new : List (FTerm R d)) (h : hvPair D e k name vel b = .ok new) :
    ∃ s t : FTerm R d, new = [s, t] ∧ isAdvectiveFor name s = true ∧ isAdvectiveFor name t = true ∧
      s.lin.isSome = b ∧ t.lin.isSome = b ∧
      "horizontal_transport" ∈ s.others ∧ "vertical_transport" ∈ t.others ∧
      (∀ X v, s.form X v + t.form X v = v name * ∑ i, vel X i * D i (X.s name)) := by
  have hsum : ∀ (w : Fin d → R) (q : R), dot (fun i => w i - k i * dot w k) (grad D q) + dot (fun i => k i * dot w k) (grad D q)
      = ∑ i, w i * D i q := by
    intro w q
    rw [dot_sub_left]
    simp [dot, grad]
  unfold hvPair at h
  simp only at h
  split at h
  · cases h
  split at h
  · split at h
    · simp only [Except.ok.injEq] at h
      refine ⟨_, _, h.symm, by simp [isAdvectiveFor], by simp [isAdvectiveFor], ?_, ?_, by simp, by simp, ?_⟩
      · rename_i hb _; simp [hb]
      · rename_i hb _; simp [hb]
      · intro X v
        simp only [splitAdvectionForm]
        rw [← mul_add, hsum]
    · cases h
  · simp only [Except.ok.injEq] at h
    refine ⟨_, _, h.symm, by simp [isAdvectiveFor], by simp [isAdvectiveFor], ?_, ?_, by simp, by simp, ?_⟩
    · rename_i hb; simpa using hb
    · rename_i hb; simpa using hb
    · intro X v
      simp only [splitAdvectionForm]
      rw [← mul_add, hsum]

theorem splitHV_none (D : Derivs R d) (e : Eqn R d) (k : Fin d → R) (name : String) (ts : List (FTerm R d))
    (hts : ∀ t ∈ ts, isAdvectiveFor name t = false) : ∀ r, splitHVLoop D e k name ts r = .ok r := by
  induction ts with
  | nil => intro r; rfl
  | cons t ts ih =>
    intro r
    rw [splitHVLoop, hts t (List.mem_cons_self ..)]
    simpa using ih (fun s hs => hts s (List.mem_cons_of_mem _ hs)) r

/-- **C56** (horizontal and vertical, terms).  However many advective terms the field has, the result consists of the
other terms, unchanged and in order, and one pair of a horizontal and a vertical term. -/
theorem C56_hv_terms (D : Derivs R d) (e : Eqn R d) (k : Fin d → R) (name : String) (res res' : List (FTerm R d))
    (vel : Fld R d → Fin d → R) (hv : velocity e = .ok vel) (h : splitHV D e k name res = .ok res')
    (hex : ∃ t ∈ res, t.transport = some .advective ∧ t.prognostic = some name) :
    ∃ s t : FTerm R d, res' = (res.filter fun t => !(decide (t.transport = some .advective ∧ t.prognostic = some name)))
        ++ [s, t] ∧
      "horizontal_transport" ∈ s.others ∧ "vertical_transport" ∈ t.others ∧
      (∀ X v, s.form X v + t.form X v = v name * ∑ i, vel X i * D i (X.s name)) := by
  have hf : (fun t : FTerm R d => !(decide (t.transport = some .advective ∧ t.prognostic = some name))) =
      fun t => !isAdvectiveFor name t := by
    funext t; simp [isAdvectiveFor]
  rw [hf]
  have gen : ∀ (ts r : List (FTerm R d)), splitHVLoop D e k name ts r = .ok res' →
      (∃ t ∈ ts, isAdvectiveFor name t = true) →
      ∃ s t : FTerm R d, res' = (r.filter fun t => !isAdvectiveFor name t) ++ [s, t] ∧
      "horizontal_transport" ∈ s.others ∧ "vertical_transport" ∈ t.others ∧
      (∀ X v, s.form X v + t.form X v = v name * ∑ i, vel X i * D i (X.s name)) := by
    intro ts
    induction ts with
    | nil => rintro r _ ⟨t, ht, _⟩; cases ht
    | cons t ts ih =>
      intro r hr hex
      rw [splitHVLoop] at hr
      cases ht : isAdvectiveFor name t
      · rw [ht] at hr
        obtain ⟨s, hs, hs2⟩ := hex
        rcases List.mem_cons.1 hs with rfl | hs
        · rw [ht] at hs2; cases hs2
        · exact ih r (by simpa using hr) ⟨s, hs, hs2⟩
      · rw [ht, hv] at hr
        simp only [if_true] at hr
        cases hp : hvPair D e k name vel t.lin.isSome with
        | error er => rw [hp] at hr; cases hr
        | ok new =>
          rw [hp] at hr
          obtain ⟨a, b, rfl, ha, hb, -, -, ho1, ho2, hval⟩ := hvPair_adv D e k name vel _ _ hp
          by_cases hmore : ∃ s ∈ ts, isAdvectiveFor name s = true
          · obtain ⟨s', t', h1, h2⟩ := ih _ hr hmore
            refine ⟨s', t', ?_, h2⟩
            rw [h1, List.filter_append, List.filter_filter]
            simp [ha, hb]
          · have hnone : ∀ s ∈ ts, isAdvectiveFor name s = false := by
              intro s hs
              by_contra hc
              exact hmore ⟨s, hs, by simpa using hc⟩
            simp only at hr
            rw [splitHV_none D e k name ts hnone] at hr
            simp only [Except.ok.injEq] at hr
            exact ⟨a, b, hr.symm, ho1, ho2, hval⟩
  obtain ⟨t, ht, h1, h2⟩ := hex
  exact gen res res h ⟨t, ht, by simp [isAdvectiveFor, h1, h2]⟩

/-- **C56** (horizontal and vertical, value).  If the field has exactly one advective term, which is the advective form
with the velocity of the equation, the residual has the same value for every state and test function (whatever the
vertical vector `k`). -/
theorem C56_hv_value_partial (D : Derivs R d) (e : Eqn R d) (k : Fin d → R) (name : String) (res res' : List (FTerm R d))
    (vel : Fld R d → Fin d → R) (hv : velocity e = .ok vel) (h : splitHV D e k name res = .ok res')
    (t : FTerm R d) (hone : res.filter (fun t => decide (t.transport = some .advective ∧ t.prognostic = some name)) = [t])
    (ht : ∀ X v, t.form X v = v name * ∑ i, vel X i * D i (X.s name)) :
    ∀ X v, total res' X v = total res X v := by
  intro X v
  have hmem : t ∈ res.filter (fun t => decide (t.transport = some .advective ∧ t.prognostic = some name)) := by
    rw [hone]; simp
  rw [List.mem_filter] at hmem
  obtain ⟨s, s', h1, -, -, h2⟩ := C56_hv_terms D e k name res res' vel hv h ⟨t, hmem.1, by simpa using hmem.2⟩
  rw [h1, total_append, ← total_filter (fun t => decide (t.transport = some .advective ∧ t.prognostic = some name)) res X v,
    hone]
  congr 1
  have := h2 X v
  simp [total, this, ht X v]

/-- **C56** (horizontal and vertical, other fields).  If the field has no advective term nothing changes. -/
theorem C56_hv_none (D : Derivs R d) (e : Eqn R d) (k : Fin d → R) (name : String) (res : List (FTerm R d))
    (h : ∀ t ∈ res, ¬ (t.transport = some .advective ∧ t.prognostic = some name)) :
    splitHV D e k name res = .ok res := by
  refine splitHV_none D e k name res (fun t ht => ?_) res
  have := h t ht
  simpa [isAdvectiveFor] using this

/-- An advective term of the field `f`. -/
noncomputable def advTerm : FTerm (Polynomial ℚ) 1 :=
  { form := fun X v => v "f" * ∑ i, X.u i * D1 i (X.s "f"), transport := some .advective, prognostic := some "f" }

noncomputable def eqn2 : Eqn (Polynomial ℚ) 1 := ⟨some ["u", "f"], none⟩

/-- **C56** (refutation for several terms).  With two advective terms of the field one of them is lost. -/
theorem C56_hv_two_refuted : ∃ (res' : List (FTerm (Polynomial ℚ) 1)) (X : Fld (Polynomial ℚ) 1) (v : String → Polynomial ℚ),
    splitHV D1 eqn2 (fun _ => 1) "f" [advTerm, advTerm] = .ok res' ∧ total res' X v ≠ total [advTerm, advTerm] X v := by
  have hok : ∃ r, splitHV D1 eqn2 (fun _ => 1) "f" [advTerm, advTerm] = .ok r := ⟨_, rfl⟩
  obtain ⟨r, hr⟩ := hok
  refine ⟨r, ⟨fun _ => Polynomial.X, fun _ => 1⟩, fun _ => 1, hr, ?_⟩
  obtain ⟨s, t, h1, -, -, h2⟩ := C56_hv_terms D1 eqn2 (fun _ => 1) "f" _ r (fun X => X.u) (by simp [velocity, eqn2]) hr
    ⟨advTerm, by simp, rfl, rfl⟩
  have h3 := h2 ⟨fun _ => Polynomial.X, fun _ => 1⟩ (fun _ => 1)
  rw [h1]
  have h4 : (fun t : FTerm (Polynomial ℚ) 1 => t.form ⟨fun _ => Polynomial.X, fun _ => 1⟩ (fun _ => 1)) advTerm = 1 := by
    simp [advTerm, D1]
  simp only [D1] at h3
  simp [advTerm] at h3
  simp [total, advTerm, D1, h3]

/-- **C56** (horizontal and vertical, repeated split).  Splitting an already split equation again leaves the value
unchanged. -/
theorem C56_hv_again (D : Derivs R d) (e : Eqn R d) (k : Fin d → R) (name : String) (res r1 r2 : List (FTerm R d))
    (vel : Fld R d → Fin d → R) (hv : velocity e = .ok vel) (h1 : splitHV D e k name res = .ok r1)
    (h2 : splitHV D e k name r1 = .ok r2) : ∀ X v, total r2 X v = total r1 X v := by
  intro X v
  by_cases hex : ∃ t ∈ res, t.transport = some .advective ∧ t.prognostic = some name
  · obtain ⟨s, t, e1, -, -, v1⟩ := C56_hv_terms D e k name res r1 vel hv h1 hex
    by_cases hex2 : ∃ t ∈ r1, t.transport = some .advective ∧ t.prognostic = some name
    · obtain ⟨s2, t2, e2, -, -, v2⟩ := C56_hv_terms D e k name r1 r2 vel hv h2 hex2
      -- the pair of the first split is advective
      have hst : ∀ x ∈ [s, t], (decide (x.transport = some .advective ∧ x.prognostic = some name)) = true := by
        have gen : ∀ (ts r : List (FTerm R d)), splitHVLoop D e k name ts r = .ok r1 →
            (∃ t ∈ ts, isAdvectiveFor name t = true) →
            ∃ a b : FTerm R d, r1 = (r.filter fun t => !isAdvectiveFor name t) ++ [a, b] ∧
              isAdvectiveFor name a = true ∧ isAdvectiveFor name b = true := by
          intro ts
          induction ts with
          | nil => rintro r _ ⟨t, ht, _⟩; cases ht
          | cons t ts ih =>
            intro r hr hex
            rw [splitHVLoop] at hr
            cases ht : isAdvectiveFor name t
            · rw [ht] at hr
              obtain ⟨s, hs, hs2⟩ := hex
              rcases List.mem_cons.1 hs with rfl | hs
              · rw [ht] at hs2; cases hs2
              · exact ih r (by simpa using hr) ⟨s, hs, hs2⟩
            · rw [ht, hv] at hr
              simp only [if_true] at hr
              cases hp : hvPair D e k name vel t.lin.isSome with
              | error er => rw [hp] at hr; cases hr
              | ok new =>
                rw [hp] at hr
                obtain ⟨a, b, rfl, ha, hb, -⟩ := hvPair_adv D e k name vel _ _ hp
                by_cases hmore : ∃ s ∈ ts, isAdvectiveFor name s = true
                · obtain ⟨s', t', h1, h2⟩ := ih _ hr hmore
                  refine ⟨s', t', ?_, h2⟩
                  rw [h1, List.filter_append, List.filter_filter]
                  simp [ha, hb]
                · have hnone : ∀ s ∈ ts, isAdvectiveFor name s = false := by
                    intro s hs
                    by_contra hc
                    exact hmore ⟨s, hs, by simpa using hc⟩
                  simp only at hr
                  rw [splitHV_none D e k name ts hnone] at hr
                  simp only [Except.ok.injEq] at hr
                  exact ⟨a, b, hr.symm, ha, hb⟩
        obtain ⟨t0, ht0, ha0, hb0⟩ := hex
        obtain ⟨a, b, hab, ha, hb⟩ := gen res res h1 ⟨t0, ht0, by simp [isAdvectiveFor, ha0, hb0]⟩
        have hf : (fun t : FTerm R d => !(decide (t.transport = some .advective ∧ t.prognostic = some name))) =
            fun t => !isAdvectiveFor name t := by
          funext t; simp [isAdvectiveFor]
        rw [e1, hf, List.append_cancel_left_eq] at hab
        obtain ⟨ea, hab⟩ := List.cons.inj hab
        obtain ⟨eb, -⟩ := List.cons.inj hab
        rw [← ea] at ha
        rw [← eb] at hb
        intro x hx
        simp only [List.mem_cons, List.not_mem_nil, or_false] at hx
        rcases hx with rfl | rfl
        · simpa [isAdvectiveFor] using ha
        · simpa [isAdvectiveFor] using hb
      rw [e2, e1, total_append, total_append, List.filter_append, List.filter_filter]
      have hs := hst s (by simp)
      have ht := hst t (by simp)
      have hnil : [s, t].filter (fun t => !(decide (t.transport = some .advective ∧ t.prognostic = some name))) = [] := by
        simp only [List.filter_cons, hs, ht]; rfl
      rw [hnil]
      have a1 := v1 X v
      have a2 := v2 X v
      simp only [Bool.and_self, List.append_nil]
      congr 1
      simp only [total, List.map_cons, List.map_nil, List.sum_cons, List.sum_nil, add_zero]
      rw [a1, a2]
    · have : splitHV D e k name r1 = .ok r1 := C56_hv_none D e k name r1 (fun t ht hc => hex2 ⟨t, ht, hc⟩)
      rw [this] at h2
      simp only [Except.ok.injEq] at h2
      rw [h2]
  · have hn : ∀ t ∈ res, ¬ (t.transport = some .advective ∧ t.prognostic = some name) := fun t ht hc => hex ⟨t, ht, hc⟩
    rw [C56_hv_none D e k name res hn] at h1
    simp only [Except.ok.injEq] at h1
    subst h1
    rw [C56_hv_none D e k name res hn] at h2
    simp only [Except.ok.injEq] at h2
    rw [h2]

/-! ### C79: the forms and their linearisations -/

/-- **C79** (product rules).  The continuity form is the advective form plus `q div u`; the tracer-conservative form is
the continuity form of `q rho`, that is `rho` times the advective form of `q` plus `q` times the continuity form of
`rho`. -/
theorem C79_product_rules (D : Derivs R d) (test q rho : R) (u : Fin d → R) :
    continuityForm D test q u = advectionForm D test q u + test * q * (∑ i, D i (u i)) ∧
    tracerConservativeForm D test q rho u = continuityForm D test (q * rho) u ∧
    tracerConservativeForm D test q rho u = rho * advectionForm D test q u + q * continuityForm D test rho u ∧
    continuityForm D test 1 u = test * ∑ i, D i (u i) := by
  refine ⟨?_, rfl, ?_, ?_⟩
  · rw [continuityForm, div_outer, advectionForm, div]; ring
  · rw [tracerConservativeForm, continuityForm, div_outer, div_outer, advectionForm]
    have : dot u (grad D (q * rho)) = q * dot u (grad D rho) + rho * dot u (grad D q) := by
      simp only [dot, grad, Derivation.leibniz, smul_eq_mul, mul_add, Finset.sum_add_distrib, Finset.mul_sum]
      congr 1 <;> refine Finset.sum_congr rfl fun i _ => by ring
    rw [this]; ring
  · rw [continuityForm, div_outer]
    simp [dot, grad, div]

/-- **C79** (linear forms).  Each linear form is the derivative of the nonlinear form at the mean state: the expansion
of the nonlinear form at mean plus perturbation is its mean value, the linear form, and a form of the perturbation
alone. -/
theorem C79_linear_forms (D : Derivs R d) (test q qbar : R) (u ubar : Fin d → R) :
    advectionForm D test (qbar + q) (fun i => ubar i + u i) = advectionForm D test qbar ubar
      + linearAdvectionForm D test q u qbar ubar + advectionForm D test q u ∧
    continuityForm D test (qbar + q) (fun i => ubar i + u i) = continuityForm D test qbar ubar
      + linearContinuityForm D test q u qbar ubar + continuityForm D test q u := by
  constructor
  · simp only [advectionForm, linearAdvectionForm, dot, grad, map_add, add_mul, mul_add, Finset.sum_add_distrib]
    ring
  · simp only [continuityForm, linearContinuityForm, div, outer, map_add, add_mul, mul_add, Finset.sum_add_distrib]
    ring

theorem half_half (x : R) : algebraMap ℚ R (1 / 2) * x + algebraMap ℚ R (1 / 2) * x = x := by
  rw [← add_mul, ← map_add]; norm_num

/-- **C79** (linear vector-invariant and circulation forms), in three dimensions and in the plane. -/
theorem C79_linear_vector_forms :
    (∀ (D : Derivs R 3) (test q ubar : Fin 3 → R),
      vectorInvariant3 D test (fun i => ubar i + q i) (fun i => ubar i + q i) = vectorInvariant3 D test ubar ubar
        + linearVectorInvariant3 D test q ubar + vectorInvariant3 D test q q ∧
      circulation3 D test (fun i => ubar i + q i) (fun i => ubar i + q i) = circulation3 D test ubar ubar
        + linearCirculation3 D test q ubar + circulation3 D test q q) ∧
    (∀ (D : Derivs R 2) (test q ubar : Fin 2 → R),
      vectorInvariant2 D test (fun i => ubar i + q i) (fun i => ubar i + q i) = vectorInvariant2 D test ubar ubar
        + linearVectorInvariant2 D test q ubar + vectorInvariant2 D test q q ∧
      circulation2 D test (fun i => ubar i + q i) (fun i => ubar i + q i) = circulation2 D test ubar ubar
        + linearCirculation2 D test q ubar + circulation2 D test q q) := by
  constructor
  · intro D test q ubar
    have c : circulation3 D test (fun i => ubar i + q i) (fun i => ubar i + q i) = circulation3 D test ubar ubar
        + linearCirculation3 D test q ubar + circulation3 D test q q := by
      simp [circulation3, linearCirculation3, dot, cross, curl, Fin.sum_univ_three, map_add]
      ring
    refine ⟨?_, c⟩
    rw [vectorInvariant3, c]
    have e : algebraMap ℚ R (1 / 2) * div D test * dot (fun i => ubar i + q i) (fun i => ubar i + q i) =
        algebraMap ℚ R (1 / 2) * div D test * dot ubar ubar + div D test * dot q ubar
        + algebraMap ℚ R (1 / 2) * div D test * dot q q := by
      have h := half_half (div D test * dot q ubar)
      rw [dot_add_left, dot_add_right, dot_add_right]
      have hc : dot ubar q = dot q ubar := by
        simp only [dot]; exact Finset.sum_congr rfl fun i _ => mul_comm _ _
      rw [hc]
      linear_combination h
    rw [e, linearVectorInvariant3, vectorInvariant3, vectorInvariant3]
    ring
  · intro D test q ubar
    have c : circulation2 D test (fun i => ubar i + q i) (fun i => ubar i + q i) = circulation2 D test ubar ubar
        + linearCirculation2 D test q ubar + circulation2 D test q q := by
      simp [circulation2, linearCirculation2, dot, perp, div, Fin.sum_univ_two, map_add]
      ring
    refine ⟨?_, c⟩
    rw [vectorInvariant2, c]
    have e : algebraMap ℚ R (1 / 2) * div D test * dot (fun i => ubar i + q i) (fun i => ubar i + q i) =
        algebraMap ℚ R (1 / 2) * div D test * dot ubar ubar + div D test * dot q ubar
        + algebraMap ℚ R (1 / 2) * div D test * dot q q := by
      have h := half_half (div D test * dot q ubar)
      rw [dot_add_left, dot_add_right, dot_add_right]
      have hc : dot ubar q = dot q ubar := by
        simp only [dot]; exact Finset.sum_congr rfl fun i _ => mul_comm _ _
      rw [hc]
      linear_combination h
    rw [e, linearVectorInvariant2, vectorInvariant2, vectorInvariant2]
    ring

/-- The advective form of a vector field. -/
def vectorAdvection (D : Derivs R d) (test q u : Fin d → R) : R := ∑ i, test i * ∑ j, u j * D j (q i)

/-- **C79** (vector-invariant form, three dimensions).  For a velocity transporting itself the vector-invariant form is
the advective form `test . (u . grad) u` up to a divergence, which integrates to the boundary; it is the circulation
form plus the kinetic-energy form. -/
theorem C79_vector_invariant_partial (D : Derivs R 3) (test u : Fin 3 → R) :
    vectorInvariant3 D test u u = vectorAdvection D test u u
      - ∑ i, D i (algebraMap ℚ R (1 / 2) * (∑ j, u j * u j) * test i) ∧
    vectorInvariant3 D test u u = circulation3 D test u u + kineticEnergyForm D test u u := by
  refine ⟨?_, by rw [vectorInvariant3, kineticEnergyForm, sub_eq_add_neg]⟩
  simp only [vectorInvariant3, circulation3, vectorAdvection, dot, cross, curl, div, Fin.sum_univ_three,
    Derivation.leibniz, Derivation.map_algebraMap, smul_eq_mul, map_add, Matrix.cons_val_zero, Matrix.cons_val_one,
    Matrix.cons_val_two, Matrix.head_cons, Matrix.tail_cons, Matrix.cons_val]
  have a0 := half_half (test 0 * (u 0 * D 0 (u 0) + u 1 * D 0 (u 1) + u 2 * D 0 (u 2)))
  have a1 := half_half (test 1 * (u 0 * D 1 (u 0) + u 1 * D 1 (u 1) + u 2 * D 1 (u 2)))
  have a2 := half_half (test 2 * (u 0 * D 2 (u 0) + u 1 * D 2 (u 1) + u 2 * D 2 (u 2)))
  linear_combination a0 + a1 + a2

/-- **C79** (circulation form, the plane: what it is).  In the plane the circulation form has the wrong sign: it is
minus `test . (zeta k x u)` with the vorticity `zeta = d_x q_y - d_y q_x`, so that the vector-invariant form differs from
the advective form (up to a divergence) by twice the vorticity term. -/
theorem C79_plane_partial (D : Derivs R 2) (test q u : Fin 2 → R) :
    circulation2 D test q u = -((D 0 (q 1) - D 1 (q 0)) * (test 0 * (-u 1) + test 1 * u 0)) ∧
    vectorInvariant2 D test u u = vectorAdvection D test u u
      - (∑ i, D i (algebraMap ℚ R (1 / 2) * (∑ j, u j * u j) * test i))
      - 2 * ((D 0 (u 1) - D 1 (u 0)) * (test 0 * (-u 1) + test 1 * u 0)) := by
  constructor
  · simp [circulation2, dot, perp, div, Fin.sum_univ_two]
    ring
  · simp only [vectorInvariant2, circulation2, vectorAdvection, dot, perp, div, Fin.sum_univ_two,
      Derivation.leibniz, Derivation.map_algebraMap, smul_eq_mul, map_add, map_neg, Matrix.cons_val_zero, Matrix.cons_val_one,
      Matrix.head_cons, Matrix.cons_val]
    have a0 := half_half (test 0 * (u 0 * D 0 (u 0) + u 1 * D 0 (u 1)))
    have a1 := half_half (test 1 * (u 0 * D 1 (u 0) + u 1 * D 1 (u 1)))
    linear_combination a0 + a1

/-- Partial derivative along the first coordinate only. -/
noncomputable def Dx : Derivs (Polynomial ℚ) 2 := ![Polynomial.derivative', 0]

/-- **C79** (refutation in the plane).  For the shear flow `u = (1, x)` the circulation form is not the vorticity
term `(curl u) x u`, which is `(-x, 1)`: with `test = (0, 1)` it is `-1` instead of `1`. -/
theorem C79_plane_refuted : circulation2 Dx ![0, 1] ![1, Polynomial.X] ![1, Polynomial.X] = -1 ∧
    (Dx 0 (![1, Polynomial.X] 1 : Polynomial ℚ) - Dx 1 (![1, Polynomial.X] 0)) * (![1, Polynomial.X] 0 : Polynomial ℚ) = 1 := by
  constructor
  · simp [circulation2, dot, perp, div, Fin.sum_univ_two, Dx]
  · simp [Dx]

/-- **C79** (diffusion).  The diffusion form is minus `test . div(kappa grad q)`, and equals `kappa grad(test) . grad(q)` up
to a divergence; with non-negative squares it is dissipative: for `test = q` it is `kappa |grad q|²` up to a
divergence. -/
theorem C79_diffusion (D : Derivs R d) (test q kappa : R) :
    diffusionForm D test q kappa = ∑ i, kappa * D i test * D i q - ∑ i, D i (test * (kappa * D i q)) := by
  simp only [diffusionForm, div, Derivation.leibniz, smul_eq_mul, Finset.mul_sum, ← Finset.sum_neg_distrib,
    ← Finset.sum_sub_distrib]
  refine Finset.sum_congr rfl fun i _ => by ring

example : continuityForm D1 1 Polynomial.X (fun _ => Polynomial.X) ≠ 0 := by
  intro h
  have := congrArg (Polynomial.eval 1) h
  simp [continuityForm, div, outer, D1] at this

/-- The hypotheses of the value theorem are met by the shallow-water equations in one dimension. -/
example : ∃ res', splitContinuity D1 eqn1
    [{ form := fun X v => v "D" * ∑ i, D1 i (X.s "D" * X.u i), transport := some .conservative, prognostic := some "D" },
     { form := fun X v => v "D" * X.s "D", prognostic := some "D" }] = .ok res' :=
  (C56_continuity_ok D1 eqn1 _).2 (fun t _ _ => Or.inl (by simp [progU, eqn1]))

end Gusto.Props.FormProps
