import Verif.Spec.Constrained
import Verif.Spec.ConstrainedSchemes
import Verif.Model.DeferredCorrection
import Verif.Model.ExplicitRK
import Verif.Model.Multilevel
import Verif.Lemmas.FML

set_option autoImplicit false
set_option linter.unusedSectionVars false
set_option linter.unusedSimpArgs false

/-! Restricting labelled forms to fields with prescribed boundary values commutes with everything the schemes do to
residuals. -/

namespace Gusto.Constrained
open Gusto Gusto.Spec LForm TimeDisc
variable {K X X₀ D D₀ : Type*} [Field K] [AddCommGroup D] [Module K D] [AddCommGroup D₀] [Module K D₀]
variable {ι : X₀ → X} {ρ : D →ₗ[K] D₀}

/-- abbreviation -/
abbrev FR (ι : X₀ → X) (ρ : D →ₗ[K] D₀) := Restricts (X := X) (X₀ := X₀) ι (fun d => ρ d)
/-- abbreviation -/
abbrev TR (ι : X₀ → X) (ρ : D →ₗ[K] D₀) := RestrictsTerm (X := X) (X₀ := X₀) ι (fun d => ρ d)

theorem FR.eval {F : LForm X D} {F₀ : LForm X₀ D₀} (h : FR ι ρ F F₀) : ρ F.eval = F₀.eval := by
  unfold FR Restricts at h
  induction h with
  | nil => simp [LForm.eval]
  | cons ht _ ih =>
    simp only [eval_cons, map_add, ih]
    congr 1
    simp only [Term.eval, ht.subj]
    exact ht.op _

theorem FR.length {F : LForm X D} {F₀ : LForm X₀ D₀} (h : FR ι ρ F F₀) : F.length = F₀.length :=
  List.Forall₂.length_eq h

theorem FR.nil : FR ι ρ ([] : LForm X D) ([] : LForm X₀ D₀) := List.Forall₂.nil

theorem FR.append {F G : LForm X D} {F₀ G₀ : LForm X₀ D₀} (h : FR ι ρ F F₀) (h' : FR ι ρ G G₀) :
    FR ι ρ (F ++ G) (F₀ ++ G₀) := List.rel_append h h'

theorem FR.add {F G : LForm X D} {F₀ G₀ : LForm X₀ D₀} (h : FR ι ρ F F₀) (h' : FR ι ρ G G₀) :
    FR ι ρ (LForm.add F G) (LForm.add F₀ G₀) := FR.append h h'

theorem FR.neg {F : LForm X D} {F₀ : LForm X₀ D₀} (h : FR ι ρ F F₀) :
    FR ι ρ (F.map fun t => { t with op := fun x => - t.op x }) (F₀.map fun t => { t with op := fun x => - t.op x }) := by
  unfold FR Restricts at *
  induction h with
  | nil => exact List.Forall₂.nil
  | cons ht _ ih =>
    refine List.Forall₂.cons ⟨ht.labels, ht.subj, fun x => ?_, ht.attached⟩ ih
    simp only [map_neg]
    rw [ht.op]

theorem FR.sub {F G : LForm X D} {F₀ G₀ : LForm X₀ D₀} (h : FR ι ρ F F₀) (h' : FR ι ρ G G₀) :
    FR ι ρ (LForm.sub F G) (LForm.sub F₀ G₀) := FR.append h (FR.neg h')

theorem FR.single {t : Term X D} {t₀ : Term X₀ D₀} (h : TR ι ρ t t₀) : FR ι ρ [t] [t₀] :=
  List.Forall₂.cons h List.Forall₂.nil

theorem FR.keep {t : Term X D} {t₀ : Term X₀ D₀} (h : TR ι ρ t t₀) : FR ι ρ (LForm.keep t) (LForm.keep t₀) :=
  FR.single h

theorem FR.drop {t : Term X D} {t₀ : Term X₀ D₀} : FR ι ρ (LForm.drop t) (LForm.drop t₀) := FR.nil

theorem FR.replaceSubject {t : Term X D} {t₀ : Term X₀ D₀} {x : X} {x₀ : X₀} (hx : x = ι x₀) (h : TR ι ρ t t₀) :
    FR ι ρ (LForm.replaceSubject x t) (LForm.replaceSubject x₀ t₀) :=
  FR.single ⟨h.labels, hx, h.op, h.attached⟩

theorem FR.scaleTerm {t : Term X D} {t₀ : Term X₀ D₀} (c : K) (h : TR ι ρ t t₀) :
    FR ι ρ (LForm.scaleTerm c t) (LForm.scaleTerm c t₀) := by
  refine FR.single ⟨h.labels, h.subj, fun x => ?_, h.attached⟩
  simp only [map_smul]
  rw [h.op]

theorem FR.scaleTermInt {t : Term X D} {t₀ : Term X₀ D₀} (c : ℤ) (h : TR ι ρ t t₀) :
    FR ι ρ (LForm.scaleTerm c t) (LForm.scaleTerm c t₀) := by
  refine FR.single ⟨h.labels, h.subj, fun x => ?_, h.attached⟩
  simp only [map_zsmul]
  rw [h.op]

theorem FR.labelMap {F : LForm X D} {F₀ : LForm X₀ D₀} {p : Term X D → Bool} {p₀ : Term X₀ D₀ → Bool}
    {f g : Term X D → LForm X D} {f₀ g₀ : Term X₀ D₀ → LForm X₀ D₀} (h : FR ι ρ F F₀)
    (hp : ∀ t t₀, TR ι ρ t t₀ → p t = p₀ t₀) (hf : ∀ t t₀, TR ι ρ t t₀ → FR ι ρ (f t) (f₀ t₀))
    (hg : ∀ t t₀, TR ι ρ t t₀ → FR ι ρ (g t) (g₀ t₀)) : FR ι ρ (F.labelMap p f g) (F₀.labelMap p₀ f₀ g₀) := by
  unfold FR Restricts at h
  induction h with
  | nil => exact FR.nil
  | @cons t t₀ l l₀ ht _ ih =>
    simp only [LForm.labelMap, List.flatMap_cons]
    refine FR.append ?_ ih
    rw [hp t t₀ ht]
    split
    · exact hf _ _ ht
    · exact hg _ _ ht

theorem FR.smul {F : LForm X D} {F₀ : LForm X₀ D₀} (c : K) (h : FR ι ρ F F₀) :
    FR ι ρ (LForm.smul c F) (LForm.smul c F₀) := by
  unfold FR Restricts at h
  induction h with
  | nil => exact FR.nil
  | cons ht _ ih =>
    simp only [LForm.smul, List.flatMap_cons]
    exact FR.append (FR.scaleTerm c ht) ih

theorem TR.has {t : Term X D} {t₀ : Term X₀ D₀} (h : TR ι ρ t t₀) (l : Label) : t.has l = t₀.has l := by
  simp only [Term.has, h.labels]

theorem TR.physIdx {t : Term X D} {t₀ : Term X₀ D₀} (h : TR ι ρ t t₀) : t.physIdx = t₀.physIdx := by
  simp only [Term.physIdx, h.labels]

theorem FR.foldl {α : Type*} {F : LForm X D} {F₀ : LForm X₀ D₀} (l : List α) {f : LForm X D → α → LForm X D}
    {f₀ : LForm X₀ D₀ → α → LForm X₀ D₀} (h : FR ι ρ F F₀)
    (hf : ∀ a G G₀, FR ι ρ G G₀ → FR ι ρ (f G a) (f₀ G₀ a)) : FR ι ρ (l.foldl f F) (l.foldl f₀ F₀) := by
  induction l generalizing F F₀ with
  | nil => exact h
  | cons a l ih => exact ih (hf a _ _ h)

/-- A relation kept by the body of a loop is kept by the loop. -/
theorem foldl_rel {α σ τ : Type*} (rel : σ → τ → Prop) (l : List α) {f : σ → α → σ} {g : τ → α → τ} {s : σ} {t : τ}
    (h : rel s t) (hf : ∀ a ∈ l, ∀ s t, rel s t → rel (f s a) (g t a)) : rel (l.foldl f s) (l.foldl g t) := by
  induction l generalizing s t with
  | nil => exact h
  | cons a l ih =>
    exact ih (hf a (List.mem_cons_self ..) _ _ h) fun b hb => hf b (List.mem_cons_of_mem _ hb)

theorem FR.toAllButLast {t : Term X D} {t₀ : Term X₀ D₀} (h : TR ι ρ t t₀) :
    FR ι ρ (RK.toAllButLast t) (RK.toAllButLast t₀) := by
  have hl : ∀ (l : List (Label × (X → D))) (l₀ : List (Label × (X₀ → D₀))),
      List.Forall₂ (fun a a₀ => a.1 = a₀.1 ∧ ∀ x, ρ (a.2 (ι x)) = a₀.2 x) l l₀ →
      (l.lookup .allButLast = none ∧ l₀.lookup .allButLast = none) ∨
      ∃ f f₀, l.lookup .allButLast = some f ∧ l₀.lookup .allButLast = some f₀ ∧ ∀ x, ρ (f (ι x)) = f₀ x := by
    intro l l₀ hl
    induction hl with
    | nil => left; exact ⟨rfl, rfl⟩
    | @cons a a₀ l l₀ ha _ ih =>
      obtain ⟨k, f⟩ := a
      obtain ⟨k₀, f₀⟩ := a₀
      obtain ⟨h1, h2⟩ := ha
      simp only at h1 h2
      subst h1
      by_cases hk : Label.allButLast = k
      · right
        subst hk
        exact ⟨f, f₀, by simp [List.lookup], by simp [List.lookup], h2⟩
      · have hk' : (Label.allButLast == k) = false := by simpa using hk
        simp only [List.lookup, hk']
        exact ih
  unfold RK.toAllButLast Term.getForm
  rcases hl _ _ h.attached with ⟨h1, h2⟩ | ⟨f, f₀, h1, h2, h3⟩
  · rw [h1, h2]
    exact FR.single h
  · rw [h1, h2]
    exact FR.single ⟨h.labels, h.subj, h3, h.attached⟩

/-- closes goals about predicates of labels -/
macro "labels" : tactic => `(tactic|
  (intro t t₀ h
   simp only [isTD, RK.isSource, IMEX.isImpl, IMEX.isExpl, IMEX.isSrc, TR.has h, allTerms]))

/-- proves that two residuals built in the same way are related -/
syntax "rel" : tactic
macro_rules
  | `(tactic| rel) => `(tactic|
    repeat' first
      | assumption
      | exact FR.nil
      | exact FR.drop
      | (apply FR.keep; assumption)
      | (apply FR.replaceSubject)
      | (apply FR.scaleTerm; assumption)
      | (apply FR.scaleTermInt; assumption)
      | (apply FR.toAllButLast; assumption)
      | apply FR.sub
      | apply FR.add
      | apply FR.smul
      | (apply FR.foldl; rotate_left; intro _ _ _ _)
      | apply FR.labelMap
      | (labels; done)
      | (intro _ _ _)
      | rfl)

end Gusto.Constrained
