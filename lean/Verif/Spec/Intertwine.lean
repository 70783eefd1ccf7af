import Verif.Model.FML
import Mathlib.Algebra.Module.LinearMap.Defs
import Mathlib.Algebra.Module.Prod

set_option autoImplicit false

/-!
# Maps that carry one equation to another

A map `ι` of fields and a map `ρ` of assembled forms carry the equation `R₀` to the equation `R` when every form of `R`
at `ι x` is the image under `ρ` of the form of `R₀` at `x`.
-/

namespace Gusto.Spec
open Gusto
variable {X X₀ D D₀ : Type*}

/-- `ι` and `ρ` carry the term `t₀` to the term `t`. -/
structure IntertwinesTerm (ι : X₀ → X) (ρ : D₀ → D) (t : Term X D) (t₀ : Term X₀ D₀) : Prop where
  labels : t.labels = t₀.labels
  subj : t.subj = ι t₀.subj
  op : ∀ x, t.op (ι x) = ρ (t₀.op x)
  attached : List.Forall₂ (fun a a₀ => a.1 = a₀.1 ∧ ∀ x, a.2 (ι x) = ρ (a₀.2 x)) t.attached t₀.attached

/-- `ι` and `ρ` carry the labelled form `R₀` to `R`, term by term. -/
def Intertwines (ι : X₀ → X) (ρ : D₀ → D) (R : LForm X D) (R₀ : LForm X₀ D₀) : Prop :=
  List.Forall₂ (IntertwinesTerm ι ρ) R R₀

/-- For residuals carried by `ι` and `ρ`, the solver `s` started from `ι g` returns `ι` of what `s₀` returns from `g`. -/
def IntertwinesSolver (ι : X₀ → X) (ρ : D₀ → D) (s : Solver X D) (s₀ : Solver X₀ D₀) : Prop :=
  ∀ (r : X → D) (r₀ : X₀ → D₀), (∀ y, r (ι y) = ρ (r₀ y)) → ∀ g, s r (ι g) = ι (s₀ r₀ g)

/-- The optional operation `L` (a limiter) on fields `ι y` is the operation `L₀` on `y`. -/
def IntertwinesLimiter (ι : X₀ → X) (L : Option (X → X)) (L₀ : Option (X₀ → X₀)) : Prop :=
  Option.Rel (fun f f₀ => ∀ y, f (ι y) = ι (f₀ y)) L L₀

end Gusto.Spec
