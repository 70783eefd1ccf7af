import Verif.Model.FML
import Mathlib.Algebra.Module.LinearMap.Defs
import Mathlib.Algebra.Module.Prod

set_option autoImplicit false

/-!
# An equation with prescribed boundary values

A field is a pair of its interior degrees of freedom (`I`) and its boundary degrees of freedom (`B`).  With boundary
values `g` fixed, the equation for the whole field becomes an equation for the interior degrees of freedom alone: every
form is evaluated at `(y, g)` and tested with the interior test functions only (`ρ` keeps these components of an
assembled form).
-/

namespace Gusto.Spec
open Gusto
variable {X X₀ D D₀ : Type*}

/-- The term `t₀` is the term `t` evaluated on fields of the form `ι y` and tested with the functions kept by `ρ`. -/
structure RestrictsTerm (ι : X₀ → X) (ρ : D → D₀) (t : Term X D) (t₀ : Term X₀ D₀) : Prop where
  labels : t.labels = t₀.labels
  subj : t.subj = ι t₀.subj
  op : ∀ x, ρ (t.op (ι x)) = t₀.op x
  attached : List.Forall₂ (fun a a₀ => a.1 = a₀.1 ∧ ∀ x, ρ (a.2 (ι x)) = a₀.2 x) t.attached t₀.attached

/-- The labelled form `R₀` is `R`, term by term, for fields `ι y` and the test functions kept by `ρ`. -/
def Restricts (ι : X₀ → X) (ρ : D → D₀) (R : LForm X D) (R₀ : LForm X₀ D₀) : Prop :=
  List.Forall₂ (RestrictsTerm ι ρ) R R₀

/-- The solver `s`, started from a field `ι g`, solves for `y` with the equations kept by `ρ` and returns `ι y`, where
`s₀` is the solver for `y`. -/
def RestrictsSolver (ι : X₀ → X) (ρ : D → D₀) (s : Solver X D) (s₀ : Solver X₀ D₀) : Prop :=
  ∀ (r : X → D) (g : X₀), s r (ι g) = ι (s₀ (fun y => ρ (r (ι y))) g)

/-- The optional operation `L` (a limiter) on fields `ι y` is the operation `L₀` on `y`. -/
def RestrictsLimiter (ι : X₀ → X) (L : Option (X → X)) (L₀ : Option (X₀ → X₀)) : Prop :=
  Option.Rel (fun f f₀ => ∀ y, f (ι y) = ι (f₀ y)) L L₀

/-- Whatever the equations and the guess, the solution has the boundary values `g` (`γ` reads the boundary values of a
field). -/
def Enforces {B : Type*} (γ : X → B) (g : B) (s : Solver X D) : Prop := ∀ (r : X → D) (x : X), γ (s r x) = g

/-- An optional operation (a limiter) keeps boundary values that are right. -/
def KeepsValues {B : Type*} (γ : X → B) (g : B) (L : Option (X → X)) : Prop :=
  ∀ l ∈ L, ∀ x, γ x = g → γ (l x) = g

end Gusto.Spec
