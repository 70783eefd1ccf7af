import Mathlib.Algebra.Field.Basic
import Mathlib.Algebra.BigOperators.Group.Finset.Basic
import Mathlib.Algebra.Module.Pi
import Mathlib.Logic.Function.Iterate
import Mathlib.Data.Fintype.BigOperators

set_option autoImplicit false

/-!
# SUPG: the adjusted test function

`SUPGWrapper` (time_discretisation/wrappers.py 311-422), the part of `TimeDiscretisation.setup` which uses it
(time_discretisation/time_discretisation.py 305-329) and `BaseTimestepper.setup_transporting_velocity` (timestepping/timestepper.py
121-166).

A form is a function of the values of the velocity symbols in it and of the test function of its field; `ufl.replace` of a symbol or
of the test function is substitution.  Every `Function` made for a velocity is a symbol, numbered.  Not modelled: the solvers.
-/

namespace Gusto.SUPG

section tau
variable {K : Type*} [Field K]

/-- The Sobolev space of an element, as far as it is looked at: the name, and for `DirectionalH` the order in each direction
(UFL; wrappers.py 346-352, function_spaces.py 548-566). -/
inductive Sobolev where
  | h1 | l2 | hdiv | hcurl
  | directional (orders : List ℕ)
  deriving DecidableEq

/-- A finite element: broken, a vector element with its sub-elements, or another (function_spaces.py 560-566). -/
inductive Element where
  | broken
  | vector (subs : List Sobolev) (s : Sobolev)
  | plain (s : Sobolev)

/-- `is_cg` (core/function_spaces.py 548-566). -/
def isCg : Element → Bool
  | .broken => false
  | .vector subs _ => subs.all (fun s => decide (s = .h1))
  | .plain s => decide (s = .h1)

/-- `ufl_element().sobolev_space` (UFL; wrappers.py 346); broken elements are in L2. -/
def Element.sobolev : Element → Sobolev
  | .broken => .l2
  | .vector _ s => s
  | .plain s => s

/-- `space[i].name == "H1"` (UFL: a space that does not depend on the direction gives itself; wrappers.py 348). -/
def Sobolev.h1In (s : Sobolev) (i : ℕ) : Bool :=
  match s with
  | .h1 => true
  | .directional orders => decide (orders[i]? = some 1)
  | _ => false

/-- The exceptions (wrappers.py 337, 351). -/
inductive Err where
  | assertion | value
  deriving DecidableEq

/-- The SUPG parameter (wrappers.py 330-358): given, with a shape that must be `(dim, dim)`, or made of
`default*dt` in the directions in which the space is continuous.  `given` is `options.tau` with its shape. -/
def makeTau (dim : ℕ) (given : Option ((ℕ × ℕ) × (Fin dim → Fin dim → K))) (dflt dt : K) (e : Element) :
    Except Err (Fin dim → Fin dim → K) :=
  match given with
  | some (shape, tau) => if shape = (dim, dim) then .ok tau else .error .assertion
  | none =>
    if isCg e then .ok fun j i => if i = j then dflt * dt else 0
    else match e.sobolev with
      | .hdiv | .directional _ => .ok fun j i => if i = j then (if e.sobolev.h1In j then dflt * dt else 0) else 0
      | _ => .error .value

/-- `dot(dot(uadv, self.tau), grad(test))` (wrappers.py 374), point by point; `D j` is the derivative in direction `j`. -/
def streamline {X : Type*} {dim : ℕ} (D : Fin dim → (X → K) → (X → K)) (tau : Fin dim → Fin dim → K) (u : X → Fin dim → K)
    (test : X → K) : X → K :=
  fun x => ∑ j, (∑ i, u x i * tau i j) * D j test x

end tau

section terms
variable {U T D : Type*} [AddCommGroup T]

/-- A form: velocity symbols by number, and the test function (UFL; firedrake.fml). -/
abbrev Form (U T D : Type*) := (ℕ → U) → T → D

/-- A term: its form, its labels, the label `prognostic`, the value of the label `transporting_velocity` and the form in the label
`all_but_last`, with its own transporting velocity (core/labels.py 84-113). -/
structure Term (U T D : Type*) where
  form : Form U T D
  labels : List String
  prognostic : String
  vel : Option ℕ
  inner : Option (Form U T D × Option ℕ)

/-- `replace_test_function(new_test)` with `new_test = test + dot(dot(uadv, tau), grad(test))` and `uadv` the symbol `w`
(firedrake.fml; wrappers.py 373-374, time_discretisation.py 313-326). -/
def replaceTest (S : U → T → T) (w : ℕ) (t : Term U T D) : Term U T D :=
  { t with form := fun v φ => t.form v (φ + S (v w) φ) }

/-- `ufl.replace(form, {a: b})` for symbols of velocities (UFL; wrappers.py 416). -/
def substForm (a b : ℕ) (f : Form U T D) : Form U T D := fun v => f (Function.update v a (v b))

/-- `SUPGWrapper.label_terms` (wrappers.py 399-422). -/
def labelTerms (w : ℕ) (r : List (Term U T D)) : List (Term U T D) :=
  r.map fun t => match t.vel with
    | some a => { t with form := substForm a w t.form, vel := some w }
    | none => { t with vel := some w }

/-- The branch without `suboptions` (time_discretisation.py 323-329): all terms. -/
def setupAll (S : U → T → T) (w : ℕ) (r : List (Term U T D)) : List (Term U T D) :=
  labelTerms w (r.map (replaceTest S w))

/-- One pass of the loop over `suboptions` (time_discretisation.py 309-321): a field and its list of labels, or `None`. -/
def setupField (S : String → U → T → T) (w : ℕ) (field : String) (ls : Option (List String)) (r : List (Term U T D)) :
    List (Term U T D) :=
  labelTerms w (match ls with
    | some ls => ls.foldl (fun r l => r.map fun t =>
        if t.prognostic = field ∧ l ∈ t.labels then replaceTest (S field) w t else t) r
    | none => r.map fun t => if t.prognostic = field then replaceTest (S field) w t else t)

/-- The loop over `suboptions` (time_discretisation.py 309-321); every `wrapper.setup` makes a new `Function` for the velocity, the
symbol `w`, `w + 1`, … -/
def setupSub (S : String → U → T → T) : ℕ → List (String × Option (List String)) → List (Term U T D) → List (Term U T D)
  | _, [], r => r
  | w, (f, ls) :: rest, r => setupSub S (w + 1) rest (setupField S w f ls r)

/-- `BaseTimestepper.setup_transporting_velocity` (timestepping/timestepper.py 121-166) with the velocity `b`: in the forms, in the
labels, and in the forms inside labels. -/
def setupVelocity (b : ℕ) (r : List (Term U T D)) : List (Term U T D) :=
  r.map fun t => match t.vel with
    | some a => { t with
        form := substForm a b t.form, vel := some b
        inner := t.inner.map fun i => (match i.2 with
          | some a => substForm a b i.1
          | none => i.1, i.2) }
    | none => t

end terms

end Gusto.SUPG
