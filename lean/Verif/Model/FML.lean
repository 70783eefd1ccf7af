import Mathlib.Algebra.Module.Basic
import Mathlib.Algebra.BigOperators.Group.List.Basic

set_option autoImplicit false

/-!
# Labelled forms

Model of the parts of `firedrake.fml` that gusto uses, with the labels of
`gusto/core/labels.py:89-118`.

Simplifications: a UFL form with its subject is a function `op : X → D` from the space of states
to the space of assembled residuals together with the state `subj` it is currently evaluated at;
test functions are not represented (a form is its assembled value).  A label whose value is itself
a form (`linearisation`, `all_but_last`, `mass_weighted`) keeps that form in `attached`.
-/

namespace Gusto

/-- The labels of `gusto/core/labels.py:10-11,89-118`.  `physics j` is the label of the `j`-th
physics parametrisation (`PhysicsLabel`, labels.py:47-85), `prognostic f` the label carrying the
name of the field whose equation the term belongs to. -/
inductive Label where
  | timeDerivative
  | nonlinearTimeDerivative
  | transport
  | diffusion
  | implicit
  | explicit
  | source
  | massWeighted
  | allButLast
  | linearisation
  | horizontalTransport
  | verticalTransport
  | physics (j : ℕ)
  | prognostic (name : String)
  | dynamics (name : String)
  | named (name : String)
  deriving DecidableEq, Repr

/-- A `fml.Term`: labels, the form as a function of its subject, and the current subject
(firedrake fml, not gusto code; the terms gusto labels in core/labels.py 90-118). -/
structure Term (X D : Type*) where
  labels : List Label
  op : X → D
  subj : X
  attached : List (Label × (X → D)) := []

namespace Term
variable {X D : Type*}

/-- `t.has_label(l)` (fml) (firedrake fml, not gusto code; used e.g. at time_discretisation.py 395-405). -/
def has (t : Term X D) (l : Label) : Bool := decide (l ∈ t.labels)

/-- Assembled value of the term
(firedrake fml, not gusto code; used through `.form`, time_discretisation.py 392-411). -/
def eval (t : Term X D) : D := t.op t.subj

/-- `t.get(l)` for a label whose value is a form
(firedrake fml, not gusto code; used at core/labels.py 13-87, transport_methods.py 29-56). -/
def getForm (t : Term X D) (l : Label) : Option (X → D) := t.attached.lookup l

/-- The index of the physics scheme whose `source` Function is the subject of the term
(`subject(test*source*dx, self.source)`, e.g. physics_parametrisation.py:115-117). -/
def physIdx (t : Term X D) : Option ℕ :=
  t.labels.findSome? fun l => match l with
    | .physics j => some j
    | _ => none

end Term

/-- A `fml.LabelledForm`: a list of terms
(firedrake fml, not gusto code; the residual of prognostic_equations.py 25-66). -/
abbrev LForm (X D : Type*) := List (Term X D)

namespace LForm
variable {X D : Type*}

/-- `.form`, then assembled: the sum of the terms
(firedrake fml, not gusto code; used through `.form`, time_discretisation.py 392-411). -/
def eval [AddCommMonoid D] (F : LForm X D) : D := (F.map Term.eval).sum

/-- `LabelledForm.label_map(filter, map_if_true, map_if_false)`.  The maps return a list because
they may return a term, a labelled form, or nothing (`drop`)
(firedrake fml, not gusto code; used e.g. at time_discretisation.py 394-411). -/
def labelMap (F : LForm X D) (p : Term X D → Bool)
    (mapTrue mapFalse : Term X D → LForm X D) : LForm X D :=
  F.flatMap fun t => if p t then mapTrue t else mapFalse t

/-- fml `all_terms` (firedrake fml, not gusto code; used at time_discretisation.py 392-411). -/
def allTerms (_ : Term X D) : Bool := true
/-- fml `keep` / `identity` (firedrake fml, not gusto code; used at prognostic_equations.py 237-255). -/
def keep (t : Term X D) : LForm X D := [t]
/-- fml `drop` (firedrake fml, not gusto code; used at time_discretisation.py 549-569). -/
def drop (_ : Term X D) : LForm X D := []
/-- fml `replace_subject(new)` (firedrake fml, not gusto code; used at time_discretisation.py 392-411). -/
def replaceSubject (x : X) (t : Term X D) : LForm X D := [{ t with subj := x }]
/-- Multiplying a term by a scalar, `c*t` (firedrake fml, not gusto code; used at time_discretisation.py 400-411). -/
def scaleTerm {K : Type*} [SMul K D] (c : K) (t : Term X D) : LForm X D :=
  [{ t with op := fun x => c • t.op x }]
/-- `F + G` (firedrake fml, not gusto code; used at time_discretisation.py 392-411). -/
def add (F G : LForm X D) : LForm X D := F ++ G
/-- `c*F` (firedrake fml, not gusto code; used at time_discretisation.py 392-411). -/
def smul {K : Type*} [SMul K D] (c : K) (F : LForm X D) : LForm X D := F.flatMap (scaleTerm c)
/-- `F - G` (firedrake fml, not gusto code; used at time_discretisation.py 392-411). -/
def sub [Neg D] (F G : LForm X D) : LForm X D :=
  F ++ G.map fun t => { t with op := fun x => - t.op x }

end LForm

/-- A nonlinear/linear variational solver: takes the residual as a function of the unknown
and an initial guess and returns a state (`NonlinearVariationalSolver.solve`)
(Firedrake/PETSc; built at time_discretisation.py 414-426, 572-578). -/
abbrev Solver (X D : Type*) := (X → D) → X → X

end Gusto
