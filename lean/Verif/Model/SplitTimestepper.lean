import Mathlib.Algebra.Field.Basic
import Mathlib.Algebra.BigOperators.Fin
import Mathlib.Data.Rat.Init

set_option autoImplicit false

/-!
# `gusto/timestepping/split_timestepper.py`: SplitTimestepper and SplitPhysicsTimestepper

Labels are strings.  A dynamics term of the equation is represented by the list of labels it
carries.  A scheme object is a step map that may read two timesteps: the one captured when its
solver was first built (`cached_property solver`, time_discretisation.py:413-426 and the same
pattern in the other scheme classes) and the one held by the object now (`scheme.dt`).
-/

namespace Gusto.Split
variable {K X : Type*}

/-- The exceptions the constructor can raise (split_timestepper.py 23-122). -/
inductive Err
  | noPhysicsSchemes | physicsWeights | noScheme | multilevel | coverage | index
  deriving DecidableEq, Repr

/-- Arguments of `SplitTimestepper.__init__`, split_timestepper.py:23-50.  `dyn` is the dict
`dynamics_schemes`, as (label, nlevels of its scheme); `physics` says whether `physics_schemes`
was given; `terms` are the label lists of the terms of the equation's residual other than those
labelled time_derivative or physics (lines 108-110). -/
structure Args (K : Type*) where
  splitting : List String
  weights : Option (List K)
  dyn : List (String × ℕ)
  physics : Bool
  terms : List (List String)

/-- The loops `for idx, l in enumerate(term_splitting): if sel(l): count += weights[idx]`
(lines 63-65 and 113-115); reading beyond the end of the weights is an `IndexError`. [split_timestepper.py] -/
def count [AddMonoid K] (sel : String → Bool) (w : List K) : List String → ℕ → K → Except Err K
  | [], _, c => .ok c
  | l :: ls, idx, c =>
    if sel l then
      match w[idx]? with
      | some x => count sel w ls (idx + 1) (c + x)
      | none => .error .index
    else count sel w ls (idx + 1) c

/-- `self.weights`, lines 83-86: the given weights, or ones. [split_timestepper.py] -/
def effWeights [One K] (a : Args K) : List K :=
  match a.weights with
  | some w => w
  | none => List.replicate a.splitting.length 1

/-- Lines 57-74: the physics part of the checks. [split_timestepper.py] -/
def checkPhysics [AddMonoid K] [One K] [DecidableEq K] (a : Args K) : Except Err Unit :=
  if "physics" ∈ a.splitting then
    if a.physics then
      match a.weights with
      | none => .ok ()
      | some w =>
        match count (· == "physics") w a.splitting 0 0 with
        | .error e => .error e
        | .ok c => if c = 1 then .ok () else .error .physicsWeights
    else .error .noPhysicsSchemes
  else .ok ()

/-- Lines 111-118: the loop over the dynamics terms. [split_timestepper.py] -/
def checkTerms [AddMonoid K] [One K] [DecidableEq K] (splitting : List String) (w : List K) :
    List (List String) → Except Err Unit
  | [] => .ok ()
  | t :: ts =>
    match count (fun l => decide (l ∈ t)) w splitting 0 0 with
    | .error e => .error e
    | .ok c => if c = 1 then checkTerms splitting w ts else .error .coverage

/-- Lines 88-97: every non-physics label has a scheme; no multilevel scheme. [split_timestepper.py] -/
def checkSchemes (a : Args K) : Except Err Unit :=
  if a.splitting.all (fun l => l == "physics" || decide (l ∈ a.dyn.map Prod.fst)) then
    if a.dyn.all (fun p => p.2 == 1) then .ok () else .error .multilevel
  else .error .noScheme

/-- `SplitTimestepper.__init__`, split_timestepper.py:52-122: the list `split_dts`, or an
exception.  Not modelled: the explicit_only assertion (lines 76-81) and `super().__init__`. -/
def init [Semiring K] [DecidableEq K] (domainDt : K) (a : Args K) : Except Err (List K) :=
  match checkPhysics a with
  | .error e => .error e
  | .ok () =>
    match checkSchemes a with
    | .error e => .error e
    | .ok () =>
      match checkTerms a.splitting (effWeights a) a.terms with
      | .error e => .error e
      | .ok () => .ok ((effWeights a).map (fun w => domainDt * w))

/-- `self.physics_schemes` after the constructor, lines 57-74: dropped unless the splitting
contains 'physics'. [split_timestepper.py] -/
def physicsSchemes {S : Type*} (splitting : List String) (given : List S) : List S :=
  if "physics" ∈ splitting then given else []

/-- A scheme object: `cycle captured live x` is one `apply_cycle`, given the timestep captured
by the solver and the one held now; `ncycles` is what `setup` computed (time_discretisation.py 428-463, 592-607). -/
structure Scheme (K X : Type*) where
  cycle : K → K → X → X
  ncycles : ℕ := 1

/-- Per-object state: the timestep captured by the cached solver, once it exists
(time_discretisation.py 414-426, 572-578). -/
abbrev Captured (K : Type*) := Option K

/-- `scheme.dt = split_dt; scheme.apply(x, x)`, lines 157-158 and 161-162, with the cached
solver. [split_timestepper.py] -/
def substep (s : Scheme K X) (splitDt : K) (st : Captured K × X) : Captured K × X :=
  let c := st.1.getD splitDt
  (some c, (s.cycle c splitDt)^[s.ncycles] st.2)

/-- State of the timestepper: the field `x.np1` and the captured timestep of each dynamics
scheme and of each physics scheme (split_timestepper.py 150-162, 235-241). -/
structure St (K X : Type*) where
  x : X
  dyn : String → Captured K
  phys : List (Captured K)

/-- `for _, scheme in self.physics_schemes: ...`, lines 156-158. [split_timestepper.py] -/
def physicsLoop (dt : K) : List (Scheme K X) → List (Captured K) → X → List (Captured K) × X
  | [], cs, x => (cs, x)
  | s :: ss, cs, x =>
    let r := substep s dt (cs.headD none, x)
    let q := physicsLoop dt ss cs.tail r.2
    (r.1 :: q.1, q.2)

/-- One entry of the loop of `SplitTimestepper.timestep`, lines 152-162. [split_timestepper.py] -/
def entry (dyn : String → Scheme K X) (phys : List (Scheme K X)) (st : St K X)
    (e : String × K) : St K X :=
  if e.1 = "physics" then
    let r := physicsLoop e.2 phys st.phys st.x
    { st with x := r.2, phys := r.1 }
  else
    let r := substep (dyn e.1) e.2 (st.dyn e.1, st.x)
    { st with x := r.2, dyn := Function.update st.dyn e.1 r.1 }

/-- `SplitTimestepper.timestep`, lines 150-162.  (`zip` agrees with indexing because the
constructor accepted; with fewer weights than labels the code raises IndexError instead.) [split_timestepper.py] -/
def timestep (splitting : List String) (splitDts : List K) (dyn : String → Scheme K X)
    (phys : List (Scheme K X)) (st : St K X) : St K X :=
  (splitting.zip splitDts).foldl (entry dyn phys) st

/-- `SplitPhysicsTimestepper.timestep` and the end of `SplitPrescribedTransport.timestep`,
lines 235-241 and 393-404: the dynamics step, then each physics scheme in turn on the result.
[split_timestepper.py] -/
def splitPhysicsStep (dynamics : X → X) (phys : List (X → X)) (x : X) : X :=
  phys.foldl (fun y s => s y) (dynamics x)

end Gusto.Split
