import Verif.Model.TimeLoop

set_option autoImplicit false

/-!
# Prescribed transporting velocities

Model of `PrescribedTransport` (gusto/timestepping/timestepper.py:383-507) and `SplitPrescribedTransport`
(gusto/timestepping/split_timestepper.py:244-404) with the loop of `BaseTimestepper.run` (timestepper.py:196-267).

Simplifications: the prognostic state is one value of type `X`, the velocity field `u` one of type `V`; the dynamics
is a one-level scheme, a function of the velocity, the time and the state; of the output only the pairs (time written
to the row, velocity, state) are kept; the pick-up reads a checkpoint with the time, `u` and the state.  The function
of the user for `setup_prescribed_apply` only changes `u`.
-/

namespace Gusto.Prescribed
open Gusto.TimeLoop
variable {K X V : Type*}

/-- A timestepper object.  `dyn` is `scheme.apply`, `physics` the schemes of `physics_schemes` in order (empty for
`PrescribedTransport`), `tick` the update of the time (timestepper.py:249), `more` the loop condition (238). -/
structure Scheme (K X V : Type*) where
  dyn : V → K → X → X
  physics : List (K → X → X)
  tick : K → K

/-- The attributes that change.  `projection` is the `Projector` on the expression built at set-up: a function of the
current time (timestepper.py 383-507, split_timestepper.py 244-404). -/
structure St (K X V : Type*) where
  prescribed : Bool
  isSetup : Bool
  projection : Option (K → V)
  applyM : Option (K → V)
  t : K
  u : V
  x : X
  used : List (K × V)
  dumps : List (K × V × X)

/-- `__init__`, timestepper.py:418-421, split_timestepper.py:300-303. -/
def init (prescribed : Bool) (t0 : K) (u0 : V) (x0 : X) : St K X V :=
  { prescribed := prescribed, isSetup := !prescribed, projection := none, applyM := none, t := t0, u := u0, x := x0,
    used := [], dumps := [] }

/-- `setup_prescribed_expr`, timestepper.py:432-456, split_timestepper.py:334-353.  `f` is the user's function: given
the value of the time at the moment of the call (on which Python code may branch) it returns an expression, a function
of the time. -/
def setupExpr (s : St K X V) (f : K → K → V) : Except String (St K X V) :=
  if s.isSetup then .error "RuntimeError"
  else .ok { s with projection := some (f s.t), isSetup := true }

/-- `setup_prescribed_apply`, timestepper.py:458-474, split_timestepper.py:355-371. -/
def setupApply (s : St K X V) (f : K → V) : Except String (St K X V) :=
  if s.isSetup then .error "RuntimeError"
  else .ok { s with applyM := some f, isSetup := true }

/-- timestepper.py:491-495 and 503-507: evaluation of the velocity at `self.t`. -/
def evalU (s : St K X V) : St K X V :=
  let s := match s.projection with
    | some f => { s with u := f s.t }
    | none => s
  match s.applyM with
  | some f => { s with u := f s.t }
  | none => s

/-- `timestep`, timestepper.py:498-508, split_timestepper.py:392-404: velocity, dynamics, then each physics scheme on
the result of the one before. -/
def timestep (A : Scheme K X V) (s : St K X V) : St K X V :=
  let s := evalU s
  let y := A.dyn s.u s.t s.x
  { s with x := A.physics.foldl (fun y p => p s.t y) y, used := s.used ++ [(s.t, s.u)] }

/-- The body of the loop of `BaseTimestepper.run`, timestepper.py:239-259: step, advance the time, dump. -/
def stepBody (A : Scheme K X V) (s : St K X V) : St K X V :=
  let s := timestep A s
  let s := { s with t := A.tick s.t }
  { s with dumps := s.dumps ++ [(s.t, s.u, s.x)] }

/-- The first part of `run`, timestepper.py:486-497, then 214-236: check, evaluation of the velocity at `self.t`,
pick-up (`chk` is the checkpoint: time, velocity, state), initial dump (not on pick-up), assignment of the time. -/
def start (s : St K X V) (t : K) (chk : Option (K × V × X)) : Except String (St K X V) :=
  if s.prescribed && !s.isSetup then .error "RuntimeError"
  else
    let s := evalU s
    match chk with
    | some (tc, uc, xc) => .ok { s with u := uc, x := xc, t := tc }
    | none => .ok { s with dumps := s.dumps ++ [(t, s.u, s.x)], t := t }

/-- `run(t, tmax, pick_up)`: `Runs A more s t chk n s'` holds if the call returns after `n` steps with the object in
the state `s'`; `more` is the loop condition `t < tmax - 0.5*dt` (timestepper.py 196-267, 472-494). -/
def Runs (A : Scheme K X V) (more : K → Prop) (s : St K X V) (t : K) (chk : Option (K × V × X)) (n : ℕ)
    (s' : St K X V) : Prop :=
  ∃ s0, start s t chk = .ok s0 ∧ While (fun s => more s.t) (stepBody A) s0 n s'

/-- Calls of the user (timestepper.py 431-507, split_timestepper.py 332-404). -/
inductive Cmd (K X V : Type*)
  | expr (f : K → K → V)
  | apply (f : K → V)
  | run (more : K → Prop) (t : K) (chk : Option (K × V × X))

/-- One call: the state afterwards and whether it raised (then nothing changes)
(timestepper.py 431-507, split_timestepper.py 332-404). -/
inductive Call (A : Scheme K X V) : St K X V → Cmd K X V → Bool → St K X V → Prop
  | exprOk {s s' f} : setupExpr s f = .ok s' → Call A s (.expr f) true s'
  | exprErr {s f e} : setupExpr s f = .error e → Call A s (.expr f) false s
  | applyOk {s s' f} : setupApply s f = .ok s' → Call A s (.apply f) true s'
  | applyErr {s f e} : setupApply s f = .error e → Call A s (.apply f) false s
  | runOk {s s' more t chk n} : Runs A more s t chk n s' → Call A s (.run more t chk) true s'
  | runErr {s more t chk e} : start s t chk = .error e → Call A s (.run more t chk) false s

/-- A history of calls with their outcomes (specification; timestepper.py 383-507). -/
inductive History (A : Scheme K X V) : St K X V → List (Cmd K X V × Bool) → St K X V → Prop
  | nil {s} : History A s [] s
  | snoc {s s' s'' cs c b} : History A s cs s' → Call A s' c b s'' → History A s (cs ++ [(c, b)]) s''

/-- The check of `Timestepper.__init__`, timestepper.py:342-350: `n` physics parametrisations. -/
def construct (n : ℕ) (explicit : Bool) : Except String Unit :=
  if n > 1 && !explicit then .error "AssertionError" else .ok ()

/-- The check of `SplitPrescribedTransport.__init__`, split_timestepper.py:291-297: a physics scheme is a pair of
`explicit_only` and whether its time discretisation is explicit. -/
def constructSplit : List (Bool × Bool) → Except String Unit
  | [] => .ok ()
  | (only, explicit) :: l => if only && !explicit then .error "AssertionError" else constructSplit l

end Gusto.Prescribed
