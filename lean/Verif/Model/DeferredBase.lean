import Verif.Model.DeferredInit

set_option autoImplicit false

/-!
# The timestep of the base scheme of deferred correction

Model of who holds which timestep: the attribute `dt` of a time discretisation (gusto/time_discretisation/time_discretisation.py 95-98,
413-421, 428-452, 509-526, 571-606), of the domain and of the time loop (gusto/timestepping/timestepper.py 239-251), and what the deferred
correction schemes (gusto/time_discretisation/deferred_correction.py 134-137, 442-446, 822-825) do to the one of their base scheme.

Simplifications: a `Function` on the space of constants is a cell with one number; the step of a scheme is a function of the number its
cached forms evaluate to, of the current number and of the state; the solver is built in the first call of `apply`; wrappers are left out.
-/

namespace Gusto.DeferredBase
variable {K X : Type*} [Field K]

/-- What the attribute `dt` of a scheme refers to: the Function that its constructor made (95), the Function of the domain
(deferred_correction.py 136), or a number (445). [time_discretisation.py] -/
inductive DtRef (K : Type*) where
  | own
  | domain
  | num (v : K)

/-- A time discretisation used as a base scheme (time_discretisation.py 95-98, 103, 518-526, 413): `cycle c k x` is one cycle from `x` if
the forms of the solver have the value `c` for the timestep and the attribute the value `k`. -/
structure Base (K X : Type*) where
  dt : DtRef K
  ownDt : K
  originalDt : K
  ncycles : ℕ
  /-- `subcycling_options.fixed_subcycles` -/
  fixed : Option ℕ
  /-- the number of cycles that `subcycle_by_courant` asks for, if it is set (433-449) -/
  adaptive : Option ℕ
  /-- what the cached forms refer to (413-421, 571-578), once they are built -/
  captured : Option (DtRef K)
  cycle : K → K → X → X

/-- The cell of the domain and a scheme (gusto/core/domain.py 62-67, time_discretisation.py 95). -/
structure World (K X : Type*) where
  domainDt : K
  base : Base K X

/-- The value of a reference (time_discretisation.py 95-98, deferred_correction.py 136, 445). -/
def World.value (w : World K X) : DtRef K → K
  | .own => w.base.ownDt
  | .domain => w.domainDt
  | .num v => v

/-- `self.dt.assign(v)` (time_discretisation.py 452, 522): writes the cell that `dt` refers to; a Python number has no such method. -/
def World.assign (w : World K X) (v : K) : Except String (World K X) :=
  match w.base.dt with
  | .own => .ok { w with base := { w.base with ownDt := v } }
  | .domain => .ok { w with domainDt := v }
  | .num _ => .error "AttributeError"

/-- `TimeDiscretisation.__init__`, 95-98, 103: the scheme has its own copies of the timestep of the domain. [time_discretisation.py] -/
def make (domainDt : K) (fixed adaptive : Option ℕ) (cycle : K → K → X → X) : World K X where
  domainDt := domainDt
  base := { dt := .own, ownDt := domainDt, originalDt := domainDt, ncycles := 1, fixed := fixed, adaptive := adaptive,
            captured := none, cycle := cycle }

/-- `SDC.__init__`, 135-136: `self.base.dt = domain.dt`. [deferred_correction.py] -/
def sdcInit (w : World K X) : World K X := { w with base := { w.base with dt := .domain } }

/-- `ExplicitTimeDiscretisation.setup`, 516-524, called by the `setup` of the deferred correction scheme (deferred_correction.py 209).
[time_discretisation.py] -/
def setup (w : World K X) : Except String (World K X) :=
  match w.base.fixed with
  | some n => { w with base := { w.base with ncycles := n } }.assign (w.value w.base.dt / n)
  | none => .ok { w with base := { w.base with ncycles := 1 } }

/-- `self.base.dt = float(v)` (deferred_correction.py 445, 823, parallel_dc.py 119, 306). -/
def setDt (w : World K X) (v : K) : World K X := { w with base := { w.base with dt := .num v } }

/-- `update_subcycling`, 428-452. [time_discretisation.py] -/
def updateSubcycling (w : World K X) : Except String (World K X) :=
  match w.base.adaptive with
  | some n => { w with base := { w.base with ncycles := n } }.assign (w.base.originalDt / n)
  | none => .ok w

/-- `apply`, 591-606: the first cycle builds the solver if it is not there yet. [time_discretisation.py] -/
def apply (w : World K X) (x : X) : Except String (World K X × X) := do
  let w ← updateSubcycling w
  let c := w.base.captured.getD w.base.dt
  let w := { w with base := { w.base with captured := some c } }
  return (w, (w.base.cycle (w.value c) (w.value w.base.dt))^[w.base.ncycles] x)

/-- The first guess of `SDC.apply`, 443-446, on the nodes below `n`: the values at the nodes from `x`. [deferred_correction.py] -/
def guess (dtau : ℕ → K) (x : X) : ℕ → World K X → Except String (World K X × (ℕ → X))
  | 0, w => .ok (w, fun _ => x)
  | n + 1, w => do
    let (w, U) ← guess dtau x n w
    let (w, u) ← apply (setDt w (dtau n)) (U n)
    return (w, Function.update U (n + 1) u)

/-- The first guess of `RIDC.apply`, 822-825. [deferred_correction.py] -/
def guessRidc (dt : K) (x : X) (n : ℕ) (w : World K X) : Except String (World K X × (ℕ → X)) := guess (fun _ => dt) x n (setDt w dt)

/-- The guesses of several steps of SDC: in each the base scheme is used as the one before left it. [deferred_correction.py 434-446] -/
def guesses (dtau : ℕ → K) (M : ℕ) : List X → World K X → Except String (World K X × List (ℕ → X))
  | [], w => .ok (w, [])
  | x :: xs, w => do
    let (w, U) ← guess dtau x M w
    let (w, Us) ← guesses dtau M xs w
    return (w, U :: Us)

/-- The time of the model after `N` steps: each adds the current timestep of the domain, which is the one of the time loop
(timestepper.py 239-252). -/
def clock (w : World K X) (t0 : K) (N : ℕ) : K := (fun t => t + w.domainDt)^[N] t0

end Gusto.DeferredBase
