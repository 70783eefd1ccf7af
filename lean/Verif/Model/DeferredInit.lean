import Verif.Model.DeferredCorrection

set_option autoImplicit false

/-!
# Construction of the deferred correction schemes

Model of the constructors of `SDC` and `RIDC` (gusto/time_discretisation/deferred_correction.py 95-195 and 546-618), of the Functions
that `setup` allocates, and of a loop of steps.

Simplifications: the tables that `qmat` returns for the unit interval are data; `K` need not be the floats.
-/

namespace Gusto
variable {K X D : Type*} [Field K] [AddCommGroup X] [Module K X] [AddCommGroup D] [Module K D]

namespace SDC

/-- The arguments of `__init__` (95-98) and what `genQCoeffs` and `genQDeltaCoeffs` return for them (150-163): the nodes, the weights
and the matrices on the interval from 0 to 1. [deferred_correction.py] -/
structure Config (K X D : Type*) where
  R : LForm X D
  M : ℕ
  maxk : ℕ
  formulation : String
  nodes : ℕ → K
  weights : ℕ → K
  Q : ℕ → ℕ → K
  Qi : ℕ → ℕ → K
  Qe : ℕ → ℕ → K
  /-- The base scheme, a function of the timestep that its cached solver holds, of the timestep that it is told, and of the state. -/
  base : K → K → X → X
  initialGuess : String
  finalUpdate : Bool
  solve : Solver X D
  evaluate : List (K → X → X) := []
  limiter : Option (X → X) := none
  flex : Option (ℕ → ℕ → ℕ → K) := none

/-- `np.diff(np.append(0, nodes))`, line 167. [deferred_correction.py] -/
def diffNodes (nodes : ℕ → K) (m : ℕ) : K := nodes m - (if m = 0 then 0 else nodes (m - 1))

/-- `__init__`, 134-195: the tables are rescaled from `[0, 1]` to `[0, dt]` (165-171), `initial_guess` becomes a flag (191-195).
The timestep of the base scheme is set to a number, the spacing of the nodes, before every call (445, parallel_dc.py 306), but its solver
is a cached property (time_discretisation.py 413-421, 571-578), so the number in its forms is that of the first call, `dtau[0]`:
Model/DeferredBase.lean. [deferred_correction.py] -/
def init (c : Config K X D) (dt : K) : Scheme K X D where
  R := c.R
  M := c.M
  maxk := c.maxk
  z2n := c.formulation == "Z2N"
  Q := fun m k => dt * c.Q m k
  Qfin := fun k => dt * c.weights k
  Qi := fun m i => dt * c.Qi m i
  Qe := fun m i => dt * c.Qe m i
  dtau := diffNodes fun m => dt * c.nodes m
  dt0 := dt
  base := c.base (diffNodes (fun m => dt * c.nodes m) 0)
  baseFlag := c.initialGuess == "base"
  finalUpdate := c.finalUpdate
  solve := c.solve
  evaluate := c.evaluate
  limiter := c.limiter
  flex := c.flex

/-- The Functions allocated by `setup` (231-246), which are zero, and the attributes set by `__init__`; the solvers are not yet built
(the cached property of 405-414). [deferred_correction.py] -/
def fresh (c : Config K X D) (dt : K) : State K X where
  U := fun _ => 0
  U1 := fun _ => 0
  f := fun _ => 0
  quad := fun _ => 0
  sU := fun _ => 0
  sU1 := fun _ => 0
  uDC := 0
  uStart := 0
  un := 0
  q_ := 0
  quadFinal := 0
  uFin := 0
  uRhs := 0
  uIn := 0
  sIn := 0
  baseDt := dt
  qdeltaImp := fun m i => dt * c.Qi m i
  solvers := none

/-- `N` calls of `apply` (434-540), each from the result of the one before; the scheme and its Functions live on.
[deferred_correction.py] -/
def steps (S : Scheme K X D) : ℕ → State K X × X → State K X × X
  | 0, s => s
  | N + 1, s => let r := steps S N s; apply S r.1 r.2

end SDC

namespace RIDC

/-- The arguments of `__init__` (546-548) and the matrices that `genQCoeffs` returns on the unit interval for `l + 1` equidistant
nodes (582-599). [deferred_correction.py] -/
structure Config (K X D : Type*) where
  R : LForm X D
  M : ℕ
  Kc : ℕ
  reduced : Bool
  /-- `unitQ l`: the node-to-node matrix with `l + 1` nodes -/
  unitQ : ℕ → ℕ → ℕ → K
  base : K → X → X
  solve : Solver X D
  evaluate : List (K → X → X) := []
  limiter : Option (X → X) := none

/-- `__init__`, 568-601: `dt = dt_coarse / M`, and the matrix with `l + 1` nodes is multiplied by `l dt`, where `l` is the number of
the correction if `reduced` and else the number of corrections. [deferred_correction.py] -/
def init (c : Config K X D) (dtCoarse : K) : Scheme K X D where
  R := c.R
  M := c.M
  Kc := c.Kc
  reduced := c.reduced
  Q := fun k => let l := if c.reduced then k else c.Kc
    fun m j => l * (dtCoarse / c.M) * c.unitQ l m j
  dt := dtCoarse / c.M
  base := c.base
  solve := c.solve
  evaluate := c.evaluate
  limiter := c.limiter

/-- The Functions allocated by `setup` (645-674), which are zero. [deferred_correction.py] -/
def fresh (dt : K) : State K X where
  U := fun _ => 0
  U1 := fun _ => 0
  f := fun _ => 0
  sU := fun _ => 0
  sU1 := fun _ => 0
  uDC := 0
  uStart := 0
  un := 0
  q_ := 0
  uRhs := 0
  uIn := 0
  sIn := 0
  sU1m := 0
  sUm := 0
  ukmp1 := 0
  ukm := 0
  ukp1m := 0
  baseDt := dt

/-- `N` calls of `apply` (813-912), each from the result of the one before. [deferred_correction.py] -/
def steps (S : Scheme K X D) : ℕ → State K X × X → Option (State K X × X)
  | 0, s => some s
  | N + 1, s => (steps S N s).bind fun r => apply S r.1 r.2

end RIDC
end Gusto
