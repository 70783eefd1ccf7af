import Verif.Model.ImplicitRK
import Mathlib.Algebra.BigOperators.Group.Finset.Basic

set_option autoImplicit false

/-!
# Deferred correction schemes

Model of `gusto/time_discretisation/deferred_correction.py`: the serial SDC (92-540) and RIDC
(543-912) schemes.

Simplifications: the quadrature tables `Q`, `Qfin`, `Qdelta_imp`, `Qdelta_exp` and the node
spacings `dtau` (already multiplied by `dt`, 165-171) are data of the scheme, whatever the library
`qmat` returned; arrays of Functions are functions of the index; the base scheme is a function of
its time step and input; `evaluate` is the list `self.evaluate_source`, each a function of the time
step and the state.  Boundary conditions are a matter of the solver
(Model/BoundaryConditions, C142, C143); the options prefixes of the solvers are left out.
-/

namespace Gusto
open LForm TimeDisc
variable {K X D : Type*} [Field K] [AddCommGroup X] [Module K X] [AddCommGroup D] [Module K D]

namespace SDC
open IMEX (isImpl isExpl isSrc)

/-- The data of an `SDC` object after `__init__` (95-195) and `setup` (197-246). [deferred_correction.py] -/
structure Scheme (K X D : Type*) where
  R : LForm X D
  M : ℕ
  maxk : ℕ
  /-- `formulation == "Z2N"` -/
  z2n : Bool
  Q : ℕ → ℕ → K
  Qfin : ℕ → K
  Qi : ℕ → ℕ → K
  Qe : ℕ → ℕ → K
  dtau : ℕ → K
  /-- `domain.dt`, the value of `base.dt` until `apply` changes it (136) -/
  dt0 : K
  base : K → X → X
  baseFlag : Bool
  finalUpdate : Bool
  solve : Solver X D
  evaluate : List (K → X → X) := []
  limiter : Option (X → X) := none
  /-- for `qdelta_imp = "MIN-SR-FLEX"`: the matrix of iteration `k` -/
  flex : Option (ℕ → ℕ → ℕ → K) := none

/-- The check of `setup`, 214-218: `true` = no error. [deferred_correction.py] -/
def setupAccepts (R : LForm X D) : Bool :=
  R.all fun t => isImpl t || isExpl t || isTD t || isSrc t

/-- `__init__`, 131-132: accepted formulations. [deferred_correction.py] -/
def formulationAccepted (f : String) : Bool := f == "N2N" || f == "Z2N"

/-- The mutable attributes of the object.  `solvers` is the cached list (405-414): the solvers
keep the values `Qdelta_imp[m, i]` had when the list was built (deferred_correction.py 620-674). -/
structure State (K X : Type*) where
  U : ℕ → X
  U1 : ℕ → X
  f : ℕ → X
  quad : ℕ → X
  sU : ℕ → X
  sU1 : ℕ → X
  uDC : X
  uStart : X
  un : X
  q_ : X
  quadFinal : X
  uFin : X
  uRhs : X
  uIn : X
  sIn : X
  baseDt : K
  qdeltaImp : ℕ → ℕ → K
  solvers : Option (ℕ → ℕ → K)

/-- `for evaluate in self.evaluate_source: evaluate(x, dt, x_out=out)`: every parametrisation
writes the same Function (deferred_correction.py 452, 478, 486, 510). -/
def evalSrc (S : Scheme K X D) (dt : K) (x out : X) : X :=
  S.evaluate.foldl (fun _ e => e dt x) out

/-- `self.limiter.apply` if there is one (deferred_correction.py 513-514, 533-534). -/
def limit (S : Scheme K X D) (x : X) : X :=
  match S.limiter with
  | some l => l x
  | none => x

/-- `res_rhs`, 269-283. [deferred_correction.py] -/
def resRhs (R : LForm X D) (uIn sIn uRhs : X) : LForm X D :=
  let a := R.labelMap isTD (replaceSubject uRhs) drop
  let L := R.labelMap (fun t => isTD t || isSrc t) drop (replaceSubject uIn)
  let Lsource := R.labelMap isSrc (replaceSubject sIn) drop
  sub a (add L Lsource)

/-- `res_fin`, 285-305. [deferred_correction.py] -/
def resFin (R : LForm X D) (un quadFinal uFin : X) : LForm X D :=
  let a := R.labelMap isTD (replaceSubject uFin) drop
  let fExp := R.labelMap isTD (replaceSubject un) drop
  let fExp := fExp.labelMap isTD (scaleTerm (-1 : ℤ)) keep
  let q := R.labelMap isTD (replaceSubject quadFinal) drop
  add (add a fExp) q

/-- One summand `c * (part(new) - part(old))` of `res`: the pattern of 322-335, 339-355, 358-374
and 378-394. [deferred_correction.py] -/
def diffPart (R : LForm X D) (p : Term X D → Bool) (c : K) (new old : X) (residual : LForm X D) :
    LForm X D :=
  let r1 := R.labelMap p (replaceSubject new) drop
  let r1 := r1.labelMap allTerms (scaleTerm c) keep
  let residual := add residual r1
  let r0 := R.labelMap p (replaceSubject old) drop
  let r0 := r0.labelMap allTerms (scaleTerm c) keep
  sub residual r0

/-- `res(m)`, 307-403; `qi` is the matrix `Qdelta_imp` at the time the form is built. [deferred_correction.py] -/
def res (S : Scheme K X D) (qi : ℕ → ℕ → K) (st : State K X) (m : ℕ) (y : X) : LForm X D :=
  let massForm := S.R.labelMap isTD keep drop
  let residual := massForm.labelMap allTerms (replaceSubject y) keep
  let residual := sub residual (massForm.labelMap allTerms (replaceSubject st.uStart) keep)
  let residual := (List.range m).foldl (fun residual i =>
    diffPart S.R isImpl (qi m i) (st.U1 (i + 1)) (st.U (i + 1)) residual) residual
  let residual := (List.range S.M).foldl (fun residual i =>
    let residual := diffPart S.R isExpl (S.Qe m i) (st.U1 (i + 1)) (st.U (i + 1)) residual
    diffPart S.R isSrc (S.Qe m i) (st.sU1 (i + 1)) (st.sU (i + 1)) residual) residual
  let residual := diffPart S.R isImpl (qi m m) y (st.U (m + 1)) residual
  add residual (S.R.labelMap isTD (replaceSubject st.q_) drop)

/-- `self.solver_rhs.solve()`: the linear solve for `Urhs` (deferred_correction.py 426-432, called at 479, 525). -/
def solveRhs (S : Scheme K X D) (st : State K X) : State K X :=
  { st with uRhs := S.solve (fun y => (resRhs S.R st.uIn st.sIn y).eval) st.uRhs }

/-- `compute_quad`, 252-259. [deferred_correction.py] -/
def computeQuad (S : Scheme K X D) (st : State K X) : State K X :=
  { st with quad := fun j => if j < S.M then
      (List.range S.M).foldl (fun q k => q + S.Q j k • st.f k) 0 else st.quad j }

/-- `compute_quad_final`, 261-267. [deferred_correction.py] -/
def computeQuadFinal (S : Scheme K X D) (st : State K X) : State K X :=
  { st with quadFinal := (List.range S.M).foldl (fun q k => q + S.Qfin k • st.f k) 0 }

/-- First half of the body of the sweep loop for node `i+1` (474-480): `F` at the old values.
[deferred_correction.py] -/
def rhsBody (S : Scheme K X D) (st : State K X) (i : ℕ) : State K X :=
  let st := { st with uIn := st.U (i + 1) }
  let st := { st with sIn := evalSrc S st.baseDt st.uIn st.sIn }
  let st := solveRhs S st
  { st with f := Function.update st.f i st.uRhs }

/-- The loop over the nodes of a sweep, body for node `m+1` (487-513). [deferred_correction.py] -/
def nodeBody (S : Scheme K X D) (qi : ℕ → ℕ → K) (st : State K X) (m : ℕ) : State K X :=
  let st := { st with q_ := st.quad m }
  let st := if S.z2n then st else { st with uStart := st.U1 m }
  let st := { st with uDC := st.U (m + 1) }
  let st := { st with uDC := S.solve (fun y => (res S qi st m y).eval) st.uDC }
  let st := { st with U1 := Function.update st.U1 (m + 1) st.uDC }
  let src := evalSrc S st.baseDt (st.U1 (m + 1)) (st.sU1 (m + 1))
  let st := { st with sU1 := Function.update st.sU1 (m + 1) src }
  { st with U1 := Function.update st.U1 (m + 1) (limit S (st.U1 (m + 1))) }

/-- One correction sweep number `k` (1-based), 456-516. [deferred_correction.py] -/
def sweep (S : Scheme K X D) (qi : ℕ → ℕ → K) (st : State K X) (k : ℕ) : State K X :=
  let st := match S.flex with
    | some q => { st with qdeltaImp := q k }
    | none => st
  let st := (List.range S.M).foldl (rhsBody S) st
  let st := computeQuad S st
  let st := { st with U1 := Function.update st.U1 0 (st.U 0) }
  let st := { st with sU := Function.update st.sU 0 (evalSrc S st.baseDt (st.U 0) (st.sU 0)) }
  let st := (List.range S.M).foldl (nodeBody S qi) st
  (List.range S.M).foldl (fun st i =>
    { st with U := Function.update st.U (i + 1) (st.U1 (i + 1)),
              sU := Function.update st.sU (i + 1) (st.sU1 (i + 1)) }) st

/-- The start of `apply`, 435-453: caches the solvers and computes the initial guess on the
nodes. [deferred_correction.py] -/
def start (S : Scheme K X D) (st : State K X) (xIn : X) : State K X :=
  let st := { st with un := xIn, uStart := xIn }
  let st := { st with solvers := some (st.solvers.getD st.qdeltaImp) }
  let st := { st with U := Function.update st.U 0 st.un }
  let st := if S.baseFlag then
      (List.range S.M).foldl (fun st m =>
        { st with baseDt := S.dtau m,
                  U := Function.update st.U (m + 1) (S.base (S.dtau m) (st.U m)) }) st
    else
      (List.range S.M).foldl (fun st m => { st with U := Function.update st.U (m + 1) st.un }) st
  (List.range (S.M + 1)).foldl (fun st m =>
    { st with sU := Function.update st.sU m (evalSrc S st.baseDt (st.U m) (st.sU m)) }) st

/-- The state after `k` sweeps (deferred_correction.py 461-523). -/
def sweeps (S : Scheme K X D) (st : State K X) (k : ℕ) : State K X :=
  let qi := st.solvers.getD st.qdeltaImp
  (List.range k).foldl (fun st i => sweep S qi st (i + 1)) st

/-- Node loop of the final update, 522-526. [deferred_correction.py] -/
def finBody (S : Scheme K X D) (st : State K X) (i : ℕ) : State K X :=
  let st := { st with uIn := st.U1 (i + 1) }
  let st := { st with sIn := st.sU1 (i + 1) }
  let st := solveRhs S st
  { st with f := Function.update st.f i st.uRhs }

/-- The end of `apply`, 519-540: the new state and `x_out`. [deferred_correction.py] -/
def finish (S : Scheme K X D) (st : State K X) : State K X × X :=
  if S.maxk > 0 then
    if S.finalUpdate then
      let st := (List.range S.M).foldl (finBody S) st
      let st := computeQuadFinal S st
      let st := { st with uFin := st.U S.M }
      let uFin := limit S (S.solve (fun y => (resFin S.R st.un st.quadFinal y).eval) st.uFin)
      ({ st with uFin := uFin }, uFin)
    else (st, st.U S.M)
  else (st, st.U S.M)

/-- `apply`, 434-540: the new state and `x_out`. [deferred_correction.py] -/
def apply (S : Scheme K X D) (st : State K X) (xIn : X) : State K X × X :=
  finish S (sweeps S (start S st xIn) S.maxk)

end SDC

namespace RIDC
open IMEX (isImpl isExpl isSrc)
open SDC (resRhs diffPart)

/-- The data of a `RIDC` object (546-618).  `dt` is `dt_coarse/M` (578).  `Q k` is the matrix used
in correction `k ≥ 1`: `self.Q[k-1]` (with `k+1` rows and columns) if `reduced` (580-591), else
`self.Q` with `Kc+1` rows and columns (592-601). [deferred_correction.py] -/
structure Scheme (K X D : Type*) where
  R : LForm X D
  M : ℕ
  /-- number of corrections -/
  Kc : ℕ
  reduced : Bool
  Q : ℕ → ℕ → ℕ → K
  dt : K
  base : K → X → X
  solve : Solver X D
  evaluate : List (K → X → X) := []
  limiter : Option (X → X) := none

/-- The mutable attributes (deferred_correction.py 620-674). -/
structure State (K X : Type*) where
  U : ℕ → X
  U1 : ℕ → X
  f : ℕ → X
  sU : ℕ → X
  sU1 : ℕ → X
  uDC : X
  uStart : X
  un : X
  q_ : X
  uRhs : X
  uIn : X
  sIn : X
  sU1m : X
  sUm : X
  ukmp1 : X
  ukm : X
  ukp1m : X
  baseDt : K

/-- as `SDC.evalSrc` (deferred_correction.py 828, 837, 844, 872, 902). -/
def evalSrc (S : Scheme K X D) (dt : K) (x out : X) : X :=
  S.evaluate.foldl (fun _ e => e dt x) out

/-- `self.limiter.apply` if there is one (deferred_correction.py 875-876, 905-906). -/
def limit (S : Scheme K X D) (x : X) : X :=
  match S.limiter with
  | some l => l x
  | none => x

/-- Order of the stencil of correction `k`: `k` if `reduced`, else `K` (`M1`, 820, 845-846, and
`l` in `compute_quad_final`, 696-699). [deferred_correction.py] -/
def stencil (S : Scheme K X D) (k : ℕ) : ℕ := if S.reduced then k else S.Kc

/-- `compute_quad(Q, fUnodes, m)`, 680-688. [deferred_correction.py] -/
def computeQuad (S : Scheme K X D) (k : ℕ) (f : ℕ → X) (m : ℕ) : X :=
  (List.range (stencil S k + 1)).foldl (fun q j => q + S.Q k m j • f j) 0

/-- `compute_quad_final(Q, fUnodes, m)`, 690-702: last row of the matrix. [deferred_correction.py] -/
def computeQuadFinal (S : Scheme K X D) (k : ℕ) (f : ℕ → X) (m : ℕ) : X :=
  (List.range (stencil S k + 1)).foldl
    (fun q j => q + S.Q k (stencil S k) j • f (m - stencil S k + j)) 0

/-- `res`, 720-793. [deferred_correction.py] -/
def res (S : Scheme K X D) (st : State K X) (y : X) : LForm X D :=
  let massForm := S.R.labelMap isTD keep drop
  let residual := massForm.labelMap allTerms (replaceSubject y) keep
  let residual := sub residual (massForm.labelMap allTerms (replaceSubject st.uStart) keep)
  let residual := diffPart S.R isSrc S.dt st.sU1m st.sUm residual
  let residual := diffPart S.R isImpl S.dt y st.ukmp1 residual
  let residual := diffPart S.R isExpl S.dt st.ukp1m st.ukm residual
  add residual (S.R.labelMap isTD (replaceSubject st.q_) drop)

/-- `self.solver_rhs.solve()` (deferred_correction.py 805-811, called at 838). -/
def solveRhs (S : Scheme K X D) (st : State K X) : State K X :=
  { st with uRhs := S.solve (fun y => (resRhs S.R st.uIn st.sIn y).eval) st.uRhs }

/-- Body of the loop computing `F` on the nodes, 833-839. [deferred_correction.py] -/
def rhsBody (S : Scheme K X D) (st : State K X) (m : ℕ) : State K X :=
  let st := { st with uIn := st.U m }
  let st := { st with sIn := evalSrc S st.baseDt st.uIn st.sIn }
  let st := solveRhs S st
  { st with f := Function.update st.f m st.uRhs }

/-- Body of the node loops, 847-876 and 877-905, after `Q_` has been assigned. [deferred_correction.py] -/
def nodeSolve (S : Scheme K X D) (st : State K X) (m : ℕ) : State K X :=
  let st := { st with uStart := st.U1 m, ukp1m := st.U1 m, ukmp1 := st.U (m + 1), ukm := st.U m,
                      sU1m := st.sU1 m, sUm := st.sU m, uDC := st.U (m + 1) }
  let st := { st with uDC := S.solve (fun y => (res S st y).eval) st.uDC }
  let st := { st with U1 := Function.update st.U1 (m + 1) st.uDC }
  let src := evalSrc S st.baseDt (st.U1 (m + 1)) (st.sU1 (m + 1))
  let st := { st with sU1 := Function.update st.sU1 (m + 1) src }
  { st with U1 := Function.update st.U1 (m + 1) (limit S (st.U1 (m + 1))) }

/-- First node loop, 847-876. [deferred_correction.py] -/
def headBody (S : Scheme K X D) (k : ℕ) (st : State K X) (m : ℕ) : State K X :=
  nodeSolve S { st with q_ := computeQuad S k st.f (m + 1) } m

/-- Second node loop, 877-905. [deferred_correction.py] -/
def tailBody (S : Scheme K X D) (k : ℕ) (st : State K X) (m : ℕ) : State K X :=
  nodeSolve S { st with q_ := computeQuadFinal S k st.f (m + 1) } m

/-- Correction sweep `k ≥ 1`, 831-910. [deferred_correction.py] -/
def sweep (S : Scheme K X D) (st : State K X) (k : ℕ) : State K X :=
  let st := (List.range (S.M + 1)).foldl (rhsBody S) st
  let st := { st with U1 := Function.update st.U1 0 (st.U 0) }
  let st := { st with sU := Function.update st.sU 0 (evalSrc S st.baseDt (st.U 0) (st.sU 0)) }
  let M1 := stencil S k
  let st := (List.range M1).foldl (headBody S k) st
  let st := ((List.range S.M).drop M1).foldl (tailBody S k) st
  (List.range (S.M + 1)).foldl (fun st i =>
    { st with U := Function.update st.U i (st.U1 i),
              sU := Function.update st.sU i (st.sU1 i) }) st

/-- The start of `apply`, 814-828. [deferred_correction.py] -/
def start (S : Scheme K X D) (st : State K X) (xIn : X) : State K X :=
  let st := { st with un := xIn, U := Function.update st.U 0 xIn }
  let st := (List.range S.M).foldl (fun st m =>
    { st with baseDt := S.dt, U := Function.update st.U (m + 1) (S.base S.dt (st.U m)) }) st
  (List.range (S.M + 1)).foldl (fun st m =>
    { st with sU := Function.update st.sU m (evalSrc S st.baseDt (st.U m) (st.sU m)) }) st

/-- The state after `k` corrections (deferred_correction.py 854-899). -/
def sweeps (S : Scheme K X D) (st : State K X) (k : ℕ) : State K X :=
  (List.range k).foldl (fun st i => sweep S st (i + 1)) st

/-- `apply`, 813-912: `none` is the IndexError raised when the stencil is longer than the list of
nodes. [deferred_correction.py] -/
def apply (S : Scheme K X D) (st : State K X) (xIn : X) : Option (State K X × X) :=
  if S.M < S.Kc then none
  else
    let st := sweeps S (start S st xIn) S.Kc
    some (st, st.U S.M)

end RIDC
end Gusto
