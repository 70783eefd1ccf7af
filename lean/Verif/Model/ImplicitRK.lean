import Verif.Model.TimeDisc
import Mathlib.Analysis.Real.Sqrt

set_option autoImplicit false

/-!
# Implicit and IMEX Runge-Kutta schemes

`gusto/time_discretisation/implicit_runge_kutta.py` and `imex_runge_kutta.py`.
Not modelled: wrappers, boundary conditions (see C142, C143), solver parameters.  Scalars multiplying a term are
collected into one `scaleTerm`.
-/

namespace Gusto
open LForm TimeDisc
variable {K X D : Type*} [Field K] [AddCommGroup X] [Module K X] [AddCommGroup D] [Module K D]

namespace IRK

/-- The data of an `ImplicitRungeKutta` object (implicit_runge_kutta.py:61-91). -/
structure Scheme (K X D : Type*) where
  R : LForm X D
  A : ℕ → ℕ → K
  nStages : ℕ
  dt : K
  solve : Solver X D

/-- The mutable fields: `x_out`, `k[·]`, `xs[·]`, and the diagonal coefficient captured by the
cached `solvers` (213-217): `solvers` is a cached property which builds the residuals of *all*
stages when it is first read, from the expression `self.xnph` of that moment (implicit_runge_kutta.py 93-123, 180-199). -/
structure State (K X : Type*) where
  xOut : X
  k : ℕ → X
  xs : ℕ → X
  cachedDiag : Option K := none

/-- Residual of the increment formulation, `solver` (180-191): `F(xnph) + M(x_out)`. [implicit_runge_kutta.py] -/
def incRes (R : LForm X D) (xnph xOut : X) : LForm X D :=
  let residual := R.labelMap isTD drop (replaceSubject xnph)
  let massForm := R.labelMap isTD keep drop
  add residual (massForm.labelMap allTerms (replaceSubject xOut) keep)

/-- `res(stage)`, predictor formulation, 125-155. [implicit_runge_kutta.py] -/
def predRes (S : Scheme K X D) (xs : ℕ → X) (x1 : X) (stage : ℕ) (xOut : X) : LForm X D :=
  let massForm := S.R.labelMap isTD keep drop
  let residual := massForm.labelMap allTerms (replaceSubject xOut) keep
  let residual := sub residual (massForm.labelMap allTerms (replaceSubject x1) keep)
  let residual := (List.range stage).foldl (fun residual i =>
    let rImp := S.R.labelMap (fun t => !isTD t) (replaceSubject (xs i)) drop
    let rImp := rImp.labelMap allTerms (scaleTerm (S.A stage i * S.dt)) keep
    add residual rImp) residual
  let rImp := S.R.labelMap (fun t => !isTD t) (replaceSubject xOut) drop
  let rImp := rImp.labelMap allTerms (scaleTerm (S.A stage stage * S.dt)) keep
  add residual rImp

/-- `final_res`, 158-178. [implicit_runge_kutta.py] -/
def finalRes (S : Scheme K X D) (xs : ℕ → X) (x1 xOut : X) : LForm X D :=
  let massForm := S.R.labelMap isTD keep drop
  let residual := massForm.labelMap allTerms (replaceSubject xOut) keep
  let residual := sub residual (massForm.labelMap allTerms (replaceSubject x1) keep)
  (List.range S.nStages).foldl (fun residual i =>
    let rImp := S.R.labelMap (fun t => !isTD t) (replaceSubject (xs i)) drop
    let rImp := rImp.labelMap allTerms (scaleTerm (S.A S.nStages i * S.dt)) keep
    add residual rImp) residual

/-- `solve_stage`, increment branch, 219-241. [implicit_runge_kutta.py] -/
def incStage (S : Scheme K X D) (x0 : X) (st : State K X) (stage : ℕ) : State K X :=
  let x1 := (List.range stage).foldl (fun x1 i => x1 + (S.A stage i * S.dt) • st.k i) x0
  let diag := st.cachedDiag.getD (S.A stage stage)
  let guess := if stage > 0 then st.k (stage - 1) else st.xOut
  let xOut := S.solve (fun y => (incRes S.R (x1 + (diag * S.dt) • y) y).eval) guess
  { st with xOut := xOut, k := Function.update st.k stage xOut, cachedDiag := some diag }

/-- `solve_stage`, predictor branch, 243-248. [implicit_runge_kutta.py] -/
def predStage (S : Scheme K X D) (x0 : X) (st : State K X) (stage : ℕ) : State K X :=
  let guess := if stage > 0 then st.xs (stage - 1) else st.xOut
  let xOut := S.solve (fun y => (predRes S st.xs x0 stage y).eval) guess
  { st with xOut := xOut, xs := Function.update st.xs stage xOut }

/-- `apply`, increment formulation, 251-259: result and the state kept for the next call. [implicit_runge_kutta.py] -/
def applyInc (S : Scheme K X D) (st : State K X) (xIn : X) : X × State K X :=
  let st := (List.range S.nStages).foldl (incStage S xIn) { st with xOut := xIn }
  ((List.range S.nStages).foldl (fun x i => x + (S.A S.nStages i * S.dt) • st.k i) xIn, st)

/-- `apply`, predictor formulation, 251-262. [implicit_runge_kutta.py] -/
def applyPred (S : Scheme K X D) (st : State K X) (xIn : X) : X × State K X :=
  let st := (List.range S.nStages).foldl (predStage S xIn) { st with xOut := xIn }
  let xOut := S.solve (fun y => (finalRes S st.xs xIn y).eval) st.xOut
  (xOut, { st with xOut := xOut })

/-- ImplicitMidpoint, implicit_runge_kutta.py:296: rows, last row = weights. -/
def implicitMidpoint : List (List ℚ) := [[1/2], [1]]
/-- QinZhang, implicit_runge_kutta.py:336. -/
def qinZhang : List (List ℚ) := [[1/4, 0], [1/2, 1/4], [1/2, 1/2]]

end IRK

namespace IMEX

/-- `t.has_label(implicit)` (imex_runge_kutta.py 166, 220). -/
def isImpl (t : Term X D) : Bool := t.has .implicit
/-- `t.has_label(explicit)` (imex_runge_kutta.py 159, 213). -/
def isExpl (t : Term X D) : Bool := t.has .explicit
/-- `t.has_label(source_label)` (imex_runge_kutta.py 177, 230). -/
def isSrc (t : Term X D) : Bool := t.has .source

/-- The data of an `IMEXRungeKutta` object.  `evaluate` is the list `self.evaluate_source`
(imex_runge_kutta.py 62-141). -/
structure Scheme (K X D : Type*) where
  R : LForm X D
  imp : ℕ → ℕ → K
  exp : ℕ → ℕ → K
  nStages : ℕ
  dt : K
  solve : Solver X D
  evaluate : List (X → X) := []
  limiter : Option (X → X) := none

/-- `__init__` (imex_runge_kutta.py:61-118): the argument `limiter` is not passed to
`super().__init__`, so `self.limiter` is `None` whatever the caller gave. -/
def init (R : LForm X D) (imp exp : ℕ → ℕ → K) (nStages : ℕ) (dt : K) (solve : Solver X D)
    (evaluate : List (X → X)) (_limiterArg : Option (X → X)) : Scheme K X D :=
  { R := R, imp := imp, exp := exp, nStages := nStages, dt := dt, solve := solve,
    evaluate := evaluate, limiter := none }

/-- `solver_start_stage`, 96-101: 1 if the first row of the implicit table is zero, else 0. [imex_runge_kutta.py] -/
def startStage [DecidableEq K] (S : Scheme K X D) : ℕ :=
  (List.range S.nStages).foldl (fun s j => if S.imp 0 j ≠ 0 then 0 else s) 1

/-- The check of `setup`, 131-136: `true` = no error. [imex_runge_kutta.py] -/
def setupAccepts (R : LForm X D) : Bool :=
  R.all fun t => isImpl t || isExpl t || isTD t || isSrc t

/-- The body of the stage loops of `res` (154-185) and `final_res` (210-236): the three pieces
added for stage `i` with coefficients `cImp`, `cExp`. [imex_runge_kutta.py] -/
def addStage (R : LForm X D) (dt cImp cExp : K) (xsi sourcei : X) (residual : LForm X D) :
    LForm X D :=
  let rExp := R.labelMap isExpl (replaceSubject xsi) drop
  let rExp := rExp.labelMap isTD keep (scaleTerm (cExp * dt))
  let rImp := R.labelMap isImpl (replaceSubject xsi) drop
  let rImp := rImp.labelMap isTD keep (scaleTerm (cImp * dt))
  let residual := add residual rImp
  let residual := add residual rExp
  let rSource := R.labelMap isSrc (replaceSubject sourcei) drop
  let rSource := rSource.labelMap allTerms (scaleTerm (cExp * dt)) keep
  add residual rSource

/-- `res(stage)`, 143-195. [imex_runge_kutta.py] -/
def res (S : Scheme K X D) (xs source : ℕ → X) (x1 : X) (stage : ℕ) (xOut : X) : LForm X D :=
  let massForm := S.R.labelMap isTD keep drop
  let residual := massForm.labelMap allTerms (replaceSubject xOut) keep
  let residual := sub residual (massForm.labelMap allTerms (replaceSubject x1) keep)
  let residual := (List.range stage).foldl (fun residual i =>
    addStage S.R S.dt (S.imp stage i) (S.exp stage i) (xs i) (source i) residual) residual
  let rImp := S.R.labelMap isImpl (replaceSubject xOut) drop
  let rImp := rImp.labelMap isTD keep (scaleTerm (S.imp stage stage * S.dt))
  add residual rImp

/-- `final_res`, 198-237. [imex_runge_kutta.py] -/
def finalRes (S : Scheme K X D) (xs source : ℕ → X) (x1 xOut : X) : LForm X D :=
  let massForm := S.R.labelMap isTD keep drop
  let residual := massForm.labelMap allTerms (replaceSubject xOut) keep
  let residual := sub residual (massForm.labelMap allTerms (replaceSubject x1) keep)
  (List.range S.nStages).foldl (fun residual i =>
    addStage S.R S.dt (S.imp S.nStages i) (S.exp S.nStages i) (xs i) (source i) residual) residual

/-- The mutable fields `x_out`, `xs[·]`, `source[·]` (imex_runge_kutta.py 122-141). -/
structure State (X : Type*) where
  xOut : X
  xs : ℕ → X
  source : ℕ → X

/-- `for evaluate in self.evaluate_source: evaluate(xs[i], dt, x_out=source[i])`: every scheme
writes the same Function (imex_runge_kutta.py 271, 281). -/
def evalInto (S : Scheme K X D) (i : ℕ) (st : State X) : State X :=
  S.evaluate.foldl (fun st e => { st with source := Function.update st.source i (e (st.xs i)) }) st

/-- `self.limiter.apply` if there is one (imex_runge_kutta.py 275-276, 285-286). -/
def limit (S : Scheme K X D) (x : X) : X :=
  match S.limiter with
  | some l => l x
  | none => x

/-- One iteration of the loop of `apply`, 266-279.  Python's index `stage-1` is the last one for
`stage = 0`. [imex_runge_kutta.py] -/
def stageBody (S : Scheme K X D) (xIn : X) (st : State X) (stage : ℕ) : State X :=
  let prev := if stage = 0 then S.nStages - 1 else stage - 1
  let st := evalInto S prev st
  let xOut := limit S (S.solve (fun y => (res S st.xs st.source xIn stage y).eval) st.xOut)
  { st with xOut := xOut, xs := Function.update st.xs stage xOut }

/-- `apply`, 259-287. [imex_runge_kutta.py] -/
def apply [DecidableEq K] (S : Scheme K X D) (st : State X) (xIn : X) : X :=
  let start := startStage S
  let st := { st with xOut := xIn, xs := Function.update st.xs 0 xIn }
  let st := ((List.range S.nStages).drop start).foldl (stageBody S xIn) st
  let st := evalInto S (S.nStages - 1) st
  limit S (S.solve (fun y => (finalRes S st.xs st.source xIn y).eval) st.xOut)

end IMEX
end Gusto

namespace Gusto.IMEX

/-- IMEX_Euler, imex_runge_kutta.py:323-324. -/
def eulerImp : List (List ℝ) := [[0, 0], [0, 1], [0, 1]]
/-- Explicit table of `IMEX_Euler`, imex_runge_kutta.py 325. -/
def eulerExp : List (List ℝ) := [[0, 0], [1, 0], [1, 0]]
/-- IMEX_ARS3, 370-372: `g`, implicit and explicit table (last row = weights). [imex_runge_kutta.py] -/
noncomputable def ars3g : ℝ := (3 + √3) / 6
/-- Implicit table of `IMEX_ARS3`, imex_runge_kutta.py 372. -/
noncomputable def ars3Imp : List (List ℝ) :=
  let g := ars3g
  [[0, 0, 0], [0, g, 0], [0, 1 - 2 * g, g], [0, 1/2, 1/2]]
/-- Explicit table of `IMEX_ARS3`, imex_runge_kutta.py 373. -/
noncomputable def ars3Exp : List (List ℝ) :=
  let g := ars3g
  [[0, 0, 0], [g, 0, 0], [g - 1, 2 * (1 - g), 0], [0, 1/2, 1/2]]
/-- IMEX_ARK2, 419-423. [imex_runge_kutta.py] -/
noncomputable def ark2g : ℝ := 1 - 1 / √2
/-- The number `d` of `IMEX_ARK2`, imex_runge_kutta.py 419-423. -/
noncomputable def ark2d : ℝ := 1 / (2 * √2)
/-- The number `a` of `IMEX_ARK2`, imex_runge_kutta.py 419-423. -/
noncomputable def ark2a : ℝ := 1 / 6 * (3 + 2 * √2)
/-- Implicit table of `IMEX_ARK2`, imex_runge_kutta.py 419-423. -/
noncomputable def ark2Imp : List (List ℝ) :=
  let g := ark2g
  let d := ark2d
  [[0, 0, 0], [g, g, 0], [d, d, g], [d, d, g]]
/-- Explicit table of `IMEX_ARK2`, imex_runge_kutta.py 419-423. -/
noncomputable def ark2Exp : List (List ℝ) :=
  let g := ark2g
  let d := ark2d
  let a := ark2a
  [[0, 0, 0], [2 * g, 0, 0], [1 - a, a, 0], [d, d, g]]
/-- IMEX_SSP3, 467-469. [imex_runge_kutta.py] -/
noncomputable def ssp3g : ℝ := 1 - 1 / √2
/-- Implicit table of `IMEX_SSP3`, imex_runge_kutta.py 468-470. -/
noncomputable def ssp3Imp : List (List ℝ) :=
  let g := ssp3g
  [[g, 0, 0], [1 - 2 * g, g, 0], [1/2 - g, 0, g], [1/6, 1/6, 2/3]]
/-- Explicit table of `IMEX_SSP3`, imex_runge_kutta.py 468-470. -/
noncomputable def ssp3Exp : List (List ℝ) :=
  [[0, 0, 0], [1, 0, 0], [1/4, 1/4, 0], [1/6, 1/6, 2/3]]
/-- IMEX_Trap2, 513-515, with `e = 0` (513). [imex_runge_kutta.py] -/
noncomputable def trap2Imp : List (List ℝ) :=
  [[0, 0, 0, 0], [0, 0, 0, 0], [1/2, 0, 1/2, 0], [1/2, 0, 0, 1/2], [1/2, 0, 0, 1/2]]
/-- Explicit table of `IMEX_Trap2`, imex_runge_kutta.py 513-515. -/
noncomputable def trap2Exp : List (List ℝ) :=
  [[0, 0, 0, 0], [1, 0, 0, 0], [1/2, 1/2, 0, 0], [1/2, 0, 1/2, 0], [1/2, 0, 1/2, 0]]

/-- `self.butcher_imp[i, j]` (imex_runge_kutta.py 143-237). -/
def entry (T : List (List ℝ)) (i j : ℕ) : ℝ := (T.getD i []).getD j 0

end Gusto.IMEX
