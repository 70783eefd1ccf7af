import Verif.Model.ExplicitRK
import Mathlib.Logic.Function.Basic

set_option autoImplicit false

/-!
# The same schemes as programs on a store of Functions

Python passes `Function` objects by reference, so `apply(x_out, x_in)` may be called with the same
object twice, and the scheme's own Functions persist between calls.  Here a `Function` is a
location, its data the contents of the location, `f.assign(e)` a write.
Not modelled: wrappers, augmentation.
-/

namespace Gusto
open LForm TimeDisc
variable {K X D : Type*} [Field K] [AddCommGroup X] [Module K X] [AddCommGroup D] [Module K D]

namespace Store

/-- The Functions that exist: any number of the user's (`user n`), and those owned by the scheme
object (time_discretisation.py:527-528, 262-264; explicit_runge_kutta.py:139-150). -/
inductive Loc where
  | user (n : ℕ)
  | x0 | x1 | xOut | rhs
  | src (j : ℕ) | k (i : ℕ) | field (i : ℕ) | source (i : ℕ) | lhs (i : ℕ)
  deriving DecidableEq

/-- The Functions of a scheme, by name: explicit_runge_kutta.py 129-150. -/
abbrev Heap (X : Type*) := Loc → X

/-- `l.assign(v)` (Firedrake; explicit_runge_kutta.py 320-454). -/
def set (l : Loc) (v : X) (h : Heap X) : Heap X := Function.update h l v

/-- `if self.limiter is not None: self.limiter.apply(l)`: acts in place
(explicit_runge_kutta.py 328-329 and the other places). -/
def limitAt (S : RKScheme K X D) (l : Loc) (h : Heap X) : Heap X :=
  match S.limiter with
  | none => h
  | some L => set l (L (h l)) h

/-- `for evaluate in self.evaluate_source: evaluate(l, dt)`: writes the schemes' own sources
(explicit_runge_kutta.py 327, 392, 417). -/
def evalAt (S : RKScheme K X D) (l : Loc) (dt : K) (h : Heap X) : Heap X :=
  (List.range S.nphys).foldl (fun h j => set (.src j) (S.evals j (h l) dt) h) h

/-- `for evaluate in self.evaluate_source: evaluate(l, dt, x_out=out)`: writes the scheme's own
source and `out` (explicit_runge_kutta.py 358). -/
def evalIntoAt (S : RKScheme K X D) (l out : Loc) (dt : K) (h : Heap X) : Heap X :=
  (List.range S.nphys).foldl (fun h j =>
    set out (S.evals j (h l) dt) (set (.src j) (S.evals j (h l) dt) h)) h

/-- `solve_stage(x0, stage)`, increment, explicit_runge_kutta.py:322-344, statement by
statement. -/
def incStage (S : RKScheme K X D) (x0 : Loc) (stage : ℕ) (h : Heap X) : Heap X :=
  let h := set .x1 (h x0) h
  let h := (List.range stage).foldl
    (fun h i => set .x1 (h .x1 + (S.dt * S.A (stage - 1) i) • h (.k i)) h) h
  let h := evalAt S .x1 S.dt h
  let h := limitAt S .x1 h
  let h := if stage > 0 then set .xOut (h (.k (stage - 1))) h else h
  let h := set .xOut (S.solve (fun y =>
    (RK.incRes K (RK.withSources (fun j => h (.src j)) S.R) y (h .x1)).eval) (h .xOut)) h
  let h := set (.k stage) (h .xOut) h
  if stage = S.nStages - 1 then
    let h := set .x1 (h x0) h
    let h := (List.range S.nStages).foldl
      (fun h i => set .x1 (h .x1 + (S.dt * S.A stage i) • h (.k i)) h) h
    limitAt S .x1 h
  else h

/-- `solve_stage(x0, stage)`, predictor, explicit_runge_kutta.py:345-368. -/
def predStage (S : RKScheme K X D) (x0 : Loc) (stage : ℕ) (h : Heap X) : Heap X :=
  let h := if stage = 0 then set (.field 0) (h x0) h else h
  let h := set (.field (stage + 1)) (h (.field stage)) h
  let h := limitAt S (.field stage) h
  let h := evalIntoAt S (.field stage) (.source stage) S.dt h
  let h := set (.field (stage + 1)) (S.solve (fun y =>
    (RK.predRes S.R S.A S.dt stage (fun i => h (.field i)) (fun i => h (.source i)) y).eval)
    (h (.field (stage + 1)))) h
  if stage = S.nStages - 1 then
    let h := set .x1 (h (.field (stage + 1))) h
    limitAt S .x1 h
  else h

/-- `solve_stage(x0, stage)`, linear, explicit_runge_kutta.py:370-427; `idx = subcycle_idx`.
`field_lhs` is a new list of zero Functions in the first stage of the first subcycle. -/
def linStage (S : RKScheme K X D) (ncycles idx : ℕ) (x0 : Loc) (stage : ℕ) (h : Heap X) :
    Heap X :=
  let cs := S.nStages * idx + stage
  let h : Heap X := if stage = 0 ∧ idx = 0 then
      let h : Heap X := fun l => match l with
        | .lhs _ => 0
        | l => h l
      set (.lhs 0) (h .x0) h
    else h
  if cs + 1 < ncycles * S.nStages then
    let h := set .rhs 0 h
    let h := (List.range (stage + 1)).foldl
      (fun h i => set .rhs (h .rhs + S.A stage i • h (.lhs (S.nStages * idx + i))) h) h
    let h := evalAt S .rhs S.dt h
    let h := limitAt S .rhs h
    let h := set .x1 (h (.lhs cs)) h
    let h := set .x1 (S.solve (fun y => (RK.linRes S.R S.dt false (h .x0) (h .rhs) y).eval)
      (h .x1)) h
    set (.lhs (cs + 1)) (h .x1) h
  else
    let h := set .rhs 0 h
    let h := (List.range (ncycles * S.nStages)).foldl
      (fun h i => set .rhs (h .rhs + S.A (S.nStages - 1) (i % S.nStages) • h (.lhs i)) h) h
    let h := evalAt S .rhs S.originalDt h
    let h := limitAt S .rhs h
    let h := set .x1 (h x0) h
    let h := set .x1 (S.solve (fun y => (RK.linRes S.R S.dt true (h .x0) (h .rhs) y).eval)
      (h .x1)) h
    limitAt S .x1 h

/-- `solve_stage`, explicit_runge_kutta.py:320-432. -/
def solveStage (f : RK.Formulation) (S : RKScheme K X D) (ncycles idx : ℕ) (x0 : Loc)
    (h : Heap X) (stage : ℕ) : Heap X :=
  match f with
  | .increment => incStage S x0 stage h
  | .predictor => predStage S x0 stage h
  | .linear => linStage S ncycles idx x0 stage h

/-- `apply_cycle(x_out, x_in)`, explicit_runge_kutta.py:434-454. -/
def applyCycle (f : RK.Formulation) (S : RKScheme K X D) (ncycles idx : ℕ) (xOut xIn : Loc)
    (h : Heap X) : Heap X :=
  let h := limitAt S xIn h
  let h := set .x1 (h xIn) h
  let h := (List.range S.nStages).foldl (solveStage f S ncycles idx xIn) h
  set xOut (h .x1) h

/-- `apply(x_out, x_in)`, time_discretisation.py:592-607. -/
def apply (f : RK.Formulation) (S : RKScheme K X D) (ncycles : ℕ) (xOut xIn : Loc)
    (h : Heap X) : Heap X :=
  let h := set .x0 (h xIn) h
  let h := (List.range ncycles).foldl (fun h idx =>
    let h := applyCycle f S ncycles idx .x1 .x0 h
    set .x0 (h .x1) h) h
  set xOut (h .x1) h

/-- The scheme's own Functions as the functional model's state (explicit_runge_kutta.py 129-150). -/
def own (h : Heap X) : RKState X :=
  { x0 := h .x0, x1 := h .x1, xOut := h .xOut, src := fun j => h (.src j),
    k := fun i => h (.k i), field := fun i => h (.field i), source := fun i => h (.source i),
    fieldLhs := fun i => h (.lhs i), fieldRhs := h .rhs }

end Store
end Gusto
