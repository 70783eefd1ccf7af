import Verif.Model.TimeDisc

set_option autoImplicit false

/-!
# Multi-level schemes: `gusto/time_discretisation/multi_level_schemes.py`,
and the time levels of `gusto/core/fields.py` / `gusto/timestepping/timestepper.py`.

The previous levels handed to `apply` are `x 0` (oldest) … `x (nlevels-1)` (newest).
Not modelled: `setup` beyond the coefficient tables, boundary conditions (see C142, C143), solver parameters.
-/

namespace Gusto
open LForm
variable {K X D : Type*} [Field K] [AddCommGroup D] [Module K D]

namespace Multilevel
open TimeDisc

/-- `BDF2.res0` (start-up), multi_level_schemes.py:75-93. -/
def bdf2Res0 (R : LForm X D) (dt : K) (xOut x1 : X) : LForm X D :=
  let residual := R.labelMap allTerms (replaceSubject xOut) keep
  let residual := residual.labelMap isTD keep (scaleTerm dt)
  let r := R.labelMap isTD (replaceSubject x1) drop
  sub residual r

/-- `BDF2.res`, multi_level_schemes.py:96-119. -/
def bdf2Res (R : LForm X D) (dt : K) (xOut x1 xnm1 : X) : LForm X D :=
  let residual := R.labelMap allTerms (replaceSubject xOut) keep
  let residual := residual.labelMap isTD keep (scaleTerm (2 / 3 * dt))
  let xn := R.labelMap isTD (replaceSubject x1) drop
  let xm := R.labelMap isTD (replaceSubject xnm1) drop
  sub residual (sub (LForm.smul (4 / 3 : K) xn) (LForm.smul (1 / 3 : K) xm))

/-- `Leapfrog.res0` (start-up), multi_level_schemes.py:173-191. -/
def leapfrogRes0 (R : LForm X D) (dt : K) (xOut x1 : X) : LForm X D :=
  let residual := R.labelMap isTD (replaceSubject xOut) drop
  let r := R.labelMap allTerms (replaceSubject x1) keep
  let r := r.labelMap isTD keep (scaleTerm (-dt))
  sub residual r

/-- `Leapfrog.rhs`, multi_level_schemes.py:194-213.  The class defines this property, but no code
reads it. -/
def leapfrogRhs (R : LForm X D) (dt : K) (xOut x1 xnm1 : X) : LForm X D :=
  let residual := R.labelMap isTD (replaceSubject xOut) drop
  let r := R.labelMap isTD keep (replaceSubject x1)
  let r := r.labelMap isTD (replaceSubject xnm1) (scaleTerm (-2 * dt))
  sub residual r

/-- `Leapfrog.solver` (225-231) is built from `self.res`, which Leapfrog does not define: it is
inherited from `TimeDiscretisation.res` (time_discretisation.py:392-411). -/
def leapfrogRes (R : LForm X D) (dt : K) (xOut x1 _xnm1 : X) : LForm X D :=
  baseRes R dt xOut x1

/-- `AdamsBashforth.res0`, multi_level_schemes.py:321-338; `xl` is `self.x[-1]`. -/
def abRes0 (R : LForm X D) (dt : K) (xOut xl : X) : LForm X D :=
  let residual := R.labelMap isTD (replaceSubject xOut) drop
  let r := R.labelMap allTerms (replaceSubject xl) keep
  let r := r.labelMap isTD keep (scaleTerm (-dt))
  sub residual r

/-- The loop `for n in range(self.nlevels - 1)` shared by `AdamsBashforth.res` (356-366) and
`AdamsMoulton.res` (521-531). [multi_level_schemes.py] -/
def adamsLoop (R : LForm X D) (dt : K) (b : ℕ → K) (x : ℕ → X) (n : ℕ) (res : LForm X D) :
    LForm X D :=
  (List.range n).foldl (fun residual k =>
    let rtemp := R.labelMap isTD drop (replaceSubject (x k))
    let rtemp := rtemp.labelMap isTD keep (scaleTerm (-dt * b k))
    sub residual rtemp) res

/-- `AdamsBashforth.res`, multi_level_schemes.py:341-367; `self.x[-1]` is `x (nlevels-1)`. -/
def abRes (R : LForm X D) (dt : K) (b : List K) (xOut : X) (x : ℕ → X) : LForm X D :=
  let nlevels := b.length
  let residual := R.labelMap isTD (replaceSubject xOut) drop
  let r := R.labelMap allTerms (replaceSubject (x (nlevels - 1))) keep
  let residual := sub residual
    (r.labelMap isTD keep (scaleTerm (-(b.getD (nlevels - 1) 0) * dt)))
  adamsLoop R dt (b.getD · 0) x (nlevels - 1) residual

/-- `AdamsMoulton.res0`, multi_level_schemes.py:478-500. -/
def amRes0 (R : LForm X D) (dt : K) (xOut xl : X) : LForm X D :=
  let residual := R.labelMap allTerms (replaceSubject xOut) keep
  let residual := residual.labelMap isTD keep (scaleTerm (1 / 2 * dt))
  let r := R.labelMap allTerms (replaceSubject xl) keep
  let r := r.labelMap isTD keep (scaleTerm (-(1 / 2) * dt))
  sub residual r

/-- `AdamsMoulton.res`, multi_level_schemes.py:503-532. -/
def amRes (R : LForm X D) (dt bl : K) (br : List K) (xOut : X) (x : ℕ → X) : LForm X D :=
  let nlevels := br.length
  let residual := R.labelMap allTerms (replaceSubject xOut) keep
  let residual := residual.labelMap isTD keep (scaleTerm (bl * dt))
  let r := R.labelMap allTerms (replaceSubject (x (nlevels - 1))) keep
  let residual := sub residual
    (r.labelMap isTD keep (scaleTerm (-(br.getD (nlevels - 1) 0) * dt)))
  adamsLoop R dt (br.getD · 0) x (nlevels - 1) residual

/-- `AdamsBashforth.__init__` guard (286-287) and the table of `setup` (298-314): `none` is the
`ValueError`. [multi_level_schemes.py] -/
def abTable (order : ℕ) : Option (List ℚ) :=
  match order with
  | 1 => some [1]
  | 2 => some [-(1/2), 3/2]
  | 3 => some [5/12, -(16/12), 23/12]
  | 4 => some [-(9/24), 37/24, -(59/24), 55/24]
  | 5 => some [251/720, -(1274/720), 2616/720, -(2774/720), 2901/720]
  | _ => none

/-- `AdamsMoulton.__init__` guard (438-439) and the table of `setup` (455-471): `(bl, br)`.
[multi_level_schemes.py] -/
def amTable (order : ℕ) : Option (ℚ × List ℚ) :=
  match order with
  | 1 => some (1/2, [1/2])
  | 2 => some (5/12, [-(1/12), 8/12])
  | 3 => some (9/24, [1/24, -(5/24), 19/24])
  | 4 => some (251/720, [-(19/720), 106/720, -(254/720), 646/720])
  | _ => none

/-! ## `apply` and the start-up counter -/

/-- A multi-level scheme: number of levels, start-up residual and main residual, as functions of
the previous levels and the unknown (multi_level_schemes.py 24-59). -/
structure Scheme (X D : Type*) where
  nlevels : ℕ
  res0 : (ℕ → X) → X → LForm X D
  res : (ℕ → X) → X → LForm X D

/-- `apply` of BDF2 (139-158), Leapfrog (233-253), AdamsBashforth (386-406) and AdamsMoulton
(551-571): the four bodies are the same.  Returns the new state and the counter
`initial_timesteps`.  The guess is the newest level. [multi_level_schemes.py] -/
def Scheme.apply (S : Scheme X D) (solve : Solver X D) (initialTimesteps : ℕ)
    (x : ℕ → X) : X × ℕ :=
  if initialTimesteps < S.nlevels - 1 then
    (solve (fun y => (S.res0 x y).eval) (x (S.nlevels - 1)), initialTimesteps + 1)
  else
    (solve (fun y => (S.res x y).eval) (x (S.nlevels - 1)), initialTimesteps)

/-- BDF2 (62-158), with `nlevels = 2`, `xnm1 = x_in[0]`, `x1 = x_in[1]`. [multi_level_schemes.py] -/
def bdf2 (R : LForm X D) (dt : K) : Scheme X D where
  nlevels := 2
  res0 x y := bdf2Res0 R dt y (x 1)
  res x y := bdf2Res R dt y (x 1) (x 0)

/-- Leapfrog (161-253). [multi_level_schemes.py] -/
def leapfrog (R : LForm X D) (dt : K) : Scheme X D where
  nlevels := 2
  res0 x y := leapfrogRes0 R dt y (x 1)
  res x y := leapfrogRes R dt y (x 1) (x 0)

/-- AdamsBashforth (256-406) with coefficient list `b`. [multi_level_schemes.py] -/
def adamsBashforth (R : LForm X D) (dt : K) (b : List K) : Scheme X D where
  nlevels := b.length
  res0 x y := abRes0 R dt y (x (b.length - 1))
  res x y := abRes R dt b y x

/-- AdamsMoulton (409-571) with coefficients `bl`, `br`. [multi_level_schemes.py] -/
def adamsMoulton (R : LForm X D) (dt bl : K) (br : List K) : Scheme X D where
  nlevels := br.length
  res0 x y := amRes0 R dt y (x (br.length - 1))
  res x y := amRes R dt bl br y x

/-! ## Time levels -/

/-- `TimeLevelFields`: the list `previous` (oldest first, last one is level `n`) and `np1`
(gusto/core/fields.py:251-272).  A level is the whole state: the per-field loop of `update` copies
every field of the level by name. -/
structure Levels (X : Type*) where
  previous : List X
  np1 : X

/-- `TimeLevelFields.__init__` (fields.py:254-272): the number of previous levels. -/
def numPrevious (nlevels : ℕ) : ℕ := if nlevels = 1 then 1 else (nlevels - 1) + 1

/-- One iteration of the loop of `update` (fields.py:303-307): level `i` takes the value of level
`i + 1`. -/
def shiftLevel (p : List X) (i : ℕ) : List X :=
  match p[i + 1]? with
  | some v => p.set i v
  | none => p

/-- `TimeLevelFields.update` (fields.py:301-310). -/
def Levels.update (L : Levels X) : Levels X :=
  let len := L.previous.length
  let prev := (List.range (len - 1)).foldl shiftLevel L.previous
  { L with previous := prev.set (len - 1) L.np1 }

/-- Everything the time loop carries for a multi-level scheme (timestepper.py 196-267, core/fields.py 253-310). -/
structure RunState (X : Type*) where
  levels : Levels X
  initialTimesteps : ℕ

/-- The body of the time loop (timestepper.py:234-246) with `Timestepper.timestep` (371-380):
`x.update()`, then `scheme.apply(xnp1, *previous[-nlevels:])`. -/
def stepBody [Inhabited X] (S : Scheme X D) (solve : Solver X D) (s : RunState X) : RunState X :=
  let L := s.levels.update
  let xin := L.previous.drop (L.previous.length - S.nlevels)
  let r := S.apply solve s.initialTimesteps (fun j => xin.getD j default)
  { levels := { L with np1 := r.1 }, initialTimesteps := r.2 }

end Multilevel
end Gusto
