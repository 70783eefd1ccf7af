import Verif.Model.Multilevel
import Mathlib.Algebra.Order.Field.Basic

set_option autoImplicit false

/-!
# The time loop, its output and checkpoints

Models `BaseTimestepper.run` (gusto/timestepping/timestepper.py:196-267),
`IO.setup_dump`, `IO.pick_up_from_checkpoint`, `IO.dump`, `write_nc_dump`
(gusto/core/io.py:370-931), `PointDataOutput`, `DiagnosticsOutput` (69-208) and the levels that
`StateFields` marks for pick-up (gusto/core/fields.py:117-160).

Simplifications: the prognostic state at one level is one value of type `X`; the contents of a row
of an output file are the pair (time, prognostic state) from which the row is computed; VTU output,
logging, reference profiles (`last_ref_update_time`) and prescribed fields are left out; of the two
checkpoint methods `checkpointfile` without `multichkpt` is modelled.
-/

namespace Gusto
open Multilevel
variable {K X : Type*}

namespace TimeLoop

/-- Big-step semantics of `while c: b`: `While c b s n s'` holds if the loop started in `s` stops
in `s'` after exactly `n` iterations (Python; the loop of timestepper.py 244-262). -/
inductive While {σ : Type*} (c : σ → Prop) (b : σ → σ) : σ → ℕ → σ → Prop
  | stop {s : σ} : ¬ c s → While c b s 0 s
  | iter {s s' : σ} {n : ℕ} : c s → While c b (b s) n s' → While c b s (n + 1) s'

/-- What the timestepper provides to the loop.  `advance` is `timestep()` of the concrete class
(e.g. timestepper.py:372-380): from the current time, the time levels and the start-up counter
(absent if the scheme has no attribute `initial_timesteps`) it computes the state at level `np1`
and the new counter.  `tick` is the assignment `t = float(t) + float(dt)` (249). -/
structure Stepper (K X : Type*) where
  dt : K
  tick : K → K
  advance : K → Levels X → Option ℕ → X × ℕ

/-- The state carried by the loop (timestepper.py 196-267). -/
structure Core (K X : Type*) where
  levels : Levels X
  t : K
  step : ℕ
  initial : Option ℕ

/-- `self.x.update()`; `self.timestep()`; `t += dt`; `step += 1` (timestepper.py:240-250). -/
def coreStep (A : Stepper K X) (c : Core K X) : Core K X :=
  let L := c.levels.update
  let r := A.advance c.t L c.initial
  { levels := { L with np1 := r.1 }
    t := A.tick c.t
    step := c.step + 1
    initial := c.initial.map fun _ => r.2 }

/-! ## Files -/

/-- A checkpoint file: `np1`, the previous levels registered for pick-up, `time`, `step` and
`initial_steps` (io.py:763-790). -/
structure Ckpt (K X : Type*) where
  np1 : X
  olds : List X
  t : K
  step : ℕ
  initial : Option ℕ

/-- The levels stored besides `np1`: `for level in range(len(levels)-2)` names `n`, `nm1`, …
(fields.py:147-156); `len(levels) = len(previous) + 1`, and the `k`-th name is
`previous[len-1-k]`. -/
def storedLevels (previous : List X) : List X :=
  (List.range (previous.length + 1 - 2)).filterMap fun k => previous[previous.length - 1 - k]?

/-- The checkpoint written for a state; `initial` is `time_data.initial_steps` (core/io.py 770-807). -/
def save (c : Core K X) (initial : Option ℕ) : Ckpt K X :=
  { np1 := c.levels.np1, olds := storedLevels c.levels.previous, t := c.t, step := c.step, initial }

/-- One iteration of `for field_name in self.to_pick_up` for the `i`-th stored previous level
(io.py:658-660): it is assigned to `previous[len-1-i]`, the level that was stored under its name. -/
def restoreLevel (len : ℕ) (olds : List X) (p : List X) (i : ℕ) : List X :=
  match olds[i]? with
  | some v => p.set (len - 1 - i) v
  | none => p

/-- `pick_up_from_checkpoint` (io.py:655-700), `set_initial_timesteps` (timestepper.py:61-67) and
the assignments of `run` (216-224), applied to a freshly constructed timestepper `c0`. -/
def pickUp (k : Ckpt K X) (c0 : Core K X) : Core K X :=
  let len := c0.levels.previous.length
  { levels :=
      { previous := (List.range k.olds.length).foldl (restoreLevel len k.olds) c0.levels.previous
        np1 := k.np1 }
    t := k.t
    step := k.step
    initial := match c0.initial, k.initial with
      | some _, some n => some n
      | i, _ => i }

/-- The contents of `chkpt.h5` (core/io.py 722-807). -/
inductive ChkFile (K X : Type*)
  /-- the file does not exist -/
  | absent
  /-- opened with mode `'w'` and not yet closed -/
  | partialWrite
  /-- complete -/
  | complete (k : Ckpt K X)

/-- What is on disk.  A row is `none` if netCDF filled it in (core/io.py 722-807). -/
structure Files (K X : Type*) where
  diag : List (Option (K × X))
  point : List (Option (K × X))
  chk : ChkFile K X
  nc : List (Option (K × X))

/-- `OutputParameters`, gusto/core/configuration.py: the fields used here (configuration.py 90-115). -/
structure Config where
  dumpDiagnostics : Bool
  pointData : Bool
  checkpoint : Bool
  dumpNc : Bool
  diagfreq : ℕ
  pddumpfreq : ℕ
  chkptfreq : ℕ
  dumpfreq : ℕ

/-- The four `itertools.count()` objects (next value) and the two row indices
`PointDataOutput.dump_count` and `IO.field_t_idx` (core/io.py 69-151, 370-582). -/
structure Counters where
  diag : ℕ
  pd : ℕ
  chk : ℕ
  dump : ℕ
  pointRow : ℕ
  ncRow : ℕ

/-- Assignment to index `i` of an unlimited netCDF dimension: extends the variable if needed
(netCDF4; core/io.py 129-151, 186-208). -/
def writeRow {α : Type*} (rows : List (Option α)) (i : ℕ) (v : α) : List (Option α) :=
  if i < rows.length then rows.set i (some v)
  else rows ++ List.replicate (i - rows.length) none ++ [some v]

/-- A running process: the state of the loop, the counters, the disk, and the list of all disk
contents so far at which the process could have been killed (core/io.py 722-807, timestepper.py 196-267). -/
structure Sys (K X : Type*) where
  core : Core K X
  cnt : Counters
  files : Files K X
  history : List (Files K X)

/-- One atomic change of the disk (specification of crashes; core/io.py 722-807). -/
def Sys.put (s : Sys K X) (f : Files K X) : Sys K X :=
  { s with files := f, history := s.history ++ [f] }

/-- io.py:753-755 with `DiagnosticsOutput.dump` (186-208): appends at the size of the dimension. -/
def dumpDiag (cfg : Config) (s : Sys K X) : Sys K X :=
  if cfg.dumpDiagnostics then
    let n := s.cnt.diag
    let s := { s with cnt := { s.cnt with diag := n + 1 } }
    if n % cfg.diagfreq = 0 then
      s.put { s.files with
        diag := writeRow s.files.diag s.files.diag.length (s.core.t, s.core.levels.np1) }
    else s
  else s

/-- io.py:757-759 with `PointDataOutput.dump` (129-151): writes row `dump_count`. -/
def dumpPoint (cfg : Config) (s : Sys K X) : Sys K X :=
  if cfg.pointData then
    let n := s.cnt.pd
    let s := { s with cnt := { s.cnt with pd := n + 1 } }
    if n % cfg.pddumpfreq = 0 then
      let s' := s.put { s.files with
        point := writeRow s.files.point s.cnt.pointRow (s.core.t, s.core.levels.np1) }
      { s' with cnt := { s'.cnt with pointRow := s'.cnt.pointRow + 1 } }
    else s
  else s

/-- io.py:762-797: the file is truncated when it is opened, and complete when it is closed. -/
def dumpChk (cfg : Config) (initial : Option ℕ) (s : Sys K X) : Sys K X :=
  if cfg.checkpoint then
    let n := s.cnt.chk
    let s := { s with cnt := { s.cnt with chk := n + 1 } }
    if n % cfg.chkptfreq = 0 then
      let s := s.put { s.files with chk := .partialWrite }
      s.put { s.files with chk := .complete (save s.core initial) }
    else s
  else s

/-- io.py:799-802 with `write_nc_dump` (893-931): writes row `field_t_idx`. -/
def dumpFields (cfg : Config) (s : Sys K X) : Sys K X :=
  let n := s.cnt.dump
  let s := { s with cnt := { s.cnt with dump := n + 1 } }
  if n % cfg.dumpfreq = 0 then
    if cfg.dumpNc then
      let s' := s.put { s.files with
        nc := writeRow s.files.nc s.cnt.ncRow (s.core.t, s.core.levels.np1) }
      { s' with cnt := { s'.cnt with ncRow := s'.cnt.ncRow + 1 } }
    else s
  else s

/-- `IO.dump`, io.py:722-807. -/
def dump (cfg : Config) (initial : Option ℕ) (s : Sys K X) : Sys K X :=
  dumpFields cfg (dumpChk cfg initial (dumpPoint cfg (dumpDiag cfg s)))

/-- The body of the loop, timestepper.py:237-261. -/
def body (A : Stepper K X) (cfg : Config) (s : Sys K X) : Sys K X :=
  let c := coreStep A s.core
  dump cfg c.initial { s with core := c }

/-- Loop condition, timestepper.py:237. -/
def loopCond [Field K] [LinearOrder K] (A : Stepper K X) (tmax : K) (s : Sys K X) : Prop :=
  s.core.t < tmax - 1 / 2 * A.dt

/-- `run(t, tmax)` up to the start of the loop: `step = 1`, `setup_dump` creates the files and
makes the initial dump, with `initial_steps = None` (timestepper.py:226-237, io.py:430-582).
`c0` is the timestepper as constructed and initialised by the user. -/
def fresh (cfg : Config) (t : K) (c0 : Core K X) : Sys K X :=
  let s : Sys K X :=
    { core := { c0 with t := t, step := 1 }
      cnt := ⟨0, 0, 0, 0, 0, 0⟩
      files := ⟨[], [], .absent, []⟩
      history := [] }
  dump cfg none s

/-- `run(t, tmax, pick_up=True)` up to the start of the loop (timestepper.py:216-224,
io.py:430-570): counters at one, `PointDataOutput.dump_count = 0`, `field_t_idx` the number of
rows.  `none` if the checkpoint cannot be read (or there is none, or checkpointing is off). -/
def resume (cfg : Config) (f : Files K X) (c0 : Core K X) : Option (Sys K X) :=
  if cfg.checkpoint then
    match f.chk with
    | .complete k => some
        { core := pickUp k c0
          cnt := ⟨1, 1, 1, 1, 0, f.nc.length⟩
          files := f
          history := [] }
    | _ => none
  else none

/-- `run`: started in `s`, the loop ends in `s'` after `n` steps (timestepper.py 196-267). -/
def Run [Field K] [LinearOrder K] (A : Stepper K X) (cfg : Config) (tmax : K)
    (s : Sys K X) (n : ℕ) (s' : Sys K X) : Prop :=
  While (loopCond A tmax) (body A cfg) s n s'

end TimeLoop
end Gusto
