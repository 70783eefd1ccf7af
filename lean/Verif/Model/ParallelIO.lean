import Mathlib.Data.List.Basic

set_option autoImplicit false

/-!
# Parallel output (gusto/core/io.py, gusto/core/coordinates.py)

A collective operation is modelled by a function of the list of the ranks' contributions, in rank
order.  `locals` are the ranks' arrays of owned degrees of freedom (`dat.data_ro`).
-/

namespace Gusto
variable {α : Type*}

namespace ParallelIO

/-- `comm.exscan(nlocal_dofs) or 0` on rank `r` (coordinates.py:110): the sum of the contributions
of the ranks before it; on rank 0 mpi4py returns `None`, replaced by 0. -/
def exscan (sizes : List ℕ) (r : ℕ) : ℕ := if r = 0 then 0 else (sizes.take r).sum

/-- `parallel_array_lims[space_name]` on rank `r`, coordinates.py:109-112. -/
def lims (locals : List (List α)) (r : ℕ) : ℕ × ℕ :=
  let start := exscan (locals.map List.length) r
  (start, start + (locals.getD r []).length)

/-- `variable[start:stop, t_idx] = data` for a variable given by its entries; `none` is an entry
never written.  (numpy requires `stop - start = len(data)`, which holds by construction.)
(netCDF4/numpy; core/io.py 893-931). -/
def writeSlice (g : ℕ → Option α) (start stop : ℕ) (data : List α) : ℕ → Option α :=
  fun i => if start ≤ i ∧ i < stop then data[i - start]? else g i

/-- `write_nc_dump` with parallel netCDF (io.py:918-922): the ranks write in some order. -/
def writeAll (locals : List (List α)) (order : List ℕ) (g : ℕ → Option α) : ℕ → Option α :=
  order.foldl (fun g r => writeSlice g (lims locals r).1 (lims locals r).2 (locals.getD r [])) g

/-- `gather_field_data` on rank 0 (io.py:1020-1045), and the write `[:, t_idx] = …` (923-926). -/
def gather (locals : List (List α)) : List α :=
  if locals.length = 1 then locals.getD 0 [] else locals.flatten

/-! ## `setup_dump`: directory creation and exceptions (io.py:389-425) -/

/-- The output flags and circumstances (core/io.py 370-582). -/
structure DumpFlags where
  dumpVtus : Bool
  dumpNc : Bool
  dumplistLatlon : Bool
  dumpDiagnostics : Bool
  pointData : Bool
  checkpoint : Bool
  pickUp : Bool
  runningTests : Bool
  overwriteFiles : Bool
  /-- `path.exists(self.dumpdir)` on rank 0 -/
  dirExists : Bool
  /-- `makedirs` on rank 0 would succeed -/
  makedirsOk : Bool
  deriving DecidableEq

/-- The outcome on one rank (core/io.py 370-582). -/
inductive Outcome
  | proceed
  | gustoIOError
  /-- `own`: the exception caught by this rank, otherwise the generic message -/
  | osError (own : Bool)
  deriving DecidableEq

/-- io.py:393-396. -/
def wantsDir (f : DumpFlags) : Bool :=
  [f.dumpVtus, f.dumpNc, f.dumplistLatlon, f.dumpDiagnostics, f.pointData,
    f.checkpoint && !f.pickUp].any id

/-- The value of `raise_parallel_exception` on rank `r` (io.py:389-413). -/
def localCode (f : DumpFlags) (r : ℕ) : ℕ :=
  if r = 0 then
    if !f.dirExists then (if f.makedirsOk then 0 else 2)
    else if !(f.runningTests || f.pickUp) then 1 else 0
  else 0

/-- `comm.allreduce(code, op=MPI.MAX)` over `size` ranks (MPI; core/io.py 415-416). -/
def allreduceMax (codes : List ℕ) : ℕ := codes.foldl max 0

/-- The outcome of `setup_dump` up to the creation of the files, on rank `r` of `size`
(io.py:393-425); `error` is set on the ranks whose `makedirs` failed. -/
def setupDump (f : DumpFlags) (size : ℕ) (r : ℕ) : Outcome :=
  if wantsDir f then
    let raiseException := allreduceMax ((List.range size).map (localCode f))
    if raiseException = 1 ∧ f.overwriteFiles = false then .gustoIOError
    else if raiseException = 2 then .osError (localCode f r = 2)
    else .proceed
  else .proceed

end ParallelIO
end Gusto
