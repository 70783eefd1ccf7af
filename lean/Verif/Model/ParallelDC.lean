import Verif.Model.DeferredCorrection
import Verif.Model.MPI

set_option autoImplicit false

/-!
# Time-parallel deferred correction

Model of `gusto/time_discretisation/parallel_dc.py`: the program each rank of the ensemble runs.
Messages are fields.  The space communicator of each ensemble member is not modelled.
-/

namespace Gusto
open LForm TimeDisc MPI
variable {K X D : Type*} [Field K] [AddCommGroup X] [Module K X] [AddCommGroup D] [Module K D]

namespace ParallelSDC
open SDC

/-- State of one rank: the attributes of its SDC object, the local Function `x` of `compute_quad`
(282) and `compute_quad_final` (291), and `x_out` (parallel_dc.py 228-293). -/
structure RState (K X : Type*) where
  s : SDC.State K X
  x : X
  xOut : X

/-- Start of `apply` (297-313), with `x_in` obtained from the previous result by `g` (whatever else
happens in a time step, the same on all ranks). [parallel_dc.py] -/
def startOp (S : Scheme K X D) (g : X → X) (p : RState K X) : RState K X :=
  { p with s := start S p.s (g p.xOut) }

/-- Start of a sweep on rank `r`: 320-340. [parallel_dc.py] -/
def rhsOp (S : Scheme K X D) (k r : ℕ) (p : RState K X) : RState K X :=
  let st := match S.flex with
    | some q => { p.s with qdeltaImp := q k }
    | none => p.s
  { p with s := rhsBody S st r }

/-- `x.assign(float(self.Q[j, rank])*self.fUnodes[rank])`, 284 (parallel_dc.py 284). -/
def contribOp (S : Scheme K X D) (j r : ℕ) (p : RState K X) : RState K X :=
  { p with x := S.Q j r • p.s.f r }

/-- write `self.quad[j]`, 285 (parallel_dc.py 285). -/
def setQuad (j : ℕ) (v : X) (p : RState K X) : RState K X :=
  let s := { p.s with quad := Function.update p.s.quad j v }
  { p with s := s }

/-- accumulate into `self.quad[j]`, 285 (parallel_dc.py 285). -/
def accQuad (j : ℕ) (v : X) (p : RState K X) : RState K X := setQuad j (p.s.quad j + v) p

/-- `compute_quad`, 278-285, on rank `r`. [parallel_dc.py] -/
def quadProg (S : Scheme K X D) (r : ℕ) : List (Op (RState K X) X) :=
  (List.range S.M).flatMap fun j =>
    Op.loc (contribOp S j r) :: reduceProg S.M j RState.x (setQuad j) (accQuad j) r

/-- Rest of the sweep on rank `r`, 345-376. [parallel_dc.py] -/
def nodeOp (S : Scheme K X D) (r : ℕ) (p : RState K X) : RState K X :=
  let st := p.s
  let st := { st with U1 := Function.update st.U1 0 (st.U 0) }
  let st := { st with sU := Function.update st.sU 0 (evalSrc S st.baseDt (st.U 0) (st.sU 0)) }
  let st := nodeBody S (st.solvers.getD st.qdeltaImp) st r
  let st := { st with U := Function.update st.U (r + 1) (st.U1 (r + 1)) }
  let st := { st with sU := Function.update st.sU (r + 1) (st.sU1 (r + 1)) }
  { p with s := st }

/-- Sweep number `k` on rank `r`, 317-376. [parallel_dc.py] -/
def sweepProg (S : Scheme K X D) (r k : ℕ) : List (Op (RState K X) X) :=
  [Op.loc (rhsOp S k r)] ++ quadProg S r ++ [Op.loc (nodeOp S r)]

/-- Right-hand side for the final update and this rank's contribution, 381-384 and 292. [parallel_dc.py] -/
def finRhsOp (S : Scheme K X D) (r : ℕ) (p : RState K X) : RState K X :=
  let s := finBody S p.s r
  { p with s := s, x := S.Qfin r • s.f r }

/-- write `self.quad_final` (the `allreduce` of 293 is a reduction followed by a broadcast) (parallel_dc.py 293). -/
def setQuadFinal (v : X) (p : RState K X) : RState K X :=
  let s := { p.s with quadFinal := v }
  { p with s := s }

/-- accumulate into `self.quad_final`, 293 (parallel_dc.py 293). -/
def accQuadFinal (v : X) (p : RState K X) : RState K X := setQuadFinal (p.s.quadFinal + v) p

/-- write `self.U_fin`, 388-389 [parallel_dc.py] -/
def setUFin (v : X) (p : RState K X) : RState K X :=
  let s := { p.s with uFin := v }
  { p with s := s }

/-- `if rank == self.M-1: self.U_fin.assign(self.Unodes[-1])`, 387-388. [parallel_dc.py] -/
def pickFinOp (S : Scheme K X D) (r : ℕ) (p : RState K X) : RState K X :=
  if r = S.M - 1 then setUFin (p.s.U S.M) p else p

/-- Final solve, limiter and result, 390-394. [parallel_dc.py] -/
def solveFinOp (S : Scheme K X D) (p : RState K X) : RState K X :=
  let u := limit S (S.solve (fun y => (resFin S.R p.s.un p.s.quadFinal y).eval) p.s.uFin)
  { setUFin u p with xOut := u }

/-- write `x_out`, 398-399 (parallel_dc.py 221). -/
def setXOut (v : X) (p : RState K X) : RState K X := { p with xOut := v }

/-- `if rank == self.M-1: x_out.assign(self.Unodes[-1])`, 397-398, 402-403. [parallel_dc.py] -/
def pickOutOp (S : Scheme K X D) (r : ℕ) (p : RState K X) : RState K X :=
  if r = S.M - 1 then setXOut (p.s.U S.M) p else p

/-- End of `apply` on rank `r`, 378-404. [parallel_dc.py] -/
def finishProg (S : Scheme K X D) (r : ℕ) : List (Op (RState K X) X) :=
  if S.maxk > 0 ∧ S.finalUpdate = true then
    [Op.loc (finRhsOp S r)]
      ++ reduceProg S.M 0 RState.x setQuadFinal accQuadFinal r
      ++ bcastProg S.M 0 (fun p => p.s.quadFinal) setQuadFinal r
      ++ [Op.loc (pickFinOp S r)]
      ++ bcastProg S.M (S.M - 1) (fun p => p.s.uFin) setUFin r
      ++ [Op.loc (solveFinOp S)]
  else
    [Op.loc (pickOutOp S r)] ++ bcastProg S.M (S.M - 1) RState.xOut setXOut r

/-- `Parallel_SDC.apply`, 295-404, on rank `r`. [parallel_dc.py] -/
def applyProg (S : Scheme K X D) (g : X → X) (r : ℕ) : List (Op (RState K X) X) :=
  [Op.loc (startOp S g)] ++ (List.range S.maxk).flatMap (fun k => sweepProg S r (k + 1))
    ++ finishProg S r

/-- The program of rank `r` for `N` time steps; there are `M` ranks (275-276) (parallel_dc.py 101-225). -/
def runProg (S : Scheme K X D) (g : ℕ → X → X) (N r : ℕ) : List (Op (RState K X) X) :=
  if r < S.M then (List.range N).flatMap fun n => applyProg S (g n) r else []

/-- The same time steps done by the serial scheme: `SDC.apply` repeatedly (deferred_correction.py 435-540). -/
def serial (S : Scheme K X D) (g : ℕ → X → X) (st : SDC.State K X) (x : X) (N : ℕ) :
    SDC.State K X × X :=
  (List.range N).foldl (fun sx n => SDC.apply S sx.1 (g n sx.2)) (st, x)

end ParallelSDC
end Gusto

namespace Gusto
open LForm TimeDisc MPI
variable {K X D : Type*} [Field K] [AddCommGroup X] [Module K X] [AddCommGroup D] [Module K D]

namespace ParallelRIDC
open RIDC

/-- State of one rank: its RIDC object (`setup`, 83-98, adds only work Functions) and `x_out`
(parallel_dc.py 228-293). -/
structure RState (K X : Type*) where
  s : RIDC.State K X
  xOut : X

/-- `__init__`, 63-68: the run parameters.  `J` intervals, pipe flushed every `flushFreq` steps. [parallel_dc.py] -/
structure Params where
  J : ℕ
  flushFreq : ℕ

/-- The checks of the constructor, 78-81: `size` ranks, `Kc` corrections, `M` subintervals. [parallel_dc.py] -/
def accepted (size Kc M : ℕ) : Bool := size == Kc + 1 && !decide (M < Kc * (Kc + 1) / 2)

/-- Tag for fields, 57 (parallel_dc.py 57). -/
def tagField (step : ℕ) : ℕ := 11 + step
/-- Tag for sources, 58 (parallel_dc.py 58). -/
def tagSource (P : Params) (step : ℕ) : ℕ := 11 + P.J + step
/-- Tag for the flush, 59 (parallel_dc.py 59). -/
def tagFlush (P : Params) (step : ℕ) : ℕ := 11 + P.J + P.J + step

/-- Start of `apply` on every rank, 103-113.  The right-hand side at node 0 is computed with
whatever `source_in` contains (112: no evaluation before the solve). [parallel_dc.py] -/
def startOp (S : Scheme K X D) (g : X → X) (p : RState K X) : RState K X :=
  let x := g p.xOut
  let st := p.s
  let st := { st with un := x }
  let st := { st with U := Function.update st.U 0 st.un }
  let st := { st with U1 := Function.update st.U1 0 (st.U 0) }
  let st := { st with sU := Function.update st.sU 0 (evalSrc S st.baseDt (st.U 0) (st.sU 0)) }
  let st := { st with uIn := st.U 0 }
  let st := solveRhs S st
  let st := { st with f := Function.update st.f 0 st.uRhs }
  { s := st, xOut := x }

/-- Predictor on rank 0, 119-122. [parallel_dc.py] -/
def baseOp (S : Scheme K X D) (m : ℕ) (p : RState K X) : RState K X :=
  let st := { p.s with baseDt := S.dt }
  let st := { st with U := Function.update st.U (m + 1) (S.base S.dt (st.U m)) }
  let src := evalSrc S st.baseDt (st.U (m + 1)) (st.sU (m + 1))
  let st := { st with sU := Function.update st.sU (m + 1) src }
  { p with s := st }

/-- write `self.Unodes[m]`, 130, 171 (parallel_dc.py 130, 171). -/
def setU (m : ℕ) (v : X) (p : RState K X) : RState K X :=
  let s := { p.s with U := Function.update p.s.U m v }
  { p with s := s }

/-- write `self.source_Uk[m]`, 131, 172 (parallel_dc.py 131, 172). -/
def setS (m : ℕ) (v : X) (p : RState K X) : RState K X :=
  let s := { p.s with sU := Function.update p.s.sU m v }
  { p with s := s }

/-- 132-136 and 173-177: right-hand side at node `m`. [parallel_dc.py] -/
def rhsOp (S : Scheme K X D) (m : ℕ) (p : RState K X) : RState K X := { p with s := rhsBody S p.s m }

/-- 139-163: correction of node `m+1`, first loop. [parallel_dc.py] -/
def headOp (S : Scheme K X D) (k m : ℕ) (p : RState K X) : RState K X :=
  { p with s := headBody S k p.s m }

/-- 180-203: correction of node `m+1`, second loop. [parallel_dc.py] -/
def tailOp (S : Scheme K X D) (k m : ℕ) (p : RState K X) : RState K X :=
  { p with s := tailBody S k p.s m }

/-- Copy of the new node values, 210-212. [parallel_dc.py] -/
def copyOp (S : Scheme K X D) (p : RState K X) : RState K X :=
  let s := (List.range (S.M + 1)).foldl (fun (st : RIDC.State K X) i =>
    { st with U := Function.update st.U i (st.U1 i),
              sU := Function.update st.sU i (st.sU1 i) }) p.s
  { p with s := s }

/-- `x_out.assign(self.Unodes[-1])`, 217, 223 (parallel_dc.py 217, 223). -/
def outOp (S : Scheme K X D) (p : RState K X) : RState K X := { p with xOut := p.s.U S.M }

/-- write `x_out`, 221 (parallel_dc.py 221). -/
def setXOut (v : X) (p : RState K X) : RState K X := { p with xOut := v }

/-- 118-126: step `m` of the loop on rank 0. [parallel_dc.py] -/
def seg0 (S : Scheme K X D) (P : Params) (step m : ℕ) : List (Op (RState K X) X) :=
  [Op.loc (baseOp S m), Op.send 1 (tagField step) (fun p => p.s.U (m + 1)),
    Op.send 1 (tagSource P step) (fun p => p.s.sU (m + 1))]

/-- 130-136 and 171-177: receive node `m` and evaluate it. [parallel_dc.py] -/
def recvSeg (S : Scheme K X D) (P : Params) (step k m : ℕ) : List (Op (RState K X) X) :=
  [Op.recv (k - 1) (tagField step) (setU m), Op.recv (k - 1) (tagSource P step) (setS m),
    Op.loc (rhsOp S m)]

/-- 165-167 and 206-208: send node `m+1` to the next rank, if there is one. [parallel_dc.py] -/
def sendSeg (S : Scheme K X D) (P : Params) (step k m : ℕ) : List (Op (RState K X) X) :=
  if k < S.Kc then
    [Op.send (k + 1) (tagField step) (fun p => p.s.U1 (m + 1)),
      Op.send (k + 1) (tagSource P step) (fun p => p.s.sU1 (m + 1))]
  else []

/-- 214: flush after this step? (parallel_dc.py 214). -/
def flushes (P : Params) (step : ℕ) : Bool :=
  (decide (P.flushFreq > 0) && step % P.flushFreq == 0) || step == P.J

/-- End of the step, 214-223. [parallel_dc.py] -/
def flushProg (S : Scheme K X D) (P : Params) (step k : ℕ) : List (Op (RState K X) X) :=
  if flushes P step then
    if k = S.Kc then
      Op.loc (outOp S) ::
        (List.range S.Kc).map fun i => Op.send i (tagFlush P step) (fun p => p.xOut)
    else [Op.recv S.Kc (tagFlush P step) setXOut]
  else [Op.loc (outOp S)]

/-- `Parallel_RIDC.apply`, 100-225, on rank `k` in step number `step`. [parallel_dc.py] -/
def applyProg (S : Scheme K X D) (P : Params) (g : X → X) (step k : ℕ) :
    List (Op (RState K X) X) :=
  Op.loc (startOp S g) ::
    (if k = 0 then (List.range S.M).flatMap (seg0 S P step)
    else
      (List.range k).flatMap (fun m => recvSeg S P step k (m + 1))
      ++ (List.range k).flatMap (fun m => Op.loc (headOp S k m) :: sendSeg S P step k m)
      ++ ((List.range S.M).drop k).flatMap (fun m =>
          recvSeg S P step k (m + 1) ++ Op.loc (tailOp S k m) :: sendSeg S P step k m)
      ++ [Op.loc (copyOp S)])
    ++ flushProg S P step k

/-- The program of rank `k` for `N` time steps, numbered from 1 (69, 225); `K+1` ranks (parallel_dc.py 101-225). -/
def runProg (S : Scheme K X D) (P : Params) (g : ℕ → X → X) (N k : ℕ) : List (Op (RState K X) X) :=
  if k < S.Kc + 1 then (List.range N).flatMap fun n => applyProg S P (g n) (n + 1) k else []

/-- The same time steps done by the serial scheme (deferred_correction.py 814-912). -/
def serial (S : Scheme K X D) (g : ℕ → X → X) (st : RIDC.State K X) (x : X) (N : ℕ) :
    Option (RIDC.State K X × X) :=
  (List.range N).foldl (fun sx n => sx.bind fun sx => RIDC.apply S sx.1 (g n sx.2)) (some (st, x))

end ParallelRIDC
end Gusto
