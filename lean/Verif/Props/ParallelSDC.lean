import Verif.Lemmas.ParallelSDC
import Verif.Props.DeferredCorrection

set_option autoImplicit false

/-!
# C25: time-parallel SDC
-/

set_option linter.unusedSectionVars false
set_option linter.unusedSimpArgs false

namespace Gusto.Props
open Gusto LForm TimeDisc Spec Finset MPI
variable {K X D : Type*} [Field K] [AddCommGroup X] [Module K X] [AddCommGroup D] [Module K D]

namespace ParallelSDCProps
open SDC ParallelSDC SDCProps

/-- C25, all schedules: `M` ranks run `N` time steps of `Parallel_SDC` (between two time steps
anything that is the same on all ranks may happen to the field), all starting with the same fresh
object `st0` and the same field `x0`.  Whatever the schedule and whatever the library buffers:
the execution never gets stuck; and when all ranks have finished, every rank holds the field the
serial scheme computes in the same steps, rank `r` holds the serial value of node `r+1`, and no
message is left over. -/
theorem C25_parallel_equals_serial (S : Scheme K X D) (hM : 0 < S.M) (st0 : SDC.State K X)
    (hD : Diag S (st0.solvers.getD st0.qdeltaImp)) (x0 : X) (g : ℕ → X → X)
    (st : ℕ → RState K X) (hst : ∀ r < S.M, (st r).s = st0 ∧ (st r).xOut = x0)
    (N n : ℕ) (c : Config (RState K X) X) (h : Steps n (initial (runProg S g N) st) c) :
    (Done c ∨ ∃ c', Guaranteed c c') ∧
    (Done c → (∀ r < S.M, (c.st r).xOut = (serial S g st0 x0 N).2 ∧
        (0 < N → (c.st r).s.U (r + 1) = (serial S g st0 x0 N).1.U (r + 1))) ∧
      ∀ s d, c.chan s d = []) := by
  obtain ⟨h1, h2⟩ := wf_runEvs S g N
  obtain ⟨a, b, c'⟩ := choreography (runEvs S g N) h1 h2 st (runProg S g N)
    (proj_runEvs S hM g N) n c h
  refine ⟨a, fun hd => ?_⟩
  obtain ⟨e1, e2⟩ := c' hd
  refine ⟨fun r hr => ?_, e2⟩
  have hp := (par_run S _ hD hM g st0 rfl x0 st (fun r hr => by
    obtain ⟨p1, p2⟩ := hst r hr
    rw [p1, p2]
    exact ⟨⟨rfl, rfl, rfl, rfl, fun _ => rfl⟩, rfl⟩) N).1 r hr
  rw [e1]
  exact hp.2

/-- C25, termination: for any scheme (diagonal or not) there is a bound on the number of steps of
every execution, and no execution gets stuck, so every maximal execution is finite and complete. -/
theorem C25_always_terminates (S : Scheme K X D) (hM : 0 < S.M) (g : ℕ → X → X)
    (st : ℕ → RState K X) (N : ℕ) :
    ∃ B, ∀ n c, Steps n (initial (runProg S g N) st) c →
      n ≤ B ∧ (Done c ∨ ∃ c', Guaranteed c c') := by
  obtain ⟨h1, h2⟩ := wf_runEvs S g N
  refine ⟨weight (runEvs S g N), fun n c h => ?_⟩
  obtain ⟨a, b, -⟩ := choreography (runEvs S g N) h1 h2 st (runProg S g N)
    (proj_runEvs S hM g N) n c h
  exact ⟨b, a⟩

/-! ### Example -/

/-- diagonal matrices -/
noncomputable def exP (M : ℕ) : Scheme ℚ ℚ ℚ :=
  { exS (fun m i => if i = m then 1 else 0) M with maxk := 3, finalUpdate := true }

def exPSt : SDC.State ℚ ℚ := { exSt 0 with qdeltaImp := fun m i => if i = m then 1 else 0 }

theorem exDiag (M : ℕ) : Diag (exP M) (exPSt.solvers.getD exPSt.qdeltaImp) where
  z2n := rfl
  exact := choiceSolve_exact
  qiDiag := fun m i hi _ => by
    show (if i = m then (1 : ℚ) else 0) = 0
    rw [if_neg (by omega)]
  qeDiag := fun m i hi _ _ => by
    show (if i = m then (1 : ℚ) else 0) = 0
    rw [if_neg hi]
  massInv := (exGood (fun _ _ => 0) M).massInv
  nodeInv := fun m hm d => by
    have := (exGood (fun _ _ => 0) M).nodeInv m hm d
    have e : exPSt.solvers.getD exPSt.qdeltaImp m m = (1 : ℚ) := by
      show (if m = m then (1 : ℚ) else 0) = 1
      rw [if_pos rfl]
    rw [e]; exact this
  src := fun _ _ _ _ => rfl

/-- The hypotheses of C25 are met for every number of ranks, with sweeps and final update. -/
example (M N n : ℕ) (hM : 0 < M) (c : Config (RState ℚ ℚ) ℚ)
    (h : Steps n (initial (runProg (exP M) (fun _ x => x) N) fun _ => ⟨exPSt, 0, 5⟩) c)
    (hd : Done c) (r : ℕ) (hr : r < M) :
    (c.st r).xOut = (serial (exP M) (fun _ x => x) exPSt 5 N).2 :=
  (((C25_parallel_equals_serial (exP M) hM exPSt (exDiag M) 5 (fun _ x => x) _
    (fun _ _ => ⟨rfl, rfl⟩) N n c h).2 hd).1 r hr).1

/-! ### Explicit matrices that are not diagonal -/

/-- A strictly lower triangular explicit matrix, as for `qdelta_exp="FE"`; two nodes, one sweep. -/
noncomputable def exL : Scheme ℚ ℚ ℚ :=
  { exS (fun m i => if i < m then 1 else 0) 2 with Q := fun _ _ => 0 }

theorem exL_good : Good exL (exPSt.solvers.getD exPSt.qdeltaImp) 1 (fun _ => 0) :=
  let h := exGood (fun m i => if i < m then 1 else 0) 2
  ⟨h.exact, h.clean, h.one, h.lin, h.massInv, (exDiag 2).nodeInv, h.noLimiter, h.src⟩

/-- the serial result -/
theorem exL_serial (g : ℕ → ℚ → ℚ) (hg : g 0 1 = 1) : (serial exL g exPSt 1 1).2 = 1 := by
  have hs : serial exL g exPSt 1 1 = SDC.apply exL exPSt 1 := by simp [serial, hg]
  have hlow : ∀ m i, m ≤ i → i < exL.M → exL.Qe m i = 0 := fun m i h _ => by
    show (if i < m then (1 : ℚ) else 0) = 0
    rw [if_neg (by omega)]
  have hb : (start exL exPSt 1).baseDt = 1 := rfl
  have h1 := (C24_apply_result exL exPSt 1 (fun _ => 0) (by rw [hb]; exact exL_good) hlow).1
    (Or.inr rfl)
  obtain ⟨-, h0, h2⟩ := C24_apply_sweeps exL exPSt 1 (fun _ => 0) (by rw [hb]; exact exL_good)
    hlow 0
  set U := nodes exL exPSt 1 0 with hU
  set V := nodes exL exPSt 1 (0 + 1) with hV
  have u0 : U 0 = 1 := rfl
  have u1 : U 1 = 1 := rfl
  have u2 : U 2 = 1 := rfl
  have e0 := h2 0 (show 0 < 2 by omega)
  have e1 := h2 1 (show 1 < 2 by omega)
  have hz : exL.z2n = true := rfl
  have hqi : ∀ m i, exPSt.solvers.getD exPSt.qdeltaImp m i = if i = m then 1 else 0 :=
    fun _ _ => rfl
  have hQ : ∀ m i, exL.Q m i = 0 := fun _ _ => rfl
  have hqe : exL.Qe 1 0 = 1 := rfl
  have hR : exL.R = SDCProps.exR := rfl
  simp only [hR, exMass, exImpl, exExpl, startNode, hz, if_true, hqi, hQ, hqe, sum_range_succ,
    sum_range_zero, u0, u1, u2, h0, zero_smul, sum_const_zero, one_smul, smul_eq_mul, one_mul,
    Nat.zero_add, Nat.reduceAdd] at e0 e1
  rw [hs, h1]
  show V 2 = 1
  norm_num at e0 e1
  linarith

theorem exL_parallel (st : ℕ → RState ℚ ℚ) (hst : ∀ r < 2, (st r).s = exPSt ∧ (st r).xOut = 1) :
    (run (runEvs exL (fun _ x => x) 1) st 1).xOut = 2 := by
  have e : runEvs exL (fun _ x => x) 1 = allLoc 2 (fun _ => startOp exL (fun x => x))
      ++ (allLoc 2 (rhsOp exL 1) ++ quadEv exL ++ allLoc 2 (nodeOp exL)) ++
      (allLoc 2 (pickOutOp exL) ++ bcastEv 2 1 RState.xOut setXOut) := by
    simp [runEvs, applyEv, sweepsEv, sweepEv, finishEv, exL, exS]
  rw [e]
  simp only [run_append]
  rw [run_bcastEv, if_neg (by simp), run_allLoc, if_pos (by omega), run_allLoc, if_pos (by omega)]
  set st0 := run (allLoc 2 (fun _ => startOp exL (fun x => x)) : List (Ev (RState ℚ ℚ) ℚ)) st
    with hst0
  set st1 := run (allLoc 2 (rhsOp exL 1) : List (Ev (RState ℚ ℚ) ℚ)) st0 with hst1
  obtain ⟨b1, b2⟩ := run_quadEv exL st1
  set st2 := run (quadEv exL) st1
  obtain ⟨⟨q, hq⟩, -⟩ := b1 1
  have hq1 := b2 1 (show 1 < 2 by omega)
  have hs1 : (st1 1).s = rhsBody exL (start exL exPSt 1) 1 := by
    rw [hst1, run_allLoc, if_pos (by omega), hst0, run_allLoc, if_pos (by omega)]
    simp only [startOp, rhsOp, (hst 1 (by omega)).1, (hst 1 (by omega)).2]
    rfl
  have hquad : (st2 1).s.quad 1 = 0 := by
    rw [hq1]
    exact sum_eq_zero fun k _ => by
      show (0 : ℚ) • _ = _
      rw [zero_smul]
  have hz : (pickOutOp exL 1 (nodeOp exL 1 (st2 1))).xOut = (nodeOp exL 1 (st2 1)).s.U 2 := by
    have : (1 : ℕ) = exL.M - 1 := rfl
    simp only [pickOutOp]
    rw [if_pos this]; rfl
  rw [hz]
  set p : SDC.State ℚ ℚ :=
    { (st2 1).s with
      U1 := Function.update (st2 1).s.U1 0 ((st2 1).s.U 0)
      sU := Function.update (st2 1).s.sU 0
        (evalSrc exL (st2 1).s.baseDt ((st2 1).s.U 0) ((st2 1).s.sU 0)) } with hp
  have hqi : (p.solvers.getD p.qdeltaImp) = exPSt.qdeltaImp := by
    show ((st2 1).s.solvers.getD (st2 1).s.qdeltaImp) = _
    rw [hq, hs1]; rfl
  have hn : (nodeOp exL 1 (st2 1)).s.U 2 = (nodeBody exL exPSt.qdeltaImp p 1).U1 (1 + 1) := by
    rw [← hqi]
    simp only [nodeOp]
    rw [Function.update_self]
  rw [hn, (nodeBody_eq exL exPSt.qdeltaImp p 1).1]
  set w := nodePre exL p 1 with hw
  have w1 : w.U (1 + 1) = 1 := by
    show (st2 1).s.U 2 = 1
    rw [hq, hs1]; rfl
  have w1' : w.U (0 + 1) = 1 := by
    show (st2 1).s.U 1 = 1
    rw [hq, hs1]; rfl
  have w2 : w.U1 (0 + 1) = 0 := by
    show (st2 1).s.U1 1 = 0
    rw [hq, hs1]; rfl
  have w3 : w.uStart = 1 := by
    show (st2 1).s.uStart = 1
    rw [hq, hs1]; rfl
  have w4 : w.q_ = 0 := hquad
  have he : ∀ y, (res exL exPSt.qdeltaImp w 1 y).eval = 2 * y - 4 := fun y => by
    rw [eval_res]
    have hR : exL.R = SDCProps.exR := rfl
    have hqe : ∀ i, exL.Qe 1 i = if i < 1 then 1 else 0 := fun _ => rfl
    have hMM : exL.M = 2 := rfl
    simp only [hR, hqe, hMM, exMass, exImpl, exExpl, exSrc, sum_range_succ, sum_range_zero, w1, w1',
      w2, w3, w4]
    have h0 : exPSt.qdeltaImp 1 0 = 0 := rfl
    have h1 : exPSt.qdeltaImp 1 1 = 1 := rfl
    rw [h0, h1]
    norm_num
    ring
  have hx := choiceSolve_exact (fun y => (res exL exPSt.qdeltaImp w 1 y).eval) (p.U (1 + 1)) (by
    refine ⟨2, ?_, fun y hy => ?_⟩
    · dsimp only; rw [he]; norm_num
    · dsimp only at hy; rw [he] at hy; linarith)
  rw [he] at hx
  show choiceSolve (fun y => (res exL exPSt.qdeltaImp w 1 y).eval) (p.U (1 + 1)) = 2
  linarith

/-- C25 fails for an explicit matrix that is not diagonal, although the constructor accepts it
(`qdelta_exp="FE"` is one of the documented options): the solve on rank 1 uses the new value of
node 1, which rank 1 never computes or receives, in every execution. -/
theorem C25_lower_explicit_matrix_refuted (n : ℕ) (c : Config (RState ℚ ℚ) ℚ)
    (h : Steps n (initial (runProg exL (fun _ x => x) 1) fun _ => ⟨exPSt, 0, 1⟩) c)
    (hd : Done c) : (c.st 1).xOut = 2 ∧ (serial exL (fun _ x => x) exPSt 1 1).2 = 1 := by
  obtain ⟨h1, h2⟩ := wf_runEvs exL (fun _ x => x) 1
  obtain ⟨-, -, c'⟩ := choreography _ h1 h2 _ _ (proj_runEvs exL (show 0 < 2 by omega) _ 1) n c h
  rw [(c' hd).1]
  exact ⟨exL_parallel _ fun r _ => ⟨rfl, rfl⟩, exL_serial _ rfl⟩

/-- such executions exist -/
example : ∃ n c, Steps n (initial (runProg exL (fun _ x => x) 1) fun _ => ⟨exPSt, 0, 1⟩) c ∧
    Done c := by
  obtain ⟨h1, h2⟩ := wf_runEvs exL (fun _ x => x) 1
  exact choreography_finishes _ h1 h2 _ _ (proj_runEvs exL (show 0 < 2 by omega) _ 1)

end ParallelSDCProps
end Gusto.Props
