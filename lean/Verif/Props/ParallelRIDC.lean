import Verif.Lemmas.ParallelRIDC
import Verif.Props.RIDC

set_option autoImplicit false

/-!
# C26: pipelined time-parallel RIDC
-/

set_option linter.unusedSectionVars false
set_option linter.unusedSimpArgs false

namespace Gusto.Props
open Gusto LForm TimeDisc Spec Finset MPI
variable {K X D : Type*} [Field K] [AddCommGroup X] [Module K X] [AddCommGroup D] [Module K D]

namespace ParallelRIDCProps
open RIDC ParallelRIDC

/-- What the constructor's checks give when there is at least one correction. -/
theorem accepted_le {size Kc M : ℕ} (h : accepted size Kc M = true) (hK : 1 ≤ Kc) : Kc ≤ M := by
  unfold accepted at h
  simp at h
  obtain ⟨-, h⟩ := h
  have : Kc ≤ Kc * (Kc + 1) / 2 := by
    rw [Nat.le_div_iff_mul_le (by omega)]
    exact Nat.mul_le_mul_left _ (by omega)
  omega

/-- C26, liveness: whatever the schedule, the buffering of the library and the flush settings, with
or without sources, an accepted parallel RIDC run with at least one correction never gets stuck and
every execution ends after a bounded number of steps; when it has ended every message has been
received. -/
theorem C26_never_deadlocks (S : Scheme K X D) (P : Params) (size : ℕ)
    (hacc : accepted size S.Kc S.M = true) (hK : 1 ≤ S.Kc) (g : ℕ → X → X)
    (st : ℕ → RState K X) (N : ℕ) :
    ∃ B, ∀ n c, Steps n (initial (runProg S P g N) st) c →
      n ≤ B ∧ (Done c ∨ ∃ c', Guaranteed c c') ∧ (Done c → ∀ s d, c.chan s d = []) := by
  obtain ⟨h1, h2⟩ := wf_runEvs S P g N
  refine ⟨weight (runEvs S P g N), fun n c h => ?_⟩
  obtain ⟨a, b, c'⟩ := choreography (runEvs S P g N) h1 h2 st (runProg S P g N)
    (proj_runEvs S P hK (accepted_le hacc hK) g N) n c h
  exact ⟨b, a, fun hd => (c' hd).2⟩

/-- C26, determinism: with or without sources, all complete executions of an accepted run end with
the same state on every rank. -/
theorem C26_deterministic (S : Scheme K X D) (P : Params) (size : ℕ)
    (hacc : accepted size S.Kc S.M = true) (hK : 1 ≤ S.Kc) (g : ℕ → X → X)
    (st : ℕ → RState K X) (N n n' : ℕ) (c c' : Config (RState K X) X)
    (h : Steps n (initial (runProg S P g N) st) c) (h' : Steps n' (initial (runProg S P g N) st) c')
    (hd : Done c) (hd' : Done c') : c.st = c'.st := by
  obtain ⟨h1, h2⟩ := wf_runEvs S P g N
  have e := proj_runEvs S P hK (accepted_le hacc hK) g N
  rw [((choreography _ h1 h2 st _ e n c h).2.2 hd).1,
    ((choreography _ h1 h2 st _ e n' c' h').2.2 hd').1]

/-- C26, values without source terms, for every flush frequency: when all ranks have finished, rank
`r` holds the field of the pipeline specification: in each interval, `r` corrections of the predictor
computed on rank 0, restarted from the fully corrected field after a flush. -/
theorem C26_pipeline_values_partial (S : Scheme K X D) (hS : Plain S) (P : Params) (size : ℕ)
    (hacc : accepted size S.Kc S.M = true) (hK : 1 ≤ S.Kc) (g : ℕ → X → X) (x0 : ℕ → X)
    (st : ℕ → RState K X) (hst : ∀ r < S.Kc + 1, (st r).xOut = x0 r) (N n : ℕ)
    (c : Config (RState K X) X) (h : Steps n (initial (runProg S P g N) st) c) (hd : Done c) :
    ∀ r < S.Kc + 1, (c.st r).xOut = pipeline S P g x0 N r := by
  obtain ⟨h1, h2⟩ := wf_runEvs S P g N
  have hM := accepted_le hacc hK
  obtain ⟨-, -, c'⟩ := choreography (runEvs S P g N) h1 h2 st (runProg S P g N)
    (proj_runEvs S P hK hM g N) n c h
  rw [(c' hd).1]
  exact par_run S hS hM P g x0 st hst N

/-- C26, equality with the serial scheme (no source terms, pipe flushed after every step as by
default): when all ranks have finished, every rank holds the field computed by serial RIDC, and in
the last step rank `r` has computed the node values of serial RIDC after `r` corrections. -/
theorem C26_equals_serial_partial (S : Scheme K X D) (hS : Plain S) (P : Params)
    (hP : P.flushFreq = 1) (size : ℕ)
    (hacc : accepted size S.Kc S.M = true) (hK : 1 ≤ S.Kc) (g : ℕ → X → X) (x0 : X)
    (st0 : RIDC.State K X) (st : ℕ → RState K X) (hst : ∀ r < S.Kc + 1, (st r).xOut = x0) (N n : ℕ)
    (c : Config (RState K X) X) (h : Steps n (initial (runProg S P g N) st) c) (hd : Done c) :
    (∃ st' x', serial S g st0 x0 N = some (st', x') ∧ ∀ r < S.Kc + 1, (c.st r).xOut = x') ∧
    (∀ N', N = N' + 1 → ∃ st' x', serial S g st0 x0 N' = some (st', x') ∧
      ∀ r < S.Kc + 1, ∀ j ≤ S.M,
        (c.st r).s.U j = (RIDC.sweeps S (RIDC.start S st' (g N' x')) r).U j) := by
  obtain ⟨h1, h2⟩ := wf_runEvs S P g N
  have hM := accepted_le hacc hK
  obtain ⟨-, -, c'⟩ := choreography (runEvs S P g N) h1 h2 st (runProg S P g N)
    (proj_runEvs S P hK hM g N) n c h
  rw [(c' hd).1]
  refine ⟨?_, ?_⟩
  · obtain ⟨st', e1, e2⟩ := serial_run S hS hM P hP g st0 x0 N
    exact ⟨st', _, e1, fun r hr => by
      rw [par_run S hS hM P g (fun _ => x0) st hst N r hr, e2 r]⟩
  · rintro N' rfl
    obtain ⟨st', e1, e2⟩ := serial_run S hS hM P hP g st0 x0 N'
    refine ⟨st', _, e1, fun r hr j hj => ?_⟩
    rw [par_run_nodes S hS hM P g (fun _ => x0) st hst N' r hr j hj,
      serial_sweeps S hS _ st' r (by omega) j hj]
    congr 1
    funext i
    rw [e2 i]

/-- The tags of the field, source and flush messages of steps `1, ..., J` are all different. -/
theorem C26_tags_distinct (P : Params) (s s' : ℕ) (hs : 1 ≤ s ∧ s ≤ P.J) (hs' : 1 ≤ s' ∧ s' ≤ P.J) :
    tagField s ≠ tagSource P s' ∧ tagField s ≠ tagFlush P s' ∧ tagSource P s ≠ tagFlush P s' ∧
    (s ≠ s' → tagField s ≠ tagField s' ∧ tagSource P s ≠ tagSource P s' ∧
      tagFlush P s ≠ tagFlush P s') := by
  unfold tagField tagSource tagFlush
  omega

/-! ### Example -/

theorem exPlain : Plain (RIDCProps.exS SDCProps.exR []) where
  reduced := rfl
  exact := choiceSolve_exact
  noSrc := fun x => SDCProps.exSrc x
  massInv := (RIDCProps.exGood 0).massInv
  nodeInv := (RIDCProps.exGood 0).nodeInv

def exSt : RIDC.State ℚ ℚ :=
  { U := fun _ => 0, U1 := fun _ => 0, f := fun _ => 0, sU := fun _ => 0, sU1 := fun _ => 0,
    uDC := 0, uStart := 0, un := 0, q_ := 0, uRhs := 0, uIn := 0, sIn := 0, sU1m := 0, sUm := 0,
    ukmp1 := 0, ukm := 0, ukp1m := 0, baseDt := 1 }

/-- The hypotheses of C26 are met: three ranks, two corrections, three subintervals. -/
example (N n : ℕ) (c : Config (RState ℚ ℚ) ℚ)
    (h : Steps n (initial (runProg (RIDCProps.exS SDCProps.exR []) ⟨N, 1⟩ (fun _ x => x) N)
      fun _ => ⟨exSt, 5⟩) c) (hd : Done c) :
    ∃ st' x', serial (RIDCProps.exS SDCProps.exR []) (fun _ x => x) exSt 5 N = some (st', x') ∧
      ∀ r < 3, (c.st r).xOut = x' :=
  (C26_equals_serial_partial (RIDCProps.exS SDCProps.exR []) exPlain ⟨N, 1⟩ rfl 3 (by decide)
    (by decide) _ 5 exSt _ (fun _ _ => rfl) N n c h hd).1

/-- complete executions exist -/
example (N : ℕ) : ∃ n c, Steps n (initial (runProg (RIDCProps.exS SDCProps.exR []) ⟨N, 1⟩
    (fun _ x => x) N) fun _ => ⟨exSt, 5⟩) c ∧ Done c := by
  obtain ⟨h1, h2⟩ := wf_runEvs (RIDCProps.exS SDCProps.exR []) ⟨N, 1⟩ (fun _ x => x) N
  exact choreography_finishes _ h1 h2 _ _
    (proj_runEvs _ _ (show 1 ≤ 2 by omega) (show 2 ≤ 3 by omega) _ N)

/-! ### With source terms -/

/-- `M(y) = y` and one source term. -/
def exQ : LForm ℚ ℚ :=
  [{ labels := [.timeDerivative], op := fun x => x, subj := 0 },
   { labels := [.source], op := fun x => x, subj := 0 }]

/-- One subinterval, one correction, two ranks; the physics scheme returns the state. -/
noncomputable def exW : Scheme ℚ ℚ ℚ :=
  { R := exQ, M := 1, Kc := 1, reduced := true, Q := fun _ m j => if m = 1 ∧ j = 0 then 1 else 0,
    dt := 1, base := fun _ x => x, solve := choiceSolve, evaluate := [fun _ x => x] }

theorem choiceSolve_affine (r : ℚ → ℚ) (v u : ℚ) (h : ∀ y, r y = y - v) : choiceSolve r u = v := by
  have := choiceSolve_exact r u ⟨v, by simp [h], fun y hy => by
    dsimp only at hy; rw [h] at hy; linarith⟩
  rw [h] at this
  linarith

theorem exW_rhs (u w y : ℚ) : (SDC.resRhs exQ u w y).eval = y - w := by
  rw [SDC.eval_resRhs]
  simp [exQ, mass, srcPart, restNoSource, part]

theorem exW_res (st : RIDC.State ℚ ℚ) (y : ℚ) :
    (res exW st y).eval = y - (st.uStart - (st.sU1m - st.sUm) - st.q_) := by
  rw [eval_res]
  simp [exW, exQ, mass, srcPart, implPart, explPart, part]
  ring

theorem exW_node (s : RIDC.State ℚ ℚ) : (headBody exW 1 s 0).U1 1
    = s.U1 0 - (s.sU1 0 - s.sU 0) - s.f 0 := by
  have hq : computeQuad exW 1 s.f 1 = s.f 0 := by
    simp [computeQuad, exW, stencil, List.range_succ]
  simp only [headBody, nodeSolve, limit, Function.update_self]
  show choiceSolve _ _ = _
  rw [choiceSolve_affine _ _ _ (exW_res _)]
  simp [hq]

theorem exW_serial : ∃ st', serial exW (fun _ x => x) exSt 1 1 = some (st', 1) := by
  refine ⟨RIDC.sweeps exW (RIDC.start exW exSt 1) 1, ?_⟩
  show (RIDC.apply exW exSt 1) = _
  unfold RIDC.apply
  rw [if_neg (by simp [exW])]
  dsimp only
  refine congrArg some (Prod.ext rfl ?_)
  show (RIDC.sweeps exW (RIDC.start exW exSt 1) 1).U 1 = 1
  have e : RIDC.sweeps exW (RIDC.start exW exSt 1) 1 = RIDC.sweep exW (RIDC.start exW exSt 1) 1 := by
    simp [RIDC.sweeps, List.range_succ]
  rw [e]
  unfold RIDC.sweep
  dsimp only
  rw [((copyLoop _ (exW.M + 1)).2.2.2 1 (by simp [exW])).1]
  have hst : stencil exW 1 = 1 := rfl
  have hM : exW.M = 1 := rfl
  rw [hst, hM]
  have hd : (List.range 1).drop 1 = [] := rfl
  rw [hd]
  simp only [List.range_succ, List.range_zero, List.nil_append, List.foldl_cons, List.foldl_nil]
  rw [exW_node]
  have hs : (RIDC.start exW exSt 1).U 0 = 1 ∧ (RIDC.start exW exSt 1).sU1 0 = 0 := by
    constructor <;> simp [RIDC.start, exW, exSt, List.range_succ]
  have hf : (solveRhs exW
      { RIDC.start exW exSt 1 with uIn := (RIDC.start exW exSt 1).U 0, sIn := 1 }).uRhs = 1 :=
    choiceSolve_affine _ _ _ fun y => by
      show (SDC.resRhs exQ _ 1 y).eval = _
      rw [exW_rhs]
  have hev : ∀ dt x o, evalSrc exW dt x o = x := fun _ _ _ => rfl
  simp only [List.cons_append, List.nil_append, List.foldl_cons, List.foldl_nil, rhsBody, solveRhs,
    hev, Function.update_self, hs.1, hs.2]
  rw [Function.update_of_ne (by omega), Function.update_self]
  simp only [solveRhs] at hf
  rw [hs.1] at hf
  rw [hf]
  norm_num

theorem exW_parallel : (run (runEvs exW ⟨1, 1⟩ (fun _ x => x) 1) (fun _ => ⟨exSt, 1⟩) 1).xOut = 2 := by
  have e : runEvs exW ⟨1, 1⟩ (fun _ x => x) 1
      = allLoc 2 (fun _ => startOp exW (fun x => x))
        ++ (Ev.loc 0 (emitOp exW 0 0) :: passEv exW ⟨1, 1⟩ 1 0 0 ++ [Ev.loc 1 (emitOp exW 1 0)])
        ++ copyEv exW ++ flushEv exW ⟨1, 1⟩ 1 := by
    simp [runEvs, applyEv, seqEv, exW, casc, down, List.range_succ]
  rw [e]
  simp only [run_append]
  rw [(run_flushEv exW ⟨1, 1⟩ 1 _ 1 (by decide)).2, if_pos (by decide)]
  show (run (copyEv exW) _ 1).s.U 1 = 2
  rw [run_copyEv, if_pos (by decide), copyOp_U exW _ 1 (by decide),
    run_cons (Ev.loc 0 _), run_passEv]
  set st1 := run (allLoc 2 (fun _ => startOp exW (fun x => x)) : List (Ev (RState ℚ ℚ) ℚ))
    (fun _ => ⟨exSt, 1⟩) with hst1
  have h1 : st1 1 = startOp exW (fun x => x) ⟨exSt, 1⟩ := by
    rw [hst1, run_allLoc, if_pos (by omega)]
  have hem : emitOp exW 1 0 = headOp exW 1 0 := rfl
  simp only [run, List.foldl_cons, List.foldl_nil, runEv, Function.update_self]
  rw [hem]
  simp only [headOp]
  rw [exW_node]
  rw [Function.update_of_ne (show (0 : ℕ) + 1 ≠ 0 by omega), h1]
  have hf : (solveRhs exW
      { exSt with
        un := 1
        U := Function.update exSt.U 0 1
        U1 := Function.update exSt.U1 0 1
        sU := Function.update exSt.sU 0 1
        uIn := 1 }).uRhs = 0 :=
    choiceSolve_affine _ _ _ fun y => by
      show (SDC.resRhs exQ _ 0 y).eval = _
      rw [exW_rhs]
  have hev : ∀ dt x o, evalSrc exW dt x o = x := fun _ _ _ => rfl
  simp only [solveRhs] at hf
  simp only [rhsOp, rhsBody, setS, setU, startOp, solveRhs, hev, Function.update_self]
  rw [Function.update_of_ne (show (0 : ℕ) ≠ 0 + 1 by omega),
    Function.update_of_ne (show (0 : ℕ) ≠ 0 + 1 by omega), Function.update_self,
    Function.update_self]
  have hs1 : exSt.sU1 0 = 0 := rfl
  rw [hf, hs1]
  norm_num

/-- C26 fails with source terms: in this run every complete execution of the two ranks gives 2 (the
time derivative at node 0 is computed with the source that happens to be stored, 112), the serial
scheme gives 1. -/
theorem C26_source_refuted (n : ℕ) (c : Config (RState ℚ ℚ) ℚ)
    (h : Steps n (initial (runProg exW ⟨1, 1⟩ (fun _ x => x) 1) fun _ => ⟨exSt, 1⟩) c)
    (hd : Done c) :
    (c.st 1).xOut = 2 ∧ ∃ st', serial exW (fun _ x => x) exSt 1 1 = some (st', 1) := by
  obtain ⟨h1, h2⟩ := wf_runEvs exW ⟨1, 1⟩ (fun _ x => x) 1
  obtain ⟨-, -, c'⟩ := choreography _ h1 h2 _ _
    (proj_runEvs exW ⟨1, 1⟩ (show 1 ≤ 1 by omega) (show 1 ≤ 1 by omega) _ 1) n c h
  rw [(c' hd).1]
  exact ⟨exW_parallel, exW_serial⟩

/-- such executions exist -/
example : ∃ n c, Steps n (initial (runProg exW ⟨1, 1⟩ (fun _ x => x) 1) fun _ => ⟨exSt, 1⟩) c ∧
    Done c := by
  obtain ⟨h1, h2⟩ := wf_runEvs exW ⟨1, 1⟩ (fun _ x => x) 1
  exact choreography_finishes _ h1 h2 _ _
    (proj_runEvs exW ⟨1, 1⟩ (show 1 ≤ 1 by omega) (show 1 ≤ 1 by omega) _ 1)

/-! ### No corrections -/

/-- C26 fails with `K = 0`, which the constructor accepts with one rank: rank 0 sends its first node
to a rank that does not exist and never gets past that. -/
theorem C26_no_correction_refuted (S : Scheme K X D) (hK : S.Kc = 0) (hM : 0 < S.M) (P : Params)
    (g : ℕ → X → X) (st : ℕ → RState K X) (N : ℕ) (hN : 0 < N) :
    accepted 1 S.Kc S.M = true ∧
    ∃ n c, Steps n (initial (runProg S P g N) st) c ∧ ¬ Done c ∧ ¬ ∃ c', Guaranteed c c' := by
  refine ⟨by simp [accepted, hK], ?_⟩
  obtain ⟨N, rfl⟩ : ∃ N', N = N' + 1 := ⟨N - 1, by omega⟩
  obtain ⟨M, hM'⟩ : ∃ M', S.M = M' + 1 := ⟨S.M - 1, by omega⟩
  have hp : ∃ rest, runProg S P g (N + 1) 0 = Op.loc (startOp S (g 0)) :: Op.loc (baseOp S 0)
      :: Op.send 1 (tagField 1) (fun p => p.s.U (0 + 1)) :: rest := by
    unfold runProg
    rw [if_pos (by omega), List.range_succ_eq_map, List.flatMap_cons]
    unfold applyProg
    rw [if_pos rfl, hM', List.range_succ_eq_map, List.flatMap_cons]
    simp only [seg0, List.cons_append, List.nil_append, List.append_assoc]
    exact ⟨_, rfl⟩
  obtain ⟨rest, hp⟩ := hp
  have hother : ∀ r, r ≠ 0 → runProg S P g (N + 1) r = [] := fun r hr => by
    unfold runProg
    rw [if_neg (by omega)]
  refine ⟨2, _, Steps.tail (Steps.tail (Steps.refl _) (Step.sure _ _ (Guaranteed.loc _ 0 _ _ hp)))
    (Step.sure _ _ (Guaranteed.loc _ 0 (baseOp S 0) (Op.send 1 (tagField 1)
      (fun p => p.s.U (0 + 1)) :: rest) (by simp [initial]))), ?_, ?_⟩
  · intro hd
    have := hd 0
    simp at this
  · rintro ⟨c', hc⟩
    generalize hcc : (⟨_, _, _⟩ : Config (RState K X) X) = c at hc
    have h0 : c.prog 0 = Op.send 1 (tagField 1) (fun p => p.s.U (0 + 1)) :: rest := by
      rw [← hcc]; simp
    have hr : ∀ r, r ≠ 0 → c.prog r = [] := fun r hr => by
      rw [← hcc]; simp [Function.update_of_ne hr, initial, hother r hr]
    cases hc with
    | loc r f p h =>
      by_cases hz : r = 0
      · subst hz; rw [h0] at h; simp at h
      · rw [hr r hz] at h; simp at h
    | deliver r s t u p l1 l2 v h hc hl =>
      by_cases hz : r = 0
      · subst hz; rw [h0] at h; simp at h
      · rw [hr r hz] at h; simp at h
    | rendezvous s r t val u ps pr hsr hs hr' hl =>
      by_cases hz : r = 0
      · subst hz; rw [h0] at hr'; simp at hr'
      · rw [hr r hz] at hr'; simp at hr'

end ParallelRIDCProps
end Gusto.Props
