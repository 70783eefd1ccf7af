import Verif.Model.ParallelDC
import Verif.Lemmas.Collectives
import Verif.Lemmas.ParallelSDC
import Verif.Spec.RIDCPipe

set_option autoImplicit false
set_option linter.unusedSectionVars false
set_option linter.unusedSimpArgs false

namespace Gusto
open LForm TimeDisc Spec Finset MPI
variable {K X D : Type*} [Field K] [AddCommGroup X] [Module K X] [AddCommGroup D] [Module K D]

namespace ParallelRIDC
open RIDC

/-! ### The global sequence of events -/

/-- rank `k` produces node `m+1` -/
def emitOp (S : Scheme K X D) (k m : ℕ) : RState K X → RState K X :=
  if k = 0 then baseOp S m else if m < k then headOp S k m else tailOp S k m

/-- the field sent for node `m+1` -/
def outF (k m : ℕ) (p : RState K X) : X := if k = 0 then p.s.U (m + 1) else p.s.U1 (m + 1)
/-- the source sent for node `m+1` -/
def outS (k m : ℕ) (p : RState K X) : X := if k = 0 then p.s.sU (m + 1) else p.s.sU1 (m + 1)

/-- the message for node `m+1` from rank `k` to rank `k+1` and its evaluation there -/
def passEv (S : Scheme K X D) (P : Params) (step k m : ℕ) : List (Ev (RState K X) X) :=
  [Ev.comm k (k + 1) (tagField step) (outF k m) (setU (m + 1)),
    Ev.comm k (k + 1) (tagSource P step) (outS k m) (setS (m + 1)),
    Ev.loc (k + 1) (rhsOp S (m + 1))]

/-- which nodes the next rank produces when node `m+1` arrives -/
def down {α : Type*} (k : ℕ) (g : ℕ → List α) (m : ℕ) : List α :=
  if m < k then [] else if m = k then (List.range (k + 1)).flatMap g else g m

/-- everything that follows when rank `k` produces node `m+1`, with `n` ranks after it -/
def casc (S : Scheme K X D) (P : Params) (step : ℕ) : ℕ → ℕ → ℕ → List (Ev (RState K X) X)
  | 0, k, m => [Ev.loc k (emitOp S k m)]
  | n + 1, k, m =>
    Ev.loc k (emitOp S k m) :: passEv S P step k m ++ down k (casc S P step n (k + 1)) m

def seqEv (S : Scheme K X D) (P : Params) (step n k : ℕ) : List (Ev (RState K X) X) :=
  (List.range S.M).flatMap (casc S P step n k)

theorem flatMap_down {α : Type*} (k M : ℕ) (hk : k < M) (g : ℕ → List α) :
    (List.range M).flatMap (down k g) = (List.range M).flatMap g := by
  induction M with
  | zero => omega
  | succ M ih =>
    rw [List.range_succ, List.flatMap_append, List.flatMap_append, List.flatMap_singleton,
      List.flatMap_singleton]
    by_cases h : k < M
    · rw [ih h]
      congr 1
      unfold down
      rw [if_neg (by omega), if_neg (by omega)]
    · obtain rfl : k = M := by omega
      have : (List.range k).flatMap (down k g) = [] := by
        rw [List.flatMap_eq_nil_iff]
        intro m hm
        unfold down
        rw [if_pos (List.mem_range.1 hm)]
      rw [this, List.nil_append]
      unfold down
      rw [if_neg (by omega), if_pos rfl, List.range_succ, List.flatMap_append,
        List.flatMap_singleton]

theorem proj_down (r k : ℕ) (g : ℕ → List (Ev (RState K X) X)) (m : ℕ) :
    proj r (down k g m) = down k (fun i => proj r (g i)) m := by
  unfold down
  split
  · rfl
  · split
    · rw [proj_flatMap]
    · rfl

/-- ranks before `k` are not involved -/
theorem proj_casc_lt (S : Scheme K X D) (P : Params) (step r : ℕ) : ∀ n k m, r < k →
    proj r (casc S P step n k m) = [] := by
  intro n
  induction n with
  | zero => intro k m h; simp [casc, proj, projEv, Nat.ne_of_gt h]
  | succ n ih =>
    intro k m h
    have h1 : ¬ k = r := by omega
    have h2 : ¬ k + 1 = r := by omega
    rw [casc, proj_append, proj_cons, proj_down]
    have : down k (fun i => proj r (casc S P step n (k + 1) i)) m = [] := by
      unfold down
      split
      · rfl
      · split
        · rw [List.flatMap_eq_nil_iff]; exact fun i _ => ih (k + 1) i (by omega)
        · exact ih (k + 1) m (by omega)
    rw [this]
    simp [passEv, proj, projEv, h1, h2]

/-- the operations of a rank that produces node `m+1` -/
def emitSeg (S : Scheme K X D) (P : Params) (step n k m : ℕ) : List (Op (RState K X) X) :=
  Op.loc (emitOp S k m) :: if n = 0 then [] else
    [Op.send (k + 1) (tagField step) (outF k m), Op.send (k + 1) (tagSource P step) (outS k m)]

theorem proj_casc_self (S : Scheme K X D) (P : Params) (step n k m : ℕ) :
    proj k (casc S P step n k m) = emitSeg S P step n k m := by
  cases n with
  | zero => simp [casc, proj, projEv, emitSeg]
  | succ n =>
    rw [casc, proj_append, proj_cons, proj_down]
    have : down k (fun i => proj k (casc S P step n (k + 1) i)) m = [] := by
      unfold down
      split
      · rfl
      · split
        · rw [List.flatMap_eq_nil_iff]; exact fun i _ => proj_casc_lt S P step k n (k + 1) i (by omega)
        · exact proj_casc_lt S P step k n (k + 1) m (by omega)
    rw [this]
    simp [passEv, proj, projEv, emitSeg]

theorem proj_casc_next (S : Scheme K X D) (P : Params) (step n k m : ℕ) :
    proj (k + 1) (casc S P step (n + 1) k m)
      = recvSeg S P step (k + 1) (m + 1) ++ down k (emitSeg S P step n (k + 1)) m := by
  rw [casc, proj_append, proj_cons, proj_down]
  simp only [proj_casc_self]
  congr 1
  simp [passEv, proj, projEv, recvSeg]

theorem proj_casc_far (S : Scheme K X D) (P : Params) (step n k m r : ℕ) (hr : k + 1 < r) :
    proj r (casc S P step (n + 1) k m) = proj r (down k (casc S P step n (k + 1)) m) := by
  rw [casc, proj_append, proj_cons]
  have h1 : ¬ k = r := by omega
  have h2 : ¬ k + 1 = r := by omega
  simp [passEv, proj, projEv, h1, h2]

theorem proj_seq_far (S : Scheme K X D) (P : Params) (step n k r : ℕ) (hr : k + 1 < r)
    (hk : k < S.M) : proj r (seqEv S P step (n + 1) k) = proj r (seqEv S P step n (k + 1)) := by
  unfold seqEv
  conv_rhs => rw [← flatMap_down k S.M hk]
  rw [proj_flatMap, proj_flatMap]
  congr 1
  funext m
  exact proj_casc_far S P step n k m r hr

/-- projection on rank `k+1+d` of the events starting at rank `k` -/
theorem proj_seq (S : Scheme K X D) (P : Params) (step : ℕ) : ∀ d n k, k + d < S.M → d ≤ n →
    proj (k + d + 1) (seqEv S P step (n + 1) k)
      = (List.range S.M).flatMap fun m =>
        recvSeg S P step (k + d + 1) (m + 1) ++ down (k + d) (emitSeg S P step (n - d) (k + d + 1)) m := by
  intro d
  induction d with
  | zero =>
    intro n k _ _
    unfold seqEv
    rw [proj_flatMap]
    congr 1
    funext m
    exact proj_casc_next S P step n k m
  | succ d ih =>
    intro n k hk hn
    rw [proj_seq_far S P step n k (k + (d + 1) + 1) (by omega) (by omega)]
    obtain ⟨n, rfl⟩ : ∃ n', n = n' + 1 := ⟨n - 1, by omega⟩
    have := ih n (k + 1) (by omega) (by omega)
    rw [show k + 1 + d = k + (d + 1) by omega] at this
    rw [this, show n + 1 - (d + 1) = n - d by omega]

/-- rearranging into the loops of the code -/
theorem flatMap_loops {α : Type*} (M k : ℕ) (hk : k < M) (a e : ℕ → List α) :
    (List.range M).flatMap (fun m => a m ++ down k e m)
      = (List.range (k + 1)).flatMap a ++ (List.range (k + 1)).flatMap e
        ++ ((List.range M).drop (k + 1)).flatMap fun m => a m ++ e m := by
  conv_lhs => rw [RIDC.drop_range M (k + 1) hk, List.flatMap_append]
  congr 1
  · rw [List.range_succ, List.flatMap_append, List.flatMap_append, List.flatMap_singleton]
    have : (List.range k).flatMap (fun m => a m ++ down k e m) = (List.range k).flatMap a := by
      refine ParallelSDC.flatMap_congr_range k _ _ fun m hm => ?_
      unfold down
      rw [if_pos hm, List.append_nil]
    rw [this, List.flatMap_singleton]
    unfold down
    rw [if_neg (by omega), if_pos rfl, List.range_succ]
    simp
  · have : ∀ m ∈ (List.range M).drop (k + 1), a m ++ down k e m = a m ++ e m := by
      intro m hm
      have : k + 1 ≤ m := by
        rw [List.mem_iff_getElem] at hm
        obtain ⟨i, hi, rfl⟩ := hm
        simp [List.getElem_drop]
      unfold down
      rw [if_neg (by omega), if_neg (by omega)]
    exact List.flatMap_congr this

/-- the pipeline part of the program of rank `r` -/
def pipeProg (S : Scheme K X D) (P : Params) (step k : ℕ) : List (Op (RState K X) X) :=
  if k = 0 then (List.range S.M).flatMap (seg0 S P step)
    else
      (List.range k).flatMap (fun m => recvSeg S P step k (m + 1))
      ++ (List.range k).flatMap (fun m => Op.loc (headOp S k m) :: sendSeg S P step k m)
      ++ ((List.range S.M).drop k).flatMap (fun m =>
          recvSeg S P step k (m + 1) ++ Op.loc (tailOp S k m) :: sendSeg S P step k m)

theorem mem_drop_range {M k m : ℕ} (hm : m ∈ (List.range M).drop k) : k ≤ m ∧ m < M := by
  rw [List.mem_iff_getElem] at hm
  obtain ⟨i, hi, rfl⟩ := hm
  simp [List.length_drop] at hi
  simp [List.getElem_drop]; omega

theorem proj_pipe (S : Scheme K X D) (P : Params) (step : ℕ) (hK : 1 ≤ S.Kc) (hM : S.Kc ≤ S.M)
    (r : ℕ) : proj r (seqEv S P step S.Kc 0) = if r < S.Kc + 1 then pipeProg S P step r else [] := by
  obtain ⟨n, hn⟩ : ∃ n, S.Kc = n + 1 := ⟨S.Kc - 1, by omega⟩
  rcases r with _ | d
  · rw [if_pos (by omega)]
    unfold seqEv pipeProg
    rw [proj_flatMap, if_pos rfl]
    congr 1
    funext m
    rw [proj_casc_self]
    simp [emitSeg, seg0, emitOp, hn]
    exact ⟨funext fun p => by simp [outF], funext fun p => by simp [outS]⟩
  · by_cases hd : d + 1 < S.Kc + 1
    · rw [if_pos hd, hn]
      have := proj_seq S P step d n 0 (by omega) (by omega)
      rw [Nat.zero_add] at this
      rw [this, flatMap_loops S.M d (by omega)]
      unfold pipeProg
      rw [if_neg (by omega)]
      have hs : ∀ m, (if n - d = 0 then [] else
          [Op.send (d + 1 + 1) (tagField step) (outF (K := K) (X := X) (d + 1) m),
            Op.send (d + 1 + 1) (tagSource P step) (outS (d + 1) m)])
          = sendSeg S P step (d + 1) m := by
        intro m
        unfold sendSeg
        by_cases h : n - d = 0
        · rw [if_pos h, if_neg (by omega)]
        · rw [if_neg h, if_pos (by omega)]
          have e1 : outF (K := K) (X := X) (d + 1) m = fun p => p.s.U1 (m + 1) := by
            funext p; simp [outF]
          have e2 : outS (K := K) (X := X) (d + 1) m = fun p => p.s.sU1 (m + 1) := by
            funext p; simp [outS]
          rw [e1, e2]
      congr 1
      · congr 1
        refine ParallelSDC.flatMap_congr_range _ _ _ fun m hm => ?_
        simp only [emitSeg, hs, emitOp]
        rw [if_neg (by omega), if_pos hm]
      · refine List.flatMap_congr fun m hm => ?_
        have := mem_drop_range hm
        simp only [emitSeg, hs, emitOp]
        rw [if_neg (by omega), if_neg (by omega)]
    · rw [if_neg hd]
      unfold seqEv
      rw [proj_flatMap, List.flatMap_eq_nil_iff]
      intro m _
      have key : ∀ n k m, k + n < d + 1 → proj (d + 1) (casc S P step n k m) = [] := by
        intro n
        induction n with
        | zero => intro k m h; simp [casc, proj, projEv, show ¬ k = d + 1 by omega]
        | succ n ih =>
          intro k m h
          have h1 : ¬ k = d + 1 := by omega
          have h2 : ¬ k + 1 = d + 1 := by omega
          rw [casc, proj_append, proj_cons, proj_down]
          have : down k (fun i => proj (d + 1) (casc S P step n (k + 1) i)) m = [] := by
            unfold down
            split
            · rfl
            · split
              · rw [List.flatMap_eq_nil_iff]; exact fun i _ => ih (k + 1) i (by omega)
              · exact ih (k + 1) m (by omega)
          rw [this]
          simp only [passEv, proj, projEv, h1, h2, List.flatMap_cons, List.flatMap_nil, if_false,
            List.append_nil]
      exact key _ _ _ (by omega)

/-- flush events -/
def flushEv (S : Scheme K X D) (P : Params) (step : ℕ) : List (Ev (RState K X) X) :=
  if flushes P step then
    Ev.loc S.Kc (outOp S) ::
      (List.range S.Kc).map fun i => Ev.comm S.Kc i (tagFlush P step) RState.xOut setXOut
  else allLoc (S.Kc + 1) fun _ => outOp S

theorem proj_flush (S : Scheme K X D) (P : Params) (step r : ℕ) :
    proj r (flushEv S P step) = if r < S.Kc + 1 then flushProg S P step r else [] := by
  unfold flushEv flushProg
  split
  · rw [proj_cons]
    have hmap : proj r ((List.range S.Kc).map fun i =>
        Ev.comm S.Kc i (tagFlush P step) RState.xOut (setXOut (K := K) (X := X)))
        = (List.range S.Kc).flatMap fun i => proj r
          [Ev.comm S.Kc i (tagFlush P step) RState.xOut (setXOut (K := K) (X := X))] := by
      rw [← proj_flatMap]; congr 1; exact List.map_eq_flatMap
    rw [hmap]
    by_cases h : r = S.Kc
    · subst h
      rw [if_pos (by omega), if_pos rfl]
      simp [proj, projEv, List.map_eq_flatMap]
    · rw [flatMap_single S.Kc r _ (fun i hi => by
        simp [proj, projEv, hi, Ne.symm h])]
      by_cases h' : r < S.Kc
      · rw [if_pos h', if_pos (by omega), if_neg h]
        simp [proj, projEv, Ne.symm h]
      · rw [if_neg h', if_neg (by omega)]
        simp [projEv, Ne.symm h]
  · rw [proj_allLoc]

def copyEv (S : Scheme K X D) : List (Ev (RState K X) X) :=
  (List.range (S.Kc + 1)).flatMap fun r => if r = 0 then [] else [Ev.loc r (copyOp S)]

theorem proj_copy (S : Scheme K X D) (r : ℕ) :
    proj r (copyEv S) = if r < S.Kc + 1 then (if r = 0 then [] else [Op.loc (copyOp S)]) else [] := by
  unfold copyEv
  rw [proj_flatMap, flatMap_single (S.Kc + 1) r _ (fun i hi => by
    by_cases h : i = 0 <;> simp [h, proj, projEv, hi])]
  by_cases h : r = 0 <;> simp [h, proj, projEv]

def applyEv (S : Scheme K X D) (P : Params) (g : X → X) (step : ℕ) : List (Ev (RState K X) X) :=
  allLoc (S.Kc + 1) (fun _ => startOp S g) ++ seqEv S P step S.Kc 0 ++ copyEv S
    ++ flushEv S P step

def runEvs (S : Scheme K X D) (P : Params) (g : ℕ → X → X) (N : ℕ) : List (Ev (RState K X) X) :=
  (List.range N).flatMap fun n => applyEv S P (g n) (n + 1)

theorem proj_runEvs (S : Scheme K X D) (P : Params) (hK : 1 ≤ S.Kc) (hM : S.Kc ≤ S.M)
    (g : ℕ → X → X) (N r : ℕ) : runProg S P g N r = proj r (runEvs S P g N) := by
  unfold runProg runEvs
  rw [proj_flatMap]
  have happ : ∀ (g : X → X) step, proj r (applyEv S P g step)
      = if r < S.Kc + 1 then applyProg S P g step r else [] := by
    intro g step
    unfold applyEv applyProg
    simp only [proj_append, proj_allLoc, proj_pipe S P step hK hM, proj_copy, proj_flush]
    by_cases h : r < S.Kc + 1
    · simp only [h, if_true, pipeProg]
      by_cases h0 : r = 0 <;> simp [h0]
    · simp [h]
  simp only [happ]
  by_cases h : r < S.Kc + 1 <;> simp [h]

theorem wf_casc (S : Scheme K X D) (P : Params) (step : ℕ) : ∀ n k m, Wf (casc S P step n k m) := by
  intro n
  induction n with
  | zero =>
    intro k m
    constructor <;> intro e he <;> simp [casc] at he <;> subst he <;> trivial
  | succ n ih =>
    intro k m
    rw [casc]
    refine Wf.append ?_ ?_
    · constructor <;> intro e he <;> simp [passEv] at he <;> rcases he with rfl | rfl | rfl | rfl <;>
        simp [EvOk, Fresh]
    · unfold down
      split
      · exact Wf.nil
      · split
        · exact Wf.flatMap _ _ fun i _ => ih _ _
        · exact ih _ _

theorem wf_runEvs (S : Scheme K X D) (P : Params) (g : ℕ → X → X) (N : ℕ) :
    Wf (runEvs S P g N) := by
  refine Wf.flatMap _ _ fun n _ => ?_
  refine ((((wf_allLoc _ _).append (Wf.flatMap _ _ fun m _ => wf_casc S P _ _ _ _))).append
    (Wf.flatMap _ _ fun r _ => ?_)).append ?_
  · split
    · exact Wf.nil
    · constructor <;> intro e he <;> simp at he <;> subst he <;> trivial
  · unfold flushEv
    split
    · constructor <;> intro e he <;> simp at he <;> rcases he with rfl | ⟨i, hi, rfl⟩ <;>
        simp [EvOk, Fresh]
      omega
    · exact wf_allLoc _ _

/-! ### Values -/

/-- Assumptions: reduced stencils (as the constructor sets, 54-56), no source terms, a solver that
solves, and unique solvability of the mass problems and of the node problems. -/
structure Plain (S : Scheme K X D) : Prop where
  reduced : S.reduced = true
  exact : ExactSolver S.solve
  noSrc : ∀ x, srcPart S.R x = 0
  massInv : ∀ d : D, ∃! y, mass S.R y = d
  nodeInv : ∀ d : D, ∃! y, mass S.R y + S.dt • implPart S.R y = d

theorem rhs_solve (S : Scheme K X D) (h : Plain S) (u w y0 : X) :
    S.solve (fun y => (SDC.resRhs S.R u w y).eval) y0 = rhsVal S u := by
  unfold rhsVal
  refine ParallelSDC.solve_unique h.exact ?_ ?_ _ _
  · obtain ⟨y, hy, hu⟩ := h.massInv (restNoSource S.R u + srcPart S.R w)
    refine ⟨y, ?_, fun z hz => hu z ?_⟩
    · dsimp only; rw [SDC.eval_resRhs, hy]; simp
    · dsimp only at hz; rw [SDC.eval_resRhs] at hz; exact sub_eq_zero.1 hz
  · funext y; rw [SDC.eval_resRhs, h.noSrc, add_zero]

theorem node_solve (S : Scheme K X D) (h : Plain S) (k : ℕ) (s : RIDC.State K X) (m : ℕ) :
    (body S k s m).U1 (m + 1) = nodeVal S (quadAt S k s.f m) (s.U1 m) (s.U (m + 1)) (s.U m) := by
  rw [(body_eq S k s m).1]
  unfold nodeVal
  congr 1
  have e : (fun y => (res S (nodePre S k s m) y).eval) = fun y => mass S.R y - mass S.R (s.U1 m)
      + S.dt • (implPart S.R y - implPart S.R (s.U (m + 1)))
      + S.dt • (explPart S.R (s.U1 m) - explPart S.R (s.U m)) + mass S.R (quadAt S k s.f m) := by
    funext y
    rw [eval_res, h.noSrc, h.noSrc]
    simp [nodePre]
  refine ParallelSDC.solve_unique h.exact ?_ e _ _
  simp only [fun y => congrFun e y]
  obtain ⟨y, hy, hu⟩ := h.nodeInv (mass S.R (s.U1 m) + S.dt • implPart S.R (s.U (m + 1))
    - S.dt • (explPart S.R (s.U1 m) - explPart S.R (s.U m)) - mass S.R (quadAt S k s.f m))
  refine ⟨y, ?_, fun z hz => hu z ?_⟩
  · dsimp only
    linear_combination (norm := module) hy
  · dsimp only at hz
    linear_combination (norm := module) hz

theorem quadAt_congr (S : Scheme K X D) (h : Plain S) (k : ℕ) (f f' : ℕ → X) (m : ℕ)
    (hf : ∀ j, (j ≤ k ∨ j ≤ m + 1) → f j = f' j) : quadAt S k f m = quadAt S k f' m := by
  have hst : stencil S k = k := by simp [stencil, h.reduced]
  unfold quadAt
  split
  · unfold computeQuad
    refine foldl_congr_mem _ _ _ (fun j hj a => ?_) _
    rw [hst] at hj
    rw [hf j (Or.inl (by have := List.mem_range.1 hj; omega))]
  · rename_i hm
    rw [hst] at hm
    unfold computeQuadFinal
    refine foldl_congr_mem _ _ _ (fun j hj a => ?_) _
    rw [hst] at hj ⊢
    rw [hf _ (Or.inr (by have := List.mem_range.1 hj; omega))]

/-- Invariant of rank `r` after receiving `a` nodes and producing `e` nodes. -/
def RI (S : Scheme K X D) (x : ℕ → X) (r a e : ℕ) (p : RState K X) : Prop :=
  match r with
  | 0 => ∀ j ≤ e, p.s.U j = level S x 0 j
  | r + 1 => (∀ j ≤ a, p.s.U j = oldAt x (r + 1) (level S x r) j ∧
      p.s.f j = rhsVal S (oldAt x (r + 1) (level S x r) j)) ∧
      ∀ j ≤ e, p.s.U1 j = level S x (r + 1) j

theorem emit_RI (S : Scheme K X D) (h : Plain S) (x : ℕ → X) (r a m : ℕ) (p : RState K X)
    (ha : r = 0 ∨ (r ≤ a ∧ m + 1 ≤ a)) (hp : RI S x r a m p) : RI S x r a (m + 1) (emitOp S r m p) := by
  rcases r with _ | r
  · intro j hj
    have h0 : emitOp S 0 m p = baseOp S m p := by simp [emitOp]
    rw [h0]
    simp only [baseOp]
    by_cases hjm : j = m + 1
    · subst hjm; rw [Function.update_self, hp m le_rfl]; rfl
    · rw [Function.update_of_ne hjm]; exact hp j (by omega)
  · obtain ⟨h1, h2⟩ := hp
    have ha' : r + 1 ≤ a ∧ m + 1 ≤ a := by omega
    have hb : (emitOp S (r + 1) m p) = { p with s := body S (r + 1) p.s m } := by
      have hst : stencil S (r + 1) = r + 1 := by simp [stencil, h.reduced]
      unfold emitOp
      rw [if_neg (by omega)]
      by_cases hm : m < r + 1
      · rw [if_pos hm]; simp [headOp, headBody, body, quadAt, hst, hm]
      · rw [if_neg hm]; simp [tailOp, tailBody, body, quadAt, hst, hm]
    rw [hb]
    refine ⟨h1, fun j hj => ?_⟩
    dsimp only
    by_cases hjm : j = m + 1
    · subst hjm
      rw [node_solve S h]
      show _ = nodeVal S (quadAt S (r + 1) (fun j => rhsVal S (oldAt x (r + 1) (level S x r) j)) m)
        (level S x (r + 1) m) (oldAt x (r + 1) (level S x r) (m + 1))
        (oldAt x (r + 1) (level S x r) m)
      rw [h2 m le_rfl, (h1 (m + 1) (by omega)).1, (h1 m (by omega)).1]
      congr 1
      exact quadAt_congr S h _ _ _ _ fun j hj => (h1 j (by omega)).2
    · have : (body S (r + 1) p.s m).U1 j = p.s.U1 j := by
        simp only [body, nodeSolve]
        rw [Function.update_of_ne hjm, Function.update_of_ne hjm]
      rw [this]; exact h2 j (by omega)

/-- Invariant of the ranks `k`, ..., `k+n` when rank `k` has received `a` and produced `m` nodes. -/
def Inv (S : Scheme K X D) (x : ℕ → X) : ℕ → ℕ → ℕ → ℕ → (ℕ → RState K X) → Prop
  | 0, k, a, m, st => RI S x k a m (st k)
  | n + 1, k, a, m, st => RI S x k a m (st k) ∧
      Inv S x n (k + 1) m (if k + 1 ≤ m then m else 0) st

theorem Inv_congr (S : Scheme K X D) (x : ℕ → X) : ∀ n k a m (st st' : ℕ → RState K X),
    (∀ r, k ≤ r → st r = st' r) → Inv S x n k a m st → Inv S x n k a m st' := by
  intro n
  induction n with
  | zero => intro k a m st st' h hi; simp only [Inv] at *; rw [← h k le_rfl]; exact hi
  | succ n ih =>
    intro k a m st st' h hi
    exact ⟨h k le_rfl ▸ hi.1, ih _ _ _ st st' (fun r hr => h r (by omega)) hi.2⟩

theorem run_casc_lt (S : Scheme K X D) (P : Params) (step : ℕ) (n k m : ℕ) (st : ℕ → RState K X)
    (r : ℕ) (hr : r < k) : run (casc S P step n k m) st r = st r :=
  run_ne _ r (by rw [← proj_eq_nil]; exact proj_casc_lt S P step r n k m hr) st

theorem run_passEv (S : Scheme K X D) (P : Params) (step k m : ℕ) (st : ℕ → RState K X) :
    run (passEv S P step k m) st = Function.update st (k + 1)
      (rhsOp S (m + 1) (setS (m + 1) (outS k m (st k)) (setU (m + 1) (outF k m (st k)) (st (k + 1))))) := by
  funext r
  by_cases h : r = k + 1
  · subst h
    simp [passEv, run, runEv, Function.update_self, Function.update_of_ne]
  · simp [passEv, run, runEv, Function.update_of_ne h]

theorem pass_RI (S : Scheme K X D) (h : Plain S) (x : ℕ → X) (r m e : ℕ) (p : RState K X) (v w : X)
    (hv : v = level S x r (m + 1)) (hp : RI S x (r + 1) m e p) :
    RI S x (r + 1) (m + 1) e (rhsOp S (m + 1) (setS (m + 1) w (setU (m + 1) v p))) := by
  obtain ⟨h1, h2⟩ := hp
  refine ⟨fun j hj => ?_, h2⟩
  simp only [rhsOp, rhsBody, solveRhs, setS, setU]
  by_cases hjm : j = m + 1
  · subst hjm
    rw [Function.update_self, Function.update_self, rhs_solve S h, hv]
    simp [oldAt]
  · rw [Function.update_of_ne hjm, Function.update_of_ne hjm]
    exact h1 j (by omega)

theorem casc_Inv (S : Scheme K X D) (h : Plain S) (P : Params) (step : ℕ) (x : ℕ → X) :
    ∀ n k a m (st : ℕ → RState K X), (k = 0 ∨ (k ≤ a ∧ m + 1 ≤ a)) → Inv S x n k a m st →
      Inv S x n k a (m + 1) (run (casc S P step n k m) st) := by
  intro n
  induction n with
  | zero =>
    intro k a m st ha hi
    simp only [casc, run, List.foldl_cons, List.foldl_nil, runEv, Inv, Function.update_self] at *
    exact emit_RI S h x k a m _ ha hi
  | succ n ih =>
    intro k a m st ha hi
    obtain ⟨hk, hi⟩ := hi
    rw [casc, run_append, run_cons, run_passEv]
    set st1 := runEv st (Ev.loc k (emitOp S k m) : Ev (RState K X) X) with hst1
    have e1 : st1 k = emitOp S k m (st k) := by simp [hst1, runEv]
    have e2 : ∀ r, r ≠ k → st1 r = st r := fun r hr => by
      simp [hst1, runEv, Function.update_of_ne hr]
    have hR1 : RI S x k a (m + 1) (st1 k) := by
      rw [e1]; exact emit_RI S h x k a m _ ha hk
    set st2 := Function.update st1 (k + 1)
      (rhsOp S (m + 1) (setS (m + 1) (outS k m (st1 k)) (setU (m + 1) (outF k m (st1 k)) (st1 (k + 1)))))
      with hst2
    have f0 : st2 k = st1 k := by rw [hst2, Function.update_of_ne (by omega)]
    have f2 : ∀ r, k + 1 < r → st2 r = st r := fun r hr => by
      rw [hst2, Function.update_of_ne (by omega), e2 r (by omega)]
    have hv : outF k m (st1 k) = level S x k (m + 1) := by
      unfold outF
      rcases k with _ | k
      · rw [if_pos rfl]; exact hR1 (m + 1) le_rfl
      · rw [if_neg (by omega)]; exact hR1.2 (m + 1) le_rfl
    -- rank `k+1` after the message
    have hI2 : Inv S x n (k + 1) (m + 1) (if k + 1 ≤ m then m else 0) st2 := by
      have hlow : RI S x (k + 1) (m + 1) (if k + 1 ≤ m then m else 0) (st2 (k + 1)) := by
        rw [hst2, Function.update_self, e2 (k + 1) (by omega)]
        refine pass_RI S h x k m _ _ _ _ hv ?_
        cases n with
        | zero => exact hi
        | succ n => exact hi.1
      cases n with
      | zero => exact hlow
      | succ n =>
        exact ⟨hlow, Inv_congr S x _ _ _ _ st st2 (fun r hr => (f2 r (by omega)).symm) hi.2⟩
    have hkeep : ∀ l : List ℕ, run (l.flatMap (casc S P step n (k + 1))) st2 k = st1 k := by
      intro l
      rw [← f0]
      refine run_ne _ k ?_ st2
      rw [← proj_eq_nil, proj_flatMap, List.flatMap_eq_nil_iff]
      exact fun i _ => proj_casc_lt S P step k n (k + 1) i (by omega)
    unfold down
    split
    · rename_i hm
      refine ⟨by show RI S x k a (m + 1) (st2 k); rw [f0]; exact hR1, ?_⟩
      rw [if_neg (by omega)] at hI2 ⊢
      exact hI2
    · split
      · rename_i hm hmk
        subst hmk
        refine ⟨by rw [hkeep]; exact hR1, ?_⟩
        rw [if_pos le_rfl]
        rw [if_neg (by omega)] at hI2
        have key : ∀ i ≤ m + 1, Inv S x n (m + 1) (m + 1) i
            (run ((List.range i).flatMap (casc S P step n (m + 1))) st2) := by
          intro i
          induction i with
          | zero => exact fun _ => hI2
          | succ i ihi =>
            intro hi'
            rw [List.range_succ, List.flatMap_append, List.flatMap_singleton, run_append]
            exact ih (m + 1) (m + 1) i _ (by omega) (ihi (by omega))
        exact key (m + 1) le_rfl
      · rename_i hm hmk
        refine ⟨?_, ?_⟩
        · have := hkeep [m]
          simp only [List.flatMap_singleton] at this
          rw [this]; exact hR1
        · rw [if_pos (by omega)] at hI2 ⊢
          exact ih (k + 1) (m + 1) m _ (by omega) hI2

theorem Inv_init (S : Scheme K X D) (x : ℕ → X) (st : ℕ → RState K X) : ∀ n k,
    (∀ r, k ≤ r → r ≤ k + n → RI S x r 0 0 (st r)) → Inv S x n k 0 0 st := by
  intro n
  induction n with
  | zero => exact fun k h => h k le_rfl (by omega)
  | succ n ih =>
    intro k h
    refine ⟨h k le_rfl (by omega), ?_⟩
    rw [if_neg (by omega)]
    exact ih (k + 1) fun r h1 h2 => h r (by omega) (by omega)

theorem Inv_end (S : Scheme K X D) (x : ℕ → X) (st : ℕ → RState K X) : ∀ n k a, k + n ≤ S.M →
    Inv S x n k a S.M st → RI S x k a S.M (st k) ∧
      ∀ r, k < r → r ≤ k + n → RI S x r S.M S.M (st r) := by
  intro n
  induction n with
  | zero => exact fun k a _ h => ⟨h, fun r h1 h2 => by omega⟩
  | succ n ih =>
    intro k a hk h
    refine ⟨h.1, fun r h1 h2 => ?_⟩
    have h3 := h.2
    rw [if_pos (by omega)] at h3
    obtain ⟨h4, h5⟩ := ih (k + 1) S.M (by omega) h3
    by_cases hr : r = k + 1
    · subst hr; exact h4
    · exact h5 r (by omega) (by omega)

theorem seq_Inv (S : Scheme K X D) (h : Plain S) (P : Params) (step : ℕ) (x : ℕ → X) (n : ℕ)
    (st : ℕ → RState K X) (hi : Inv S x n 0 0 0 st) :
    Inv S x n 0 0 S.M (run (seqEv S P step n 0) st) := by
  have key : ∀ M, Inv S x n 0 0 M (run ((List.range M).flatMap (casc S P step n 0)) st) := by
    intro M
    induction M with
    | zero => exact hi
    | succ M ih =>
      rw [List.range_succ, List.flatMap_append, List.flatMap_singleton, run_append]
      exact casc_Inv S h P step x n 0 0 M _ (Or.inl rfl) ih
  exact key S.M

theorem run_copyEv (S : Scheme K X D) (st : ℕ → RState K X) (r : ℕ) :
    run (copyEv S) st r = if r < S.Kc + 1 ∧ r ≠ 0 then copyOp S (st r) else st r := by
  have key : ∀ n, run ((List.range n).flatMap fun r =>
      if r = 0 then [] else [(Ev.loc r (copyOp S) : Ev (RState K X) X)]) st r
      = if r < n ∧ r ≠ 0 then copyOp S (st r) else st r := by
    intro n
    induction n with
    | zero => simp [run]
    | succ n ih =>
      rw [List.range_succ, List.flatMap_append, List.flatMap_singleton, run_append]
      by_cases hn : n = 0
      · subst hn
        have h0 : ¬ (r < 0 + 1 ∧ r ≠ 0) := by omega
        have h1 : ¬ (r < 0 ∧ r ≠ 0) := by omega
        rw [if_neg h1] at ih
        rw [if_pos rfl, if_neg h0]; exact ih
      · rw [if_neg hn]
        simp only [run, List.foldl_cons, List.foldl_nil, runEv] at ih ⊢
        by_cases hr : r = n
        · subst hr
          rw [if_neg (by omega)] at ih
          rw [Function.update_self, if_pos ⟨by omega, hn⟩, ih]
        · rw [Function.update_of_ne hr, ih]
          by_cases h1 : r < n ∧ r ≠ 0
          · rw [if_pos h1, if_pos (by omega)]
          · rw [if_neg h1, if_neg (by omega)]
  exact key (S.Kc + 1)

theorem run_flushEv (S : Scheme K X D) (P : Params) (step : ℕ) (st : ℕ → RState K X) (r : ℕ)
    (hr : r < S.Kc + 1) :
    (run (flushEv S P step) st r).s = (st r).s ∧
    (run (flushEv S P step) st r).xOut = if flushes P step = true then (st S.Kc).s.U S.M
      else (st r).s.U S.M := by
  unfold flushEv
  split
  · rw [run_cons]
    set st1 := runEv st (Ev.loc S.Kc (outOp S) : Ev (RState K X) X) with hst1
    have e1 : st1 S.Kc = outOp S (st S.Kc) := by simp [hst1, runEv]
    have e2 : ∀ r, r ≠ S.Kc → st1 r = st r := fun r hr => by
      simp [hst1, runEv, Function.update_of_ne hr]
    have key : ∀ n ≤ S.Kc, ∀ r, run ((List.range n).map fun i =>
        Ev.comm S.Kc i (tagFlush P step) RState.xOut (setXOut (K := K) (X := X))) st1 r
        = if r < n then setXOut ((st S.Kc).s.U S.M) (st1 r) else st1 r := by
      intro n
      induction n with
      | zero => intro _ r; simp [run]
      | succ n ih =>
        intro hn r
        rw [List.range_succ, List.map_append, run_append]
        have ihK := ih (by omega) S.Kc
        rw [if_neg (by omega)] at ihK
        have ihr := ih (by omega) r
        simp only [List.map_cons, List.map_nil, run, List.foldl_cons, List.foldl_nil, runEv]
          at ihr ihK ⊢
        by_cases hrn : r = n
        · subst hrn
          rw [Function.update_self, ihK, e1, ihr, if_neg (by omega), if_pos (by omega)]
          rfl
        · rw [Function.update_of_ne hrn, ihr]
          by_cases h1 : r < n
          · rw [if_pos h1, if_pos (by omega)]
          · rw [if_neg h1, if_neg (by omega)]
    rw [key S.Kc le_rfl r]
    by_cases h : r < S.Kc
    · rw [if_pos h, e2 r (by omega)]
      exact ⟨rfl, rfl⟩
    · obtain rfl : r = S.Kc := by omega
      rw [if_neg h, e1]
      exact ⟨rfl, rfl⟩
  · rw [run_allLoc, if_pos hr]
    exact ⟨rfl, rfl⟩

theorem copyOp_U (S : Scheme K X D) (p : RState K X) (j : ℕ) (hj : j ≤ S.M) :
    (copyOp S p).s.U j = p.s.U1 j :=
  ((copyLoop p.s (S.M + 1)).2.2.2 j (by omega)).1

/-- one time step on all ranks -/
theorem par_apply (S : Scheme K X D) (h : Plain S) (hM : S.Kc ≤ S.M) (P : Params) (g : X → X)
    (step : ℕ) (x : ℕ → X) (st : ℕ → RState K X) (hx : ∀ r < S.Kc + 1, g (st r).xOut = x r) :
    ∀ r < S.Kc + 1,
      (run (applyEv S P g step) st r).xOut = endVal S P step x r ∧
      ∀ j ≤ S.M, (run (applyEv S P g step) st r).s.U j = level S x r j := by
  unfold applyEv
  simp only [run_append]
  set st1 := run (allLoc (S.Kc + 1) (fun _ => startOp S g) : List (Ev (RState K X) X)) st with hst1
  have hinit : ∀ r < S.Kc + 1, RI S x r 0 0 (st1 r) := by
    intro r hr
    rw [hst1, run_allLoc, if_pos hr]
    have e : (startOp S g (st r)).s.U 0 = x r ∧ (startOp S g (st r)).s.U1 0 = x r ∧
        (startOp S g (st r)).s.f 0 = rhsVal S (x r) := by
      rw [← hx r hr]
      refine ⟨by simp [startOp, solveRhs], by simp [startOp, solveRhs], ?_⟩
      simp only [startOp, Function.update_self, solveRhs]
      exact rhs_solve S h _ _ _
    rcases r with _ | r
    · intro j hj
      obtain rfl : j = 0 := by omega
      exact e.1
    · refine ⟨fun j hj => ?_, fun j hj => ?_⟩ <;> obtain rfl : j = 0 := by omega
      · simp only [oldAt, if_true]
        exact ⟨e.1, e.2.2⟩
      · exact e.2.1
  have hI := seq_Inv S h P step x S.Kc st1 (Inv_init S x st1 S.Kc 0
    fun r _ hr => hinit r (by omega))
  set st2 := run (seqEv S P step S.Kc 0) st1
  obtain ⟨h0, h1⟩ := Inv_end S x st2 S.Kc 0 0 (by omega) hI
  have hcopy : ∀ r < S.Kc + 1, ∀ j ≤ S.M, (run (copyEv S) st2 r).s.U j = level S x r j := by
    intro r hr j hj
    rw [run_copyEv]
    rcases r with _ | r
    · rw [if_neg (by omega)]; exact h0 j hj
    · rw [if_pos (by omega), copyOp_U S _ j hj]
      exact (h1 (r + 1) (by omega) (by omega)).2 j hj
  set st3 := run (copyEv S) st2
  intro r hr
  obtain ⟨f1, f2⟩ := run_flushEv S P step st3 r hr
  rw [f1, f2]
  refine ⟨?_, hcopy r hr⟩
  unfold endVal
  split
  · exact hcopy S.Kc (by omega) S.M le_rfl
  · exact hcopy r hr S.M le_rfl

theorem par_run (S : Scheme K X D) (h : Plain S) (hM : S.Kc ≤ S.M) (P : Params) (g : ℕ → X → X)
    (x0 : ℕ → X) (st : ℕ → RState K X) (hx : ∀ r < S.Kc + 1, (st r).xOut = x0 r) (N : ℕ) :
    ∀ r < S.Kc + 1, (run (runEvs S P g N) st r).xOut = pipeline S P g x0 N r := by
  induction N with
  | zero => exact hx
  | succ N ih =>
    have e : runEvs S P g (N + 1) = runEvs S P g N ++ applyEv S P (g N) (N + 1) := by
      simp [runEvs, List.range_succ]
    rw [e, run_append]
    exact fun r hr => (par_apply S h hM P (g N) (N + 1) (fun r => g N (pipeline S P g x0 N r)) _
      (fun r hr => by rw [ih r hr]) r hr).1

theorem par_run_nodes (S : Scheme K X D) (h : Plain S) (hM : S.Kc ≤ S.M) (P : Params)
    (g : ℕ → X → X) (x0 : ℕ → X) (st : ℕ → RState K X) (hx : ∀ r < S.Kc + 1, (st r).xOut = x0 r)
    (N : ℕ) : ∀ r < S.Kc + 1, ∀ j ≤ S.M, (run (runEvs S P g (N + 1)) st r).s.U j
      = level S (fun r => g N (pipeline S P g x0 N r)) r j := by
  have e : runEvs S P g (N + 1) = runEvs S P g N ++ applyEv S P (g N) (N + 1) := by
    simp [runEvs, List.range_succ]
  rw [e, run_append]
  exact fun r hr => (par_apply S h hM P (g N) (N + 1) (fun r => g N (pipeline S P g x0 N r)) _
    (fun r hr => by rw [par_run S h hM P g x0 st hx N r hr]) r hr).2

/-! ### The serial scheme -/

theorem oldAt_level (S : Scheme K X D) (x : X) (r j : ℕ) :
    oldAt (fun _ => x) (r + 1) (level S (fun _ => x) r) j = level S (fun _ => x) r j := by
  unfold oldAt
  split
  · rename_i hj; subst hj; cases r <;> rfl
  · rfl

theorem serial_start (S : Scheme K X D) (s : RIDC.State K X) (x : X) :
    ∀ j ≤ S.M, (RIDC.start S s x).U j = level S (fun _ => x) 0 j := by
  have h1 : ∀ (n : ℕ) (st : RIDC.State K X), ((List.range n).foldl (fun (st : RIDC.State K X) m =>
      { st with sU := Function.update st.sU m (evalSrc S st.baseDt (st.U m) (st.sU m)) }) st).U
      = st.U := by
    intro n st
    induction n with
    | zero => rfl
    | succ n ih => rw [List.range_succ, List.foldl_append]; exact ih
  have h2 : ∀ (n : ℕ) (st : RIDC.State K X), st.U 0 = x → ∀ j ≤ n,
      ((List.range n).foldl (fun (st : RIDC.State K X) m =>
      { st with baseDt := S.dt, U := Function.update st.U (m + 1) (S.base S.dt (st.U m)) }) st).U j
      = level S (fun _ => x) 0 j := by
    intro n st h0
    induction n with
    | zero => intro j hj; obtain rfl : j = 0 := by omega
              exact h0
    | succ n ih =>
      intro j hj
      rw [List.range_succ, List.foldl_append, List.foldl_cons, List.foldl_nil]
      dsimp only
      by_cases hjn : j = n + 1
      · subst hjn; rw [Function.update_self, ih n le_rfl]; rfl
      · rw [Function.update_of_ne hjn]; exact ih j (by omega)
  intro j hj
  unfold RIDC.start
  dsimp only
  rw [h1]
  exact h2 S.M _ (by simp) j hj

theorem serial_sweep (S : Scheme K X D) (h : Plain S) (x : X) (k : ℕ) (hk : k + 1 ≤ S.M)
    (s : RIDC.State K X) (hs : ∀ j ≤ S.M, s.U j = level S (fun _ => x) k j) :
    ∀ j ≤ S.M, (RIDC.sweep S s (k + 1)).U j = level S (fun _ => x) (k + 1) j := by
  have hst : stencil S (k + 1) = k + 1 := by simp [stencil, h.reduced]
  have hl0 : level S (fun _ => x) k 0 = x := by cases k <;> rfl
  have hrhs : ∀ n ≤ S.M + 1, ∀ j < n, ((List.range n).foldl (rhsBody S) s).f j
      = rhsVal S (level S (fun _ => x) k j) := by
    intro n
    induction n with
    | zero => intro _ j hj; omega
    | succ n ih =>
      intro hn j hj
      obtain ⟨h1, -⟩ := rhsLoop_frame S s n
      rw [List.range_succ, List.foldl_append, List.foldl_cons, List.foldl_nil]
      by_cases hjn : j = n
      · subst hjn
        simp only [rhsBody, solveRhs, Function.update_self]
        rw [rhs_solve S h, h1, hs j (by omega)]
      · have := ih (by omega) j (by omega)
        simp only [rhsBody, solveRhs]
        rw [Function.update_of_ne hjn, this]
  intro j hj
  unfold RIDC.sweep
  dsimp only
  rw [loops_eq S (k + 1) (by rw [hst]; exact hk)]
  obtain ⟨f1, -⟩ := rhsLoop_frame S s (S.M + 1)
  have hf := hrhs (S.M + 1) le_rfl
  generalize (List.range (S.M + 1)).foldl (rhsBody S) s = s1 at *
  set s2 : RIDC.State K X :=
    { s1 with
      U1 := Function.update s1.U1 0 (s1.U 0)
      sU := Function.update s1.sU 0 (evalSrc S s1.baseDt (s1.U 0) (s1.sU 0)) } with hs2
  rw [((copyLoop _ (S.M + 1)).2.2.2 j (by omega)).1]
  have key : ∀ n ≤ S.M, ∀ j ≤ n, ((List.range n).foldl (body S (k + 1)) s2).U1 j
      = level S (fun _ => x) (k + 1) j := by
    intro n
    induction n with
    | zero =>
      intro _ j hj
      obtain rfl : j = 0 := by omega
      show Function.update s1.U1 0 (s1.U 0) 0 = x
      rw [Function.update_self, f1, hs 0 (by omega), hl0]
    | succ n ih =>
      intro hn j hj
      by_cases hjn : j = n + 1
      · subst hjn
        rw [List.range_succ, List.foldl_append, List.foldl_cons, List.foldl_nil, node_solve S h,
          ih (by omega) n le_rfl]
        obtain ⟨g1, -, g3, -⟩ := nodeLoop_frame S (k + 1) s2 n
        rw [g1, g3]
        show _ = nodeVal S (quadAt S (k + 1)
            (fun j => rhsVal S (oldAt (fun _ => x) (k + 1) (level S (fun _ => x) k) j)) n)
          (level S (fun _ => x) (k + 1) n)
          (oldAt (fun _ => x) (k + 1) (level S (fun _ => x) k) (n + 1))
          (oldAt (fun _ => x) (k + 1) (level S (fun _ => x) k) n)
        simp only [oldAt_level]
        have e1 : s2.U = s.U := f1
        rw [e1, hs (n + 1) hn, hs n (by omega)]
        congr 1
        exact quadAt_congr S h _ _ _ _ fun j hj => hf j (by omega)
      · rw [(nodeLoop_stable S (k + 1) s2 n (n + 1) j (by omega) (by omega)).1]
        exact ih (by omega) j (by omega)
  exact key S.M le_rfl j hj

theorem serial_sweeps (S : Scheme K X D) (h : Plain S) (x : X) (s : RIDC.State K X) (k : ℕ)
    (hk : k ≤ S.M) :
    ∀ j ≤ S.M, (RIDC.sweeps S (RIDC.start S s x) k).U j = level S (fun _ => x) k j := by
  induction k with
  | zero => exact serial_start S s x
  | succ k ih =>
    have e : RIDC.sweeps S (RIDC.start S s x) (k + 1)
        = RIDC.sweep S (RIDC.sweeps S (RIDC.start S s x) k) (k + 1) := by
      simp [RIDC.sweeps, List.range_succ]
    rw [e]
    exact serial_sweep S h x k hk _ (ih (by omega))

/-- the serial scheme -/
theorem serial_run (S : Scheme K X D) (h : Plain S) (hM : S.Kc ≤ S.M) (P : Params)
    (hP : P.flushFreq = 1) (g : ℕ → X → X) (st0 : RIDC.State K X) (x0 : X) (N : ℕ) :
    ∃ st', serial S g st0 x0 N = some (st', pipeline S P g (fun _ => x0) N 0) ∧
      ∀ r, pipeline S P g (fun _ => x0) N r = pipeline S P g (fun _ => x0) N 0 := by
  have hfl : ∀ step, flushes P step = true := fun step => by simp [flushes, hP, Nat.mod_one]
  induction N with
  | zero => exact ⟨st0, rfl, fun _ => rfl⟩
  | succ N ih =>
    obtain ⟨st', h1, h2⟩ := ih
    have e : serial S g st0 x0 (N + 1)
        = (serial S g st0 x0 N).bind fun sx => RIDC.apply S sx.1 (g N sx.2) := by
      simp [serial, List.range_succ]
    have hx : (fun r => g N (pipeline S P g (fun _ => x0) N r))
        = fun _ => g N (pipeline S P g (fun _ => x0) N 0) := by
      funext r; rw [h2 r]
    refine ⟨sweeps S (start S st' (g N (pipeline S P g (fun _ => x0) N 0))) S.Kc, ?_, ?_⟩
    · rw [e, h1]
      simp only [Option.bind_some, RIDC.apply]
      rw [if_neg (by omega), serial_sweeps S h _ _ S.Kc hM S.M le_rfl]
      simp only [pipeline, endVal, hfl, if_true, hx]
    · intro r
      simp only [pipeline, endVal, hfl, if_true]

end ParallelRIDC
end Gusto
