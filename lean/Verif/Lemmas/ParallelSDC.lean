import Verif.Model.ParallelDC
import Verif.Lemmas.Collectives
import Verif.Lemmas.DeferredCorrection

set_option autoImplicit false
set_option linter.unusedSectionVars false
set_option linter.unusedSimpArgs false

namespace Gusto
open LForm TimeDisc Spec Finset MPI
variable {K X D : Type*} [Field K] [AddCommGroup X] [Module K X] [AddCommGroup D] [Module K D]

namespace ParallelSDC
open SDC

/-! ### The global sequence of events -/

def quadEv (S : Scheme K X D) : List (Ev (RState K X) X) :=
  (List.range S.M).flatMap fun j =>
    allLoc S.M (contribOp S j) ++ reduceEv S.M j RState.x (setQuad j) (accQuad j)

def sweepEv (S : Scheme K X D) (k : ℕ) : List (Ev (RState K X) X) :=
  allLoc S.M (rhsOp S k) ++ quadEv S ++ allLoc S.M (nodeOp S)

def finishEv (S : Scheme K X D) : List (Ev (RState K X) X) :=
  if S.maxk > 0 ∧ S.finalUpdate = true then
    allLoc S.M (finRhsOp S)
      ++ reduceEv S.M 0 RState.x setQuadFinal accQuadFinal
      ++ bcastEv S.M 0 (fun p => p.s.quadFinal) setQuadFinal
      ++ allLoc S.M (pickFinOp S)
      ++ bcastEv S.M (S.M - 1) (fun p => p.s.uFin) setUFin
      ++ allLoc S.M (fun _ => solveFinOp S)
  else
    allLoc S.M (pickOutOp S) ++ bcastEv S.M (S.M - 1) RState.xOut setXOut

def sweepsEv (S : Scheme K X D) (k : ℕ) : List (Ev (RState K X) X) :=
  (List.range k).flatMap fun k => sweepEv S (k + 1)

def applyEv (S : Scheme K X D) (g : X → X) : List (Ev (RState K X) X) :=
  allLoc S.M (fun _ => startOp S g) ++ sweepsEv S S.maxk ++ finishEv S

def runEvs (S : Scheme K X D) (g : ℕ → X → X) (N : ℕ) : List (Ev (RState K X) X) :=
  (List.range N).flatMap fun n => applyEv S (g n)

theorem wf_runEvs (S : Scheme K X D) (g : ℕ → X → X) (N : ℕ) : Wf (runEvs S g N) := by
  refine Wf.flatMap _ _ fun n _ => ?_
  refine ((wf_allLoc _ _).append (Wf.flatMap _ _ fun k _ => ?_)).append ?_
  · refine ((wf_allLoc _ _).append (Wf.flatMap _ _ fun j _ => ?_)).append (wf_allLoc _ _)
    exact (wf_allLoc _ _).append (wf_reduceEv _ _ _ _ _)
  · unfold finishEv
    split
    · exact (((((wf_allLoc _ _).append (wf_reduceEv _ _ _ _ _)).append (wf_bcastEv _ _ _ _)).append
        (wf_allLoc _ _)).append (wf_bcastEv _ _ _ _)).append (wf_allLoc _ _)
    · exact (wf_allLoc _ _).append (wf_bcastEv _ _ _ _)

theorem flatMap_congr_range {α : Type*} (M : ℕ) (f g : ℕ → List α) (h : ∀ i < M, f i = g i) :
    (List.range M).flatMap f = (List.range M).flatMap g := by
  induction M with
  | zero => rfl
  | succ M ih =>
    rw [List.range_succ, List.flatMap_append, List.flatMap_append, ih fun i hi => h i (by omega)]
    simp [h M (by omega)]

theorem flatMap_nil_range {α : Type*} (M : ℕ) :
    (List.range M).flatMap (fun _ => ([] : List α)) = [] := by simp

/-- The programs are the projections of the global sequence. -/
theorem proj_runEvs (S : Scheme K X D) (hM : 0 < S.M) (g : ℕ → X → X) (N r : ℕ) :
    runProg S g N r = proj r (runEvs S g N) := by
  unfold runProg runEvs
  rw [proj_flatMap]
  have hq : ∀ j < S.M, proj r (allLoc S.M (contribOp S j)
      ++ reduceEv S.M j RState.x (setQuad (K := K) (X := X) j) (accQuad j))
      = if r < S.M then
        Op.loc (contribOp S j r) :: reduceProg S.M j RState.x (setQuad j) (accQuad j) r else [] := by
    intro j hj
    rw [proj_append, proj_allLoc, proj_reduceEv _ _ _ _ _ hj]
    by_cases h : r < S.M <;> simp [h]
  have hquad : proj r (quadEv S) = if r < S.M then quadProg S r else [] := by
    unfold quadEv quadProg
    rw [proj_flatMap, flatMap_congr_range _ _ _ hq]
    by_cases h : r < S.M <;> simp [h]
  have hsw : ∀ k, proj r (sweepEv S k) = if r < S.M then sweepProg S r k else [] := by
    intro k
    unfold sweepEv sweepProg
    rw [proj_append, proj_append, proj_allLoc, proj_allLoc, hquad]
    by_cases h : r < S.M <;> simp [h]
  have hfin : proj r (finishEv S) = if r < S.M then finishProg S r else [] := by
    unfold finishEv finishProg
    split
    · simp only [proj_append, proj_allLoc, proj_reduceEv S.M 0 _ _ _ (by omega),
        proj_bcastEv S.M 0 _ _ (by omega), proj_bcastEv S.M (S.M - 1) _ _ (by omega)]
      by_cases h : r < S.M <;> simp [h]
    · simp only [proj_append, proj_allLoc, proj_bcastEv S.M (S.M - 1) _ _ (by omega)]
      by_cases h : r < S.M <;> simp [h]
  have happ : ∀ g : X → X, proj r (applyEv S g) = if r < S.M then applyProg S g r else [] := by
    intro g
    unfold applyEv applyProg sweepsEv
    rw [proj_append, proj_append, proj_allLoc, hfin, proj_flatMap]
    simp only [hsw]
    by_cases h : r < S.M <;> simp [h]
  simp only [happ]
  by_cases h : r < S.M <;> simp [h]

/-! ### Tracking the serial scheme -/

theorem foldl_rel {α β : Type*} (Rel : ℕ → α → β → Prop) (f : α → ℕ → α) (g : β → ℕ → β) (n : ℕ)
    (h : ∀ i a b, i < n → Rel i a b → Rel (i + 1) (f a i) (g b i)) (a : α) (b : β) (h0 : Rel 0 a b) :
    Rel n ((List.range n).foldl f a) ((List.range n).foldl g b) := by
  induction n with
  | zero => exact h0
  | succ n ih =>
    rw [List.range_succ, List.foldl_append, List.foldl_append]
    exact h n _ _ (by omega) (ih fun i a b hi => h i a b (by omega))

theorem solve_unique {r : X → D} {s : Solver X D} (hs : ExactSolver s) (h : ∃! x, r x = 0)
    {r' : X → D} (hr : r = r') (u v : X) : s r u = s r' v := by
  subst hr
  obtain ⟨y, hy, hu⟩ := h
  rw [hu _ (hs r u ⟨y, hy, hu⟩), hu _ (hs r v ⟨y, hy, hu⟩)]

/-- What rank `r` shares with the serial scheme between time steps. -/
structure Pre (S : Scheme K X D) (r : ℕ) (p s : State K X) : Prop where
  U1 : p.U1 (r + 1) = s.U1 (r + 1)
  src1 : srcPart S.R (p.sU1 (r + 1)) = srcPart S.R (s.sU1 (r + 1))
  dt : p.baseDt = s.baseDt
  sol : p.solvers = s.solvers
  qd : p.solvers = none → p.qdeltaImp = s.qdeltaImp

/-- What rank `r` shares with the serial scheme during a time step. -/
structure Tr (S : Scheme K X D) (r : ℕ) (p s : State K X) : Prop where
  U0 : p.U 0 = s.U 0
  U : p.U (r + 1) = s.U (r + 1)
  U1 : p.U1 (r + 1) = s.U1 (r + 1)
  src : srcPart S.R (p.sU (r + 1)) = srcPart S.R (s.sU (r + 1))
  src1 : srcPart S.R (p.sU1 (r + 1)) = srcPart S.R (s.sU1 (r + 1))
  un : p.un = s.un
  uStart : p.uStart = s.uStart
  dt : p.baseDt = s.baseDt
  sol : p.solvers = s.solvers
  sol' : p.solvers ≠ none

/-- Assumptions: the scheme uses the zero-to-node form with diagonal matrices, the solver solves,
the mass problems and the node problems are uniquely solvable, and a source evaluated by the physics
schemes does not depend on the previous content of the Function it is written to. -/
structure Diag (S : Scheme K X D) (qi : ℕ → ℕ → K) : Prop where
  z2n : S.z2n = true
  exact : ExactSolver S.solve
  qiDiag : ∀ m i, i < m → m < S.M → qi m i = 0
  qeDiag : ∀ m i, i ≠ m → m < S.M → i < S.M → S.Qe m i = 0
  massInv : ∀ d : D, ∃! y, mass S.R y = d
  nodeInv : ∀ m < S.M, ∀ d : D, ∃! y, mass S.R y + qi m m • implPart S.R y = d
  src : ∀ dt x o o', srcPart S.R (evalSrc S dt x o) = srcPart S.R (evalSrc S dt x o')

theorem start_tr (S : Scheme K X D) (r : ℕ) (hr : r < S.M)
    (hsrc : ∀ dt x o o', srcPart S.R (evalSrc S dt x o) = srcPart S.R (evalSrc S dt x o'))
    (p s : State K X) (x : X) (h : Pre S r p s) : Tr S r (start S p x) (start S s x) := by
  -- relation kept by all loops
  let B : State K X → State K X → Prop := fun p s =>
    p.U1 (r + 1) = s.U1 (r + 1) ∧ srcPart S.R (p.sU1 (r + 1)) = srcPart S.R (s.sU1 (r + 1)) ∧
    p.baseDt = s.baseDt ∧ p.solvers = s.solvers ∧ p.solvers ≠ none ∧ p.un = s.un ∧
    p.uStart = s.uStart
  let R1 : ℕ → State K X → State K X → Prop := fun n p s => B p s ∧ ∀ i ≤ n, p.U i = s.U i
  let R2 : ℕ → State K X → State K X → Prop := fun n p s => B p s ∧ (∀ i ≤ S.M, p.U i = s.U i) ∧
    ∀ i < n, srcPart S.R (p.sU i) = srcPart S.R (s.sU i)
  have hsol : some (p.solvers.getD p.qdeltaImp) = some (s.solvers.getD s.qdeltaImp) := by
    rw [← h.sol]
    cases hp : p.solvers with
    | none => simp [h.qd hp]
    | some q => simp
  have key : R2 (S.M + 1) (start S p x) (start S s x) := by
    unfold start
    refine foldl_rel R2 _ _ _ ?_ _ _ ?_
    · rintro i a b hi ⟨hB, hU, hs⟩
      refine ⟨hB, hU, fun j hj => ?_⟩
      dsimp only
      by_cases hji : j = i
      · subst hji
        rw [Function.update_self, Function.update_self, hU j (by omega), hB.2.2.1]
        exact hsrc _ _ _ _
      · rw [Function.update_of_ne hji, Function.update_of_ne hji]; exact hs j (by omega)
    · refine (fun (h : R1 S.M _ _) => ⟨h.1, h.2, fun i hi => by omega⟩) ?_
      dsimp only
      split
      · refine foldl_rel R1 _ _ _ ?_ _ _ ?_
        · rintro i a b hi ⟨hB, hU⟩
          refine ⟨⟨hB.1, hB.2.1, rfl, hB.2.2.2⟩, fun j hj => ?_⟩
          dsimp only
          by_cases hji : j = i + 1
          · subst hji; rw [Function.update_self, Function.update_self, hU i le_rfl]
          · rw [Function.update_of_ne hji, Function.update_of_ne hji]; exact hU j (by omega)
        · refine ⟨⟨h.U1, h.src1, h.dt, hsol, by simp, rfl, rfl⟩, fun i hi => ?_⟩
          obtain rfl : i = 0 := by omega
          simp
      · refine foldl_rel R1 _ _ _ ?_ _ _ ?_
        · rintro i a b hi ⟨hB, hU⟩
          refine ⟨hB, fun j hj => ?_⟩
          dsimp only
          by_cases hji : j = i + 1
          · subst hji; rw [Function.update_self, Function.update_self, hB.2.2.2.2.2.1]
          · rw [Function.update_of_ne hji, Function.update_of_ne hji]; exact hU j (by omega)
        · refine ⟨⟨h.U1, h.src1, h.dt, hsol, by simp, rfl, rfl⟩, fun i hi => ?_⟩
          obtain rfl : i = 0 := by omega
          simp
  obtain ⟨⟨h1, h2, h3, h4, h5, h6, h7⟩, hU, hs⟩ := key
  exact ⟨hU 0 (by omega), hU (r + 1) (by omega), h1, hs (r + 1) (by omega), h2, h6, h7, h3, h4, h5⟩

/-- problem for `F` at a node -/
theorem rhs_solvable (S : Scheme K X D) (hM : ∀ d : D, ∃! y, mass S.R y = d) (u w : X) :
    ∃! y, (resRhs S.R u w y).eval = 0 := by
  obtain ⟨y, hy, hu⟩ := hM (restNoSource S.R u + srcPart S.R w)
  refine ⟨y, ?_, fun z hz => hu z ?_⟩
  · dsimp only; rw [eval_resRhs, hy]; simp
  · dsimp only at hz; rw [eval_resRhs] at hz; exact sub_eq_zero.1 hz

theorem rhs_eq (S : Scheme K X D) (u w w' : X) (h : srcPart S.R w = srcPart S.R w') :
    (fun y => (resRhs S.R u w y).eval) = fun y => (resRhs S.R u w' y).eval := by
  funext y; rw [eval_resRhs, eval_resRhs, h]

/-- `F` at node `i+1` computed in any state -/
noncomputable def fval (S : Scheme K X D) (u w : X) : X :=
  S.solve (fun y => (resRhs S.R u w y).eval) 0

theorem rhsBody_fval (S : Scheme K X D) (qi : ℕ → ℕ → K) (hD : Diag S qi) (st : State K X) (i : ℕ) :
    (rhsBody S st i).f i = fval S (st.U (i + 1)) (evalSrc S st.baseDt (st.U (i + 1)) 0) := by
  simp only [rhsBody, solveRhs, Function.update_self]
  exact solve_unique hD.exact (rhs_solvable S hD.massInv _ _)
    (rhs_eq S _ _ _ (hD.src _ _ _ _)) _ _

theorem rhsLoop_fval (S : Scheme K X D) (qi : ℕ → ℕ → K) (hD : Diag S qi) (st : State K X)
    (n i : ℕ) (hi : i < n) :
    ((List.range n).foldl (rhsBody S) st).f i
      = fval S (st.U (i + 1)) (evalSrc S st.baseDt (st.U (i + 1)) 0) := by
  induction n with
  | zero => omega
  | succ n ih =>
    rw [List.range_succ, List.foldl_append, List.foldl_cons, List.foldl_nil]
    obtain ⟨h1, -, -, -, -, -, h7, -, -, -⟩ := rhsLoop_frame S st n
    by_cases hin : i = n
    · subst hin
      rw [rhsBody_fval S qi hD, h1, h7]
    · rw [← ih (by omega)]
      show Function.update _ n _ i = _
      rw [Function.update_of_ne hin]
      rfl

/-- result of a reduction that adds up -/
theorem reduceRes_sum {σ : Type*} (M root : ℕ) (hroot : root < M) (get get' : σ → X)
    (set acc : X → σ → σ) (h1 : ∀ v p, acc v p = set (get' p + v) p)
    (h2 : ∀ v w p, set v (set w p) = set v p) (h3 : ∀ v p, get' (set v p) = v) (st : ℕ → σ) :
    reduceRes M root get set acc st = set (∑ i ∈ range M, get (st i)) (st root) := by
  have key : ∀ n, (List.range n).foldl (fun p i => if i = root then p else acc (get (st i)) p)
      (set (get (st root)) (st root))
      = set (get (st root) + ∑ i ∈ range n, if i = root then 0 else get (st i)) (st root) := by
    intro n
    induction n with
    | zero => simp
    | succ n ih =>
      rw [List.range_succ, List.foldl_append, ih, sum_range_succ]
      by_cases h : n = root
      · simp [h]
      · simp only [h, List.foldl_cons, List.foldl_nil, if_false, h1, h2, h3, add_assoc]
  unfold reduceRes
  rw [key]
  congr 1
  have : get (st root) = ∑ i ∈ range M, if i = root then get (st i) else 0 := by
    rw [Finset.sum_ite_eq' (range M) root (fun i => get (st i)), if_pos (mem_range.2 hroot)]
  rw [this, ← sum_add_distrib]
  refine sum_congr rfl fun i _ => ?_
  by_cases h : i = root <;> simp [h]

/-- `compute_quad` on all ranks -/
theorem run_quadEv (S : Scheme K X D) (st : ℕ → RState K X) :
    (∀ r, (∃ q, (run (quadEv S) st r).s = { (st r).s with quad := q }) ∧
      (run (quadEv S) st r).xOut = (st r).xOut) ∧
    ∀ r < S.M, (run (quadEv S) st r).s.quad r = ∑ k ∈ range S.M, S.Q r k • (st k).s.f k := by
  have key : ∀ n ≤ S.M,
      let st' := run ((List.range n).flatMap fun j =>
        allLoc S.M (contribOp S j) ++ reduceEv S.M j RState.x (setQuad j) (accQuad j)) st
      (∀ r, (∃ q, (st' r).s = { (st r).s with quad := q }) ∧ (st' r).xOut = (st r).xOut) ∧
      ∀ r < n, (st' r).s.quad r = ∑ k ∈ range S.M, S.Q r k • (st k).s.f k := by
    intro n
    induction n with
    | zero => exact fun _ => ⟨fun r => ⟨⟨_, rfl⟩, rfl⟩, fun r hr => by omega⟩
    | succ n ih =>
      intro hn
      obtain ⟨ih1, ih2⟩ := ih (by omega)
      simp only [List.range_succ, List.flatMap_append, List.flatMap_singleton, run_append]
      set st1 := run ((List.range n).flatMap fun j =>
        allLoc S.M (contribOp S j) ++ reduceEv S.M j RState.x (setQuad j) (accQuad j)) st
      set st2 : ℕ → RState K X := run (allLoc S.M (contribOp S n) : List (Ev (RState K X) X)) st1
        with hst2
      have e2 : ∀ r, (st2 r).s = (st1 r).s ∧ (st2 r).xOut = (st1 r).xOut ∧
          (r < S.M → (st2 r).x = S.Q n r • (st r).s.f r) := by
        intro r
        rw [hst2, run_allLoc]
        by_cases h : r < S.M
        · rw [if_pos h]
          refine ⟨rfl, rfl, fun _ => ?_⟩
          obtain ⟨q, hq⟩ := (ih1 r).1
          simp only [contribOp, hq]
        · rw [if_neg h]; exact ⟨rfl, rfl, fun h' => absurd h' h⟩
      rw [run_reduceEv, reduceRes_sum S.M n (by omega) RState.x
        (fun p : RState K X => p.s.quad n) (setQuad n) (accQuad n)
        (fun v p => rfl) (fun v w p => by simp [setQuad]) (fun v p => by simp [setQuad])]
      have hsum : ∑ i ∈ range S.M, (st2 i).x = ∑ k ∈ range S.M, S.Q n k • (st k).s.f k :=
        sum_congr rfl fun k hk => (e2 k).2.2 (mem_range.1 hk)
      refine ⟨fun r => ?_, fun r hr => ?_⟩
      · by_cases h : r = n
        · subst h
          rw [Function.update_self]
          obtain ⟨q, hq⟩ := (ih1 r).1
          refine ⟨⟨Function.update q r (∑ i ∈ range S.M, (st2 i).x), ?_⟩, ?_⟩
          · simp only [setQuad, (e2 r).1, hq]
          · simp only [setQuad, (e2 r).2.1, (ih1 r).2]
        · rw [Function.update_of_ne h, (e2 r).1, (e2 r).2.1]; exact ih1 r
      · by_cases h : r = n
        · subst h
          rw [Function.update_self, ← hsum]; simp [setQuad]
        · rw [Function.update_of_ne h, (e2 r).1]; exact ih2 r (by omega)
  exact key S.M le_rfl

/-- the node problem with diagonal matrices -/
theorem res_diag (S : Scheme K X D) (qi : ℕ → ℕ → K) (hD : Diag S qi) (st : State K X) (m : ℕ)
    (hm : m < S.M) (y : X) :
    (res S qi st m y).eval = mass S.R y - mass S.R st.uStart
      + S.Qe m m • ((explPart S.R (st.U1 (m + 1)) - explPart S.R (st.U (m + 1)))
            + (srcPart S.R (st.sU1 (m + 1)) - srcPart S.R (st.sU (m + 1))))
      + qi m m • (implPart S.R y - implPart S.R (st.U (m + 1)))
      + mass S.R st.q_ := by
  rw [eval_res, sum_eq_zero (s := range m) (fun i hi => by
      rw [hD.qiDiag m i (mem_range.1 hi) hm, zero_smul]),
    sum_eq_single (s := range S.M) m (fun i hi hne => by
      rw [hD.qeDiag m i hne hm (mem_range.1 hi), zero_smul])
    (fun h => absurd (mem_range.2 hm) h), add_zero]

theorem node_solvable (S : Scheme K X D) (qi : ℕ → ℕ → K) (hD : Diag S qi) (st : State K X) (m : ℕ)
    (hm : m < S.M) : ∃! y, (res S qi st m y).eval = 0 := by
  obtain ⟨y, hy, hu⟩ := hD.nodeInv m hm (mass S.R st.uStart
      - S.Qe m m • ((explPart S.R (st.U1 (m + 1)) - explPart S.R (st.U (m + 1)))
            + (srcPart S.R (st.sU1 (m + 1)) - srcPart S.R (st.sU (m + 1))))
      + qi m m • implPart S.R (st.U (m + 1)) - mass S.R st.q_)
  refine ⟨y, ?_, fun z hz => hu z ?_⟩
  · dsimp only at hy ⊢; rw [res_diag S qi hD st m hm]
    linear_combination (norm := module) hy
  · dsimp only at hz ⊢; rw [res_diag S qi hD st m hm] at hz
    linear_combination (norm := module) hz

/-- The node solve depends only on the data of this node. -/
theorem node_congr (S : Scheme K X D) (qi : ℕ → ℕ → K) (hD : Diag S qi) (p s : State K X) (m : ℕ)
    (hm : m < S.M) (hU : p.U (m + 1) = s.U (m + 1)) (hU1 : p.U1 (m + 1) = s.U1 (m + 1))
    (hs : srcPart S.R (p.sU (m + 1)) = srcPart S.R (s.sU (m + 1)))
    (hs1 : srcPart S.R (p.sU1 (m + 1)) = srcPart S.R (s.sU1 (m + 1)))
    (hst : p.uStart = s.uStart) (hdt : p.baseDt = s.baseDt) (hq : p.quad m = s.quad m) :
    (nodeBody S qi p m).U1 (m + 1) = (nodeBody S qi s m).U1 (m + 1) ∧
    srcPart S.R ((nodeBody S qi p m).sU1 (m + 1))
      = srcPart S.R ((nodeBody S qi s m).sU1 (m + 1)) := by
  rw [(nodeBody_eq S qi p m).1, (nodeBody_eq S qi s m).1, (nodeBody_eq S qi p m).2,
    (nodeBody_eq S qi s m).2]
  have hsol : S.solve (fun y => (res S qi (nodePre S p m) m y).eval) (p.U (m + 1))
      = S.solve (fun y => (res S qi (nodePre S s m) m y).eval) (s.U (m + 1)) := by
    refine solve_unique hD.exact (node_solvable S qi hD _ m hm) ?_ _ _
    funext y
    rw [res_diag S qi hD _ m hm, res_diag S qi hD _ m hm]
    simp only [nodePre, hD.z2n, if_true, hU, hU1, hs, hs1, hst, hq]
  rw [hsol, hdt]
  exact ⟨rfl, hD.src _ _ _ _⟩

/-- The serial sweep, node by node. -/
theorem serial_sweep (S : Scheme K X D) (qi : ℕ → ℕ → K) (hD : Diag S qi) (s : State K X) (k : ℕ) :
    let s' := sweep S qi s k
    s'.U 0 = s.U 0 ∧ s'.un = s.un ∧ s'.uStart = s.uStart ∧ s'.baseDt = s.baseDt ∧
    s'.solvers = s.solvers ∧
    ∀ r < S.M, ∀ q : State K X, q.U (r + 1) = s.U (r + 1) → q.U1 (r + 1) = s.U1 (r + 1) →
      srcPart S.R (q.sU (r + 1)) = srcPart S.R (s.sU (r + 1)) →
      srcPart S.R (q.sU1 (r + 1)) = srcPart S.R (s.sU1 (r + 1)) →
      q.uStart = s.uStart → q.baseDt = s.baseDt →
      q.quad r = ∑ k ∈ range S.M, S.Q r k •
        fval S (s.U (k + 1)) (evalSrc S s.baseDt (s.U (k + 1)) 0) →
      (nodeBody S qi q r).U1 (r + 1) = s'.U (r + 1) ∧ s'.U1 (r + 1) = s'.U (r + 1) ∧
      srcPart S.R ((nodeBody S qi q r).sU1 (r + 1)) = srcPart S.R (s'.sU (r + 1)) ∧
      s'.sU1 (r + 1) = s'.sU (r + 1) := by
  intro s'
  set s0 : State K X := (match S.flex with
    | some q => { s with qdeltaImp := q k }
    | none => s) with hs0
  have e0 : s0.U = s.U ∧ s0.U1 = s.U1 ∧ s0.sU = s.sU ∧ s0.sU1 = s.sU1 ∧ s0.uStart = s.uStart
      ∧ s0.un = s.un ∧ s0.baseDt = s.baseDt ∧ s0.solvers = s.solvers := by
    rw [hs0]; cases S.flex <;> simp
  obtain ⟨a1, a2, a3, a4, a5, a6, a7, a8⟩ := e0
  set s1 := (List.range S.M).foldl (rhsBody S) s0 with hs1
  obtain ⟨b1, b2, b3, b4, b5, b6, b7, b8, -, -⟩ := rhsLoop_frame S s0 S.M
  rw [← hs1] at b1 b2 b3 b4 b5 b6 b7 b8
  have hf : ∀ i < S.M, s1.f i = fval S (s.U (i + 1)) (evalSrc S s.baseDt (s.U (i + 1)) 0) :=
    fun i hi => by rw [hs1, rhsLoop_fval S qi hD s0 S.M i hi, a1, a7]
  set s3 : State K X := { computeQuad S s1 with
    U1 := Function.update s1.U1 0 (s1.U 0),
    sU := Function.update s1.sU 0 (evalSrc S s1.baseDt (s1.U 0) (s1.sU 0)) } with hs3
  have hsweep : s' = (List.range S.M).foldl (fun st i =>
      { st with U := Function.update st.U (i + 1) (st.U1 (i + 1)),
                sU := Function.update st.sU (i + 1) (st.sU1 (i + 1)) })
      ((List.range S.M).foldl (nodeBody S qi) s3) := rfl
  have c1 : s3.U = s.U := by rw [← a1, ← b1]; rfl
  have c2 : ∀ i, s3.U1 (i + 1) = s.U1 (i + 1) := fun i => by
    show Function.update s1.U1 0 (s1.U 0) (i + 1) = _
    rw [Function.update_of_ne (by omega), b2, a2]
  have c3 : ∀ i, s3.sU (i + 1) = s.sU (i + 1) := fun i => by
    show Function.update s1.sU 0 (evalSrc S s1.baseDt (s1.U 0) (s1.sU 0)) (i + 1) = _
    rw [Function.update_of_ne (by omega), b3, a3]
  have c4 : s3.sU1 = s.sU1 := by rw [← a4, ← b4]; rfl
  have c5 : s3.uStart = s.uStart := by rw [← a5, ← b5]; rfl
  have c6 : s3.un = s.un := by rw [← a6, ← b6]; rfl
  have c7 : s3.baseDt = s.baseDt := by rw [← a7, ← b7]; rfl
  have c9 : s3.solvers = s.solvers := by rw [← a8, ← b8]; rfl
  have c8 : ∀ m < S.M, s3.quad m = ∑ k ∈ range S.M, S.Q m k •
      fval S (s.U (k + 1)) (evalSrc S s.baseDt (s.U (k + 1)) 0) := fun m hm => by
    show (if m < S.M then _ else _) = _
    rw [if_pos hm, quad_foldl, zero_add]
    exact sum_congr rfl fun j hj => by rw [hf j (mem_range.1 hj)]
  set L : ℕ → State K X := fun n => (List.range n).foldl (nodeBody S qi) s3 with hL
  obtain ⟨d1, d2, d3, d4, d5, d6, d7, d8, d9, d10⟩ := copyLoop (L S.M) S.M
  rw [← hsweep] at d1 d2 d3 d4 d5 d6 d7 d8 d9 d10
  have hfr := nodeLoop_frame S qi s3
  obtain ⟨f1, f2, f3, f4, f5, f6, f7, f8, f9, f10⟩ := hfr S.M
  refine ⟨by rw [d8, f1, c1], by rw [d3, f4, c6], by rw [d5, f8 hD.z2n, c5], by rw [d4, f5, c7],
    by rw [d6, f6, c9], fun r hr q q1 q2 q3 q4 q5 q6 q7 => ?_⟩
  obtain ⟨g1, g2, g3, g4, g5, g6, g7, g8, g9, g10⟩ := hfr r
  have hLs : L (r + 1) = nodeBody S qi (L r) r := by
    simp only [hL, List.range_succ, List.foldl_append, List.foldl_cons, List.foldl_nil]
  have hst := nodeLoop_stable S qi s3 (r + 1) S.M (r + 1) (by omega) le_rfl
  obtain ⟨n1, n2⟩ := node_congr S qi hD q (L r) r hr (by rw [q1, g1, c1])
    (by rw [q2, (g10 r le_rfl).1, c2]) (by rw [q3, g2, c3]) (by rw [q4, (g10 r le_rfl).2, c4])
    (by rw [q5, g8 hD.z2n, c5]) (by rw [q6, g5, c7]) (by rw [q7, g3, c8 r hr])
  rw [n1, n2, ← hLs, (d9 r hr).1, (d9 r hr).2, d1, d2]
  exact ⟨hst.1.symm, rfl, by rw [show (L S.M).sU1 (r + 1) = _ from hst.2 (by omega)], rfl⟩

/-- A sweep on all ranks tracks the serial sweep. -/
theorem par_sweep (S : Scheme K X D) (qi : ℕ → ℕ → K) (hD : Diag S qi) (s : State K X)
    (hqi : s.solvers = some qi) (st : ℕ → RState K X) (h : ∀ r < S.M, Tr S r (st r).s s) (k : ℕ) :
    (∀ r < S.M, Tr S r (run (sweepEv S k) st r).s (sweep S qi s k)) ∧
    ∀ r, (run (sweepEv S k) st r).xOut = (st r).xOut := by
  obtain ⟨e1, e2, e3, e4, e5, e6⟩ := serial_sweep S qi hD s k
  unfold sweepEv
  rw [run_append, run_append]
  set st1 := run (allLoc S.M (rhsOp S k) : List (Ev (RState K X) X)) st with hst1
  have a0 : ∀ r, (st1 r).xOut = (st r).xOut := fun r => by
    rw [hst1, run_allLoc]; split <;> rfl
  have a1 : ∀ r < S.M, (st1 r).s.U = (st r).s.U ∧ (st1 r).s.U1 = (st r).s.U1 ∧
      (st1 r).s.sU = (st r).s.sU ∧ (st1 r).s.sU1 = (st r).s.sU1 ∧
      (st1 r).s.un = (st r).s.un ∧ (st1 r).s.uStart = (st r).s.uStart ∧
      (st1 r).s.baseDt = (st r).s.baseDt ∧ (st1 r).s.solvers = (st r).s.solvers ∧
      (st1 r).s.f r = fval S (s.U (r + 1)) (evalSrc S s.baseDt (s.U (r + 1)) 0) := fun r hr => by
    have hT := h r hr
    rw [hst1, run_allLoc, if_pos hr]
    simp only [rhsOp]
    rw [rhsBody_fval S qi hD]
    cases S.flex <;> simp only [rhsBody, solveRhs, hT.U, hT.dt] <;> simp
  obtain ⟨b1, b2⟩ := run_quadEv S st1
  set st2 := run (quadEv S) st1 with hst2
  have b2' : ∀ r < S.M, (st2 r).s.quad r = ∑ k ∈ range S.M, S.Q r k •
      fval S (s.U (k + 1)) (evalSrc S s.baseDt (s.U (k + 1)) 0) := fun r hr => by
    rw [b2 r hr]
    exact sum_congr rfl fun j hj => by rw [(a1 j (mem_range.1 hj)).2.2.2.2.2.2.2.2]
  refine ⟨fun r hr => ?_, fun r => ?_⟩
  · rw [run_allLoc, if_pos hr]
    have hT := h r hr
    obtain ⟨c1, c2, c3, c4, c5, c6, c7, c8, -⟩ := a1 r hr
    obtain ⟨⟨q, hq⟩, -⟩ := b1 r
    have d1 : (st2 r).s.U = (st r).s.U := by rw [hq]; exact c1
    have d2 : (st2 r).s.U1 = (st r).s.U1 := by rw [hq]; exact c2
    have d3 : (st2 r).s.sU = (st r).s.sU := by rw [hq]; exact c3
    have d4 : (st2 r).s.sU1 = (st r).s.sU1 := by rw [hq]; exact c4
    have d5 : (st2 r).s.un = (st r).s.un := by rw [hq]; exact c5
    have d6 : (st2 r).s.uStart = (st r).s.uStart := by rw [hq]; exact c6
    have d7 : (st2 r).s.baseDt = (st r).s.baseDt := by rw [hq]; exact c7
    have d8 : (st2 r).s.solvers = (st r).s.solvers := by rw [hq]; exact c8
    set p : State K X :=
      { (st2 r).s with
        U1 := Function.update (st2 r).s.U1 0 ((st2 r).s.U 0)
        sU := Function.update (st2 r).s.sU 0
          (evalSrc S (st2 r).s.baseDt ((st2 r).s.U 0) ((st2 r).s.sU 0)) } with hp
    have hpq : p.solvers.getD p.qdeltaImp = qi := by
      show (st2 r).s.solvers.getD _ = qi
      rw [d8, hT.sol, hqi]; rfl
    have hres : (nodeOp S r (st2 r)).s =
        { nodeBody S qi p r with
          U := Function.update (nodeBody S qi p r).U (r + 1) ((nodeBody S qi p r).U1 (r + 1))
          sU := Function.update (nodeBody S qi p r).sU (r + 1) ((nodeBody S qi p r).sU1 (r + 1)) } := by
      rw [← hpq]; rfl
    have pU : ∀ i, p.U i = (st r).s.U i := fun i => by rw [← d1]
    have pU1 : p.U1 (r + 1) = (st r).s.U1 (r + 1) := by
      simp only [hp]
      rw [Function.update_of_ne (by omega), d2]
    have psU : p.sU (r + 1) = (st r).s.sU (r + 1) := by
      simp only [hp]
      rw [Function.update_of_ne (by omega), d3]
    obtain ⟨n1, n2, n3, n4⟩ := e6 r hr p (by rw [pU, hT.U]) (by rw [pU1, hT.U1])
      (by rw [psU, hT.src]) (by rw [show p.sU1 = _ from d4, hT.src1])
      (by rw [show p.uStart = _ from d6, hT.uStart]) (by rw [show p.baseDt = _ from d7, hT.dt])
      (b2' r hr)
    have fr : (nodeBody S qi p r).U = p.U ∧ (nodeBody S qi p r).un = p.un ∧
        (nodeBody S qi p r).uStart = p.uStart ∧ (nodeBody S qi p r).baseDt = p.baseDt ∧
        (nodeBody S qi p r).solvers = p.solvers := by
      simp [nodeBody, hD.z2n]
    obtain ⟨f1, f2, f3, f4, f5⟩ := fr
    rw [hres]
    refine ⟨?_, ?_, ?_, ?_, ?_, ?_, ?_, ?_, ?_, ?_⟩
    · dsimp only; rw [Function.update_of_ne (by omega), f1, pU, hT.U0, e1]
    · dsimp only; rw [Function.update_self, n1]
    · dsimp only; rw [n1, n2]
    · dsimp only; rw [Function.update_self, n3]
    · dsimp only; rw [n3, n4]
    · dsimp only; rw [f2, show p.un = _ from d5, hT.un, e2]
    · dsimp only; rw [f3, show p.uStart = _ from d6, hT.uStart, e3]
    · dsimp only; rw [f4, show p.baseDt = _ from d7, hT.dt, e4]
    · dsimp only; rw [f5, show p.solvers = _ from d8, hT.sol, e5]
    · dsimp only; rw [f5, show p.solvers = _ from d8]; exact hT.sol'
  · rw [run_allLoc]
    have : (st2 r).xOut = (st r).xOut := by rw [(b1 r).2, a0]
    split
    · exact this
    · exact this

theorem par_sweeps (S : Scheme K X D) (qi : ℕ → ℕ → K) (hD : Diag S qi) (s : State K X)
    (hqi : s.solvers = some qi) (st : ℕ → RState K X) (h : ∀ r < S.M, Tr S r (st r).s s) (k : ℕ) :
    (∀ r < S.M, Tr S r (run (sweepsEv S k) st r).s (sweeps S s k)) ∧
    (sweeps S s k).solvers = some qi := by
  have hg : s.solvers.getD s.qdeltaImp = qi := by rw [hqi]; rfl
  induction k with
  | zero => exact ⟨h, hqi⟩
  | succ k ih =>
    have e : sweeps S s (k + 1) = sweep S qi (sweeps S s k) (k + 1) := by
      simp only [sweeps, hg, List.range_succ, List.foldl_append, List.foldl_cons, List.foldl_nil]
    have e' : sweepsEv S (k + 1) = sweepsEv S k ++ sweepEv S (k + 1) := by
      simp [sweepsEv, List.range_succ]
    rw [e, e', run_append]
    refine ⟨(par_sweep S qi hD _ ih.2 _ ih.1 (k + 1)).1, ?_⟩
    rw [(serial_sweep S qi hD (sweeps S s k) (k + 1)).2.2.2.2.1, ih.2]

theorem finLoop_fval (S : Scheme K X D) (qi : ℕ → ℕ → K) (hD : Diag S qi) (st : State K X) (n : ℕ) :
    let s' := (List.range n).foldl (finBody S) st
    s'.U = st.U ∧ s'.U1 = st.U1 ∧ s'.sU1 = st.sU1 ∧ s'.un = st.un ∧ s'.baseDt = st.baseDt ∧
      s'.solvers = st.solvers ∧ ∀ i < n, s'.f i = fval S (st.U1 (i + 1)) (st.sU1 (i + 1)) := by
  induction n with
  | zero => simp
  | succ n ih =>
    rw [List.range_succ, List.foldl_append, List.foldl_cons, List.foldl_nil]
    obtain ⟨h1, h2, h3, h4, h5, h6, h7⟩ := ih
    generalize (List.range n).foldl (finBody S) st = s' at *
    refine ⟨h1, h2, h3, h4, h5, h6, fun i hi => ?_⟩
    show Function.update s'.f n _ i = _
    by_cases hin : i = n
    · subst hin
      rw [Function.update_self, ← h2, ← h3]
      exact solve_unique hD.exact (rhs_solvable S hD.massInv _ _) rfl _ _
    · rw [Function.update_of_ne hin]; exact h7 i (by omega)

theorem fin_solvable (S : Scheme K X D) (hM : ∀ d : D, ∃! y, mass S.R y = d) (u q : X) :
    ∃! y, (resFin S.R u q y).eval = 0 := by
  obtain ⟨y, hy, hu⟩ := hM (mass S.R u - mass S.R q)
  refine ⟨y, ?_, fun z hz => hu z ?_⟩
  · dsimp only at hy ⊢; rw [eval_resFin, hy]; abel
  · dsimp only at hz ⊢; rw [eval_resFin] at hz
    linear_combination (norm := module) hz

/-- The end of `apply` on all ranks tracks the serial one: same `x_out` on every rank. -/
theorem par_finish (S : Scheme K X D) (qi : ℕ → ℕ → K) (hD : Diag S qi) (hM : 0 < S.M)
    (s : State K X) (st : ℕ → RState K X) (h : ∀ r < S.M, Tr S r (st r).s s) :
    ∀ r < S.M, Tr S r (run (finishEv S) st r).s (finish S s).1 ∧
      (run (finishEv S) st r).xOut = (finish S s).2 := by
  unfold finishEv
  by_cases hc : S.maxk > 0 ∧ S.finalUpdate = true
  · rw [if_pos hc]
    intro r hr
    simp only [run_append]
    set st1 := run (allLoc S.M (finRhsOp S) : List (Ev (RState K X) X)) st with hst1
    -- what stays on each rank
    let Same : State K X → State K X → Prop := fun p q =>
      p.U = q.U ∧ p.U1 = q.U1 ∧ p.sU = q.sU ∧ p.sU1 = q.sU1 ∧ p.un = q.un ∧
      p.uStart = q.uStart ∧ p.baseDt = q.baseDt ∧ p.solvers = q.solvers
    have a1 : ∀ i < S.M, Same (st1 i).s (st i).s ∧
        (st1 i).x = S.Qfin i • fval S (s.U1 (i + 1)) (s.sU1 (i + 1)) := fun i hi => by
      rw [hst1, run_allLoc, if_pos hi]
      refine ⟨by simp [Same, finRhsOp, finBody, solveRhs], ?_⟩
      simp only [finRhsOp, finBody, solveRhs, Function.update_self]
      congr 1
      have hT := h i hi
      refine solve_unique hD.exact (rhs_solvable S hD.massInv _ _) ?_ _ _
      rw [hT.U1]
      exact rhs_eq S _ _ _ hT.src1
    set st2 := run (reduceEv S.M 0 RState.x setQuadFinal accQuadFinal) st1 with hst2
    have hq : st2 = Function.update st1 0
        (setQuadFinal (∑ i ∈ range S.M, (st1 i).x) (st1 0)) := by
      rw [hst2, run_reduceEv, reduceRes_sum S.M 0 hM RState.x
        (fun p : RState K X => p.s.quadFinal) setQuadFinal accQuadFinal
        (fun v p => rfl) (fun v w p => by simp [setQuadFinal]) (fun v p => by simp [setQuadFinal])]
    set Qf := ∑ i ∈ range S.M, S.Qfin i • fval S (s.U1 (i + 1)) (s.sU1 (i + 1)) with hQf
    have hsum : ∑ i ∈ range S.M, (st1 i).x = Qf :=
      sum_congr rfl fun i hi => (a1 i (mem_range.1 hi)).2
    have a2 : ∀ i < S.M, Same (st2 i).s (st i).s := fun i hi => by
      rw [hq]
      by_cases h0 : i = 0
      · subst h0; rw [Function.update_self]; exact (a1 0 hi).1
      · rw [Function.update_of_ne h0]; exact (a1 i hi).1
    have a2' : (st2 0).s.quadFinal = Qf := by
      rw [hq, Function.update_self, ← hsum]; simp [setQuadFinal]
    set st3 := run (bcastEv S.M 0 (fun p : RState K X => p.s.quadFinal) setQuadFinal) st2 with hst3
    have a3 : ∀ i < S.M, Same (st3 i).s (st i).s ∧ (st3 i).s.quadFinal = Qf := fun i hi => by
      rw [hst3, run_bcastEv]
      by_cases h0 : i = 0
      · subst h0
        rw [if_neg (by simp)]
        exact ⟨a2 0 hi, a2'⟩
      · rw [if_pos ⟨hi, h0⟩, a2']
        exact ⟨a2 i hi, rfl⟩
    set st4 := run (allLoc S.M (pickFinOp S) : List (Ev (RState K X) X)) st3 with hst4
    have a4 : ∀ i < S.M, Same (st4 i).s (st i).s ∧ (st4 i).s.quadFinal = Qf := fun i hi => by
      rw [hst4, run_allLoc, if_pos hi]
      unfold pickFinOp
      split
      · exact a3 i hi
      · exact a3 i hi
    set st5 := run (bcastEv S.M (S.M - 1) (fun p : RState K X => p.s.uFin) setUFin) st4 with hst5
    have a5 : ∀ i < S.M, Same (st5 i).s (st i).s ∧ (st5 i).s.quadFinal = Qf := fun i hi => by
      rw [hst5, run_bcastEv]
      split
      · exact a4 i hi
      · exact a4 i hi
    rw [run_allLoc, if_pos hr]
    -- the serial scheme
    obtain ⟨c1, c2, c3, c4, c5, c6, c7⟩ := finLoop_fval S qi hD s S.M
    have hT := h r hr
    obtain ⟨⟨b1, b2, b3, b4, b5, b6, b7, b8⟩, bq⟩ := a5 r hr
    have hser : (finish S s).2 = limit S (S.solve (fun y => (resFin S.R s.un Qf y).eval)
        (st5 r).s.uFin) := by
      simp only [finish, hc.1, hc.2, if_true]
      congr 1
      refine solve_unique hD.exact (fin_solvable S hD.massInv _ _) ?_ _ _
      funext y
      have e1 : ((List.range S.M).foldl (finBody S) s).un = s.un := c4
      have e2 : (computeQuadFinal S ((List.range S.M).foldl (finBody S) s)).quadFinal = Qf := by
        simp only [computeQuadFinal]
        rw [quad_foldl, zero_add]
        exact sum_congr rfl fun i hi => by rw [c7 i (mem_range.1 hi)]
      show (resFin S.R ((List.range S.M).foldl (finBody S) s).un
        (computeQuadFinal S ((List.range S.M).foldl (finBody S) s)).quadFinal y).eval = _
      rw [e1, e2]
    have hsame : Same (finish S s).1 s := by
      simp only [finish, hc.1, hc.2, if_true]
      have hsu : ∀ n, ((List.range n).foldl (finBody S) s).sU = s.sU ∧
          ((List.range n).foldl (finBody S) s).uStart = s.uStart := fun n => by
        induction n with
        | zero => simp
        | succ n ih =>
          rw [List.range_succ, List.foldl_append, List.foldl_cons, List.foldl_nil]
          exact ih
      exact ⟨c1, c2, (hsu S.M).1, c3, c4, (hsu S.M).2, c5, c6⟩
    obtain ⟨t1, t2, t3, t4, t5, t6, t7, t8⟩ := hsame
    refine ⟨?_, ?_⟩
    · refine ⟨?_, ?_, ?_, ?_, ?_, ?_, ?_, ?_, ?_, ?_⟩ <;>
        simp only [solveFinOp, setUFin, b1, b2, b3, b4, b5, b6, b7, b8, t1, t2, t3, t4, t5, t6, t7,
          t8]
      exacts [hT.U0, hT.U, hT.U1, hT.src, hT.src1, hT.un, hT.uStart, hT.dt, hT.sol, hT.sol']
    · rw [hser]
      simp only [solveFinOp, bq, b5, hT.un]
  · rw [if_neg hc]
    intro r hr
    simp only [run_append]
    set st1 := run (allLoc S.M (pickOutOp S) : List (Ev (RState K X) X)) st with hst1
    have a1 : ∀ i < S.M, (st1 i).s = (st i).s := fun i hi => by
      rw [hst1, run_allLoc, if_pos hi]
      unfold pickOutOp
      split <;> rfl
    have a2 : (st1 (S.M - 1)).xOut = s.U S.M := by
      rw [hst1, run_allLoc, if_pos (by omega)]
      have := (h (S.M - 1) (by omega)).U
      rw [show S.M - 1 + 1 = S.M by omega] at this
      simp [pickOutOp, setXOut, this]
    have hfin : finish S s = (s, s.U S.M) := by
      unfold finish
      split
      · rw [if_neg (fun h' => hc ⟨by assumption, h'⟩)]
      · rfl
    rw [hfin, run_bcastEv]
    by_cases h1 : r = S.M - 1
    · rw [if_neg (by simp [h1]), a1 r hr]
      exact ⟨h r hr, by rw [h1, a2]⟩
    · rw [if_pos ⟨hr, h1⟩]
      refine ⟨?_, a2⟩
      simp only [setXOut]
      rw [a1 r hr]; exact h r hr

/-- `N` time steps on all ranks track the serial scheme. -/
theorem par_run (S : Scheme K X D) (qi : ℕ → ℕ → K) (hD : Diag S qi) (hM : 0 < S.M)
    (g : ℕ → X → X) (s0 : State K X) (hq : s0.solvers.getD s0.qdeltaImp = qi) (x0 : X)
    (st : ℕ → RState K X) (h : ∀ r < S.M, Pre S r (st r).s s0 ∧ (st r).xOut = x0) (N : ℕ) :
    (∀ r < S.M, Pre S r (run (runEvs S g N) st r).s (serial S g s0 x0 N).1 ∧
      (run (runEvs S g N) st r).xOut = (serial S g s0 x0 N).2 ∧
      (0 < N → (run (runEvs S g N) st r).s.U (r + 1) = (serial S g s0 x0 N).1.U (r + 1))) ∧
    (serial S g s0 x0 N).1.solvers.getD (serial S g s0 x0 N).1.qdeltaImp = qi := by
  induction N with
  | zero => exact ⟨fun r hr => ⟨(h r hr).1, (h r hr).2, fun h => by omega⟩, hq⟩
  | succ N ih =>
    obtain ⟨ih1, ih2⟩ := ih
    have e : serial S g s0 x0 (N + 1) = SDC.apply S (serial S g s0 x0 N).1
        (g N (serial S g s0 x0 N).2) := by
      simp [serial, List.range_succ]
    have e' : runEvs S g (N + 1) = runEvs S g N ++ (allLoc S.M (fun _ => startOp S (g N))
        ++ sweepsEv S S.maxk ++ finishEv S) := by
      simp [runEvs, List.range_succ, applyEv]
    rw [e, e', run_append, run_append, run_append]
    set s1 := (serial S g s0 x0 N).1
    set x1 := (serial S g s0 x0 N).2
    set st1 := run (runEvs S g N) st
    set st2 := run (allLoc S.M (fun _ => startOp S (g N)) : List (Ev (RState K X) X)) st1 with hst2
    have hT2 : ∀ r < S.M, Tr S r (st2 r).s (start S s1 (g N x1)) := fun r hr => by
      rw [hst2, run_allLoc, if_pos hr]
      simp only [startOp]
      rw [(ih1 r hr).2.1]
      exact start_tr S r hr hD.src _ _ _ (ih1 r hr).1
    have hsol : (start S s1 (g N x1)).solvers = some qi := by
      have hloop : ∀ (f : State K X → ℕ → State K X) (hf : ∀ s i, (f s i).solvers = s.solvers)
          (s : State K X) (n : ℕ), ((List.range n).foldl f s).solvers = s.solvers := by
        intro f hf s n
        induction n with
        | zero => rfl
        | succ n ih => rw [List.range_succ, List.foldl_append, List.foldl_cons, List.foldl_nil, hf, ih]
      simp only [start]
      refine (hloop _ (fun _ _ => ?_) _ _).trans ?_
      · rfl
      · split
        · refine (hloop _ (fun _ _ => ?_) _ _).trans ?_
          · rfl
          · simp only [ih2]
        · refine (hloop _ (fun _ _ => ?_) _ _).trans ?_
          · rfl
          · simp only [ih2]
    obtain ⟨hT3, hsol3⟩ := par_sweeps S qi hD _ hsol st2 hT2 S.maxk
    have hfin := par_finish S qi hD hM _ _ hT3
    refine ⟨fun r hr => ?_, ?_⟩
    · obtain ⟨f1, f2⟩ := hfin r hr
      exact ⟨⟨f1.U1, f1.src1, f1.dt, f1.sol, fun h => absurd h f1.sol'⟩, f2, fun _ => f1.U⟩
    · have hf := (hfin 0 hM).1.sol
      have h3 := (hT3 0 hM).sol
      -- solvers after `finish`
      have : (finish S (sweeps S (start S s1 (g N x1)) S.maxk)).1.solvers = some qi := by
        rw [← hsol3]
        unfold finish
        split
        · split
          · exact (finLoop_fval S qi hD (sweeps S (start S s1 (g N x1)) S.maxk) S.M).2.2.2.2.2.1
          · rfl
        · rfl
      simp only [SDC.apply, this, Option.getD_some]

end ParallelSDC
end Gusto
