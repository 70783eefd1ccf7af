import Verif.Lemmas.IntertwineRK

set_option autoImplicit false
set_option linter.unusedSectionVars false
set_option linter.unusedSimpArgs false

/-! Deferred correction schemes with prescribed zero boundary values. -/

namespace Gusto.Intertwine
open Gusto Gusto.Spec LForm TimeDisc
open Gusto.Constrained (mapRK mapIMEX mapSDC mapRIDC)
variable {K X X₀ D D₀ : Type*} [Field K] [AddCommGroup D] [Module K D] [AddCommGroup D₀] [Module K D₀]
variable [AddCommGroup X] [Module K X] [AddCommGroup X₀] [Module K X₀]
variable {ι : X₀ →ₗ[K] X} {ρ : D₀ →ₗ[K] D}

theorem evalList_rel {l : List (K → X → X)} {l₀ : List (K → X₀ → X₀)}
    (hl : List.Forall₂ (fun e e₀ => ∀ c x, e c (ι x) = ι (e₀ c x)) l l₀) (c : K) (x out : X₀) :
    l.foldl (fun _ e => e c (ι x)) (ι out) = ι (l₀.foldl (fun _ e => e c x) out) := by
  induction hl generalizing out with
  | nil => rfl
  | cons he _ ih => simp only [List.foldl_cons, he, ih]


section
variable {S : SDC.Scheme K X D} {S₀ : SDC.Scheme K X₀ D₀}

theorem sdcLimit_rel (h : SDCRel ι ρ S S₀) (x : X₀) : SDC.limit S (ι x) = ι (SDC.limit S₀ x) := by
  unfold SDC.limit
  have hl := h.limiter
  unfold IntertwinesLimiter at hl
  revert hl
  generalize S.limiter = L
  generalize S₀.limiter = L₀
  rintro (_ | hf)
  · rename_i hf; exact hf x
  · rfl

theorem sdcEval_rel (h : SDCRel ι ρ S S₀) (c : K) (x out : X₀) :
    SDC.evalSrc S c (ι x) (ι out) = ι (SDC.evalSrc S₀ c x out) := evalList_rel h.evaluate c x out

theorem sdcRes_rel (h : SDCRel ι ρ S S₀) (qi : ℕ → ℕ → K) (t : SDC.State K X₀) (m : ℕ) (y : X₀) :
    FR ι ρ (SDC.res S qi (mapSDC ι t) m (ι y)) (SDC.res S₀ qi t m y) := by
  have hR := h.R
  unfold SDC.res mapSDC
  rw [h.M, h.Qe]
  refine FR.add ?_ (by rel)
  refine diffPart_rel hR (by labels) _ _ _ ?_
  refine FR.foldl _ ?_ ?_
  · refine FR.foldl _ ?_ ?_
    · rel
    · intro _ _ _ hG
      exact diffPart_rel hR (by labels) _ _ _ hG
  · intro _ _ _ hG
    exact diffPart_rel hR (by labels) _ _ _ (diffPart_rel hR (by labels) _ _ _ hG)

theorem sdcSolveRhs_rel (h : SDCRel ι ρ S S₀) (t : SDC.State K X₀) :
    SDC.solveRhs S (mapSDC ι t) = mapSDC ι (SDC.solveRhs S₀ t) := by
  have hsol := solve_rel h.solve (fun y => SDC.resRhs S.R (ι t.uIn) (ι t.sIn) y)
    (fun y => SDC.resRhs S₀.R t.uIn t.sIn y) (fun y => resRhs_rel h.R t.uIn t.sIn y) t.uRhs
  unfold SDC.solveRhs
  simp only [mapSDC, hsol]

theorem sdcRhsBody_rel (h : SDCRel ι ρ S S₀) (t : SDC.State K X₀) (i : ℕ) :
    SDC.rhsBody S (mapSDC ι t) i = mapSDC ι (SDC.rhsBody S₀ t i) := by
  have e : ({ mapSDC ι t with uIn := (mapSDC ι t).U (i + 1), sIn := SDC.evalSrc S (mapSDC ι t).baseDt ((mapSDC ι t).U (i + 1)) (mapSDC ι t).sIn } : SDC.State K X)
      = mapSDC ι { t with uIn := t.U (i + 1), sIn := SDC.evalSrc S₀ t.baseDt (t.U (i + 1)) t.sIn } := by
    simp only [mapSDC, sdcEval_rel h]
  unfold SDC.rhsBody
  simp only at e ⊢
  rw [e, sdcSolveRhs_rel h]
  simp only [mapSDC, comp_update]

theorem sdcQuad_rel (h : SDCRel ι ρ S S₀) (t : SDC.State K X₀) :
    SDC.computeQuad S (mapSDC ι t) = mapSDC ι (SDC.computeQuad S₀ t) := by
  unfold SDC.computeQuad
  simp only [mapSDC, h.M, h.Q, foldl_lin0]
  congr 1
  funext j
  split <;> rfl

theorem sdcQuadFinal_rel (h : SDCRel ι ρ S S₀) (t : SDC.State K X₀) :
    SDC.computeQuadFinal S (mapSDC ι t) = mapSDC ι (SDC.computeQuadFinal S₀ t) := by
  unfold SDC.computeQuadFinal
  simp only [mapSDC, h.M, h.Qfin, foldl_lin0]

theorem sdcNode_rel (h : SDCRel ι ρ S S₀) (qi : ℕ → ℕ → K) (t : SDC.State K X₀) (m : ℕ) :
    SDC.nodeBody S qi (mapSDC ι t) m = mapSDC ι (SDC.nodeBody S₀ qi t m) := by
  have hsol := fun (t : SDC.State K X₀) (b : X₀) => solve_rel h.solve (fun y => SDC.res S qi (mapSDC ι t) m y)
    (fun y => SDC.res S₀ qi t m y) (fun y => sdcRes_rel h qi t m y) b
  unfold SDC.nodeBody
  rw [h.z2n]
  cases S₀.z2n
  · have hs := hsol { t with q_ := t.quad m, uStart := t.U1 m, uDC := t.U (m + 1) } (t.U (m + 1))
    simp only [mapSDC] at hs
    simp only [Bool.false_eq_true, if_false, mapSDC]
    rw [hs]
    simp only [← comp_update, Function.update_self, sdcEval_rel h, sdcLimit_rel h]
  · have hs := hsol { t with q_ := t.quad m, uDC := t.U (m + 1) } (t.U (m + 1))
    simp only [mapSDC] at hs
    simp only [if_true, mapSDC]
    rw [hs]
    simp only [← comp_update, Function.update_self, sdcEval_rel h, sdcLimit_rel h]

/-- loops over states -/
theorem sdcLoop {α : Type*} (l : List α) {f : SDC.State K X → α → SDC.State K X}
    {g : SDC.State K X₀ → α → SDC.State K X₀} (t : SDC.State K X₀)
    (h : ∀ a t, f (mapSDC ι t) a = mapSDC ι (g t a)) : l.foldl f (mapSDC ι t) = mapSDC ι (l.foldl g t) :=
  foldl_rel (fun (s : SDC.State K X) (t : SDC.State K X₀) => s = mapSDC ι t) l rfl
    fun a _ s t hst => by subst hst; exact h a t

/-- a sweep after the choice of the matrix -/
def sweepTail {X D : Type*} [AddCommGroup X] [Module K X] [AddCommGroup D] [Module K D] (S : SDC.Scheme K X D)
    (qi : ℕ → ℕ → K) (st : SDC.State K X) : SDC.State K X :=
  let st := (List.range S.M).foldl (SDC.rhsBody S) st
  let st := SDC.computeQuad S st
  let st := { st with U1 := Function.update st.U1 0 (st.U 0) }
  let st := { st with sU := Function.update st.sU 0 (SDC.evalSrc S st.baseDt (st.U 0) (st.sU 0)) }
  let st := (List.range S.M).foldl (SDC.nodeBody S qi) st
  (List.range S.M).foldl (fun st i =>
    { st with U := Function.update st.U (i + 1) (st.U1 (i + 1)),
              sU := Function.update st.sU (i + 1) (st.sU1 (i + 1)) }) st

theorem sweepTail_rel (h : SDCRel ι ρ S S₀) (qi : ℕ → ℕ → K) (t : SDC.State K X₀) :
    sweepTail S qi (mapSDC ι t) = mapSDC ι (sweepTail S₀ qi t) := by
  unfold sweepTail
  rw [h.M, sdcLoop (List.range S₀.M) t (fun a t => sdcRhsBody_rel h t a)]
  simp only [sdcQuad_rel h]
  generalize SDC.computeQuad S₀ _ = t2
  have e2 : ({ mapSDC ι t2 with U1 := Function.update (mapSDC ι t2).U1 0 ((mapSDC ι t2).U 0), sU := Function.update (mapSDC ι t2).sU 0 (SDC.evalSrc S (mapSDC ι t2).baseDt ((mapSDC ι t2).U 0) ((mapSDC ι t2).sU 0)) } : SDC.State K X)
      = mapSDC ι { t2 with U1 := Function.update t2.U1 0 (t2.U 0), sU := Function.update t2.sU 0 (SDC.evalSrc S₀ t2.baseDt (t2.U 0) (t2.sU 0)) } := by
    simp only [mapSDC, comp_update, sdcEval_rel h]
  simp only at e2
  rw [e2, sdcLoop (List.range S₀.M) _ (fun a t => sdcNode_rel h qi t a)]
  refine sdcLoop (List.range S₀.M) _ fun a t => ?_
  simp only [mapSDC, comp_update]

theorem sdcSweep_rel (h : SDCRel ι ρ S S₀) (qi : ℕ → ℕ → K) (t : SDC.State K X₀) (k : ℕ) :
    SDC.sweep S qi (mapSDC ι t) k = mapSDC ι (SDC.sweep S₀ qi t k) := by
  cases hf : S₀.flex with
  | none =>
    have e : SDC.sweep S qi (mapSDC ι t) k = sweepTail S qi (mapSDC ι t) := by
      unfold SDC.sweep; rw [h.flex, hf]; rfl
    have e₀ : SDC.sweep S₀ qi t k = sweepTail S₀ qi t := by unfold SDC.sweep; rw [hf]; rfl
    rw [e, e₀, sweepTail_rel h]
  | some q =>
    have e : SDC.sweep S qi (mapSDC ι t) k = sweepTail S qi (mapSDC ι { t with qdeltaImp := q k }) := by
      unfold SDC.sweep; rw [h.flex, hf]; rfl
    have e₀ : SDC.sweep S₀ qi t k = sweepTail S₀ qi { t with qdeltaImp := q k } := by unfold SDC.sweep; rw [hf]; rfl
    rw [e, e₀, sweepTail_rel h]

theorem sdcSweeps_rel (h : SDCRel ι ρ S S₀) (t : SDC.State K X₀) (k : ℕ) :
    SDC.sweeps S (mapSDC ι t) k = mapSDC ι (SDC.sweeps S₀ t k) := by
  unfold SDC.sweeps
  exact sdcLoop (List.range k) t fun a t' => sdcSweep_rel h _ t' (a + 1)

theorem sdcStart_rel (h : SDCRel ι ρ S S₀) (t : SDC.State K X₀) (x : X₀) :
    SDC.start S (mapSDC ι t) (ι x) = mapSDC ι (SDC.start S₀ t x) := by
  unfold SDC.start
  have e1 : ({ mapSDC ι t with un := ι x, uStart := ι x, solvers := some ((mapSDC ι t).solvers.getD (mapSDC ι t).qdeltaImp), U := Function.update (mapSDC ι t).U 0 (ι x) } : SDC.State K X)
      = mapSDC ι { t with un := x, uStart := x, solvers := some (t.solvers.getD t.qdeltaImp), U := Function.update t.U 0 x } := by
    simp only [mapSDC, comp_update]
  simp only at e1 ⊢
  rw [e1, h.baseFlag, h.M]
  generalize ({ t with un := x, uStart := x, solvers := some (t.solvers.getD t.qdeltaImp), U := Function.update t.U 0 x } : SDC.State K X₀) = t1
  have e2 : (if S₀.baseFlag = true then
      (List.range S₀.M).foldl (fun st m => ({ st with baseDt := S.dtau m, U := Function.update st.U (m + 1) (S.base (S.dtau m) (st.U m)) } : SDC.State K X)) (mapSDC ι t1)
      else (List.range S₀.M).foldl (fun st m => ({ st with U := Function.update st.U (m + 1) st.un } : SDC.State K X)) (mapSDC ι t1))
      = mapSDC ι (if S₀.baseFlag = true then
      (List.range S₀.M).foldl (fun st m => ({ st with baseDt := S₀.dtau m, U := Function.update st.U (m + 1) (S₀.base (S₀.dtau m) (st.U m)) } : SDC.State K X₀)) t1
      else (List.range S₀.M).foldl (fun st m => ({ st with U := Function.update st.U (m + 1) st.un } : SDC.State K X₀)) t1) := by
    split
    · refine sdcLoop (List.range S₀.M) _ fun a t => ?_
      simp only [mapSDC, h.dtau, h.base, comp_update]
    · refine sdcLoop (List.range S₀.M) _ fun a t => ?_
      simp only [mapSDC, comp_update]
  rw [e2]
  refine sdcLoop (List.range (S₀.M + 1)) _ fun a t => ?_
  simp only [mapSDC, sdcEval_rel h, comp_update]

theorem sdcApply_rel (h : SDCRel ι ρ S S₀) (t : SDC.State K X₀) (x : X₀) :
    SDC.apply S (mapSDC ι t) (ι x) = (mapSDC ι (SDC.apply S₀ t x).1, ι (SDC.apply S₀ t x).2) := by
  unfold SDC.apply
  rw [sdcStart_rel h, h.maxk, sdcSweeps_rel h]
  generalize SDC.sweeps S₀ _ _ = t1
  unfold SDC.finish
  rw [h.maxk, h.finalUpdate, h.M]
  split
  · split
    · have e1 : (List.range S₀.M).foldl (SDC.finBody S) (mapSDC ι t1)
          = mapSDC ι ((List.range S₀.M).foldl (SDC.finBody S₀) t1) := by
        refine sdcLoop (List.range S₀.M) _ fun a t => ?_
        have e : ({ mapSDC ι t with uIn := (mapSDC ι t).U1 (a + 1), sIn := (mapSDC ι t).sU1 (a + 1) } : SDC.State K X)
          = mapSDC ι { t with uIn := t.U1 (a + 1), sIn := t.sU1 (a + 1) } := rfl
        unfold SDC.finBody
        simp only at e ⊢
        rw [e, sdcSolveRhs_rel h]
        simp only [mapSDC, comp_update]
      simp only [e1, sdcQuadFinal_rel h]
      generalize SDC.computeQuadFinal S₀ _ = t2
      have hsol := solve_rel h.solve (fun y => SDC.resFin S.R (ι t2.un) (ι t2.quadFinal) y)
        (fun y => SDC.resFin S₀.R t2.un t2.quadFinal y) (fun y => resFin_rel h.R t2.un t2.quadFinal y) (t2.U S₀.M)
      simp only [mapSDC, hsol, sdcLimit_rel h]
    · rfl
  · rfl
end

section
variable {S : RIDC.Scheme K X D} {S₀ : RIDC.Scheme K X₀ D₀}

theorem ridcLimit_rel (h : RIDCRel ι ρ S S₀) (x : X₀) : RIDC.limit S (ι x) = ι (RIDC.limit S₀ x) := by
  unfold RIDC.limit
  have hl := h.limiter
  unfold IntertwinesLimiter at hl
  revert hl
  generalize S.limiter = L
  generalize S₀.limiter = L₀
  rintro (_ | hf)
  · rename_i hf; exact hf x
  · rfl

theorem ridcEval_rel (h : RIDCRel ι ρ S S₀) (c : K) (x out : X₀) :
    RIDC.evalSrc S c (ι x) (ι out) = ι (RIDC.evalSrc S₀ c x out) := evalList_rel h.evaluate c x out

theorem ridcRes_rel (h : RIDCRel ι ρ S S₀) (t : RIDC.State K X₀) (y : X₀) :
    FR ι ρ (RIDC.res S (mapRIDC ι t) (ι y)) (RIDC.res S₀ t y) := by
  have hR := h.R
  unfold RIDC.res mapRIDC
  rw [h.dt]
  refine FR.add ?_ (by rel)
  refine diffPart_rel hR (by labels) _ _ _ ?_
  refine diffPart_rel hR (by labels) _ _ _ ?_
  refine diffPart_rel hR (by labels) _ _ _ ?_
  rel

theorem ridcSolveRhs_rel (h : RIDCRel ι ρ S S₀) (t : RIDC.State K X₀) :
    RIDC.solveRhs S (mapRIDC ι t) = mapRIDC ι (RIDC.solveRhs S₀ t) := by
  have hsol := solve_rel h.solve (fun y => SDC.resRhs S.R (ι t.uIn) (ι t.sIn) y)
    (fun y => SDC.resRhs S₀.R t.uIn t.sIn y) (fun y => resRhs_rel h.R t.uIn t.sIn y) t.uRhs
  unfold RIDC.solveRhs
  simp only [mapRIDC, hsol]

theorem ridcRhsBody_rel (h : RIDCRel ι ρ S S₀) (t : RIDC.State K X₀) (i : ℕ) :
    RIDC.rhsBody S (mapRIDC ι t) i = mapRIDC ι (RIDC.rhsBody S₀ t i) := by
  have e : ({ mapRIDC ι t with uIn := (mapRIDC ι t).U i, sIn := RIDC.evalSrc S (mapRIDC ι t).baseDt ((mapRIDC ι t).U i) (mapRIDC ι t).sIn } : RIDC.State K X)
      = mapRIDC ι { t with uIn := t.U i, sIn := RIDC.evalSrc S₀ t.baseDt (t.U i) t.sIn } := by
    simp only [mapRIDC, ridcEval_rel h]
  unfold RIDC.rhsBody
  simp only at e ⊢
  rw [e, ridcSolveRhs_rel h]
  simp only [mapRIDC, comp_update]

theorem ridcNode_rel (h : RIDCRel ι ρ S S₀) (t : RIDC.State K X₀) (m : ℕ) :
    RIDC.nodeSolve S (mapRIDC ι t) m = mapRIDC ι (RIDC.nodeSolve S₀ t m) := by
  have hs := solve_rel h.solve
    (fun y => RIDC.res S (mapRIDC ι { t with uStart := t.U1 m, ukp1m := t.U1 m, ukmp1 := t.U (m + 1), ukm := t.U m, sU1m := t.sU1 m, sUm := t.sU m, uDC := t.U (m + 1) }) y)
    (fun y => RIDC.res S₀ { t with uStart := t.U1 m, ukp1m := t.U1 m, ukmp1 := t.U (m + 1), ukm := t.U m, sU1m := t.sU1 m, sUm := t.sU m, uDC := t.U (m + 1) } y)
    (fun y => ridcRes_rel h _ y) (t.U (m + 1))
  unfold RIDC.nodeSolve
  simp only [mapRIDC] at hs ⊢
  rw [hs]
  simp only [← comp_update, Function.update_self, ridcEval_rel h, ridcLimit_rel h]

/-- loops over states -/
theorem ridcLoop {α : Type*} (l : List α) {f : RIDC.State K X → α → RIDC.State K X}
    {g : RIDC.State K X₀ → α → RIDC.State K X₀} (t : RIDC.State K X₀)
    (h : ∀ a t, f (mapRIDC ι t) a = mapRIDC ι (g t a)) : l.foldl f (mapRIDC ι t) = mapRIDC ι (l.foldl g t) :=
  foldl_rel (fun (s : RIDC.State K X) (t : RIDC.State K X₀) => s = mapRIDC ι t) l rfl
    fun a _ s t hst => by subst hst; exact h a t

theorem ridcStencil_rel (h : RIDCRel ι ρ S S₀) (k : ℕ) : RIDC.stencil S k = RIDC.stencil S₀ k := by
  unfold RIDC.stencil; rw [h.reduced, h.Kc]

theorem ridcHead_rel (h : RIDCRel ι ρ S S₀) (k : ℕ) (t : RIDC.State K X₀) (m : ℕ) :
    RIDC.headBody S k (mapRIDC ι t) m = mapRIDC ι (RIDC.headBody S₀ k t m) := by
  unfold RIDC.headBody
  rw [← ridcNode_rel h]
  congr 1
  unfold RIDC.computeQuad
  simp only [mapRIDC, ridcStencil_rel h, h.Q, foldl_lin0]

theorem ridcTail_rel (h : RIDCRel ι ρ S S₀) (k : ℕ) (t : RIDC.State K X₀) (m : ℕ) :
    RIDC.tailBody S k (mapRIDC ι t) m = mapRIDC ι (RIDC.tailBody S₀ k t m) := by
  unfold RIDC.tailBody
  rw [← ridcNode_rel h]
  congr 1
  unfold RIDC.computeQuadFinal
  simp only [mapRIDC, ridcStencil_rel h, h.Q, foldl_lin0]

theorem ridcSweep_rel (h : RIDCRel ι ρ S S₀) (t : RIDC.State K X₀) (k : ℕ) :
    RIDC.sweep S (mapRIDC ι t) k = mapRIDC ι (RIDC.sweep S₀ t k) := by
  unfold RIDC.sweep
  rw [h.M, ridcStencil_rel h, ridcLoop (List.range (S₀.M + 1)) t (fun a t => ridcRhsBody_rel h t a)]
  simp only
  generalize (List.range (S₀.M + 1)).foldl (RIDC.rhsBody S₀) t = t2
  have e2 : ({ mapRIDC ι t2 with U1 := Function.update (mapRIDC ι t2).U1 0 ((mapRIDC ι t2).U 0), sU := Function.update (mapRIDC ι t2).sU 0 (RIDC.evalSrc S (mapRIDC ι t2).baseDt ((mapRIDC ι t2).U 0) ((mapRIDC ι t2).sU 0)) } : RIDC.State K X)
      = mapRIDC ι { t2 with U1 := Function.update t2.U1 0 (t2.U 0), sU := Function.update t2.sU 0 (RIDC.evalSrc S₀ t2.baseDt (t2.U 0) (t2.sU 0)) } := by
    simp only [mapRIDC, comp_update, ridcEval_rel h]
  simp only at e2
  rw [e2, ridcLoop (List.range (RIDC.stencil S₀ k)) _ (fun a t => ridcHead_rel h k t a),
    ridcLoop ((List.range S₀.M).drop _) _ (fun a t => ridcTail_rel h k t a)]
  refine ridcLoop (List.range (S₀.M + 1)) _ fun a t => ?_
  simp only [mapRIDC, comp_update]

theorem ridcStart_rel (h : RIDCRel ι ρ S S₀) (t : RIDC.State K X₀) (x : X₀) :
    RIDC.start S (mapRIDC ι t) (ι x) = mapRIDC ι (RIDC.start S₀ t x) := by
  unfold RIDC.start
  have e1 : ({ mapRIDC ι t with un := ι x, U := Function.update (mapRIDC ι t).U 0 (ι x) } : RIDC.State K X)
      = mapRIDC ι { t with un := x, U := Function.update t.U 0 x } := by
    simp only [mapRIDC, comp_update]
  simp only at e1 ⊢
  rw [e1, h.M]
  generalize ({ t with un := x, U := Function.update t.U 0 x } : RIDC.State K X₀) = t1
  rw [ridcLoop (List.range S₀.M) t1 (g := fun st m => { st with baseDt := S₀.dt, U := Function.update st.U (m + 1) (S₀.base S₀.dt (st.U m)) })
    (fun a t => by simp only [mapRIDC, h.dt, h.base, comp_update])]
  refine ridcLoop (List.range (S₀.M + 1)) _ fun a t => ?_
  simp only [mapRIDC, ridcEval_rel h, comp_update]

theorem ridcApply_rel (h : RIDCRel ι ρ S S₀) (t : RIDC.State K X₀) (x : X₀) :
    RIDC.apply S (mapRIDC ι t) (ι x) = (RIDC.apply S₀ t x).map fun p => (mapRIDC ι p.1, ι p.2) := by
  unfold RIDC.apply
  rw [h.M, h.Kc]
  split
  · rfl
  · unfold RIDC.sweeps
    simp only [ridcStart_rel h, Option.map_some]
    rw [ridcLoop (List.range S₀.Kc) _ (fun a t => ridcSweep_rel h t (a + 1))]
    rfl
end
end Gusto.Intertwine
