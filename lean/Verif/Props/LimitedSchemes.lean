import Verif.Model.LimiterArgs
import Verif.Model.Wrappers
import Verif.Props.SSP
import Verif.Props.Limiters
import Verif.Props.ParallelSDC
import Verif.Props.ParallelRIDC

set_option autoImplicit false
set_option linter.unusedSectionVars false
set_option linter.unusedSimpArgs false

/-!
# C138: a requested limiter acts on what a scheme returns

The observable effect of a limiter `L` on a result is that the result is `L y` for some field `y`: it then has every property that `L`
guarantees of its output (`C138_zero_limiter` spells this out for the limiter that clips at zero).
-/

namespace Gusto.Props.LimitedSchemesProps
open Gusto LForm TimeDisc Spec Finset Gusto.Props Gusto.Tableaux RK SSPProps

section rk
variable {K X D : Type*} [Field K] [AddCommGroup X] [Module K X] [AddCommGroup D] [Module K D]

theorem range_last (n : ℕ) (h : 0 < n) : List.range n = List.range (n - 1) ++ [n - 1] := by
  obtain ⟨m, rfl⟩ : ∃ m, n = m + 1 := ⟨n - 1, by omega⟩
  simp [List.range_succ]

/-- The last stage of the last cycle leaves a limited field in `x1`. -/
theorem solveStage_limited (f : Formulation) (S : RKScheme K X D) (L : X → X) (hL : S.limiter = some L) (hs : 0 < S.nStages)
    (n : ℕ) (hn : 0 < n) (x0 : X) (st : RKState X) :
    ∃ y, (solveStage f S n (n - 1) x0 st (S.nStages - 1)).x1 = L y := by
  have hl : ∀ y, limit S y = L y := fun y => by simp [limit, hL]
  cases f with
  | increment =>
    simp only [solveStage, incStage, if_true]
    exact ⟨_, hl _⟩
  | predictor =>
    simp only [solveStage, predStage, if_true]
    exact ⟨_, hl _⟩
  | linear =>
    have : ¬ S.nStages * (n - 1) + (S.nStages - 1) + 1 < n * S.nStages := by
      obtain ⟨m, rfl⟩ : ∃ m, n = m + 1 := ⟨n - 1, by omega⟩
      have : S.nStages * m = m * S.nStages := Nat.mul_comm _ _
      rw [Nat.add_mul, Nat.add_sub_cancel]
      omega
    simp only [solveStage, linStage, if_neg this]
    exact ⟨_, hl _⟩

/-- C138, explicit Runge-Kutta schemes: all three formulations, every table, equation, physics scheme, solver, number of cycles,
time step and history of the object: the field that `apply` returns has gone through the limiter. -/
theorem C138_explicit (f : Formulation) (S : RKScheme K X D) (L : X → X) (hL : S.limiter = some L) (hs : 0 < S.nStages)
    (n : ℕ) (hn : 0 < n) (st : RKState X) (x : X) : ∃ y, RK.apply f S n st x = L y := by
  rw [RK.apply, range_last n hn, List.foldl_append]
  simp only [List.foldl_cons, List.foldl_nil]
  rw [applyCycle, range_last S.nStages hs, List.foldl_append]
  simp only [List.foldl_cons, List.foldl_nil]
  exact solveStage_limited f S L hL hs n hn _ _

/-- C138, the limiter that clips at zero (on a space all of whose degrees of freedom belong to some cell): after `apply` no value is
negative. -/
theorem C138_zero_limiter {F ι : Type*} [Field F] [LinearOrder F] [IsStrictOrderedRing F] [DecidableEq ι] [Module K (ι → F)]
    (f : Formulation) (S : RKScheme K (ι → F) D) (cells : List (List ι)) (hcov : ∀ i, ∃ c ∈ cells, i ∈ c)
    (hL : S.limiter = some (Limiters.zeroLimiter (ι' := ι) none cells)) (hs : 0 < S.nStages)
    (n : ℕ) (hn : 0 < n) (st : RKState (ι → F)) (x : ι → F) (i : ι) : 0 ≤ RK.apply f S n st x i := by
  obtain ⟨y, hy⟩ := C138_explicit f S _ hL hs n hn st x
  rw [hy, Limiters.zeroLimiter, LimiterProps.C27_zero_limiter, if_pos (hcov i)]
  exact le_max_left _ _

/-- C138, predictor formulation: the physics schemes are only ever asked about limited fields: schemes that agree on those give the
same result, whatever they do elsewhere. -/
theorem C138_predictor_sources (S : RKScheme K X D) (L : X → X) (hL : S.limiter = some L) (e : ℕ → X → K → X)
    (he : ∀ j y dt, S.evals j (L y) dt = e j (L y) dt) (n : ℕ) (st : RKState X) (x : X) :
    RK.apply .predictor S n st x = RK.apply .predictor { S with evals := e } n st x := by
  have hl : ∀ y, limit S y = L y := fun y => by simp [limit, hL]
  have hl' : ∀ y, limit { S with evals := e } y = L y := fun y => by simp [limit, hL]
  have h1 : ∀ y dt src, evalSources S (L y) dt src = evalSources { S with evals := e } (L y) dt src := by
    intro y dt src; funext j; simp [evalSources, he]
  have h2 : ∀ y dt out, evalSourcesInto S (L y) dt out = evalSourcesInto { S with evals := e } (L y) dt out := by
    intro y dt out; simp [evalSourcesInto, he]
  have h3 : ∀ x0 st stage, predStage S x0 st stage = predStage { S with evals := e } x0 st stage := by
    intro x0 st stage
    simp only [predStage, hl, hl', Function.update_self, h1, h2]
  have h4 : ∀ idx st, applyCycle .predictor S n idx st = applyCycle .predictor { S with evals := e } n idx st := by
    intro idx st
    have h5 : solveStage Formulation.predictor S n idx = solveStage Formulation.predictor { S with evals := e } n idx := by
      funext x0 st stage; exact h3 x0 st stage
    simp only [applyCycle, h5, hl, hl']
  simp only [RK.apply, h4]

end rk

section ssp
variable {K X D : Type*} [Field K] [LinearOrder K] [IsStrictOrderedRing K] [AddCommGroup X] [Module K X] [AddCommGroup D] [Module K D]

theorem rkK_stage_mem {o : Option Table} {r : ℚ} (h : SSPCoeff o r) {t : Table} (ht : o = some t) (S : RKScheme K X D)
    (hS : Uses S t) (f : X → X) (C : Set X) (hC : Convex K C) (hf : EulerKeeps f (S.dt / r) C) (x : X) (hx : x ∈ C) (i : ℕ)
    (hi : i ≤ S.nStages) : x + S.dt • ∑ j ∈ range i, stageCoeffs S.A i j • rkK (stageCoeffs S.A) f S.dt x j ∈ C := by
  obtain ⟨t', h1, hr, hs, hok⟩ := table_ok h
  obtain rfl : t = t' := Option.some.inj (ht.symm.trans h1)
  refine rkStep_mem (stageCoeffs S.A) (fun i j => ((alpha (stageCoeffs t.A) r i j : ℚ) : K)) (stageCoeffs S.A i) (r : K)
    (by exact_mod_cast hr) i (fun j => rfl) ?_ f S.dt C hC hf x hx
  intro m hm
  obtain ⟨h2, h3⟩ := hok m (by rw [← hS.nStages]; omega)
  refine ⟨fun j hj => ⟨by exact_mod_cast (h2 j hj).1, ?_⟩, by exact_mod_cast h3⟩
  have := congrArg (Rat.cast (K := K)) (h2 j hj).2
  simp only [stageCoeffs, hS.A] at this ⊢
  push_cast at this
  simpa [apply_ite] using this

theorem textbook_congr_mem {o : Option Table} {r : ℚ} (h : SSPCoeff o r) {t : Table} (ht : o = some t) (S : RKScheme K X D)
    (hS : Uses S t) (f g : X → X) (C : Set X) (hC : Convex K C) (hf : EulerKeeps f (S.dt / r) C) (hfg : ∀ y ∈ C, g y = f y)
    (x : X) (hx : x ∈ C) : textbook S g x = textbook S f x := by
  refine (IsRKStep.unique (a := stageCoeffs S.A) (b := weights S.A S.nStages) (s := S.nStages) (f := g) (dt := S.dt)
    (rkStep_isRKStep ..) ⟨rkK (stageCoeffs S.A) f S.dt x, fun i hi => ?_, rfl⟩)
  rw [hfg _ (rkK_stage_mem h ht S hS f C hC hf x hx i hi.le), rkK, Finset.sum_range]

/-- C138: a limiter does not spoil what needs no limiting.  Take a strong-stability-preserving scheme and a convex set `C` of states
that an Euler step of length `dt / r` does not leave (C115), and a limiter that changes no field of `C`.  From a field in `C`, the
scheme with the limiter then gives exactly the result of the scheme without it. -/
theorem C138_inactive {o : Option Table} {r : ℚ} (h : SSPCoeff o r) {t : Table} (ht : o = some t)
    (S : RKScheme K X D) (hS : Uses S t) (M : X ≃ₗ[K] D) (hM : ∀ x, mass S.R x = M x) (hsolve : ExactSolver S.solve)
    (hns : ∀ u ∈ S.R, Label.source ∉ u.labels) (L : X → X) (hL : S.limiter = some L)
    (C : Set X) (hC : Convex K C) (hf : EulerKeeps (tendency S.R M) (S.dt / r) C) (hfix : ∀ y ∈ C, L y = y)
    (n : ℕ) (hn : 0 < n) (st st' : RKState X) (x : X) (hx : x ∈ C) :
    RK.apply .increment S n st x = RK.apply .increment { S with limiter := none } n st' x ∧
    ((∀ y, L (L y) = L y) → RK.apply .predictor S n st x = RK.apply .predictor { S with limiter := none } n st' x) := by
  have hst : 0 < S.nStages := by
    obtain ⟨t', h1, _, hs, _⟩ := table_ok h
    obtain rfl : t = t' := Option.some.inj (ht.symm.trans h1)
    rw [hS.nStages]; exact hs
  have hset : Setting S M := ⟨hM, hsolve, hst⟩
  have hset' : Setting { S with limiter := none } M := ⟨hM, hsolve, hst⟩
  have hl : ∀ y, limit S y = L y := fun y => by simp [limit, hL]
  have key := textbook_mem h ht S hS (tendency S.R M) C hC hf
  have hit : ∀ n, (fun x => L (textbook S (fun y => tendency S.R M (L y)) (L x)))^[n] x = (textbook S (tendency S.R M))^[n] x := by
    intro n
    induction n with
    | zero => rfl
    | succ n ih =>
      have hmem := iterate_mem _ C key n x hx
      rw [Function.iterate_succ_apply', Function.iterate_succ_apply', ih]
      rw [hfix _ hmem, textbook_congr_mem h ht S hS (tendency S.R M) _ C hC hf (fun y hy => by rw [hfix y hy]) _ hmem]
      exact hfix _ (key _ hmem)
  have e : ∀ g, textbook { S with limiter := none } g = textbook S g := fun _ => rfl
  constructor
  · rw [C02_increment_limited S M hset hns n hn, C02_increment _ M hset' rfl hns n hn]
    simp only [hl, e]
    exact hit n
  · intro hid
    rw [C02_predictor_limited S M hset hns (fun y => by simp only [hl, hid]) n hn, C02_predictor _ M hset' rfl hns n hn]
    simp only [hl, e]
    exact hit n

end ssp

section dc
variable {K X D : Type*} [Field K] [AddCommGroup X] [Module K X] [AddCommGroup D] [Module K D]

namespace SDCPart
open SDC

theorem nodeBody_limited (S : Scheme K X D) (L : X → X) (hL : S.limiter = some L) (qi : ℕ → ℕ → K) (st : State K X) (m : ℕ) :
    ∃ y, (nodeBody S qi st m).U1 (m + 1) = L y := by
  have hl : ∀ y, SDC.limit S y = L y := fun y => by simp [SDC.limit, hL]
  simp only [nodeBody, Function.update_self]
  exact ⟨_, hl _⟩

theorem copy_U (st : State K X) (n : ℕ) :
    let r := (List.range n).foldl (fun (st : State K X) i =>
      { st with U := Function.update st.U (i + 1) (st.U1 (i + 1)),
                sU := Function.update st.sU (i + 1) (st.sU1 (i + 1)) }) st
    r.U1 = st.U1 ∧ ∀ i < n, r.U (i + 1) = st.U1 (i + 1) := by
  induction n with
  | zero => exact ⟨rfl, fun i hi => absurd hi (by omega)⟩
  | succ n ih =>
    rw [List.range_succ, List.foldl_append]
    obtain ⟨h1, h2⟩ := ih
    refine ⟨h1, fun i hi => ?_⟩
    simp only [List.foldl_cons, List.foldl_nil]
    by_cases e : i = n
    · subst e; rw [Function.update_self, h1]
    · rw [Function.update_of_ne (by omega), h2 i (by omega)]

theorem sweep_limited (S : Scheme K X D) (L : X → X) (hL : S.limiter = some L) (hM : 0 < S.M) (qi : ℕ → ℕ → K) (st : State K X)
    (k : ℕ) : ∃ y, (sweep S qi st k).U S.M = L y := by
  have := fun st : State K X => (copy_U st S.M).2 (S.M - 1) (by omega)
  rw [show S.M - 1 + 1 = S.M by omega] at this
  simp only [sweep]
  rw [this, range_last S.M hM, List.foldl_append]
  simp only [List.foldl_cons, List.foldl_nil]
  have := nodeBody_limited S L hL qi
  obtain ⟨y, hy⟩ := this _ (S.M - 1)
  rw [show S.M - 1 + 1 = S.M by omega] at hy
  exact ⟨y, hy⟩

end SDCPart

open SDCPart in
/-- C138, SDC: with at least one sweep and one node, with or without final update, in both formulations: the field that `apply`
returns has gone through the limiter. -/
theorem C138_sdc (S : SDC.Scheme K X D) (L : X → X) (hL : S.limiter = some L) (hM : 0 < S.M) (hk : 0 < S.maxk)
    (st : SDC.State K X) (x : X) : ∃ y, (SDC.apply S st x).2 = L y := by
  simp only [SDC.apply, SDC.finish, gt_iff_lt, hk, if_true]
  split
  · exact ⟨_, by simp only [SDC.limit, hL]; rfl⟩
  · simp only [SDC.sweeps]
    rw [range_last S.maxk hk, List.foldl_append]
    simp only [List.foldl_cons, List.foldl_nil]
    exact sweep_limited S L hL hM _ _ _

/-- C138 does not hold without sweeps: `maxk = 0` without a base guess returns the input, whatever the limiter. -/
theorem C138_sdc_no_sweep_refuted (S : SDC.Scheme K X D) (hM : 0 < S.M) (hk : S.maxk = 0) (hb : S.baseFlag = false)
    (st : SDC.State K X) (x : X) : (SDC.apply S st x).2 = x := by
  have h1 : ∀ (st : SDC.State K X) n, ((List.range n).foldl (fun (st : SDC.State K X) m =>
      { st with U := Function.update st.U (m + 1) st.un }) st).un = st.un ∧
      ∀ i < n, ((List.range n).foldl (fun (st : SDC.State K X) m =>
        { st with U := Function.update st.U (m + 1) st.un }) st).U (i + 1) = st.un := by
    intro st n
    induction n with
    | zero => exact ⟨rfl, fun i hi => absurd hi (by omega)⟩
    | succ n ih =>
      rw [List.range_succ, List.foldl_append]
      refine ⟨ih.1, fun i hi => ?_⟩
      simp only [List.foldl_cons, List.foldl_nil]
      by_cases e : i = n
      · subst e; rw [Function.update_self, ih.1]
      · rw [Function.update_of_ne (by omega), ih.2 i (by omega)]
  have h2 : ∀ (st : SDC.State K X) (l : List ℕ), (l.foldl (fun (st : SDC.State K X) m =>
      { st with sU := Function.update st.sU m (SDC.evalSrc S st.baseDt (st.U m) (st.sU m)) }) st).U = st.U := by
    intro st l
    induction l generalizing st with
    | nil => rfl
    | cons a l ih => rw [List.foldl_cons, ih]
  have h3 : ∀ st : SDC.State K X, SDC.sweeps S st 0 = st := fun st => rfl
  simp only [SDC.apply, SDC.finish, gt_iff_lt, hk, lt_irrefl, if_false, h3, SDC.start, hb, Bool.false_eq_true]
  rw [h2]
  have := (h1 { st with un := x, uStart := x, solvers := some (st.solvers.getD st.qdeltaImp), U := Function.update st.U 0 x }
    S.M).2 (S.M - 1) (by omega)
  rw [show S.M - 1 + 1 = S.M by omega] at this
  exact this

namespace RIDCPart
open RIDC

theorem nodeSolve_limited (S : Scheme K X D) (L : X → X) (hL : S.limiter = some L) (st : State K X) (m : ℕ) :
    ∃ y, (nodeSolve S st m).U1 (m + 1) = L y := by
  have hl : ∀ y, RIDC.limit S y = L y := fun y => by simp [RIDC.limit, hL]
  simp only [nodeSolve, Function.update_self]
  exact ⟨_, hl _⟩

theorem copy_U (st : State K X) (n : ℕ) :
    let r := (List.range n).foldl (fun (st : State K X) i =>
      { st with U := Function.update st.U i (st.U1 i), sU := Function.update st.sU i (st.sU1 i) }) st
    r.U1 = st.U1 ∧ ∀ i < n, r.U i = st.U1 i := by
  induction n with
  | zero => exact ⟨rfl, fun i hi => absurd hi (by omega)⟩
  | succ n ih =>
    rw [List.range_succ, List.foldl_append]
    obtain ⟨h1, h2⟩ := ih
    refine ⟨h1, fun i hi => ?_⟩
    simp only [List.foldl_cons, List.foldl_nil]
    by_cases e : i = n
    · subst e; rw [Function.update_self, h1]
    · rw [Function.update_of_ne (by omega), h2 i (by omega)]

theorem sweep_limited (S : Scheme K X D) (L : X → X) (hL : S.limiter = some L) (hM : 0 < S.M) (st : State K X) (k : ℕ)
    (hk : stencil S k ≤ S.M) : ∃ y, (sweep S st k).U S.M = L y := by
  have := fun st : State K X => (copy_U st (S.M + 1)).2 S.M (by omega)
  simp only [sweep]
  rw [this]
  by_cases e : stencil S k = S.M
  · rw [e]
    have hd : (List.range S.M).drop S.M = [] := by simp
    rw [hd, List.foldl_nil, range_last S.M hM, List.foldl_append]
    simp only [List.foldl_cons, List.foldl_nil, headBody]
    obtain ⟨y, hy⟩ := nodeSolve_limited S L hL _ (S.M - 1)
    rw [show S.M - 1 + 1 = S.M by omega] at hy
    exact ⟨y, hy⟩
  · have hd : (List.range S.M).drop (stencil S k) = (List.range (S.M - 1)).drop (stencil S k) ++ [S.M - 1] := by
      rw [range_last S.M hM, List.drop_append_of_le_length (by simp; omega)]
    rw [hd, List.foldl_append]
    simp only [List.foldl_cons, List.foldl_nil, tailBody]
    obtain ⟨y, hy⟩ := nodeSolve_limited S L hL _ (S.M - 1)
    rw [show S.M - 1 + 1 = S.M by omega] at hy
    exact ⟨y, hy⟩

end RIDCPart

open RIDCPart in
/-- C138, RIDC with at least one correction and one node: what `apply` returns has gone through the limiter. -/
theorem C138_ridc (S : RIDC.Scheme K X D) (L : X → X) (hL : S.limiter = some L) (hM : 0 < S.M) (hk : 0 < S.Kc)
    (st st' : RIDC.State K X) (x x' : X) (h : RIDC.apply S st x = some (st', x')) : ∃ y, x' = L y := by
  unfold RIDC.apply at h
  split at h
  · simp at h
  · rename_i hK
    simp only [Option.some.injEq, Prod.mk.injEq] at h
    rw [← h.2, RIDC.sweeps, range_last S.Kc hk, List.foldl_append]
    simp only [List.foldl_cons, List.foldl_nil]
    refine sweep_limited S L hL hM _ _ ?_
    simp only [RIDC.stencil]
    split <;> omega

/-- C138, time-parallel SDC: for every schedule, number of time steps and buffering, each rank ends with a limited field. -/
theorem C138_parallel_sdc (S : SDC.Scheme K X D) (L : X → X) (hL : S.limiter = some L) (hM : 0 < S.M) (hk : 0 < S.maxk)
    (st0 : SDC.State K X) (hD : ParallelSDC.Diag S (st0.solvers.getD st0.qdeltaImp)) (x0 : X) (g : ℕ → X → X)
    (st : ℕ → ParallelSDC.RState K X) (hst : ∀ r < S.M, (st r).s = st0 ∧ (st r).xOut = x0)
    (N n : ℕ) (hN : 0 < N) (c : MPI.Config (ParallelSDC.RState K X) X)
    (h : MPI.Steps n (MPI.initial (ParallelSDC.runProg S g N) st) c) (hd : MPI.Done c) (r : ℕ) (hr : r < S.M) :
    ∃ y, (c.st r).xOut = L y := by
  rw [(((ParallelSDCProps.C25_parallel_equals_serial S hM st0 hD x0 g st hst N n c h).2 hd).1 r hr).1,
    ParallelSDC.serial, range_last N hN, List.foldl_append]
  exact C138_sdc S L hL hM hk _ _

/-- C138, time-parallel RIDC (no source terms, flushed after every step as by default): each rank ends with a limited field. -/
theorem C138_parallel_ridc_partial (S : RIDC.Scheme K X D) (L : X → X) (hL : S.limiter = some L) (hS : ParallelRIDC.Plain S)
    (P : ParallelRIDC.Params) (hP : P.flushFreq = 1) (size : ℕ) (hacc : ParallelRIDC.accepted size S.Kc S.M = true) (hK : 1 ≤ S.Kc)
    (g : ℕ → X → X) (x0 : X) (st0 : RIDC.State K X) (st : ℕ → ParallelRIDC.RState K X) (hst : ∀ r < S.Kc + 1, (st r).xOut = x0)
    (N n : ℕ) (hN : 0 < N) (c : MPI.Config (ParallelRIDC.RState K X) X)
    (h : MPI.Steps n (MPI.initial (ParallelRIDC.runProg S P g N) st) c) (hd : MPI.Done c) (r : ℕ) (hr : r < S.Kc + 1) :
    ∃ y, (c.st r).xOut = L y := by
  obtain ⟨⟨st', x', e, hx⟩, -⟩ := ParallelRIDCProps.C26_equals_serial_partial S hS P hP size hacc hK g x0 st0 st hst N n c h hd
  rw [hx r hr]
  rw [ParallelRIDC.serial, range_last N hN, List.foldl_append] at e
  simp only [List.foldl_cons, List.foldl_nil] at e
  obtain ⟨a, -, ha⟩ := Option.bind_eq_some_iff.1 e
  exact C138_ridc S L hL (lt_of_lt_of_le hK (ParallelRIDCProps.accepted_le hacc hK)) hK _ _ _ _ ha

end dc

/-! ### Where the limiter has no effect -/

section ignored
open LimiterArgs
variable {K X D : Type*} [Field K] [AddCommGroup X] [Module K X] [AddCommGroup D] [Module K D]

/-- `x' = -1`, without time derivative label on the forcing. -/
def sink : LForm ℚ ℚ :=
  [ { labels := [.timeDerivative], op := fun x => x, subj := 0 },
    { labels := [], op := fun _ => 1, subj := 0 } ]

/-- clipping at zero -/
def clip (x : ℚ) : ℚ := max 0 x

theorem choiceSolve_shift (r : ℚ → ℚ) (v g : ℚ) (h : ∀ y, r y = y - v) : choiceSolve r g = v := by
  have hu : ∀ y, r y = 0 → y = v := fun y hy => by rw [h] at hy; linarith
  exact hu _ (choiceSolve_exact r g ⟨v, by simp [h], hu⟩)

/-- C138 refuted for backward Euler: the limiter is accepted and stored and has no influence on any result; with clipping at zero,
one step of `x' = -1` from `0` ends at `-1`. -/
theorem C138_backward_euler_refuted :
    (∀ (S : BackwardEuler K X D) (l : Option (X → X)) (x x1 : X), S.apply x x1 = { S with limiter := l }.apply x x1) ∧
    ∃ S : BackwardEuler ℚ ℚ ℚ, S.limiter = some clip ∧ ExactSolver S.solve ∧ ∀ x1, S.apply 0 x1 = -1 := by
  refine ⟨fun _ _ _ _ => rfl, ⟨sink, 1, 1, choiceSolve, some clip⟩, rfl, choiceSolve_exact, fun x1 => ?_⟩
  simp only [BackwardEuler.apply, BackwardEuler.cycle, applyLoop, implicitCycle, List.range_one, List.foldl_cons, List.foldl_nil]
  refine choiceSolve_shift _ _ _ fun y => ?_
  simp [sink, backwardEulerRes, LForm.labelMap, LForm.eval, isTD, Term.has, replaceSubject, keep, drop, scaleTerm, LForm.sub,
    LForm.add, LForm.smul, allTerms, Term.eval]

/-- C138 refuted for the multi-level schemes, in every step and whatever the levels: the stored limiter has no influence; BDF2
with clipping at zero takes `x' = -1` from `0` to `-1` in the first step. -/
theorem C138_multilevel_refuted :
    (∀ (S : Multi X D) (l : Option (X → X)) (solve : Solver X D) (i : ℕ) (x : ℕ → X),
      S.apply solve i x = { S with limiter := l }.apply solve i x) ∧
    ∃ S : Multi ℚ ℚ, S.scheme = Multilevel.bdf2 sink (1 : ℚ) ∧ S.limiter = some clip ∧ (S.apply choiceSolve 0 (fun _ => 0)).1 = -1 := by
  refine ⟨fun _ _ _ _ _ => rfl, ⟨Multilevel.bdf2 sink (1 : ℚ), some clip⟩, rfl, rfl, ?_⟩
  simp only [Multi.apply, Multilevel.Scheme.apply, Multilevel.bdf2]
  refine choiceSolve_shift _ _ _ fun y => ?_
  simp [sink, Multilevel.bdf2Res0, LForm.labelMap, LForm.eval, isTD, Term.has, replaceSubject, keep, drop, scaleTerm, LForm.sub,
    LForm.add, LForm.smul, allTerms, Term.eval]

end ignored

/-! ### Wrappers -/

section wrappers
variable {K X D : Type*} [Field K] [AddCommGroup X] [Module K X] [AddCommGroup D] [Module K D]

/-- C138 with a wrapper: the limiter acts in the embedding space, so the field the user gets is the image of a limited field under
the transfer back. -/
theorem C138_wrapped_partial {V : Type*} (f : Formulation) (S : RKScheme K X D) (L : X → X) (hL : S.limiter = some L) (hs : 0 < S.nStages)
    (n : ℕ) (hn : 0 < n) (st : RKState X) (lift : V → X) (back : X → V) (other : V → V) (x : V) :
    ∃ y, Wrap.applySingle none (some (lift, back)) other (RK.apply f S n st) x = back (L y) := by
  obtain ⟨y, hy⟩ := C138_explicit f S L hL hs n hn st (lift x)
  exact ⟨y, by simp only [Wrap.applySingle, hy]⟩

/-- A field that is linear on each of two cells of length one, given by its four values at the ends. -/
abbrev DG1 := Fin 2 → Fin 2 → ℚ
/-- A continuous field that is linear on each of the two cells, given by its values at the three vertices. -/
abbrev CG1 := Fin 3 → ℚ

/-- The integral of the product of two linear functions over a cell of length one. -/
def cellInt (p q : Fin 2 → ℚ) : ℚ := (2 * p 0 * q 0 + p 0 * q 1 + p 1 * q 0 + 2 * p 1 * q 1) / 6

/-- A continuous field as a field on cells. -/
def embed (p : CG1) : DG1 := fun c v => if c = 0 then (if v = 0 then p 0 else p 1) else (if v = 0 then p 1 else p 2)

/-- The `L²` inner product. -/
def inner2 (p q : DG1) : ℚ := cellInt (p 0) (q 0) + cellInt (p 1) (q 1)

/-- Clipping at zero at every node: the limiter of an embedded-DG1 scheme. -/
def clipDG (q : DG1) : DG1 := fun c v => max 0 (q c v)

/-- `q' = 1` in the second cell, `0` in the first. -/
def jumpR : LForm DG1 DG1 :=
  [ { labels := [.timeDerivative], op := fun x => x, subj := 0 },
    { labels := [], op := fun _ => fun c _ => if c = 0 then 0 else -1, subj := 0 } ]

/-- Forward Euler with step one and the clipping limiter. -/
noncomputable def jumpScheme : RKScheme ℚ DG1 DG1 where
  R := jumpR
  A := fun _ _ => 1
  nStages := 1
  dt := 1
  originalDt := 1
  limiter := some clipDG
  nphys := 0
  evals := fun _ x _ => x
  solve := choiceSolve

/-- C138 refuted with a wrapper: an embedded scheme whose limiter clips at zero, with the `L²` projection back to the continuous
space, returns the negative value `-1/4` although its field started at zero and its forcing is not negative. -/
theorem C138_wrapped_refuted (back : DG1 → CG1) (hback : ∀ q v, inner2 (embed (back q)) (embed v) = inner2 q (embed v))
    (other : CG1 → CG1) (st : RKState DG1) :
    (∀ q c v, 0 ≤ clipDG q c v) ∧
    Wrap.applySingle none (some (embed, back)) other (RK.apply .increment jumpScheme 1 st) 0 = ![-1/4, 1/2, 5/4] := by
  refine ⟨fun q c v => le_max_left _ _, ?_⟩
  have hset : Setting jumpScheme (LinearEquiv.refl ℚ DG1) :=
    ⟨fun x => by simp [mass, part, jumpScheme, jumpR], choiceSolve_exact, by simp [jumpScheme]⟩
  have hstep : RK.apply .increment jumpScheme 1 st (embed 0) = fun c _ => if c = 0 then 0 else 1 := by
    rw [C02_increment_limited jumpScheme _ hset (by simp [jumpScheme, jumpR]) 1 one_pos, Function.iterate_one]
    have hl : ∀ y, limit jumpScheme y = clipDG y := fun y => rfl
    have hs : jumpScheme.nStages = 1 := rfl
    simp only [hl, textbook, rkStep, hs, Finset.sum_range_one]
    rw [rkK]
    funext c v
    have hf : ∀ y, tendency jumpScheme.R (LinearEquiv.refl ℚ DG1) y = fun c _ => if c = 0 then 0 else 1 := by
      intro y; funext c v
      simp only [tendency, LinearEquiv.refl_symm, LinearEquiv.refl_apply]
      simp [rest, part, jumpScheme, jumpR]
      split <;> simp
    rw [hf]
    have e0 : clipDG (embed 0) = 0 := by funext c v; simp [clipDG, embed]
    rw [e0]
    simp [clipDG, jumpScheme, weights]
    split <;> simp
  simp only [Wrap.applySingle, hstep]
  have h := hback (fun c _ => if c = 0 then 0 else 1)
  generalize back (fun c _ => if c = 0 then 0 else 1) = p at h ⊢
  have h0 := h ![1, 0, 0]
  have h1 := h ![0, 1, 0]
  have h2 := h ![0, 0, 1]
  simp [inner2, cellInt, embed] at h0 h1 h2
  funext i
  fin_cases i <;> simp <;> linarith

/-- the projection exists -/
example : ∃ back : DG1 → CG1, ∀ q v, inner2 (embed (back q)) (embed v) = inner2 q (embed v) := by
  let b0 : DG1 → ℚ := fun q => (2 * q 0 0 + q 0 1) / 6
  let b1 : DG1 → ℚ := fun q => (q 0 0 + 2 * q 0 1 + 2 * q 1 0 + q 1 1) / 6
  let b2 : DG1 → ℚ := fun q => (q 1 0 + 2 * q 1 1) / 6
  refine ⟨fun q => ![(6 * b0 q - (2 * b1 q - b0 q - b2 q)) / 2, 2 * b1 q - b0 q - b2 q, (6 * b2 q - (2 * b1 q - b0 q - b2 q)) / 2],
    fun q v => ?_⟩
  simp [inner2, cellInt, embed, b0, b1, b2]
  ring

end wrappers

/-! ### Physics sources in the increment formulation -/

/-- Heun's scheme for `x' + s(x) = 0` with the clipping limiter and the physics scheme `e`. -/
noncomputable def sourced (e : ℚ → ℚ) : RKScheme ℚ ℚ ℚ where
  R := [ { labels := [.timeDerivative], op := fun x => 2 * x, subj := 0 },
         { labels := [.source, .physics 0], op := fun s => 2 * s, subj := 0 } ]
  A := fun i j => if i = 0 then (if j = 0 then 1 else 0) else 1 / 2
  nStages := 2
  dt := 1
  originalDt := 1
  limiter := some clip
  nphys := 1
  evals := fun _ x _ => e x
  solve := choiceSolve

theorem sourced_setting (e : ℚ → ℚ) : Setting (sourced e) twice where
  mass_eq := fun x => by simp [mass, part, sourced, twice]
  exact := choiceSolve_exact
  stages := by simp [sourced]

theorem sourced_step (e : ℚ → ℚ) (st : RKState ℚ) : RK.apply .increment (sourced e) 1 st 0 =
    clip (-(e 0) / 2 - e (-(e 0)) / 2) := by
  have hl : ∀ y, limit (sourced e) y = clip y := fun y => rfl
  have hc : clip 0 = 0 := by simp [clip]
  have hf : ∀ src y, incF (sourced e) twice src y = -(e y) := by
    intro src y
    rw [incF, LinearEquiv.symm_apply_eq]
    simp [restNoSource, part, sourcePart, sourced, evalSources, Term.physIdx, twice]
  have hcyc := (inc_cycle (sourced e) twice (sourced_setting e) 1 0 { st with x0 := 0 }).2
  have : RK.apply .increment (sourced e) 1 st 0 = (applyCycle .increment (sourced e) 1 0 { st with x0 := 0 }).x1 := rfl
  rw [this, hcyc]
  simp only [hl, hc]
  congr 1
  have hk0 : rkK (stageCoeffs (sourced e).A) (incF (sourced e) twice st.src) (sourced e).dt 0 0 = -(e 0) := by
    rw [rkK, hf]; simp
  have hk1 : rkK (stageCoeffs (sourced e).A) (incF (sourced e) twice st.src) (sourced e).dt 0 1 = -(e (-(e 0))) := by
    rw [rkK, hf]
    simp [hk0]
    simp [sourced, stageCoeffs]
  have hs : (sourced e).nStages = 2 := rfl
  rw [textbook, rkStep, hs]
  simp only [Finset.sum_range_succ, Finset.sum_range_zero, hk0, hk1]
  simp [sourced, weights]; ring

/-- C138 refuted for physics in the increment formulation (the default): a physics scheme is evaluated on the stage field *before*
it is limited (explicit_runge_kutta.py 326-329), so two physics schemes that agree on every field the limiter lets through give
different results. -/
theorem C138_sources_refuted : ∃ e e' : ℚ → ℚ, (∀ y, e (clip y) = e' (clip y)) ∧
    ∀ st, RK.apply .increment (sourced e) 1 st 0 = 2 ∧ RK.apply .increment (sourced e') 1 st 0 = 4 ∧
      RK.apply .predictor (sourced e) 1 st 0 = RK.apply .predictor (sourced e') 1 st 0 := by
  refine ⟨fun x => if x < 0 then -5 else 1, fun x => if x < 0 then -9 else 1, fun y => ?_, fun st => ⟨?_, ?_, ?_⟩⟩
  · have : ¬ clip y < 0 := not_lt.2 (le_max_left _ _)
    simp [this]
  · rw [sourced_step]; norm_num [clip]
  · rw [sourced_step]; norm_num [clip]
  · refine C138_predictor_sources (sourced _) clip rfl (fun _ x _ => if x < 0 then -9 else 1) (fun j y dt => ?_) 1 st 0
    have : ¬ clip y < 0 := not_lt.2 (le_max_left _ _)
    simp [sourced, this]

/-! ### Non-vacuity -/

/-- the hypotheses of `C138_explicit` are met, in each formulation, and the limiter is active: without it the value is `-1` -/
example (f : Formulation) (st : RKState ℚ) : ∃ y, RK.apply f (sourced fun _ => 1) 3 st 0 = clip y :=
  C138_explicit f _ clip rfl (by simp [sourced]) 3 (by norm_num) st 0

example (st : RKState ℚ) : RK.apply .increment (sourced fun _ => 1) 1 st 0 = 0 := by
  rw [sourced_step]; norm_num [clip]

/-- `C138_inactive` for every SSP scheme of upwind transport on the half line (C115) with a limiter that clips to `[0, 1]`:
the convex set is the set of fields with values in `[0, 1]`. -/
example {o : Option Table} {r : ℚ} (h : SSPCoeff o r) {t : Table} (ht : o = some t) (dt : ℚ) (h0 : 0 ≤ dt) (h1 : dt ≤ r)
    (n : ℕ) (hn : 0 < n) (st st' : RKState (ℕ → ℚ)) :
    RK.apply .increment { halfLine t dt with limiter := some fun y i => max 0 (min 1 (y i)) } n st pulse =
      RK.apply .increment (halfLine t dt) n st' pulse := by
  obtain ⟨t', e, hr, hs, _⟩ := table_ok h
  obtain rfl : t = t' := Option.some.inj (ht.symm.trans e)
  refine (C138_inactive h ht { halfLine t dt with limiter := some fun y i => max 0 (min 1 (y i)) } ⟨fun _ _ => rfl, rfl⟩
    (LinearEquiv.refl ℚ (ℕ → ℚ)) (halfLine_setting t hs dt).mass_eq choiceSolve_exact (by simp [halfLine, upwindR]) _ rfl
    {y | ∀ i, 0 ≤ y i ∧ y i ≤ 1} ?_ ?_ ?_ n hn st st' pulse ?_).1
  · intro x hx y hy a b ha hb hab i
    have h1 := hx i
    have h2 := hy i
    simp only [Pi.add_apply, Pi.smul_apply, smul_eq_mul]
    constructor <;> nlinarith
  · show EulerKeeps (tendency (halfLine t dt).R (LinearEquiv.refl ℚ (ℕ → ℚ))) (dt / r) _
    rw [halfLine_tendency]
    exact halfLine_euler _ (div_nonneg h0 (by exact_mod_cast hr.le))
      ((div_le_one (by exact_mod_cast hr)).2 (by exact_mod_cast h1))
  · intro y hy
    funext i
    rw [min_eq_right (hy i).2, max_eq_right (hy i).1]
  · intro i; unfold pulse; split <;> norm_num

/-- `C138_sdc`, `C138_ridc`, `C138_parallel_sdc`: schemes with an active limiter -/
example (st : SDC.State ℚ ℚ) (S : SDC.Scheme ℚ ℚ ℚ) (hM : S.M = 3) (hk : S.maxk = 2) (x : ℚ) :
    0 ≤ (SDC.apply { S with limiter := some clip } st x).2 := by
  obtain ⟨y, hy⟩ := C138_sdc { S with limiter := some clip } clip rfl (by simp [hM]) (by simp [hk]) st x
  rw [hy]; exact le_max_left _ _

example (S : RIDC.Scheme ℚ ℚ ℚ) (hM : S.M = 4) (hk : S.Kc = 2) (st : RIDC.State ℚ ℚ) (x : ℚ) :
    ∃ st' x', RIDC.apply { S with limiter := some clip } st x = some (st', x') ∧ 0 ≤ x' := by
  have : RIDC.apply { S with limiter := some clip } st x ≠ none := by simp [RIDC.apply, hM, hk]
  obtain ⟨⟨st', x'⟩, h⟩ := Option.ne_none_iff_exists'.1 this
  obtain ⟨y, hy⟩ := C138_ridc { S with limiter := some clip } clip rfl (by simp [hM]) (by simp [hk]) st st' x x' h
  exact ⟨st', x', h, by rw [hy]; exact le_max_left _ _⟩

/-- two ranks or more, three sweeps, final update, any number of time steps and schedule -/
example (M N n : ℕ) (hM : 0 < M) (hN : 0 < N) (c : MPI.Config (ParallelSDC.RState ℚ ℚ) ℚ)
    (h : MPI.Steps n (MPI.initial (ParallelSDC.runProg { ParallelSDCProps.exP M with limiter := some clip } (fun _ x => x) N)
      fun _ => ⟨ParallelSDCProps.exPSt, 0, 5⟩) c) (hd : MPI.Done c) (r : ℕ) (hr : r < M) : ∃ y, (c.st r).xOut = clip y :=
  have hD := ParallelSDCProps.exDiag M
  C138_parallel_sdc { ParallelSDCProps.exP M with limiter := some clip } clip rfl hM (by simp [ParallelSDCProps.exP])
    ParallelSDCProps.exPSt ⟨hD.z2n, hD.exact, hD.qiDiag, hD.qeDiag, hD.massInv, hD.nodeInv, hD.src⟩ 5 (fun _ x => x) _
    (fun _ _ => ⟨rfl, rfl⟩) N n hN c h hd r hr

/-- three ranks, two corrections -/
example (N n : ℕ) (hN : 0 < N) (c : MPI.Config (ParallelRIDC.RState ℚ ℚ) ℚ)
    (h : MPI.Steps n (MPI.initial (ParallelRIDC.runProg { RIDCProps.exS SDCProps.exR [] with limiter := some clip } ⟨N, 1⟩
      (fun _ x => x) N) fun _ => ⟨ParallelRIDCProps.exSt, 5⟩) c) (hd : MPI.Done c) (r : ℕ) (hr : r < 3) :
    ∃ y, (c.st r).xOut = clip y :=
  have hP := ParallelRIDCProps.exPlain
  C138_parallel_ridc_partial { RIDCProps.exS SDCProps.exR [] with limiter := some clip } clip rfl
    ⟨hP.reduced, hP.exact, hP.noSrc, hP.massInv, hP.nodeInv⟩ ⟨N, 1⟩ rfl 3 (by decide) (by decide) _ 5 ParallelRIDCProps.exSt _
    (fun _ _ => rfl) N n hN c h hd r hr

end Gusto.Props.LimitedSchemesProps
