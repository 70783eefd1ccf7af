import Verif.Model.DeferredInit
import Verif.Lemmas.DCConvergence
import Verif.Props.DeferredCorrection
import Verif.Props.StageConvergence
import Mathlib.LinearAlgebra.Lagrange
import Mathlib.Topology.Algebra.Polynomial
import Mathlib.Analysis.SpecialFunctions.Integrals.Basic

set_option autoImplicit false
set_option linter.unusedSectionVars false
set_option linter.unusedSimpArgs false

/-!
# C126: spectral deferred correction converges
-/

namespace Gusto.Props.DCConvergenceProps
open Gusto LForm TimeDisc Spec Finset Gusto.Props Gusto.Convergence
open Gusto.Props.StageConvergenceProps (rhs rhs_eq stage_unique)
open Gusto.Props.ConvergenceProps (sineM)

variable {E D : Type*} [NormedAddCommGroup E] [NormedSpace ℝ E] [AddCommGroup D] [Module ℝ D]

/-- The equations of the nodes have exactly one solution if the timestep is small, whatever the sign of the coefficient. -/
theorem node_unique [CompleteSpace E] {m F : E → D} (M : E ≃ₗ[ℝ] D) (hM : ∀ x, m x = M x) {L : ℝ} (hf : Lip (rhs M F) L) {c : ℝ}
    (hcL : |c| * L ≤ 1 / 2) (k : D) : ∃! y, m y + c • F y = k := by
  rcases le_total 0 c with hc | hc
  · rw [abs_of_nonneg hc] at hcL
    exact stage_unique M hM hf hc hcL k
  · rw [abs_of_nonpos hc] at hcL
    have hf' : Lip (rhs M fun x => -F x) L := by
      refine ⟨hf.1, fun x y => ?_⟩
      have := hf.2 y x
      rw [norm_sub_rev y x] at this
      refine le_trans (le_of_eq ?_) this
      congr 1
      simp [rhs]
      abel
    have := stage_unique M hM hf' (c := -c) (by linarith) hcL k
    simpa using this

section sdc
open SDC SDCProps

/-! ### The state of the scheme -/

theorem solvers_rhs (S : Scheme ℝ E D) (st : State ℝ E) (n : ℕ) : ((List.range n).foldl (rhsBody S) st).solvers = st.solvers := by
  induction n with
  | zero => rfl
  | succ n ih =>
    rw [List.range_succ, List.foldl_append, List.foldl_cons, List.foldl_nil, ← ih]
    rfl

theorem solvers_fin (S : Scheme ℝ E D) (st : State ℝ E) (n : ℕ) : ((List.range n).foldl (finBody S) st).solvers = st.solvers := by
  induction n with
  | zero => rfl
  | succ n ih =>
    rw [List.range_succ, List.foldl_append, List.foldl_cons, List.foldl_nil, ← ih]
    rfl

theorem solvers_node (S : Scheme ℝ E D) (qi : ℕ → ℕ → ℝ) (st : State ℝ E) (n : ℕ) :
    ((List.range n).foldl (nodeBody S qi) st).solvers = st.solvers := by
  induction n with
  | zero => rfl
  | succ n ih =>
    rw [List.range_succ, List.foldl_append, List.foldl_cons, List.foldl_nil, ← ih]
    simp only [nodeBody]
    split <;> rfl

theorem solvers_copy (st : State ℝ E) (n : ℕ) : ((List.range n).foldl (fun (st : State ℝ E) i =>
    { st with U := Function.update st.U (i + 1) (st.U1 (i + 1)),
              sU := Function.update st.sU (i + 1) (st.sU1 (i + 1)) }) st).solvers = st.solvers := by
  induction n with
  | zero => rfl
  | succ n ih => rw [List.range_succ, List.foldl_append, List.foldl_cons, List.foldl_nil, ← ih]

theorem solvers_sweep (S : Scheme ℝ E D) (qi : ℕ → ℕ → ℝ) (st : State ℝ E) (k : ℕ) : (sweep S qi st k).solvers = st.solvers := by
  unfold sweep
  rw [solvers_copy, solvers_node]
  show (computeQuad S _).solvers = _
  show ((List.range S.M).foldl (rhsBody S) _).solvers = _
  rw [solvers_rhs]
  split <;> rfl

theorem solvers_apply (S : Scheme ℝ E D) (st : State ℝ E) (x : E) :
    (SDC.apply S st x).1.solvers = some (st.solvers.getD st.qdeltaImp) := by
  obtain ⟨-, -, -, a4, -⟩ := start_spec S st x
  have h : ∀ k, (sweeps S (start S st x) k).solvers = some (st.solvers.getD st.qdeltaImp) := by
    intro k
    induction k with
    | zero => exact a4
    | succ k ih => rw [sweeps_succ, solvers_sweep, ih]
  unfold SDC.apply finish
  split
  · split
    · show ((List.range S.M).foldl (finBody S) _).solvers = _
      rw [solvers_fin, h]
    · exact h _
  · exact h _

/-- The matrix of the implicit solvers is that of the first step, in all steps. -/
theorem solvers_steps (S : Scheme ℝ E D) (st : State ℝ E) (x : E) (N : ℕ) :
    (steps S N (st, x)).1.solvers.getD (steps S N (st, x)).1.qdeltaImp = st.solvers.getD st.qdeltaImp := by
  induction N with
  | zero => rfl
  | succ N ih =>
    show ((SDC.apply S (steps S N (st, x)).1 (steps S N (st, x)).2).1.solvers.getD _) = _
    rw [solvers_apply, Option.getD_some, ih]

/-- The initial guess on the nodes. -/
theorem start_nodes (S : Scheme ℝ E D) (st : State ℝ E) (x : E) :
    (S.baseFlag = true → ∀ m < S.M, nodes S st x 0 (m + 1) = S.base (S.dtau m) (nodes S st x 0 m)) ∧
    (S.baseFlag = false → ∀ m ≤ S.M, nodes S st x 0 m = x) := by
  have src : ∀ (s : State ℝ E) (n : ℕ), ((List.range n).foldl (fun (st : State ℝ E) m =>
        { st with sU := Function.update st.sU m (evalSrc S st.baseDt (st.U m) (st.sU m)) }) s).U = s.U := by
    intro s n
    induction n with
    | zero => rfl
    | succ n ih => rw [List.range_succ, List.foldl_append, List.foldl_cons, List.foldl_nil]; exact ih
  have e : nodes S st x 0 = (start S st x).U := rfl
  constructor
  · intro hb m hm
    rw [e]
    simp only [start, src, hb, if_true]
    have loop : ∀ (s : State ℝ E) (n : ℕ), ∀ m < n, ((List.range n).foldl (fun (st : State ℝ E) m =>
          { st with baseDt := S.dtau m, U := Function.update st.U (m + 1) (S.base (S.dtau m) (st.U m)) }) s).U (m + 1)
        = S.base (S.dtau m) (((List.range n).foldl (fun (st : State ℝ E) m =>
          { st with baseDt := S.dtau m, U := Function.update st.U (m + 1) (S.base (S.dtau m) (st.U m)) }) s).U m) := by
      intro s n
      induction n with
      | zero => intro m hm; omega
      | succ n ih =>
        intro m hm
        rw [List.range_succ, List.foldl_append, List.foldl_cons, List.foldl_nil]
        by_cases hmn : m = n
        · subst hmn
          exact (Function.update_self _ _ _).trans (congrArg (S.base (S.dtau m)) (Function.update_of_ne (by omega) _ _).symm)
        · exact (Function.update_of_ne (by omega) _ _).trans ((ih m (by omega)).trans
            (congrArg (S.base (S.dtau m)) (Function.update_of_ne (by omega) _ _).symm))
    exact loop _ S.M m hm
  · intro hb m hm
    rw [e]
    simp only [start, src, hb, Bool.false_eq_true, if_false]
    have loop : ∀ (s : State ℝ E), s.U 0 = x ∧ s.un = x → ∀ n, (∀ m ≤ n, ((List.range n).foldl (fun (st : State ℝ E) m =>
          { st with U := Function.update st.U (m + 1) st.un }) s).U m = x) ∧
        ((List.range n).foldl (fun (st : State ℝ E) m =>
          { st with U := Function.update st.U (m + 1) st.un }) s).un = x := by
      intro s hs0 n
      induction n with
      | zero => exact ⟨fun m hm => by obtain rfl : m = 0 := by omega
                                      exact hs0.1, hs0.2⟩
      | succ n ih =>
        rw [List.range_succ, List.foldl_append, List.foldl_cons, List.foldl_nil]
        refine ⟨fun m hm => ?_, ih.2⟩
        by_cases hmn : m = n + 1
        · subst hmn
          exact (Function.update_self _ _ _).trans ih.2
        · exact (Function.update_of_ne hmn _ _).trans (ih.1 m (by omega))
    exact (loop _ (by simp) S.M).1 m hm

/-- A sweep, without the mass operator. -/
theorem sweepEq_of {z2n : Bool} {Q qi qe q qi' qe' : ℕ → ℕ → ℝ} {n : ℕ} {m I G : E → D} (M : E ≃ₗ[ℝ] D) (hM : ∀ x, m x = M x) {h : ℝ}
    (h1 : ∀ i k, Q i k = h * q i k) (h2 : ∀ i k, qi i k = h * qi' i k) (h3 : ∀ i k, qe i k = h * qe' i k) {U V : ℕ → E}
    (hs : IsSweep z2n Q qi qe n m I G U V) : SweepEq z2n q qi' qe' n (rhs M I) (rhs M G) h U V := by
  refine ⟨hs.1, fun i hi => ?_⟩
  have e := hs.2 i hi
  rw [hM, hM] at e
  rw [← M.injective.eq_iff, e]
  simp only [rhs_eq M I, rhs_eq M G, h1, h2, h3, map_add, map_sub, map_smul, map_sum, smul_add, smul_neg, smul_sub,
    Finset.sum_neg_distrib, Finset.sum_add_distrib, Finset.sum_sub_distrib]
  abel

/-! ### Convergence -/

/-- What is needed of the equation and of the options of the scheme: the solver solves, the terms are labelled, the mass operator `M`
is invertible, there is no limiter, and the physics sources make up the tendency `G`, which does not depend on the timestep. -/
structure Usable (c : Config ℝ E D) (M : E ≃ₗ[ℝ] D) (G : E → D) : Prop where
  exact : ExactSolver c.solve
  clean : TDClean c.R
  one : ExactlyOneKind c.R
  mass : ∀ x, mass c.R x = M x
  noLimiter : c.limiter = none
  src : ∀ dt x out, srcPart c.R (c.evaluate.foldl (fun _ e => e dt x) out) = G x
  lower : ∀ m i, m ≤ i → i < c.M → c.Qe m i = 0

/-- The nodes with the start of the step in front. -/
def withZero (nodes : ℕ → ℝ) (m : ℕ) : ℝ := if m = 0 then 0 else nodes (m - 1)

/-- The order of the local error of the initial guess: 1 for a copy of the old state; `b + 1` for a base scheme that, at each node, takes
the step that it is told and is of order `b`; 1 for a base scheme that takes steps of some other size, as do those whose solver holds the
timestep of the first node, if its steps are no larger than a multiple of the timestep. -/
inductive GuessOrder (c : Config ℝ E D) (y : ℝ → E) (T : ℝ) : ℕ → Prop
  | copy : c.initialGuess ≠ "base" → GuessOrder c y T 1
  | base (b : ℕ) (φ : ℝ → E → E) : c.initialGuess = "base" →
      (∀ h, ∀ m < c.M, c.base (h * c.nodes 0) (h * (withZero c.nodes (m + 1) - withZero c.nodes m))
        = φ (h * (withZero c.nodes (m + 1) - withZero c.nodes m))) →
      AccurateAlong φ y T b → GuessOrder c y T (b + 1)
  | captured : c.initialGuess = "base" → ModerateSteps c.base y T → GuessOrder c y T 1

/-- The base scheme of the first guess. -/
theorem base_eq (c : Config ℝ E D) (h : ℝ) (m : ℕ) : (init c h).base ((init c h).dtau m)
    = c.base (h * c.nodes 0) (h * (withZero c.nodes (m + 1) - withZero c.nodes m)) := by
  show c.base (diffNodes (fun m => h * c.nodes m) 0) (diffNodes (fun m => h * c.nodes m) m) = _
  congr 1
  · simp [diffNodes]
  · cases m <;> (simp [diffNodes, withZero]; try ring)

variable [CompleteSpace E]

theorem usable_good {c : Config ℝ E D} {M : E ≃ₗ[ℝ] D} {G : E → D} (hc : Usable c M G) {L : ℝ} (hf : Lip (rhs M (implPart c.R)) L) :
    ∃ H, 0 < H ∧ ∀ h, 0 ≤ h → h ≤ H → ∀ dt, Good (init c h) (fun m i => h * c.Qi m i) dt G := by
  obtain ⟨A, A0, hA⟩ := entries_bdd c.Qi c.M
  have hL := hf.1
  have hp : 0 < 2 * (A * L) + 1 := by positivity
  refine ⟨(2 * (A * L) + 1)⁻¹, by positivity, fun h hh hH dt => ⟨hc.exact, hc.clean, hc.one, ⟨fun x y => ?_, fun a x => ?_⟩, fun d => ?_,
    fun m hm d => ?_, hc.noLimiter, fun x out => hc.src dt x out⟩⟩
  · show mass c.R _ = mass c.R _ + mass c.R _
    rw [hc.mass, hc.mass, hc.mass, map_add]
  · show mass c.R _ = a • mass c.R _
    rw [hc.mass, hc.mass, map_smul]
  · refine ⟨M.symm d, ?_, fun y hy => ?_⟩
    · show mass c.R _ = d
      rw [hc.mass]; simp
    · have hy : mass c.R y = d := hy
      rw [hc.mass] at hy
      rw [← hy]; simp
  · refine node_unique M hc.mass hf ?_ d
    have h1 : h * (2 * (A * L) + 1) ≤ 1 := by
      calc h * (2 * (A * L) + 1) ≤ (2 * (A * L) + 1)⁻¹ * (2 * (A * L) + 1) := mul_le_mul_of_nonneg_right hH hp.le
        _ = 1 := inv_mul_cancel₀ hp.ne'
    have h2 : |h * c.Qi m m| * L ≤ h * A * L := by
      rw [abs_mul, abs_of_nonneg hh]
      have := hA m hm m hm
      gcongr
    nlinarith

/-- The errors at the nodes after the sweeps of a step. -/
theorem nodes_error {c : Config ℝ E D} {M : E ≃ₗ[ℝ] D} {G : E → D} (hc : Usable c M G) {p r : ℕ}
    (hn : NodesOK (withZero c.nodes) c.M) (hq : IntegratesNodes (c.formulation == "Z2N") (withZero c.nodes) c.Q c.M p)
    {L L' : ℝ} (hf : Lip (rhs M (implPart c.R)) L) (hg : Lip (rhs M fun x => explPart c.R x + G x) L')
    (hF : ContDiff ℝ p fun x => rhs M (implPart c.R) x + rhs M (fun x => explPart c.R x + G x) x)
    {y : ℝ → E} {T : ℝ} (hT : 0 < T) (hy : IsSol (fun x => rhs M (implPart c.R) x + rhs M (fun x => explPart c.R x + G x) x) y T)
    (hr : GuessOrder c y T r) :
    ∃ H C, 0 < H ∧ H ≤ 1 ∧ 0 ≤ C ∧ ∀ h t, 0 ≤ h → h ≤ H → 0 ≤ t → t + h ≤ T → ∀ (st : State ℝ E) (x : E),
      (st.solvers.getD st.qdeltaImp = fun m i => h * c.Qi m i) →
      (∀ dt, Good (init c h) (fun m i => h * c.Qi m i) dt G) ∧
      ∀ m ≤ c.M, ‖nodes (init c h) st x c.maxk m - y (t + withZero c.nodes m * h)‖
        ≤ (1 + h * C) * ‖x - y t‖ + C * h ^ (r + c.maxk) + C * h ^ (p + 1) := by
  obtain ⟨H1, H10, hgood⟩ := usable_good hc hf
  have guess : ∃ H c0, 0 < H ∧ 0 ≤ c0 ∧ ∀ h t, 0 ≤ h → h ≤ 1 → h ≤ H → 0 ≤ t → t + h ≤ T → ∀ (st : State ℝ E) (x : E),
      (nodes (init c h) st x 0 0 = x) → ∀ m ≤ c.M, ‖nodes (init c h) st x 0 m - y (t + withZero c.nodes m * h)‖ ≤
        (1 + h * c0) * ‖nodes (init c h) st x 0 0 - y t‖ + c0 * h ^ r := by
    cases hr with
    | copy hb =>
      obtain ⟨B, B0, hB⟩ := copy_guess (hf.add hg) hy hn
      refine ⟨1, B, one_pos, B0, fun h t hh h1 _ ht htT st x hx m hm => ?_⟩
      have hfl : (init c h).baseFlag = false := by simp [init, hb]
      rw [(start_nodes (init c h) st x).2 hfl m hm, hx]
      have := hB h t hh ht htT x m hm
      have e : 0 ≤ h * B * ‖x - y t‖ := by positivity
      rw [pow_one]
      linarith
    | base b φ hb hφ hacc =>
      obtain ⟨H, C, H0, C0, hC⟩ := base_guess hacc hn
      refine ⟨H, C, H0, C0, fun h t hh h1 hH ht htT st x hx m hm => ?_⟩
      have hfl : (init c h).baseFlag = true := by simp [init, hb]
      refine hC h t hh h1 hH ht htT (nodes (init c h) st x 0) (fun m hm => ?_) m hm
      rw [(start_nodes (init c h) st x).1 hfl m hm]
      rw [← hφ h m hm]
      exact congrFun (base_eq c h m) _
    | captured hb hmod =>
      obtain ⟨H, C, H0, C0, hC⟩ := captured_guess (hf.add hg) hy hmod hn (a := if 0 < c.M then c.nodes 0 else 0)
        (by split <;> [exact hn.nonneg 1 (by omega); exact le_rfl]) (by split <;> [exact hn.le_one 1 (by omega); exact zero_le_one])
      refine ⟨H, C, H0, C0, fun h t hh h1 hH ht htT st x hx m hm => ?_⟩
      have hfl : (init c h).baseFlag = true := by simp [init, hb]
      rw [pow_one]
      refine hC h t hh h1 hH ht htT (nodes (init c h) st x 0) (fun m hm => ?_) m hm
      have hm : m < c.M := hm
      rw [(start_nodes (init c h) st x).1 hfl m hm, if_pos (by omega : 0 < c.M)]
      exact congrFun (base_eq c h m) _
  obtain ⟨H2, c0, H20, c00, hguess⟩ := guess
  obtain ⟨H3, C, H30, H31, C0, hC⟩ := dc_step (qi := c.Qi) (qe := c.Qe) hn hq hf hg hF hT hy r c.maxk c00
  refine ⟨min H1 (min H2 H3), C, by positivity, (min_le_right _ _).trans ((min_le_right _ _).trans H31), C0,
    fun h t hh hH ht htT st x hst => ?_⟩
  have hH1 := hH.trans (min_le_left _ _)
  have hH2 := hH.trans ((min_le_right _ _).trans (min_le_left _ _))
  have hH3 := hH.trans ((min_le_right _ _).trans (min_le_right _ _))
  refine ⟨hgood h hh hH1, fun m hm => ?_⟩
  have sw := fun k => C24_apply_sweeps (init c h) st x G (by rw [hst]; exact hgood h hh hH1 _) (fun m i h1 h2 => by
    show h * c.Qe m i = 0
    rw [hc.lower m i h1 h2, mul_zero]) k
  have hx := (sw 0).1
  have := hC h t hh hH3 ht htT (nodes (init c h) st x) (fun m hm => hguess h t hh (hH3.trans H31) hH2 ht htT st x hx m hm)
    (fun j _ => by
      have s := (sw j).2
      rw [hst] at s
      exact sweepEq_of M hc.mass (fun _ _ => rfl) (fun _ _ => rfl) (fun _ _ => rfl) s) m hm
  rwa [hx] at this

theorem pow_le_of_le {h : ℝ} (hh : 0 ≤ h) (h1 : h ≤ 1) {a b : ℕ} (hab : a ≤ b) : h ^ b ≤ h ^ a := pow_le_pow_of_le_one hh h1 hab

/-- C126: SDC without the final update, or without sweeps, converges.  Let the last node be the end of the step, let the matrix
integrate the polynomials of degree less than `p` exactly, and let the initial guess have a local error of the order `r` (1 for a copy,
`b + 1` for a base scheme of order `b` that takes the steps from node to node, 1 if it takes other steps).  Then the error of a run with `k` sweeps at any time up to `T` is at most a constant times the
timestep to the power `min (r + k - 1) p`: each sweep gains an order, up to the order of the quadrature. -/
theorem C126_last_node {c : Config ℝ E D} {M : E ≃ₗ[ℝ] D} {G : E → D} (hc : Usable c M G) {p r : ℕ}
    (hn : NodesOK (withZero c.nodes) c.M) (hq : IntegratesNodes (c.formulation == "Z2N") (withZero c.nodes) c.Q c.M p)
    (hfin : c.finalUpdate = false ∨ c.maxk = 0) (hend : withZero c.nodes c.M = 1)
    {L L' : ℝ} (hf : Lip (rhs M (implPart c.R)) L) (hg : Lip (rhs M fun x => explPart c.R x + G x) L')
    (hF : ContDiff ℝ p fun x => rhs M (implPart c.R) x + rhs M (fun x => explPart c.R x + G x) x)
    {y : ℝ → E} {T : ℝ} (hT : 0 < T) (hy : IsSol (fun x => rhs M (implPart c.R) x + rhs M (fun x => explPart c.R x + G x) x) y T)
    (hr : GuessOrder c y T r) :
    ∃ H C, 0 < H ∧ ∀ h, 0 ≤ h → h ≤ H → ∀ N : ℕ, N * h ≤ T →
      ‖(steps (init c h) N (fresh c h, y 0)).2 - y (N * h)‖ ≤ C * h ^ min (r + c.maxk - 1) p := by
  obtain ⟨H, C, H0, H1, C0, hC⟩ := nodes_error hc hn hq hf hg hF hT hy hr
  have r1 : 1 ≤ r := by cases hr <;> omega
  refine ⟨H, Real.exp (T * C) * (T * (C + C)), H0, fun h hh hH N hN => ?_⟩
  refine seq_global (x := fun n => (steps (init c h) n (fresh c h, y 0)).2) (lam := C) (D := C + C) C0 (by positivity) hh N hN rfl
    fun n hn => ?_
  obtain ⟨g, e⟩ := hC h (n * h) hh hH (by positivity) (step_le hh hn hN) (steps (init c h) n (fresh c h, y 0)).1
    (steps (init c h) n (fresh c h, y 0)).2 (solvers_steps (init c h) (fresh c h) (y 0) n)
  have res := (C24_apply_result (init c h) (steps (init c h) n (fresh c h, y 0)).1 (steps (init c h) n (fresh c h, y 0)).2 G
    (by rw [solvers_steps]; exact g _) (fun m i h1 h2 => by
      show h * c.Qe m i = 0
      rw [hc.lower m i h1 h2, mul_zero])).1 hfin.symm
  have e := e c.M le_rfl
  rw [hend, one_mul] at e
  show ‖(SDC.apply (init c h) _ _).2 - y (n * h + h)‖ ≤ _
  rw [res]
  refine e.trans ?_
  have h1 : h ≤ 1 := hH.trans H1
  have p1 : h ^ (r + c.maxk) ≤ h ^ (min (r + c.maxk - 1) p + 1) := pow_le_of_le hh h1 (by omega)
  have p2 : h ^ (p + 1) ≤ h ^ (min (r + c.maxk - 1) p + 1) := pow_le_of_le hh h1 (by omega)
  have := mul_le_mul_of_nonneg_left p1 C0
  have := mul_le_mul_of_nonneg_left p2 C0
  linarith

/-- C126: SDC with the final update converges.  If the weights integrate the polynomials of degree less than `s` exactly, the error of a
run with `k ≥ 1` sweeps is at most a constant times the timestep to the power `min (r + k) (min (p + 1) s)`. -/
theorem C126_final_update {c : Config ℝ E D} {M : E ≃ₗ[ℝ] D} {G : E → D} (hc : Usable c M G) {p s r : ℕ}
    (hn : NodesOK (withZero c.nodes) c.M) (hq : IntegratesNodes (c.formulation == "Z2N") (withZero c.nodes) c.Q c.M p)
    (hw : IntegratesStep (withZero c.nodes) c.weights c.M s) (hfin : c.finalUpdate = true) (hk : 0 < c.maxk)
    {L L' : ℝ} (hf : Lip (rhs M (implPart c.R)) L) (hg : Lip (rhs M fun x => explPart c.R x + G x) L')
    (hF : ContDiff ℝ (max p s : ℕ) fun x => rhs M (implPart c.R) x + rhs M (fun x => explPart c.R x + G x) x)
    {y : ℝ → E} {T : ℝ} (hT : 0 < T) (hy : IsSol (fun x => rhs M (implPart c.R) x + rhs M (fun x => explPart c.R x + G x) x) y T)
    (hr : GuessOrder c y T r) :
    ∃ H C, 0 < H ∧ ∀ h, 0 ≤ h → h ≤ H → ∀ N : ℕ, N * h ≤ T →
      ‖(steps (init c h) N (fresh c h, y 0)).2 - y (N * h)‖ ≤ C * h ^ min (r + c.maxk) (min (p + 1) s) := by
  obtain ⟨H, C, H0, H1, C0, hC⟩ := nodes_error hc hn hq hf hg
    (hF.of_le (by exact_mod_cast le_max_left p s)) hT hy hr
  obtain ⟨D, D0, hD⟩ := step_defect hT hy (hF.of_le (by exact_mod_cast le_max_right p s)) hn hw
  set W := ∑ k ∈ range c.M, |c.weights k| with hW
  have W0 : 0 ≤ W := Finset.sum_nonneg fun _ _ => abs_nonneg _
  have hLL := (hf.add hg).1
  refine ⟨H, Real.exp (T * (W * (L + L') * (1 + C))) * (T * (W * (L + L') * (C + C) + D)), H0, fun h hh hH N hN => ?_⟩
  refine seq_global (x := fun n => (steps (init c h) n (fresh c h, y 0)).2) (lam := W * (L + L') * (1 + C))
    (D := W * (L + L') * (C + C) + D) (by positivity) (by positivity) hh N hN rfl fun n hn => ?_
  have hstep := step_le hh hn hN
  obtain ⟨g, e⟩ := hC h (n * h) hh hH (by positivity) hstep (steps (init c h) n (fresh c h, y 0)).1
    (steps (init c h) n (fresh c h, y 0)).2 (solvers_steps (init c h) (fresh c h) (y 0) n)
  have res := (C24_apply_result (init c h) (steps (init c h) n (fresh c h, y 0)).1 (steps (init c h) n (fresh c h, y 0)).2 G
    (by rw [solvers_steps]; exact g _) (fun m i h1 h2 => by
      show h * c.Qe m i = 0
      rw [hc.lower m i h1 h2, mul_zero])).2 hk hfin
  show ‖(SDC.apply (init c h) _ _).2 - y (n * h + h)‖ ≤ _
  have d := hD h (n * h) hh (by positivity) hstep
  set st := (steps (init c h) n (fresh c h, y 0)).1
  set x := (steps (init c h) n (fresh c h, y 0)).2
  set x' := (SDC.apply (init c h) st x).2
  set U := nodes (init c h) st x (init c h).maxk
  set F := fun x => rhs M (implPart c.R) x + rhs M (fun x => explPart c.R x + G x) x
  have ex : x' = x + ∑ k ∈ range c.M, (h * c.weights k) • F (U (k + 1)) := by
    rw [← M.injective.eq_iff]
    have res : mass c.R x' = mass c.R x - ∑ k ∈ range c.M, (h * c.weights k) •
      (implPart c.R (U (k + 1)) + explPart c.R (U (k + 1)) + G (U (k + 1))) := res
    rw [hc.mass, hc.mass] at res
    rw [res, map_add, map_sum, sub_eq_add_neg, ← Finset.sum_neg_distrib]
    congr 1
    refine Finset.sum_congr rfl fun k _ => ?_
    rw [map_smul, ← smul_neg]
    congr 1
    simp only [F, rhs, map_add, map_neg, LinearEquiv.apply_symm_apply]
    abel
  set u := (1 + h * C) * ‖x - y (n * h)‖ + C * h ^ (r + c.maxk) + C * h ^ (p + 1) with hu
  have key : x' - y (n * h + h) = (x - y (n * h))
      + ∑ k ∈ range c.M, (h * c.weights k) • (F (U (k + 1)) - F (y (n * h + withZero c.nodes (k + 1) * h)))
      - (y (n * h + h) - y (n * h) - ∑ k ∈ range c.M, (h * c.weights k) • F (y (n * h + withZero c.nodes (k + 1) * h))) := by
    rw [ex]
    simp only [smul_sub, Finset.sum_sub_distrib]
    abel
  have n1 : ‖∑ k ∈ range c.M, (h * c.weights k) • (F (U (k + 1)) - F (y (n * h + withZero c.nodes (k + 1) * h)))‖
      ≤ h * (W * ((L + L') * u)) := by
    rw [hW, Finset.sum_mul, Finset.mul_sum]
    refine norm_sum_le_of_le _ fun k hk => ?_
    rw [norm_smul, Real.norm_eq_abs, abs_mul, abs_of_nonneg hh, mul_assoc]
    have := ((hf.add hg).2 (U (k + 1)) (y (n * h + withZero c.nodes (k + 1) * h))).trans
      (mul_le_mul_of_nonneg_left (e (k + 1) (mem_range.1 hk)) hLL)
    gcongr
  have h1 : h ≤ 1 := hH.trans H1
  set P := h ^ (min (r + c.maxk) (min (p + 1) s) + 1) with hP
  have p1 : h * h ^ (r + c.maxk) ≤ P := by rw [← pow_succ']; exact pow_le_of_le hh h1 (by omega)
  have p2 : h * h ^ (p + 1) ≤ P := by rw [← pow_succ']; exact pow_le_of_le hh h1 (by omega)
  have p3 : h ^ (s + 1) ≤ P := pow_le_of_le hh h1 (by omega)
  rw [key]
  refine (norm_sub_le _ _).trans ((add_le_add ((norm_add_le _ _).trans (add_le_add le_rfl n1)) d).trans ?_)
  set a := ‖x - y (n * h)‖
  have a0 : 0 ≤ a := norm_nonneg _
  have V0 : 0 ≤ W * (L + L') := by positivity
  set V := W * (L + L') with hV
  have f1 : h * (W * ((L + L') * u)) = V * (h * a + h * (h * C) * a + C * (h * h ^ (r + c.maxk)) + C * (h * h ^ (p + 1))) := by
    rw [hu, hV]; ring
  have f2 : h * (h * C) * a ≤ h * C * a := by
    have : h * (h * C) ≤ h * (1 * C) := by gcongr
    nlinarith
  have f3 : V * (h * a + h * (h * C) * a + C * (h * h ^ (r + c.maxk)) + C * (h * h ^ (p + 1)))
      ≤ V * (h * a + h * C * a + C * P + C * P) := by gcongr
  have f4 : D * h ^ (s + 1) ≤ D * P := by gcongr
  rw [f1]
  have f5 : V * (h * a + h * C * a + C * P + C * P) + D * P + a = (1 + h * (V * (1 + C))) * a + (V * (C + C) + D) * P := by ring
  linarith

omit [CompleteSpace E] in
/-- C126, the tables: the matrices and weights obtained by integrating the Lagrange polynomials of `n` distinct nodes, as in the
description of the schemes (deferred_correction.py 16-20, 27-41), integrate all polynomials of degree less than `n` exactly. -/
theorem C126_lagrange_tables (z2n : Bool) (c : ℕ → ℝ) (n : ℕ) (hc : Set.InjOn (fun k => c (k + 1)) (range n : Set ℕ)) (h0 : c 0 = 0) :
    IntegratesNodes z2n c (fun m k => ∫ t in (if z2n then 0 else c m)..(c (m + 1)), (Lagrange.basis (range n) (fun k => c (k + 1)) k).eval t) n n ∧
    IntegratesStep c (fun k => ∫ t in (0 : ℝ)..1, (Lagrange.basis (range n) (fun k => c (k + 1)) k).eval t) n n := by
  have key : ∀ (a b : ℝ), ∀ j < n, ∑ k ∈ range n, (∫ t in a..b, (Lagrange.basis (range n) (fun k => c (k + 1)) k).eval t) * c (k + 1) ^ j
      = (b ^ (j + 1) - a ^ (j + 1)) / (j + 1) := by
    intro a b j hj
    have hX : (Polynomial.X ^ j : Polynomial ℝ) = Lagrange.interpolate (range n) (fun k => c (k + 1)) fun k => c (k + 1) ^ j :=
      Lagrange.eq_interpolate_of_eval_eq _ hc (by simpa using hj) (fun i _ => by simp)
    have e : ∀ t : ℝ, t ^ j = ∑ k ∈ range n, (Lagrange.basis (range n) (fun k => c (k + 1)) k).eval t * c (k + 1) ^ j := fun t => by
      have := congrArg (Polynomial.eval t) hX
      simp only [Polynomial.eval_pow, Polynomial.eval_X, Lagrange.interpolate_apply, Polynomial.eval_finsetSum, Polynomial.eval_mul,
        Polynomial.eval_C] at this
      rw [this]
      exact Finset.sum_congr rfl fun k _ => mul_comm _ _
    rw [← integral_pow, intervalIntegral.integral_congr fun t _ => e t, intervalIntegral.integral_finsetSum]
    · simp only [intervalIntegral.integral_mul_const]
    · intro k _
      exact (Continuous.mul (Polynomial.continuous _) continuous_const).intervalIntegrable _ _
  refine ⟨fun m hm j hj => ?_, fun j hj => ?_⟩
  · exact key _ _ j hj
  · rw [key 0 1 j hj]
    simp

omit [CompleteSpace E] in
/-- Three distinct nodes. -/
example : IntegratesStep (fun m => (m : ℝ) / 3)
    (fun k => ∫ t in (0 : ℝ)..1, (Lagrange.basis (range 3) (fun k => ((k + 1 : ℕ) : ℝ) / 3) k).eval t) 3 3 :=
  (C126_lagrange_tables true (fun m => (m : ℝ) / 3) 3 (fun a _ b _ h => by
    have h : ((a + 1 : ℕ) : ℝ) / 3 = ((b + 1 : ℕ) : ℝ) / 3 := h
    have h2 : ((a + 1 : ℕ) : ℝ) = ((b + 1 : ℕ) : ℝ) := by linarith
    have := Nat.cast_injective (R := ℝ) h2
    omega) (by simp)).2

/-! ### Without the final update the last node must be the end of the step -/

/-- The residual of `x' = 1`, treated explicitly. -/
noncomputable def clockR : LForm ℝ ℝ :=
  [ { labels := [.timeDerivative], op := fun x => x, subj := 0 }, { labels := [.explicit], op := fun _ => -1, subj := 0 } ]

/-- C126 fails for nodes that do not include the end of the step (`quad_type` "GAUSS" and "RADAU-LEFT") when `final_update=False`, or
when there are no sweeps: the scheme returns the value at the last node as the value at the end of the step.  For `x' = 1` from `x = 0`
every run gives `c N h` after `N` steps, where `c < 1` is the last node, whatever the number of sweeps, the initial guess and the matrices
`Q_delta`: refining the timestep does not help. -/
theorem C126_interior_last_node_refuted (c : Config ℝ ℝ ℝ) (hR : c.R = clockR) (hc : Usable c (LinearEquiv.refl ℝ ℝ) fun _ => 0)
    (hM : 0 < c.M) (hq : IntegratesNodes (c.formulation == "Z2N") (withZero c.nodes) c.Q c.M 1)
    (hfin : (0 < c.maxk ∧ c.finalUpdate = false) ∨ (c.maxk = 0 ∧ c.initialGuess = "base" ∧ ∀ a k x, c.base a k x = x + k)) (h : ℝ) (N : ℕ) :
    (steps (init c h) N (fresh c h, 0)).2 = c.nodes (c.M - 1) * (N * h) := by
  have impl0 : ∀ x, implPart c.R x = 0 := fun x => by rw [hR]; simp [implPart, part, clockR]
  have expl1 : ∀ x, explPart c.R x = -1 := fun x => by rw [hR]; simp [explPart, part, clockR]
  have good : ∀ st dt, Good (init c h) st dt fun _ => 0 := fun qi dt => ⟨hc.exact, hc.clean, hc.one, ⟨fun x y => by
      show mass c.R _ = mass c.R _ + mass c.R _
      rw [hc.mass, hc.mass, hc.mass]; rfl, fun a x => by
      show mass c.R _ = a • mass c.R _
      rw [hc.mass, hc.mass]; rfl⟩, fun d => ⟨d, hc.mass d, fun y hy => (hc.mass y).symm.trans hy⟩, fun m _ d => ⟨d, by
      show mass c.R d + qi m m • implPart c.R d = d
      rw [hc.mass, impl0, smul_zero, add_zero]; rfl, fun y hy => by
      have hy : mass c.R y + qi m m • implPart c.R y = d := hy
      rw [hc.mass, impl0, smul_zero, add_zero] at hy
      exact hy⟩, hc.noLimiter, fun x out => hc.src dt x out⟩
  have low : ∀ m i, m ≤ i → i < (init c h).M → (init c h).Qe m i = 0 := fun m i h1 h2 => by
    show h * c.Qe m i = 0
    rw [hc.lower m i h1 h2, mul_zero]
  have hq0 : ∀ m < c.M, ∑ k ∈ range c.M, c.Q m k = withZero c.nodes (m + 1) - (if c.formulation == "Z2N" then 0 else withZero c.nodes m) :=
    fun m hm => by
      have := hq m hm 0 one_pos
      simpa using this
  have one : ∀ (st : State ℝ ℝ) (x : ℝ), (SDC.apply (init c h) st x).2 = x + h * withZero c.nodes c.M := by
    intro st x
    have res := (C24_apply_result (init c h) st x (fun _ => 0) (good _ _) low).1 (by
      rcases hfin with ⟨_, h2⟩ | ⟨h1, _⟩
      · exact Or.inr h2
      · exact Or.inl h1)
    rw [res]
    show SDCProps.nodes (init c h) st x c.maxk c.M = _
    rcases hfin with ⟨h1, -⟩ | ⟨h1, h2, h3⟩
    · obtain ⟨k, hk⟩ : ∃ k, c.maxk = k + 1 := ⟨c.maxk - 1, by omega⟩
      rw [hk]
      obtain ⟨e0, sw⟩ := C24_apply_sweeps (init c h) st x (fun _ => 0) (good _ _) low k
      have all : ∀ m ≤ c.M, SDCProps.nodes (init c h) st x (k + 1) m = x + h * withZero c.nodes m := by
        intro m
        induction m with
        | zero => intro _; rw [sw.1, e0]; simp [withZero]
        | succ m ih =>
          intro hm
          have e := sw.2 m hm
          have hz : (init c h).z2n = (c.formulation == "Z2N") := rfl
          have hR' : (init c h).R = c.R := rfl
          have hM' : (init c h).M = c.M := rfl
          have hQ' : ∀ k, (init c h).Q m k = h * c.Q m k := fun k => rfl
          simp only [hR', hM', hQ', hc.mass, impl0, expl1, LinearEquiv.refl_apply, sub_self, smul_zero, Finset.sum_const_zero, sub_zero,
            zero_add, add_zero, smul_neg, Finset.sum_neg_distrib, sub_neg_eq_add, smul_eq_mul, mul_one, mul_zero, mul_neg,
            ← Finset.mul_sum, hq0 m hm] at e
          rw [e, hz]
          unfold startNode
          split
          · rw [sw.1, e0, sub_zero]
          · rw [ih (by omega)]; ring
      exact all c.M le_rfl
    · rw [h1]
      have st0 := (start_nodes (init c h) st x).1 (by simp [init, h2])
      have e0 := (C24_apply_sweeps (init c h) st x (fun _ => 0) (good _ _) low 0).1
      have all : ∀ m ≤ c.M, SDCProps.nodes (init c h) st x 0 m = x + h * withZero c.nodes m := by
        intro m
        induction m with
        | zero => intro _; rw [e0]; simp [withZero]
        | succ m ih =>
          intro hm
          rw [st0 m hm, ih (by omega)]
          show c.base _ (diffNodes (fun m => h * c.nodes m) m) _ = _
          rw [h3]
          cases m <;> (simp [diffNodes, withZero]; try ring)
      exact all c.M le_rfl
  induction N with
  | zero => simp [steps]
  | succ N ih =>
    show (SDC.apply (init c h) _ _).2 = _
    rw [one, ih]
    simp only [withZero, hM.ne', if_false]
    push_cast
    ring

/-- Gauss quadrature with one node, without the final update: the scheme covers half of the time. -/
noncomputable def gauss1 (k : ℕ) : Config ℝ ℝ ℝ where
  R := clockR
  M := 1
  maxk := k
  formulation := "N2N"
  nodes := fun _ => 1 / 2
  weights := fun _ => 1
  Q := fun _ _ => 1 / 2
  Qi := fun _ _ => 1 / 2
  Qe := fun _ _ => 0
  base := fun _ k x => x + k
  initialGuess := "base"
  finalUpdate := false
  solve := choiceSolve

theorem gauss1_usable (k : ℕ) : Usable (gauss1 k) (LinearEquiv.refl ℝ ℝ) fun _ => 0 where
  exact := choiceSolve_exact
  clean := by intro t ht; simp [gauss1, clockR] at ht; rcases ht with rfl | rfl <;> simp
  one := by intro t ht; simp [gauss1, clockR] at ht; rcases ht with rfl | rfl <;> simp
  mass := fun x => by simp [gauss1, mass, part, clockR]
  noLimiter := rfl
  src := fun dt x out => by simp [gauss1, srcPart, part, clockR]
  lower := fun m i _ _ => rfl

example (k : ℕ) (hk : 0 < k) (h : ℝ) (N : ℕ) : (steps (init (gauss1 k) h) N (fresh (gauss1 k) h, 0)).2 = 1 / 2 * (N * h) :=
  C126_interior_last_node_refuted (gauss1 k) rfl (gauss1_usable k) one_pos (fun m hm j hj => by
    obtain rfl : m = 0 := by simp [gauss1] at hm; omega
    obtain rfl : j = 0 := by omega
    simp [gauss1, withZero]) (Or.inl ⟨hk, rfl⟩) h N

/-! ### A nonlinear example: `2 x' = 2 sin x`, half of it implicit, with two Radau nodes -/

/-- The residual of `2 x' = sin x + sin x`. -/
noncomputable def splitSineR : LForm ℝ ℝ :=
  [ { labels := [.timeDerivative], op := fun x => 2 * x, subj := 0 },
    { labels := [.implicit], op := fun x => -Real.sin x, subj := 0 },
    { labels := [.explicit], op := fun x => -Real.sin x, subj := 0 } ]

/-- Radau quadrature with two nodes, zero to node, backward and forward Euler corrections. -/
noncomputable def radau2 (k : ℕ) (guess : String) (fin : Bool) : Config ℝ ℝ ℝ where
  R := splitSineR
  M := 2
  maxk := k
  formulation := "Z2N"
  nodes := fun m => if m = 0 then 1 / 3 else 1
  weights := fun m => if m = 0 then 3 / 4 else 1 / 4
  Q := fun m k => if m = 0 then (if k = 0 then 5 / 12 else -1 / 12) else (if k = 0 then 3 / 4 else 1 / 4)
  Qi := fun m i => if i ≤ m then (if i = 0 then 1 / 3 else 2 / 3) else 0
  Qe := fun m i => if i < m then 2 / 3 else 0
  base := fun _ h => rkStep (fun _ _ => 0) (fun _ => 1) 1 Real.sin h
  initialGuess := guess
  finalUpdate := fin
  solve := choiceSolve

theorem radau2_usable (k : ℕ) (guess : String) (fin : Bool) : Usable (radau2 k guess fin) sineM fun _ => 0 where
  exact := choiceSolve_exact
  clean := by intro t ht; simp [radau2, splitSineR] at ht; rcases ht with rfl | rfl | rfl <;> simp
  one := by intro t ht; simp [radau2, splitSineR] at ht; rcases ht with rfl | rfl | rfl <;> simp
  mass := fun x => by simp [radau2, mass, part, splitSineR, sineM]
  noLimiter := rfl
  src := fun dt x out => by simp [radau2, srcPart, part, splitSineR]
  lower := fun m i h _ => by simp [radau2]; omega

theorem radau2_nodes (k : ℕ) (guess : String) (fin : Bool) :
    NodesOK (withZero (radau2 k guess fin).nodes) (radau2 k guess fin).M ∧
    IntegratesNodes ((radau2 k guess fin).formulation == "Z2N") (withZero (radau2 k guess fin).nodes) (radau2 k guess fin).Q (radau2 k guess fin).M 2 ∧
    IntegratesStep (withZero (radau2 k guess fin).nodes) (radau2 k guess fin).weights (radau2 k guess fin).M 3 := by
  refine ⟨⟨by simp [withZero], fun m hm => ?_, fun m hm => ?_⟩, fun m hm j hj => ?_, fun j hj => ?_⟩
  · have hm : m ≤ 2 := hm
    interval_cases m <;> simp [withZero, radau2] <;> norm_num
  · have hm : m < 2 := hm
    interval_cases m <;> simp [withZero, radau2] <;> norm_num
  · have hm : m < 2 := hm
    interval_cases m <;> interval_cases j <;> simp [withZero, radau2, Finset.sum_range_succ] <;> norm_num
  · interval_cases j <;> simp [withZero, radau2, Finset.sum_range_succ] <;> norm_num

theorem radau2_rhs (k : ℕ) (guess : String) (fin : Bool) :
    rhs sineM (implPart (radau2 k guess fin).R) = (fun x => (1 / 2 : ℝ) • Real.sin x) ∧
    rhs sineM (fun x => explPart (radau2 k guess fin).R x + 0) = fun x => (1 / 2 : ℝ) • Real.sin x := by
  constructor <;>
  · funext x
    rw [rhs, neg_eq_iff_eq_neg, LinearEquiv.symm_apply_eq]
    simp [radau2, implPart, explPart, part, splitSineR, sineM]

theorem sin_lip : Lip Real.sin 1 := ConvergenceProps.sine_tendency ▸ (ConvergenceProps.sine_smooth 2).lip

theorem radau2_sol (k : ℕ) (guess : String) (fin : Bool) (T : ℝ) :
    (fun x => rhs sineM (implPart (radau2 k guess fin).R) x + rhs sineM (fun x => explPart (radau2 k guess fin).R x + 0) x) = Real.sin ∧
    IsSol Real.sin (fun t => 2 * Real.arctan (Real.exp t)) T := by
  constructor
  · funext x
    obtain ⟨h1, h2⟩ := radau2_rhs k guess fin
    rw [h1, h2]
    simp only [smul_eq_mul]; ring
  · have := ConvergenceProps.sine_sol T
    rwa [ConvergenceProps.sine_tendency] at this

/-- The hypotheses of `C126_final_update` are met: two sweeps from forward Euler with the final update are of the third order. -/
example : ∃ H C : ℝ, 0 < H ∧ ∀ h, 0 ≤ h → h ≤ H → ∀ N : ℕ, N * h ≤ 10 →
    ‖(steps (init (radau2 2 "base" true) h) N (fresh (radau2 2 "base" true) h, 2 * Real.arctan (Real.exp 0))).2
      - 2 * Real.arctan (Real.exp (N * h))‖ ≤ C * h ^ 3 := by
  obtain ⟨n1, n2, n3⟩ := radau2_nodes 2 "base" true
  obtain ⟨e, sol⟩ := radau2_sol 2 "base" true 10
  obtain ⟨r1, r2⟩ := radau2_rhs 2 "base" true
  have := C126_final_update (p := 2) (s := 3) (r := 2) (radau2_usable 2 "base" true) n1 n2 n3 rfl (by simp [radau2])
    (by rw [r1]; exact sin_lip.smul _) (by rw [r2]; exact sin_lip.smul _) (by rw [e]; exact Real.contDiff_sin)
    (y := fun t => 2 * Real.arctan (Real.exp t)) (T := 10) (by norm_num) (by rw [e]; exact sol)
    (GuessOrder.base 1 _ rfl (fun _ _ _ => rfl) ((rk_firstOrder _ _ 1 sin_lip (by simp)).accurate sin_lip sol))
  rw [show min (2 + (radau2 2 "base" true).maxk) (min (2 + 1) 3) = 3 from rfl] at this
  exact this

/-- The hypotheses of `C126_last_node` are met: two sweeps from a copy of the old state are of the second order. -/
example : ∃ H C : ℝ, 0 < H ∧ ∀ h, 0 ≤ h → h ≤ H → ∀ N : ℕ, N * h ≤ 10 →
    ‖(steps (init (radau2 2 "copy" false) h) N (fresh (radau2 2 "copy" false) h, 2 * Real.arctan (Real.exp 0))).2
      - 2 * Real.arctan (Real.exp (N * h))‖ ≤ C * h ^ 2 := by
  obtain ⟨n1, n2, n3⟩ := radau2_nodes 2 "copy" false
  obtain ⟨e, sol⟩ := radau2_sol 2 "copy" false 10
  obtain ⟨r1, r2⟩ := radau2_rhs 2 "copy" false
  have := C126_last_node (p := 2) (r := 1) (radau2_usable 2 "copy" false) n1 n2 (Or.inl rfl) (by simp [withZero, radau2])
    (by rw [r1]; exact sin_lip.smul _) (by rw [r2]; exact sin_lip.smul _) (by rw [e]; exact Real.contDiff_sin)
    (y := fun t => 2 * Real.arctan (Real.exp t)) (T := 10) (by norm_num) (by rw [e]; exact sol) (GuessOrder.copy (by simp [radau2]))
  rw [show min (1 + (radau2 2 "copy" false).maxk - 1) 2 = 2 from rfl] at this
  exact this

end sdc

end Gusto.Props.DCConvergenceProps
