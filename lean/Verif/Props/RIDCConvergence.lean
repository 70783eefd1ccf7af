import Verif.Lemmas.RIDCConvergence
import Verif.Props.RIDC
import Verif.Props.DCConvergence

set_option autoImplicit false
set_option linter.unusedSectionVars false
set_option linter.unusedSimpArgs false

/-!
# C127: revisionist integral deferred correction converges
-/

namespace Gusto.Props.RIDCConvergenceProps
open Gusto LForm TimeDisc Spec Finset Gusto.Props Gusto.Convergence
open Gusto.Props.StageConvergenceProps (rhs rhs_eq)
open Gusto.Props.DCConvergenceProps (node_unique sin_lip splitSineR pow_le_of_le)
open Gusto.Props.ConvergenceProps (sineM)
open RIDC RIDCProps

variable {E D : Type*} [NormedAddCommGroup E] [NormedSpace ℝ E] [AddCommGroup D] [Module ℝ D]

theorem sweeps_succ (S : Scheme ℝ E D) (st : State ℝ E) (k : ℕ) : sweeps S st (k + 1) = sweep S (sweeps S st k) (k + 1) := by
  simp [sweeps, List.range_succ]

/-- The prediction on the nodes, and the slot that is never evaluated. -/
theorem start_spec (S : Scheme ℝ E D) (st : State ℝ E) (x : E) :
    (start S st x).U 0 = x ∧ (∀ m < S.M, (start S st x).U (m + 1) = S.base S.dt ((start S st x).U m)) ∧
    (start S st x).sU1 = st.sU1 ∧ (∀ m ≤ S.M, (start S st x).sU m = evalSrc S (start S st x).baseDt ((start S st x).U m) (st.sU m)) := by
  have src : ∀ (s : State ℝ E) (n : ℕ), ((List.range n).foldl (fun (st : State ℝ E) m =>
        { st with sU := Function.update st.sU m (evalSrc S st.baseDt (st.U m) (st.sU m)) }) s).U = s.U ∧
      ((List.range n).foldl (fun (st : State ℝ E) m =>
        { st with sU := Function.update st.sU m (evalSrc S st.baseDt (st.U m) (st.sU m)) }) s).sU1 = s.sU1 ∧
      ((List.range n).foldl (fun (st : State ℝ E) m =>
        { st with sU := Function.update st.sU m (evalSrc S st.baseDt (st.U m) (st.sU m)) }) s).baseDt = s.baseDt ∧
      (∀ m, ((List.range n).foldl (fun (st : State ℝ E) m =>
        { st with sU := Function.update st.sU m (evalSrc S st.baseDt (st.U m) (st.sU m)) }) s).sU m =
          if m < n then evalSrc S s.baseDt (s.U m) (s.sU m) else s.sU m) := by
    intro s n
    induction n with
    | zero => exact ⟨rfl, rfl, rfl, fun m => rfl⟩
    | succ n ih =>
      rw [List.range_succ, List.foldl_append, List.foldl_cons, List.foldl_nil]
      obtain ⟨i1, i2, i3, i4⟩ := ih
      refine ⟨i1, i2, i3, fun m => ?_⟩
      by_cases hm : m = n
      · subst hm
        refine (Function.update_self _ _ _).trans ?_
        rw [i1, i3, i4]; simp
      · refine (Function.update_of_ne hm _ _).trans ?_
        rw [i4]
        by_cases h : m < n
        · simp [h, Nat.lt_succ_of_lt h]
        · simp [h, show ¬ m < n + 1 by omega]
  have loop : ∀ (s : State ℝ E) (n : ℕ), (∀ m < n, ((List.range n).foldl (fun (st : State ℝ E) m =>
        { st with baseDt := S.dt, U := Function.update st.U (m + 1) (S.base S.dt (st.U m)) }) s).U (m + 1)
      = S.base S.dt (((List.range n).foldl (fun (st : State ℝ E) m =>
        { st with baseDt := S.dt, U := Function.update st.U (m + 1) (S.base S.dt (st.U m)) }) s).U m)) ∧
      ((List.range n).foldl (fun (st : State ℝ E) m =>
        { st with baseDt := S.dt, U := Function.update st.U (m + 1) (S.base S.dt (st.U m)) }) s).U 0 = s.U 0 ∧
      ((List.range n).foldl (fun (st : State ℝ E) m =>
        { st with baseDt := S.dt, U := Function.update st.U (m + 1) (S.base S.dt (st.U m)) }) s).sU1 = s.sU1 ∧
      ((List.range n).foldl (fun (st : State ℝ E) m =>
        { st with baseDt := S.dt, U := Function.update st.U (m + 1) (S.base S.dt (st.U m)) }) s).sU = s.sU := by
    intro s n
    induction n with
    | zero => exact ⟨fun m hm => by omega, rfl, rfl, rfl⟩
    | succ n ih =>
      rw [List.range_succ, List.foldl_append, List.foldl_cons, List.foldl_nil]
      obtain ⟨i1, i2, i3, i4⟩ := ih
      refine ⟨fun m hm => ?_, ?_, i3, i4⟩
      · by_cases hmn : m = n
        · subst hmn
          exact (Function.update_self _ _ _).trans (congrArg (S.base S.dt) (Function.update_of_ne (by omega) _ _).symm)
        · exact (Function.update_of_ne (by omega) _ _).trans ((i1 m (by omega)).trans
            (congrArg (S.base S.dt) (Function.update_of_ne (by omega) _ _).symm))
      · refine Eq.trans ?_ i2
        simp
  set s0 : State ℝ E := { st with un := x, U := Function.update st.U 0 x } with hs0
  obtain ⟨l1, l2, l3, l4⟩ := loop s0 S.M
  set s1 := (List.range S.M).foldl (fun (st : State ℝ E) m =>
        { st with baseDt := S.dt, U := Function.update st.U (m + 1) (S.base S.dt (st.U m)) }) s0 with hs1
  obtain ⟨r1, r2, r3, r4⟩ := src s1 (S.M + 1)
  have e : start S st x = (List.range (S.M + 1)).foldl (fun (st : State ℝ E) m =>
        { st with sU := Function.update st.sU m (evalSrc S st.baseDt (st.U m) (st.sU m)) }) s1 := rfl
  rw [← e] at r1 r2 r3
  have r4' : ∀ m, (start S st x).sU m = if m < S.M + 1 then evalSrc S s1.baseDt (s1.U m) (s1.sU m) else s1.sU m := r4
  refine ⟨?_, fun m hm => ?_, r2.trans l3, fun m hm => ?_⟩
  · rw [r1, l2]; simp [hs0]
  · rw [r1]; exact l1 m hm
  · rw [r4', if_pos (by omega), l4, r3, r1]

/-- What is needed of the equation and of the options of the scheme. -/
structure Usable (c : Config ℝ E D) (M : E ≃ₗ[ℝ] D) : Prop where
  exact : ExactSolver c.solve
  clean : TDClean c.R
  one : ExactlyOneKind c.R
  mass : ∀ x, mass c.R x = M x
  noLimiter : c.limiter = none
  nodes : 0 < c.M ∧ c.Kc ≤ c.M

/-- The number of subintervals of the stencil of the correction `k`, as documented: `k` if reduced stencils are used and else the number
of corrections. -/
def intervals (c : Config ℝ E D) (k : ℕ) : ℕ := if c.reduced then k else c.Kc

/-- The tables of all corrections integrate the polynomials through their nodes exactly. -/
def TablesOK (c : Config ℝ E D) : Prop := ∀ k, 1 ≤ k → k ≤ c.Kc → IntegratesEquidistant (c.unitQ (intervals c k)) (intervals c k)

theorem lin_of {c : Config ℝ E D} {M : E ≃ₗ[ℝ] D} (hc : Usable c M) : IsLin ℝ (Spec.mass c.R) :=
  ⟨fun x y => by rw [hc.mass, hc.mass, hc.mass, map_add], fun a x => by rw [hc.mass, hc.mass, map_smul]⟩

theorem massInv_of {c : Config ℝ E D} {M : E ≃ₗ[ℝ] D} (hc : Usable c M) (d : D) : ∃! y, Spec.mass c.R y = d :=
  ⟨M.symm d, by simp [hc.mass], fun y hy => by
    have hy : Spec.mass c.R y = d := hy
    rw [hc.mass] at hy
    rw [← hy]; simp⟩

/-- A correction, without the mass operator. -/
theorem ridcEq_of {c : Config ℝ E D} {M : E ≃ₗ[ℝ] D} (hc : Usable c M) (h : ℝ) (k : ℕ) {U V : ℕ → E}
    (hs : IsRIDCSweep ((init c h).Q k) (stencil (init c h) k) (init c h).M (init c h).dt (Spec.mass c.R) (implPart c.R) (explPart c.R) 0 U V) :
    RIDCEq (fun i j => intervals c k / c.M * c.unitQ (intervals c k) i j) (intervals c k) c.M (rhs M (implPart c.R)) (rhs M (explPart c.R))
      (1 / c.M) h U V := by
  refine ⟨hs.1, fun m hm => ?_⟩
  have e := hs.2 m hm
  rw [hc.mass, hc.mass] at e
  rw [← M.injective.eq_iff, e]
  have hdt : (init c h).dt = h * (1 / c.M) := by show h / c.M = _; ring
  have hq : ridcQuad ((init c h).Q k) (stencil (init c h) k) (fun j => implPart c.R (U j) + explPart c.R (U j)) m
      = -M (ridcQuad (fun i j => h * (intervals c k / c.M * c.unitQ (intervals c k) i j)) (intervals c k)
        (fun j => rhs M (implPart c.R) (U j) + rhs M (explPart c.R) (U j)) m) := by
    have hQ : ∀ i j, (init c h).Q k i j = h * (intervals c k / c.M * c.unitQ (intervals c k) i j) := fun i j => by
      show (intervals c k : ℝ) * (h / c.M) * c.unitQ (intervals c k) i j = _
      ring
    have hst : stencil (init c h) k = intervals c k := rfl
    rw [hst]
    unfold ridcQuad
    split <;> simp only [hQ, map_sum, map_smul, rhs_eq M (implPart c.R), rhs_eq M (explPart c.R), map_add, ← Finset.sum_neg_distrib] <;>
      exact Finset.sum_congr rfl fun j _ => by module
  rw [hq, hdt]
  simp only [rhs_eq M (implPart c.R), rhs_eq M (explPart c.R), map_add, map_sub, map_smul, smul_neg, smul_sub, smul_zero, ite_self]
  abel

variable [CompleteSpace E]

/-- C127: RIDC with `k` corrections converges with the order `k + 1`, with reduced and with full stencils, if there are no physics terms.
Let the base scheme be of the first order and the tables exact for the polynomials through their equidistant nodes.  Then for timesteps
small enough no step raises an error, and the error of a run at any time up to `T` is at most a constant times the timestep to the power
`k + 1`. -/
theorem C127_order {c : Config ℝ E D} {M : E ≃ₗ[ℝ] D} (hc : Usable c M) (hno : ∀ x, srcPart c.R x = 0) (hq : TablesOK c)
    {L L' : ℝ} (hf : Lip (rhs M (implPart c.R)) L) (hg : Lip (rhs M (explPart c.R)) L')
    (hF : ContDiff ℝ (c.Kc + 1 : ℕ) fun x => rhs M (implPart c.R) x + rhs M (explPart c.R) x)
    {y : ℝ → E} {T : ℝ} (hT : 0 < T) (hy : IsSol (fun x => rhs M (implPart c.R) x + rhs M (explPart c.R) x) y T)
    (hb : AccurateAlong c.base y T 1) :
    ∃ H C, 0 < H ∧ ∀ h, 0 ≤ h → h ≤ H → ∀ N : ℕ, N * h ≤ T →
      ∃ r, steps (init c h) N (fresh (h / c.M), y 0) = some r ∧ ‖r.2 - y (N * h)‖ ≤ C * h ^ (c.Kc + 1) := by
  obtain ⟨hM, hKM⟩ := hc.nodes
  have Mp : (0 : ℝ) < c.M := by exact_mod_cast hM
  have hn : NodesOK (fun m => (m : ℝ) / c.M) c.M := ⟨by simp, fun m hm => by
      rw [div_le_one Mp]; exact_mod_cast hm, fun m _ => by push_cast; gcongr; linarith⟩
  obtain ⟨H1, c0, H10, c00, hguess⟩ := base_guess hb hn
  obtain ⟨H2, C, H20, H21, C0, hC⟩ := ridc_step (n := c.M) (K := c.Kc) hM (l := fun j => intervals c (j + 1))
    (q := fun j => c.unitQ (intervals c (j + 1))) (fun j hj => by simp only [intervals]; split <;> omega)
    (fun j hj => hq (j + 1) (by omega) hj) hf hg
    (fun j hj => hF.of_le (by
      have : intervals c (j + 1) + 1 ≤ c.Kc + 1 := by simp only [intervals]; split <;> omega
      exact_mod_cast this)) hT hy c00
  have hL := hf.1
  have hp : 0 < 2 * L + 1 := by positivity
  refine ⟨min (2 * L + 1)⁻¹ (min H1 H2), Real.exp (T * C) * (T * C), by positivity, fun h hh hH => ?_⟩
  have hH0 := hH.trans (min_le_left _ _)
  have hH1 := hH.trans ((min_le_right _ _).trans (min_le_left _ _))
  have hH2 := hH.trans ((min_le_right _ _).trans (min_le_right _ _))
  have good : ∀ dt, Good (init c h) dt fun _ => 0 := fun dt => ⟨hc.exact, hc.clean, hc.one, lin_of hc, massInv_of hc, fun d => by
      refine node_unique (c := (init c h).dt) M hc.mass hf ?_ d
      have e0 : (init c h).dt = h / c.M := rfl
      rw [e0, abs_of_nonneg (by positivity)]
      have : h / c.M ≤ h := div_le_self hh (by exact_mod_cast hM)
      have h1 : h * (2 * L + 1) ≤ 1 := by
        calc h * (2 * L + 1) ≤ (2 * L + 1)⁻¹ * (2 * L + 1) := mul_le_mul_of_nonneg_right hH0 hp.le
          _ = 1 := inv_mul_cancel₀ hp.ne'
      nlinarith, hc.noLimiter, fun x out => hno _⟩
  have one : ∀ (st : State ℝ E) (x : E) (t : ℝ), 0 ≤ t → t + h ≤ T → ∃ r, RIDC.apply (init c h) st x = some r ∧
      ‖r.2 - y (t + h)‖ ≤ (1 + h * C) * ‖x - y t‖ + C * h ^ (c.Kc + 1 + 1) := by
    intro st x t ht htT
    refine ⟨(sweeps (init c h) (start (init c h) st x) c.Kc, (sweeps (init c h) (start (init c h) st x) c.Kc).U c.M), ?_, ?_⟩
    · have : ¬ (init c h).M < (init c h).Kc := by show ¬ c.M < c.Kc; omega
      unfold RIDC.apply
      rw [if_neg this]
      rfl
    · obtain ⟨s1, s2, -, -⟩ := start_spec (init c h) st x
      have := hC h t hh hH2 ht htT (fun j => (sweeps (init c h) (start (init c h) st x) j).U) (fun m hm => by
          have := hguess h t hh (hH2.trans H21) hH1 ht htT (start (init c h) st x).U (fun m hm => by
            rw [s2 m hm]
            show c.base (h / c.M) _ = _
            congr 1
            push_cast
            ring) m hm
          exact this) (fun j hj => by
          rw [show sweeps (init c h) (start (init c h) st x) (j + 1) = _ from sweeps_succ _ _ _]
          refine ridcEq_of hc h (j + 1) ?_
          have hl : stencil (init c h) (j + 1) ≤ (init c h).M := by
            show intervals c (j + 1) ≤ c.M
            simp only [intervals]; split <;> omega
          exact C67_sweep_equation_partial (init c h) _ (good _) hno (j + 1) hl) c.M le_rfl
      have e0 : (sweeps (init c h) (start (init c h) st x) 0).U 0 = x := s1
      rw [e0, div_self Mp.ne', one_mul] at this
      exact this
  have run : ∀ N : ℕ, N * h ≤ T → ∃ r : ℕ → State ℝ E × E, r 0 = (fresh (h / c.M), y 0) ∧
      (∀ n < N, RIDC.apply (init c h) (r n).1 (r n).2 = some (r (n + 1))) ∧ steps (init c h) N (fresh (h / c.M), y 0) = some (r N) := by
    intro N
    induction N with
    | zero => exact fun _ => ⟨fun _ => _, rfl, fun n hn => by omega, rfl⟩
    | succ N ih =>
      intro hN
      have hN' : N * h ≤ T := by push_cast at hN; nlinarith
      obtain ⟨r, r0, rs, rN⟩ := ih hN'
      obtain ⟨r', hr', -⟩ := one (r N).1 (r N).2 (N * h) (by positivity) (by push_cast at hN; linarith)
      refine ⟨fun n => if n ≤ N then r n else r', by simpa using r0, fun n hn => ?_, ?_⟩
      · by_cases h1 : n < N
        · simp only [show n ≤ N by omega, show n + 1 ≤ N by omega, if_true]
          exact rs n h1
        · obtain rfl : n = N := by omega
          simpa using hr'
      · show (steps (init c h) N _).bind _ = _
        rw [rN]
        simpa using hr'
  intro N hN
  obtain ⟨r, r0, rs, rN⟩ := run N hN
  refine ⟨r N, rN, ?_⟩
  refine seq_global (x := fun n => (r n).2) (lam := C) (D := C) C0 C0 hh N hN (by simp [r0]) fun n hn => ?_
  obtain ⟨r', h1, h2⟩ := one (r n).1 (r n).2 (n * h) (by positivity) (step_le hh hn hN)
  rw [rs n hn, Option.some.injEq] at h1
  rw [h1]
  exact h2

/-! ### The tables -/

omit [CompleteSpace E] in
/-- C127, the tables: integrating the Lagrange polynomials of the equidistant nodes over the subintervals gives tables that are exact for
all polynomials through the nodes. -/
theorem C127_lagrange_tables (l : ℕ) (hl : 0 < l) : IntegratesEquidistant (fun m k =>
    ∫ t in ((m - 1 : ℕ) : ℝ) / l..(m : ℝ) / l, (Lagrange.basis (range (l + 1)) (fun k => (k : ℝ) / l) k).eval t) l := by
  intro m hm j hj
  have lp : (0 : ℝ) < l := by exact_mod_cast hl
  have inj : Set.InjOn (fun k : ℕ => (k : ℝ) / l) (range (l + 1) : Set ℕ) := fun a _ b _ h => by
    have h : (a : ℝ) / l = (b : ℝ) / l := h
    rw [div_left_inj' lp.ne'] at h
    exact_mod_cast h
  have hX : (Polynomial.X ^ j : Polynomial ℝ) = Lagrange.interpolate (range (l + 1)) (fun k => (k : ℝ) / l) fun k => ((k : ℝ) / l) ^ j :=
    Lagrange.eq_interpolate_of_eval_eq _ inj (by
      rw [Polynomial.degree_X_pow, card_range]
      exact_mod_cast (by omega : j < l + 1)) (fun i _ => by simp)
  have e : ∀ t : ℝ, t ^ j = ∑ k ∈ range (l + 1), (Lagrange.basis (range (l + 1)) (fun k => (k : ℝ) / l) k).eval t * ((k : ℝ) / l) ^ j := fun t => by
    have := congrArg (Polynomial.eval t) hX
    simp only [Polynomial.eval_pow, Polynomial.eval_X, Lagrange.interpolate_apply, Polynomial.eval_finsetSum, Polynomial.eval_mul,
      Polynomial.eval_C] at this
    rw [this]
    exact Finset.sum_congr rfl fun k _ => mul_comm _ _
  simp only [Nat.add_sub_cancel]
  rw [← integral_pow, intervalIntegral.integral_congr fun t _ => e t, intervalIntegral.integral_finsetSum]
  · simp only [intervalIntegral.integral_mul_const]
  · intro k _
    exact (Continuous.mul (Polynomial.continuous _) continuous_const).intervalIntegrable _ _

/-! ### With physics terms the scheme does not converge -/

/-- The residual of `x' = s`, where `s` is given by a physics parametrisation. -/
noncomputable def sourceR : LForm ℝ ℝ :=
  [ { labels := [.timeDerivative], op := fun x => x, subj := 0 }, { labels := [.source], op := fun x => -x, subj := 0 } ]

omit [CompleteSpace E] in
theorem row_sum {l : ℕ} {q : ℕ → ℕ → ℝ} (hq : IntegratesEquidistant q l) (m : ℕ) (hm : m < l) : ∑ k ∈ range (l + 1), q (m + 1) k = 1 / l := by
  have lp : (0 : ℝ) < l := by exact_mod_cast (by omega : 0 < l)
  have := hq m hm 0 (Nat.zero_le _)
  simp only [pow_zero, mul_one, zero_add, pow_one, Nat.cast_zero, div_one] at this
  rw [this]
  push_cast
  ring

/-- C127 fails for physics terms: the source at the start of the interval is never evaluated for the new iterate, so that every correction
loses the source of the first subinterval.  For `x' = 1` with the 1 from a physics parametrisation, any run with at least one correction
gives `(1 - 1/M) N h` after `N` steps of `h`, for every base scheme, number of corrections and choice of stencils: refining the timestep
does not help. -/
theorem C127_sources_refuted (c : Config ℝ ℝ ℝ) (hR : c.R = sourceR) (hev : c.evaluate = [fun _ _ => 1]) (hc : Usable c (LinearEquiv.refl ℝ ℝ))
    (hq : TablesOK c) (hK : 0 < c.Kc) (h : ℝ) (N : ℕ) :
    (steps (init c h) N (fresh (h / c.M), 0)).map (·.2) = some ((1 - 1 / c.M) * (N * h)) := by
  obtain ⟨hM, hKM⟩ := hc.nodes
  have Mp : (0 : ℝ) < c.M := by exact_mod_cast hM
  have impl0 : ∀ x, implPart c.R x = 0 := fun x => by rw [hR]; simp [implPart, part, sourceR]
  have expl0 : ∀ x, explPart c.R x = 0 := fun x => by rw [hR]; simp [explPart, part, sourceR]
  have src : ∀ x, srcPart c.R x = -x := fun x => by rw [hR]; simp [srcPart, part, sourceR]
  have hm : ∀ x, Spec.mass c.R x = x := fun x => by rw [hc.mass]; rfl
  have good : ∀ dt, Good (init c h) dt fun _ => -1 := fun dt => ⟨hc.exact, hc.clean, hc.one, lin_of hc, massInv_of hc, fun d => by
      refine ⟨d, ?_, fun y hy => ?_⟩
      · show Spec.mass c.R d + (init c h).dt • implPart c.R d = d
        rw [hm, impl0]; simp
      · have hy : Spec.mass c.R y + (init c h).dt • implPart c.R y = d := hy
        rw [hm, impl0] at hy
        simpa using hy, hc.noLimiter, fun x out => by
      show srcPart c.R (c.evaluate.foldl _ _) = _
      rw [hev, src]; rfl⟩
  have quad : ∀ k, 1 ≤ k → k ≤ c.Kc → ∀ m < c.M, ridcQuad ((init c h).Q k) (stencil (init c h) k) (fun _ => (-1 : ℝ)) m = -(h / c.M) := by
    intro k k1 kK m hm'
    have hl : intervals c k ≤ c.M ∧ 0 < intervals c k := by simp only [intervals]; split <;> omega
    have lp : (0 : ℝ) < intervals c k := by exact_mod_cast hl.2
    have hst : stencil (init c h) k = intervals c k := rfl
    have hQ : ∀ i j, (init c h).Q k i j = (intervals c k : ℝ) * (h / c.M) * c.unitQ (intervals c k) i j := fun i j => rfl
    have row : ∀ i < intervals c k, ∑ j ∈ range (intervals c k + 1), (init c h).Q k (i + 1) j • (-1 : ℝ) = -(h / c.M) := fun i hi => by
      simp only [hQ, smul_eq_mul, mul_neg, mul_one, Finset.sum_neg_distrib, ← Finset.mul_sum, row_sum (hq k k1 kK) i hi]
      field_simp
    unfold ridcQuad
    rw [hst]
    split
    · exact row m ‹_›
    · have := row (intervals c k - 1) (by omega)
      rwa [show intervals c k - 1 + 1 = intervals c k by omega] at this
  have one : ∀ (st : State ℝ ℝ) (x : ℝ), st.sU1 0 = 0 → ∃ r, RIDC.apply (init c h) st x = some r ∧ r.1.sU1 0 = 0 ∧
      r.2 = x + (1 - 1 / c.M) * h := by
    intro st x h0
    obtain ⟨s1, -, s3, s4⟩ := start_spec (init c h) st x
    have all : ∀ k ≤ c.Kc, SrcStored (init c h) (fun _ => -1) (sweeps (init c h) (start (init c h) st x) k) ∧
        (sweeps (init c h) (start (init c h) st x) k).sU1 0 = 0 ∧ (sweeps (init c h) (start (init c h) st x) k).U 0 = x ∧
        (1 ≤ k → ∀ m < c.M, (sweeps (init c h) (start (init c h) st x) k).U (m + 1) = x + m * (h / c.M)) := by
      intro k
      induction k with
      | zero =>
        intro _
        refine ⟨fun i hi => ?_, ?_, s1, fun h => absurd h (by omega)⟩
        · show srcPart c.R ((start (init c h) st x).sU (i + 1)) = -1
          rw [s4 (i + 1) hi]
          exact (good _).src _ _
        · show (start (init c h) st x).sU1 0 = 0
          rw [s3, h0]
      | succ k ih =>
        intro hk
        obtain ⟨i1, i2, i3, -⟩ := ih (by omega)
        have hl : stencil (init c h) (k + 1) ≤ (init c h).M := by
          show intervals c (k + 1) ≤ c.M
          simp only [intervals]; split <;> omega
        rw [sweeps_succ]
        set s := sweeps (init c h) (start (init c h) st x) k
        obtain ⟨a1, a2, a3, -⟩ := sweep_spec (init c h) (fun _ => -1) s (good _) i1 (k + 1) hl
        have b0 : (sweep (init c h) s (k + 1)).U 0 = x := a1.1.trans i3
        refine ⟨a2, a3.trans i2, b0, fun _ m => ?_⟩
        induction m with
        | zero =>
          intro hm0
          have e := a1.2 0 hm0
          have hR' : (init c h).R = c.R := rfl
          have hdt : (init c h).dt = h / c.M := rfl
          simp only [hR', hm, impl0, expl0, src, i2, zero_add, sub_self, smul_zero, quad (k + 1) (by omega) hk 0 hm0, hdt, if_true, b0] at e
          rw [zero_add, e]
          simp
        | succ m ihm =>
          intro hm0
          have e := a1.2 (m + 1) hm0
          have hR' : (init c h).R = c.R := rfl
          have hdt : (init c h).dt = h / c.M := rfl
          simp only [hR', hm, impl0, expl0, src, i2, zero_add, sub_self, smul_zero, quad (k + 1) (by omega) hk (m + 1) hm0, hdt,
            ihm (by omega), Nat.succ_ne_zero, if_false] at e
          rw [e]
          push_cast
          ring
    obtain ⟨-, b2, -, b4⟩ := all c.Kc le_rfl
    refine ⟨(sweeps (init c h) (start (init c h) st x) c.Kc, (sweeps (init c h) (start (init c h) st x) c.Kc).U c.M), ?_, b2, ?_⟩
    · have : ¬ (init c h).M < (init c h).Kc := by show ¬ c.M < c.Kc; omega
      unfold RIDC.apply
      rw [if_neg this]
      rfl
    · have := b4 hK (c.M - 1) (by omega)
      rw [show c.M - 1 + 1 = c.M by omega] at this
      show (sweeps (init c h) (start (init c h) st x) c.Kc).U c.M = _
      rw [this, Nat.cast_sub hM]
      push_cast
      field_simp
  have run : ∀ N : ℕ, ∃ r, steps (init c h) N (fresh (h / c.M), 0) = some r ∧ r.1.sU1 0 = 0 ∧ r.2 = (1 - 1 / c.M) * (N * h) := by
    intro N
    induction N with
    | zero => exact ⟨_, rfl, rfl, by simp⟩
    | succ N ih =>
      obtain ⟨r, h1, h2, h3⟩ := ih
      obtain ⟨r', g1, g2, g3⟩ := one r.1 r.2 h2
      refine ⟨r', ?_, g2, ?_⟩
      · show (steps (init c h) N _).bind _ = _
        rw [h1]
        exact g1
      · rw [g3, h3]; push_cast; ring
  obtain ⟨r, h1, -, h3⟩ := run N
  rw [h1, Option.map_some, h3]

/-! ### Examples -/

/-- Two subintervals, one correction with the trapezoidal rule. -/
noncomputable def trapezoid (R : LForm ℝ ℝ) (reduced : Bool) (ev : List (ℝ → ℝ → ℝ)) : Config ℝ ℝ ℝ where
  R := R
  M := 2
  Kc := 1
  reduced := reduced
  unitQ := fun _ m _ => if m = 0 then 0 else 1 / 2
  base := fun h => rkStep (fun _ _ => 0) (fun _ => 1) 1 Real.sin h
  solve := choiceSolve
  evaluate := ev

omit [CompleteSpace E] in
theorem trapezoid_tables (R : LForm ℝ ℝ) (reduced : Bool) (ev : List (ℝ → ℝ → ℝ)) : TablesOK (trapezoid R reduced ev) := by
  intro k h1 h2
  obtain rfl : k = 1 := le_antisymm h2 h1
  have : intervals (trapezoid R reduced ev) 1 = 1 := by cases reduced <;> rfl
  rw [this]
  intro m hm j hj
  obtain rfl : m = 0 := by omega
  interval_cases j <;> norm_num [trapezoid, Finset.sum_range_succ]

theorem trapezoid_sine (reduced : Bool) : Usable (trapezoid splitSineR reduced []) sineM where
  exact := choiceSolve_exact
  clean := by intro t ht; simp [trapezoid, splitSineR] at ht; rcases ht with rfl | rfl | rfl <;> simp
  one := by intro t ht; simp [trapezoid, splitSineR] at ht; rcases ht with rfl | rfl | rfl <;> simp
  mass := fun x => by simp [trapezoid, Spec.mass, part, splitSineR, sineM]
  noLimiter := rfl
  nodes := by simp [trapezoid]

/-- The hypotheses of `C127_order` are met by a nonlinear equation: one correction of forward Euler is of the second order. -/
example (reduced : Bool) : ∃ H C : ℝ, 0 < H ∧ ∀ h, 0 ≤ h → h ≤ H → ∀ N : ℕ, N * h ≤ 10 →
    ∃ r, steps (init (trapezoid splitSineR reduced []) h) N (fresh (h / 2), 2 * Real.arctan (Real.exp 0)) = some r ∧
      ‖r.2 - 2 * Real.arctan (Real.exp (N * h))‖ ≤ C * h ^ 2 := by
  obtain ⟨e, sol⟩ := DCConvergenceProps.radau2_sol 1 "copy" false 10
  obtain ⟨r1, r2⟩ := DCConvergenceProps.radau2_rhs 1 "copy" false
  have hR : (DCConvergenceProps.radau2 1 "copy" false).R = (trapezoid splitSineR reduced []).R := rfl
  rw [hR] at e r1 r2
  simp only [hR, add_zero] at e r2
  have := C127_order (trapezoid_sine reduced) (fun x => by simp [trapezoid, srcPart, part, splitSineR]) (trapezoid_tables _ _ _)
    (by rw [r1]; exact sin_lip.smul _) (by rw [r2]; exact sin_lip.smul _) (by rw [e]; exact Real.contDiff_sin)
    (y := fun t => 2 * Real.arctan (Real.exp t)) (T := 10) (by norm_num) (by rw [e]; exact sol)
    ((rk_firstOrder _ _ 1 sin_lip (by simp)).accurate sin_lip sol)
  exact this

/-- With two subintervals a physics source counts for half of the time. -/
example (reduced : Bool) (h : ℝ) (N : ℕ) :
    (steps (init (trapezoid sourceR reduced [fun _ _ => 1]) h) N (fresh (h / 2), 0)).map (·.2) = some (1 / 2 * (N * h)) := by
  have := C127_sources_refuted (trapezoid sourceR reduced [fun _ _ => 1]) rfl rfl
    { exact := choiceSolve_exact
      clean := by intro t ht; simp [trapezoid, sourceR] at ht; rcases ht with rfl | rfl <;> simp
      one := by intro t ht; simp [trapezoid, sourceR] at ht; rcases ht with rfl | rfl <;> simp
      mass := fun x => by simp [trapezoid, Spec.mass, part, sourceR]
      noLimiter := rfl
      nodes := by simp [trapezoid] } (trapezoid_tables _ _ _) one_pos h N
  have e : (1 - 1 / ((trapezoid sourceR reduced [fun _ _ => 1]).M : ℝ)) = 1 / 2 := by simp [trapezoid]; norm_num
  rw [e] at this
  exact this

end Gusto.Props.RIDCConvergenceProps
