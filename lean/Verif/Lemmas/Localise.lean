import Verif.Spec.LocalConvergence
import Verif.Lemmas.ConvergenceRuns
import Verif.Lemmas.ConvergenceImplicit
import Mathlib.Analysis.Calculus.ContDiff.RCLike
import Mathlib.Analysis.Calculus.BumpFunction.FiniteDimension
import Mathlib.Topology.MetricSpace.Contracting

set_option autoImplicit false
set_option linter.unusedSectionVars false
set_option linter.unusedSimpArgs false

/-!
# From globally to locally Lipschitz right-hand sides

The right-hand side is cut off outside a ball that contains the solution; the convergence theorems for globally Lipschitz
right-hand sides keep the computed states near the solution, where nothing has been cut off.
-/

namespace Gusto.Convergence
open Set Finset Gusto Gusto.Spec
variable {E : Type*} [NormedAddCommGroup E] [NormedSpace ℝ E]

/-! ### Cutting off -/

theorem LocalLip.bounded {f : E → E} (hf : LocalLip f) (B : ℝ) : ∃ m, 0 ≤ m ∧ ∀ x, ‖x‖ ≤ B → ‖f x‖ ≤ m := by
  obtain ⟨c, hc, h⟩ := hf (max B 0)
  refine ⟨c * max B 0 + ‖f 0‖, by positivity, fun x hx => ?_⟩
  have h1 := h x 0 (hx.trans (le_max_left _ _)) (by simp)
  rw [sub_zero] at h1
  have h2 : c * ‖x‖ ≤ c * max B 0 := mul_le_mul_of_nonneg_left (hx.trans (le_max_left _ _)) hc
  have h3 : ‖f x‖ ≤ ‖f x - f 0‖ + ‖f 0‖ := by simpa using norm_add_le (f x - f 0) (f 0)
  linarith

/-- A Lipschitz cut-off. -/
theorem cutoff_lip {f : E → E} (hf : LocalLip f) (B : ℝ) : ∃ g L, Lip g L ∧ ∀ x, ‖x‖ ≤ B → g x = f x := by
  obtain ⟨c, hc, hl⟩ := hf (B + 1)
  obtain ⟨m, hm, hb⟩ := hf.bounded (B + 1)
  set χ : E → ℝ := fun x => max 0 (min 1 (B + 1 - ‖x‖)) with hχ
  have c0 : ∀ x, 0 ≤ χ x := fun x => le_max_left _ _
  have c1 : ∀ x, χ x ≤ 1 := fun x => max_le zero_le_one (min_le_left _ _)
  have cz : ∀ x, B + 1 < ‖x‖ → χ x = 0 := fun x hx => max_eq_left ((min_le_right _ _).trans (by linarith))
  have cl : ∀ x z, |χ x - χ z| ≤ ‖x - z‖ := by
    intro x z
    have h1 : |χ x - χ z| ≤ |(min 1 (B + 1 - ‖x‖)) - (min 1 (B + 1 - ‖z‖))| := by
      have := abs_max_sub_max_le_abs (min 1 (B + 1 - ‖x‖)) (min 1 (B + 1 - ‖z‖)) 0
      simpa only [hχ, max_comm (0 : ℝ)] using this
    have h2 : |(min 1 (B + 1 - ‖x‖)) - (min 1 (B + 1 - ‖z‖))| ≤ |(B + 1 - ‖x‖) - (B + 1 - ‖z‖)| := by
      have := abs_min_sub_min_le_max 1 (B + 1 - ‖x‖) 1 (B + 1 - ‖z‖)
      simpa using this
    have h3 : |(B + 1 - ‖x‖) - (B + 1 - ‖z‖)| = |‖z‖ - ‖x‖| := by congr 1; ring
    rw [h3] at h2
    refine h1.trans (h2.trans ?_)
    rw [norm_sub_rev]; exact abs_norm_sub_norm_le z x
  have key : ∀ x z, ‖x‖ ≤ B + 1 → ‖χ x • f x - χ z • f z‖ ≤ (c + m) * ‖x - z‖ := by
    intro x z hx
    rcases le_or_gt ‖z‖ (B + 1) with hz | hz
    · have e : χ x • f x - χ z • f z = (χ x - χ z) • f x + χ z • (f x - f z) := by
        rw [sub_smul, smul_sub]; abel
      rw [e]
      refine (norm_add_le _ _).trans ?_
      rw [norm_smul, norm_smul, Real.norm_eq_abs, Real.norm_eq_abs, abs_of_nonneg (c0 z)]
      have h1 : |χ x - χ z| * ‖f x‖ ≤ ‖x - z‖ * m := mul_le_mul (cl x z) (hb x hx) (norm_nonneg _) (norm_nonneg _)
      have h2 : χ z * ‖f x - f z‖ ≤ 1 * (c * ‖x - z‖) := mul_le_mul (c1 z) (hl x z hx hz) (norm_nonneg _) zero_le_one
      linarith
    · have e : χ x • f x - χ z • f z = (χ x - χ z) • f x := by rw [cz z hz, zero_smul]; simp
      rw [e, norm_smul, Real.norm_eq_abs]
      have h1 : |χ x - χ z| * ‖f x‖ ≤ ‖x - z‖ * m := mul_le_mul (cl x z) (hb x hx) (norm_nonneg _) (norm_nonneg _)
      have h2 := mul_nonneg hc (norm_nonneg (x - z))
      linarith
  refine ⟨fun x => χ x • f x, c + m, ⟨by positivity, fun x z => ?_⟩, fun x hx => ?_⟩
  · rcases le_or_gt ‖x‖ (B + 1) with hx | hx
    · exact key x z hx
    rcases le_or_gt ‖z‖ (B + 1) with hz | hz
    · rw [norm_sub_rev, norm_sub_rev x]; exact key z x hz
    · show ‖χ x • f x - χ z • f z‖ ≤ _
      rw [cz x hx, cz z hz]; simp; positivity
  · have : χ x = 1 := by
      simp only [hχ]; rw [min_eq_left (by linarith)]; exact max_eq_right zero_le_one
    show χ x • f x = f x
    rw [this, one_smul]

/-- A smooth cut-off. -/
theorem LocalRHS.cutoff [FiniteDimensional ℝ E] {f : E → E} {p : ℕ} (hf : LocalRHS f p) (B : ℝ) :
    ∃ g L, SmoothRHS g p L ∧ ∀ x, ‖x‖ ≤ B → g x = f x := by
  rcases Nat.lt_or_ge p 2 with hp | hp
  · obtain ⟨g, L, h1, h2⟩ := cutoff_lip hf.lip B
    exact ⟨g, L, ⟨h1, fun h => absurd h (by omega), fun h => absurd h (by omega)⟩, h2⟩
  let χ : ContDiffBump (0 : E) := ⟨|B| + 1, |B| + 2, by positivity, by linarith⟩
  have hd : ContDiff ℝ p (fun x => χ x • f x) := χ.contDiff.smul (hf.diff hp)
  have hc : HasCompactSupport (fun x => χ x • f x) := χ.hasCompactSupport.smul_right
  obtain ⟨L, hL⟩ := hd.lipschitzWith_of_hasCompactSupport hc (by
    have : p ≠ 0 := by omega
    exact_mod_cast this)
  have hd' : ContDiff ℝ 1 (fderiv ℝ fun x => χ x • f x) := hd.fderiv_right (by
    have : (1 : ℕ) + 1 ≤ p := by omega
    exact_mod_cast this)
  obtain ⟨L2, hL2⟩ := hd'.lipschitzWith_of_hasCompactSupport (hc.fderiv ℝ) (by norm_num)
  refine ⟨_, L, ⟨⟨L.2, fun x z => ?_⟩, fun _ => hd, fun _ => ⟨L2, L2.2, fun x z => ?_⟩⟩, fun x hx => ?_⟩
  · have := hL.dist_le_mul x z; rwa [dist_eq_norm, dist_eq_norm] at this
  · have := hL2.dist_le_mul x z; rwa [dist_eq_norm, dist_eq_norm] at this
  · have : χ x = 1 := χ.one_of_mem_closedBall (by
      rw [mem_closedBall_zero_iff]; exact hx.trans ((le_abs_self B).trans (by show |B| ≤ |B| + 1; linarith)))
    show χ x • f x = f x
    rw [this, one_smul]

theorem IsSol.norm_bound {f : E → E} {y : ℝ → E} {T : ℝ} (hy : IsSol f y T) : ∃ B, 0 ≤ B ∧ ∀ t ∈ Icc 0 T, ‖y t‖ ≤ B := by
  obtain ⟨B, hB⟩ := isCompact_Icc.exists_bound_of_continuousOn hy.continuousOn
  exact ⟨max B 0, le_max_right _ _, fun t ht => (hB t ht).trans (le_max_left _ _)⟩

theorem IsSol.congr {f g : E → E} {y : ℝ → E} {T B : ℝ} (hy : IsSol f y T) (hB : ∀ t ∈ Icc 0 T, ‖y t‖ ≤ B)
    (hg : ∀ x, ‖x‖ ≤ B → g x = f x) : IsSol g y T := fun t ht => by rw [hg _ (hB t ht)]; exact hy t ht

/-! ### Staying near the solution -/

/-- If every step from bounded states is a good one, and good steps stay within 1 of the solution, all the steps are good. -/
theorem bootstrap {x : ℕ → E} {w : ℕ → E} {N : ℕ} {P : ℕ → Prop} {B : ℝ} (hw : ∀ n ≤ N, ‖w n‖ + 1 ≤ B)
    (hstep : ∀ n < N, (∀ m ≤ n, ‖x m‖ ≤ B) → P n) (hconv : ∀ n ≤ N, (∀ m < n, P m) → ‖x n - w n‖ ≤ 1) : ∀ n < N, P n := by
  have key : ∀ n ≤ N, ∀ m < n, P m := by
    intro n
    induction n with
    | zero => intro _ m hm; omega
    | succ n ih =>
      intro hn m hm
      rcases Nat.lt_succ_iff_lt_or_eq.1 hm with h | rfl
      · exact ih (by omega) m h
      refine hstep m (by omega) fun k hk => ?_
      have h1 := hconv k (by omega) fun j hj => ih (by omega) j (by omega)
      have h2 := hw k (by omega)
      have h3 : ‖x k‖ ≤ ‖x k - w k‖ + ‖w k‖ := by simpa using norm_add_le (x k - w k) (w k)
      linarith
  intro n hn
  exact key (n + 1) (by omega) n (by omega)

/-- A bound `K h^p` is below 1 for small timesteps. -/
theorem small_step (K : ℝ) : ∃ h0, 0 < h0 ∧ h0 ≤ 1 ∧ ∀ h, 0 ≤ h → h ≤ h0 → ∀ p : ℕ, 1 ≤ p → K * h ^ p ≤ 1 := by
  refine ⟨1 / (|K| + 1), by positivity, ?_, fun h h0 h1 p hp => ?_⟩
  · rw [div_le_one (by positivity)]; linarith [abs_nonneg K]
  have h2 : (|K| + 1) * h ≤ 1 := by
    rw [le_div_iff₀ (by positivity)] at h1; linarith
  have h3 : h ≤ 1 := by nlinarith [abs_nonneg K]
  have h4 : h ^ p ≤ h := by
    calc h ^ p ≤ h ^ 1 := pow_le_pow_of_le_one h0 h3 hp
      _ = h := pow_one h
  have h5 : K * h ^ p ≤ |K| * h ^ p := mul_le_mul_of_nonneg_right (le_abs_self K) (by positivity)
  nlinarith [abs_nonneg K]

/-! ### Explicit Runge-Kutta methods -/

/-- On a ball, with a small timestep, the step only uses the right-hand side on a larger ball. -/
theorem rkStep_congr (a : ℕ → ℕ → ℝ) (b : ℕ → ℝ) (s : ℕ) {f g : E → E} {L : ℝ} (hg : Lip g L) {B B' : ℝ} (hB : B < B')
    (hfg : ∀ x, ‖x‖ ≤ B' → g x = f x) :
    ∃ h0, 0 < h0 ∧ ∀ h, 0 ≤ h → h ≤ h0 → ∀ x, ‖x‖ ≤ B → rkStep a b s f h x = rkStep a b s g h x := by
  choose C hC0 hC using fun i => rkK_near a hg 1 zero_le_one i
  have hgb : ∀ x, ‖x‖ ≤ B → ‖g x‖ ≤ L * |B| + ‖g 0‖ := by
    intro x hx
    have h1 := hg.2 x 0
    rw [sub_zero] at h1
    have h2 : L * ‖x‖ ≤ L * |B| := mul_le_mul_of_nonneg_left (hx.trans (le_abs_self B)) hg.1
    have h3 : ‖g x‖ ≤ ‖g x - g 0‖ + ‖g 0‖ := by simpa using norm_add_le (g x - g 0) (g 0)
    linarith
  set m := L * |B| + ‖g 0‖ with hm
  have hm0 : 0 ≤ m := by have := hg.1; positivity
  set S : ℕ → ℝ := fun i => ∑ j ∈ range i, |a i j| * ((C j + 1) * m) with hS
  have hS0 : ∀ i, 0 ≤ S i := fun i => Finset.sum_nonneg fun j _ => mul_nonneg (abs_nonneg _) (mul_nonneg (by linarith [hC0 j]) hm0)
  set Q := ∑ i ∈ range s, S i with hQ
  have hQ0 : 0 ≤ Q := Finset.sum_nonneg fun i _ => hS0 i
  refine ⟨min 1 ((B' - B) / (Q + 1)), lt_min one_pos (div_pos (by linarith) (by linarith)), fun h h0 hh x hx => ?_⟩
  have h1 : h ≤ 1 := hh.trans (min_le_left _ _)
  have h2 : h * (Q + 1) ≤ B' - B := by
    have := hh.trans (min_le_right _ _)
    rwa [le_div_iff₀ (by linarith)] at this
  have key : ∀ i < s, rkK a f h x i = rkK a g h x i := by
    intro i
    induction i using Nat.strong_induction_on with
    | _ i ih =>
      intro hi
      rw [rkK_eq, rkK_eq a g]
      have e : ∑ j ∈ range i, a i j • rkK a f h x j = ∑ j ∈ range i, a i j • rkK a g h x j :=
        Finset.sum_congr rfl fun j hj => by rw [ih j (Finset.mem_range.1 hj) (by have := Finset.mem_range.1 hj; omega)]
      rw [e]
      symm
      apply hfg
      have s1 : ‖∑ j ∈ range i, a i j • rkK a g h x j‖ ≤ S i := by
        refine norm_sum_le_of_le _ fun j _ => ?_
        rw [norm_smul, Real.norm_eq_abs]
        refine mul_le_mul_of_nonneg_left ?_ (abs_nonneg _)
        have e1 := hC j h h0 h1 x
        have e2 : ‖rkK a g h x j‖ ≤ ‖rkK a g h x j - g x‖ + ‖g x‖ := by
          simpa using norm_add_le (rkK a g h x j - g x) (g x)
        have e3 := hgb x hx
        have e4 : C j * h * ‖g x‖ ≤ C j * 1 * m := mul_le_mul (mul_le_mul_of_nonneg_left h1 (hC0 j)) e3 (norm_nonneg _)
          (by linarith [hC0 j])
        linarith
      have s2 : S i ≤ Q := Finset.single_le_sum (f := S) (fun j _ => hS0 j) (Finset.mem_range.2 hi)
      refine (norm_add_le _ _).trans ?_
      rw [norm_smul, Real.norm_eq_abs, abs_of_nonneg h0]
      have s3 : h * ‖∑ j ∈ range i, a i j • rkK a g h x j‖ ≤ h * Q := mul_le_mul_of_nonneg_left (s1.trans s2) h0
      nlinarith
  rw [rkStep, rkStep]
  congr 2
  exact Finset.sum_congr rfl fun j hj => by rw [key j (Finset.mem_range.1 hj)]

/-- Convergence of an explicit Runge-Kutta method for a right-hand side that is Lipschitz continuous on bounded sets. -/
theorem OrderConditions.converges_local [FiniteDimensional ℝ E] {a : ℕ → ℕ → ℝ} {b : ℕ → ℝ} {s p : ℕ} (ho : OrderConditions a b s p)
    (hp : 1 ≤ p) {f : E → E} (hf : LocalRHS f p) {y : ℝ → E} {T : ℝ} (hT : 0 < T) (hy : IsSol f y T) :
    ∃ C h0, 0 < h0 ∧ ∀ h, 0 ≤ h → h ≤ h0 → ∀ (x : ℕ → E) (N : ℕ), N * h ≤ T → x 0 = y 0 →
      (∀ n < N, ∃ m : ℕ, 0 < m ∧ x (n + 1) = (rkStep a b s f (h / m))^[m] (x n)) → ‖x N - y (N * h)‖ ≤ C * h ^ p := by
  obtain ⟨Y, hY0, hY⟩ := hy.norm_bound
  obtain ⟨g, L, hg, hfg⟩ := hf.cutoff (Y + 2)
  have hyg : IsSol g y T := hy.congr hY fun x hx => hfg x (by linarith)
  obtain ⟨k0, hk0, hk⟩ := rkStep_congr a b s hg.lip (B := Y + 1) (B' := Y + 2) (by linarith) hfg
  obtain ⟨C1, h10, h1⟩ := rkStep_lip a b s hg.lip T hT.le
  obtain ⟨D, hD, h2⟩ := ho.local hp hg hT hyg
  set C := Real.exp (T * C1) * (T * D) with hC
  have hC0 : 0 ≤ C := by positivity
  obtain ⟨e0, he0, he1, he⟩ := small_step (Real.exp (T * C1) * (C + T * D))
  obtain ⟨e2, he2, -, he3⟩ := small_step C
  refine ⟨C, min (min k0 e2) e0, lt_min (lt_min hk0 he2) he0, fun h hh hle x N hN hx0 hx => ?_⟩
  have hle1 : h ≤ k0 := hle.trans ((min_le_left _ _).trans (min_le_left _ _))
  have hle2 : h ≤ e0 := hle.trans (min_le_right _ _)
  have hle3 : h ≤ e2 := hle.trans ((min_le_left _ _).trans (min_le_right _ _))
  have hNT : ∀ n ≤ N, (n : ℝ) * h ∈ Icc 0 T := fun n hn => ⟨by positivity, by
    have : (n : ℝ) ≤ N := by exact_mod_cast hn
    nlinarith⟩
  have hrun : ∀ n ≤ N, (∀ m < n, ∃ k : ℕ, 0 < k ∧ x (m + 1) = (rkStep a b s g (h / k))^[k] (x m)) →
      ‖x n - y (n * h)‖ ≤ C * h ^ p := fun n hn hm =>
    run_error (Φ := rkStep a b s g) h10 hD h1 h2 hh x n (hNT n hn).2 hx0 hm
  have hgood : ∀ n < N, ∃ k : ℕ, 0 < k ∧ x (n + 1) = (rkStep a b s g (h / k))^[k] (x n) := by
    intro n
    induction n using Nat.strong_induction_on with
    | _ n ih =>
      intro hn
      obtain ⟨m, hm, e⟩ := hx n hn
      refine ⟨m, hm, e.trans ?_⟩
      have hm1 : (1 : ℝ) ≤ m := by exact_mod_cast hm
      have hm0 : (m : ℝ) ≠ 0 := by positivity
      have hmh : h / m ≤ h := div_le_self hh hm1
      have hxn := hrun n hn.le fun j hj => ih j hj (by omega)
      have key : ∀ j ≤ m, (rkStep a b s f (h / m))^[j] (x n) = (rkStep a b s g (h / m))^[j] (x n) := by
        intro j
        induction j with
        | zero => intro _; rfl
        | succ j ihj =>
          intro hj
          rw [Function.iterate_succ_apply', Function.iterate_succ_apply', ihj (by omega)]
          refine hk _ (by positivity) (hmh.trans hle1) _ ?_
          have hj' : (j : ℝ) ≤ m := by exact_mod_cast (by omega : j ≤ m)
          have hjT : (j : ℝ) * (h / m) ≤ h := by
            calc (j : ℝ) * (h / m) ≤ m * (h / m) := mul_le_mul_of_nonneg_right hj' (by positivity)
              _ = h := by field_simp
          have hnT := step_le hh hn hN
          have s1 := substeps_error h10 hD h1 h2 (k := h / m) (t := n * h) (by positivity) (by positivity) j (by linarith) (x n)
          have hjT' : (j : ℝ) * (h / m) ≤ T := by nlinarith [(hNT n hn.le).1]
          have s2 : Real.exp (j * (h / m) * C1) ≤ Real.exp (T * C1) := Real.exp_le_exp.2 (mul_le_mul_of_nonneg_right hjT' h10)
          have s3 : (j : ℝ) * (h / m) * D * (h / m) ^ p ≤ T * D * h ^ p := by gcongr
          have s4 := he h hh hle2 p hp
          have s5 : ‖(rkStep a b s g (h / m))^[j] (x n) - y (n * h + j * (h / m))‖ ≤ 1 := by
            refine s1.trans (le_trans ?_ s4)
            calc _ ≤ Real.exp (T * C1) * (C * h ^ p + T * D * h ^ p) :=
                  mul_le_mul s2 (add_le_add hxn s3) (by positivity) (Real.exp_pos _).le
              _ = _ := by ring
          have s6 := hY (n * h + j * (h / m)) ⟨by positivity, by linarith⟩
          have s7 : ‖(rkStep a b s g (h / m))^[j] (x n)‖ ≤ ‖(rkStep a b s g (h / m))^[j] (x n) - y (n * h + j * (h / m))‖ +
              ‖y (n * h + j * (h / m))‖ := by
            simpa using norm_add_le ((rkStep a b s g (h / m))^[j] (x n) - y (n * h + j * (h / m))) (y (n * h + j * (h / m)))
          linarith
      exact key m le_rfl
  exact hrun N le_rfl hgood

/-! ### Implicit equations -/

/-- The root near the initial guess. -/
theorem near_root [CompleteSpace E] {f g : E → E} {L B δ k : ℝ} (hg : Lip g L) (hfg : ∀ x, ‖x‖ ≤ B → g x = f x) (hk : 0 ≤ k)
    (hkL : k * L ≤ 1 / 2) {x c : E} (hx : ‖x‖ + δ ≤ B) (hδ : 2 * (‖c - x‖ + k * ‖g x‖) ≤ δ) :
    (∃! z, ‖z - x‖ ≤ δ ∧ z = c + k • f z) ∧ ∀ z, ‖z - x‖ ≤ δ → z = c + k • f z → z = c + k • g z := by
  have hin : ∀ z, ‖z - x‖ ≤ δ → g z = f z := fun z hz => hfg z (by
    have : ‖z‖ ≤ ‖z - x‖ + ‖x‖ := by simpa using norm_add_le (z - x) x
    linarith)
  have hl : LipschitzWith ⟨1 / 2, by norm_num⟩ (fun z => c + k • g z) := LipschitzWith.of_dist_le_mul fun u v => by
    rw [dist_eq_norm, dist_eq_norm, add_sub_add_left_eq_sub, ← smul_sub, norm_smul, Real.norm_eq_abs, abs_of_nonneg hk]
    calc k * ‖g u - g v‖ ≤ k * (L * ‖u - v‖) := mul_le_mul_of_nonneg_left (hg.2 u v) hk
      _ = (k * L) * ‖u - v‖ := by ring
      _ ≤ 1 / 2 * ‖u - v‖ := mul_le_mul_of_nonneg_right hkL (norm_nonneg _)
  have hc : ContractingWith ⟨1 / 2, by norm_num⟩ (fun z => c + k • g z) := ⟨by
    show (1 / 2 : ℝ) < 1
    norm_num, hl⟩
  set z := hc.fixedPoint with hz
  have hfix : z = c + k • g z := (hc.fixedPoint_isFixedPt).symm
  have hzx : ‖z - x‖ ≤ δ := by
    have e : z - x = (c - x) + k • (g z - g x) + k • g x := by
      nth_rewrite 1 [hfix]; rw [smul_sub]; abel
    have e1 : ‖z - x‖ ≤ ‖c - x‖ + k * ‖g z - g x‖ + k * ‖g x‖ := by
      nth_rewrite 1 [e]
      refine (norm_add_le _ _).trans (add_le_add ((norm_add_le _ _).trans (add_le_add le_rfl ?_)) ?_) <;>
        rw [norm_smul, Real.norm_eq_abs, abs_of_nonneg hk]
    have e2 : k * ‖g z - g x‖ ≤ 1 / 2 * ‖z - x‖ := by
      calc k * ‖g z - g x‖ ≤ k * (L * ‖z - x‖) := mul_le_mul_of_nonneg_left (hg.2 z x) hk
        _ = (k * L) * ‖z - x‖ := by ring
        _ ≤ _ := mul_le_mul_of_nonneg_right hkL (norm_nonneg _)
    linarith
  refine ⟨⟨z, ⟨hzx, by rw [← hin z hzx]; exact hfix⟩, fun u hu => ?_⟩, fun u hu he => by rw [hin u hu]; exact he⟩
  exact hc.fixedPoint_unique (x := u) (by
    show c + k • g u = u
    rw [hin u hu.1]; exact hu.2.symm)

theorem lip_bound {g : E → E} {L : ℝ} (hg : Lip g L) (B : ℝ) : ∃ m, 0 ≤ m ∧ ∀ x, ‖x‖ ≤ B → ‖g x‖ ≤ m := by
  refine ⟨L * |B| + ‖g 0‖, by have := hg.1; positivity, fun x hx => ?_⟩
  have h1 := hg.2 x 0
  rw [sub_zero] at h1
  have h2 : L * ‖x‖ ≤ L * |B| := mul_le_mul_of_nonneg_left (hx.trans (le_abs_self B)) hg.1
  have h3 : ‖g x‖ ≤ ‖g x - g 0‖ + ‖g 0‖ := by simpa using norm_add_le (g x - g 0) (g 0)
  linarith

theorem small_mul (K : ℝ) {δ : ℝ} (hδ : 0 < δ) : ∃ h0, 0 < h0 ∧ ∀ h, 0 ≤ h → h ≤ h0 → K * h ≤ δ := by
  refine ⟨δ / (|K| + 1), by positivity, fun h h0 h1 => ?_⟩
  rw [le_div_iff₀ (by positivity)] at h1
  nlinarith [le_abs_self K, abs_nonneg K]

/-- `z` is the root of `P` near `guess`, if there is exactly one there. -/
def Found (δ : ℝ) (guess : E) (P : E → Prop) (z : E) : Prop :=
  (∃! w, ‖w - guess‖ ≤ δ ∧ P w) → ‖z - guess‖ ≤ δ ∧ P z

theorem NearbySolver.found {D : Type*} [AddCommGroup D] {δ : ℝ} {s : Solver E D} (hs : NearbySolver δ s) {r : E → D} {P : E → Prop}
    (hr : ∀ z, r z = 0 ↔ P z) (guess : E) : Found δ guess P (s r guess) := by
  intro h
  have := hs r guess (by simpa only [hr] using h)
  rwa [hr] at this

theorem Found.congr {δ : ℝ} {guess : E} {P Q : E → Prop} {z : E} (h : Found δ guess P z) (hPQ : ∀ w, P w ↔ Q w) : Found δ guess Q z := by
  intro hq
  have := h (by simpa only [hPQ] using hq)
  rwa [hPQ] at this

/-- One implicit equation, solved near the guess, with the right-hand side cut off. -/
theorem Found.root [CompleteSpace E] {f g : E → E} {L B δ k : ℝ} (hg : Lip g L) (hfg : ∀ x, ‖x‖ ≤ B → g x = f x) (hk : 0 ≤ k)
    (hkL : k * L ≤ 1 / 2) {x c z : E} (hx : ‖x‖ + δ ≤ B) (hδ : 2 * (‖c - x‖ + k * ‖g x‖) ≤ δ)
    (hz : Found δ x (fun w => w = c + k • f w) z) : ‖z - x‖ ≤ δ ∧ z = c + k • g z := by
  obtain ⟨h1, h2⟩ := near_root hg hfg hk hkL hx hδ
  obtain ⟨h3, h4⟩ := hz h1
  exact ⟨h3, h2 z h3 h4⟩

/-- The theta method with a right-hand side that is Lipschitz continuous on bounded sets: convergence for the cut-off right-hand
sides is enough. -/
theorem theta_localise [CompleteSpace E] {f : E → E} {th : ℝ} (h0 : 0 ≤ th) (h1 : th ≤ 1) {p : ℕ} (hp : 1 ≤ p) {y : ℝ → E} {T : ℝ}
    (hy : IsSol f y T) {δ : ℝ} (hδ : 0 < δ)
    (hcut : ∀ B, ∃ g L, Lip g L ∧ (∀ x, ‖x‖ ≤ B → g x = f x) ∧ (IsSol g y T →
      ∃ C, ∀ h, 0 ≤ h → h * L ≤ 1 / 2 → ∀ (x : ℕ → E) (N : ℕ), N * h ≤ T → x 0 = y 0 →
        (∀ n < N, x (n + 1) = x n + (h * th) • g (x (n + 1)) + (h * (1 - th)) • g (x n)) → ‖x N - y (N * h)‖ ≤ C * h ^ p)) :
    ∃ C h0, 0 < h0 ∧ ∀ h, 0 ≤ h → h ≤ h0 → ∀ (x : ℕ → E) (N : ℕ), N * h ≤ T → x 0 = y 0 →
      (∀ n < N, Found δ (x n) (fun z => z = x n + (h * th) • f z + (h * (1 - th)) • f (x n)) (x (n + 1))) →
      ‖x N - y (N * h)‖ ≤ C * h ^ p := by
  obtain ⟨Y, hY0, hY⟩ := hy.norm_bound
  obtain ⟨g, L, hg, hfg, hconv⟩ := hcut (Y + 1 + δ)
  obtain ⟨C, hC⟩ := hconv (hy.congr hY fun x hx => hfg x (by linarith))
  obtain ⟨m, hm0, hm⟩ := lip_bound hg (Y + 1)
  obtain ⟨a, ha0, ha⟩ := small_mul L (δ := 1 / 2) (by norm_num)
  obtain ⟨b, hb0, hb⟩ := small_mul (2 * m) hδ
  obtain ⟨c, hc0, -, hc⟩ := small_step C
  refine ⟨C, min a (min b c), lt_min ha0 (lt_min hb0 hc0), fun h hh hle x N hN hx0 hx => ?_⟩
  have i1 := ha h hh (hle.trans (min_le_left _ _))
  have i2 := hb h hh (hle.trans ((min_le_right _ _).trans (min_le_left _ _)))
  have i3 := hc h hh (hle.trans ((min_le_right _ _).trans (min_le_right _ _))) p hp
  have hNT : ∀ n ≤ N, (n : ℝ) * h ∈ Icc 0 T := fun n hn => ⟨by positivity, by
    have : (n : ℝ) ≤ N := by exact_mod_cast hn
    nlinarith⟩
  refine hC h hh (by linarith) x N hN hx0 ?_
  refine bootstrap (w := fun n => y (n * h)) (B := Y + 1) (fun n hn => by linarith [hY _ (hNT n hn)]) (fun n hn hb => ?_)
    fun n hn hs => (hC h hh (by linarith) x n (hNT n hn).2 hx0 hs).trans i3
  have hxn := hb n le_rfl
  have hL := hg.1
  have e1 := (hx n hn).congr (Q := fun z => z = (x n + (h * (1 - th)) • f (x n)) + (h * th) • f z) fun w => by
    rw [add_right_comm]
  have e2 := (e1.root hg hfg (by positivity) (by
    calc h * th * L = th * (L * h) := by ring
      _ ≤ 1 * (L * h) := mul_le_mul_of_nonneg_right h1 (by positivity)
      _ ≤ _ := by linarith) (by linarith) (by
    rw [add_sub_cancel_left, norm_smul, Real.norm_eq_abs, abs_of_nonneg (mul_nonneg hh (by linarith)), ← hfg (x n) (by linarith)]
    have := mul_le_mul_of_nonneg_left (hm (x n) hxn) hh
    nlinarith)).2
  rw [hfg (x n) (by linarith), add_right_comm]
  exact e2

/-- TR-BDF2 with a right-hand side that is Lipschitz continuous on bounded sets. -/
theorem trbdf2_converges_local [FiniteDimensional ℝ E] {f : E → E} (hf : LocalRHS f 2) {T : ℝ} {γ : ℝ} (hg0 : 0 < γ) (hg1 : γ ≤ 1)
    {y : ℝ → E} (hy : IsSol f y T) {δ : ℝ} (hδ : 0 < δ) :
    ∃ C h0, 0 < h0 ∧ ∀ h, 0 ≤ h → h ≤ h0 → ∀ (x xg : ℕ → E) (N : ℕ), N * h ≤ T → x 0 = y 0 →
      (∀ n < N, Found δ (x n) (fun z => z = x n + (γ * h * (1 / 2)) • f z + (γ * h * (1 - 1 / 2)) • f (x n)) (xg n) ∧
        Found δ (xg n) (fun z => z = (1 / (γ * (2 - γ))) • xg n - ((1 - γ) ^ 2 / (γ * (2 - γ))) • x n
          + ((1 - γ) / (2 - γ) * h) • f z) (x (n + 1))) →
      ‖x N - y (N * h)‖ ≤ C * h ^ 2 := by
  have : CompleteSpace E := FiniteDimensional.complete ℝ E
  obtain ⟨Y, hY0, hY⟩ := hy.norm_bound
  obtain ⟨g, L, hg, hfg⟩ := hf.cutoff (Y + 1 + 2 * δ)
  obtain ⟨L2, hg2⟩ := hg.smooth2 le_rfl
  obtain ⟨C, hC⟩ := trbdf2_converges hg2 hg0 hg1 (hy.congr hY fun x hx => hfg x (by linarith))
  obtain ⟨m, hm0, hm⟩ := lip_bound hg.lip (Y + 1 + δ)
  have h2g : 0 < 2 - γ := by linarith
  set q := (1 - γ) / (2 - γ) with hq
  have hq0 : 0 ≤ q := div_nonneg (by linarith) h2g.le
  have hq1 : q ≤ 1 := by rw [hq, div_le_one h2g]; linarith
  set r := (1 - γ) ^ 2 / (γ * (2 - γ)) with hr
  have hr0 : 0 ≤ r := by positivity
  obtain ⟨a, ha0, ha⟩ := small_mul L (δ := 1 / 2) (by norm_num)
  obtain ⟨b, hb0, hb⟩ := small_mul (2 * (m + r * m)) hδ
  obtain ⟨c, hc0, -, hc⟩ := small_step C
  refine ⟨C, min a (min b c), lt_min ha0 (lt_min hb0 hc0), fun h hh hle x xg N hN hx0 hx => ?_⟩
  have i1 := ha h hh (hle.trans (min_le_left _ _))
  have i2 := hb h hh (hle.trans ((min_le_right _ _).trans (min_le_left _ _)))
  have i3 := hc h hh (hle.trans ((min_le_right _ _).trans (min_le_right _ _))) 2 (by norm_num)
  have hNT : ∀ n ≤ N, (n : ℝ) * h ∈ Icc 0 T := fun n hn => ⟨by positivity, by
    have : (n : ℝ) ≤ N := by exact_mod_cast hn
    nlinarith⟩
  refine hC h hh (by linarith) x xg N hN hx0 ?_
  refine bootstrap (w := fun n => y (n * h)) (B := Y + 1) (fun n hn => by linarith [hY _ (hNT n hn)]) (fun n hn hb => ?_)
    fun n hn hs => (hC h hh (by linarith) x xg n (hNT n hn).2 hx0 hs).trans i3
  have hxn := hb n le_rfl
  have hL := hg.lip.1
  have hgh : γ * h ≤ h := by nlinarith
  have hgh0 : 0 ≤ γ * h := by positivity
  have hhm : 0 ≤ h * m := by positivity
  have hmx := hm (x n) (by linarith)
  have e1 := (hx n hn).1.congr (Q := fun z => z = (x n + (γ * h * (1 - 1 / 2)) • f (x n)) + (γ * h * (1 / 2)) • f z) fun w => by
    rw [add_right_comm]
  obtain ⟨d1, d2⟩ := e1.root hg.lip hfg (by positivity) (by nlinarith [mul_le_mul_of_nonneg_right hgh hL]) (by linarith) (by
    rw [add_sub_cancel_left, norm_smul, Real.norm_eq_abs, abs_of_nonneg (by positivity : (0 : ℝ) ≤ γ * h * (1 - 1 / 2)),
      ← hfg (x n) (by linarith)]
    have := mul_le_mul hgh hmx (norm_nonneg _) hh
    have : 0 ≤ r * m * h := by positivity
    nlinarith)
  have hxg : ‖xg n‖ ≤ Y + 1 + δ := by
    have : ‖xg n‖ ≤ ‖xg n - x n‖ + ‖x n‖ := by simpa using norm_add_le (xg n - x n) (x n)
    linarith
  have hmg := hm (xg n) hxg
  have d3 : ‖xg n - x n‖ ≤ h * m := by
    have e : xg n - x n = (γ * h * (1 - 1 / 2)) • g (x n) + (γ * h * (1 / 2)) • g (xg n) := by
      nth_rewrite 1 [d2]; rw [hfg (x n) (by linarith)]; abel
    rw [e]
    refine (norm_add_le _ _).trans ?_
    rw [norm_smul, norm_smul, Real.norm_eq_abs, Real.norm_eq_abs, abs_of_nonneg (by positivity : (0 : ℝ) ≤ γ * h * (1 - 1 / 2)),
      abs_of_nonneg (by positivity : (0 : ℝ) ≤ γ * h * (1 / 2))]
    have u1 := mul_le_mul hgh hmx (norm_nonneg _) hh
    have u2 := mul_le_mul hgh hmg (norm_nonneg _) hh
    linarith
  obtain ⟨d4, d5⟩ := (hx n hn).2.root hg.lip hfg (by positivity) (by
    calc q * h * L = q * (L * h) := by ring
      _ ≤ 1 * (L * h) := mul_le_mul_of_nonneg_right hq1 (by positivity)
      _ ≤ _ := by linarith) (by linarith) (by
    have e : (1 / (γ * (2 - γ))) • xg n - r • x n - xg n = r • (xg n - x n) := by
      have : 1 / (γ * (2 - γ)) = r + 1 := by rw [hr]; field_simp; ring
      rw [this, add_smul, one_smul, smul_sub]; abel
    rw [e, norm_smul, Real.norm_eq_abs, abs_of_nonneg hr0]
    have u1 := mul_le_mul_of_nonneg_left d3 hr0
    have u2 : q * h * ‖g (xg n)‖ ≤ 1 * h * m := mul_le_mul (mul_le_mul_of_nonneg_right hq1 hh) hmg (norm_nonneg _) (by linarith)
    nlinarith)
  refine ⟨?_, d5⟩
  rw [hfg (x n) (by linarith), add_right_comm]
  exact d2

end Gusto.Convergence
