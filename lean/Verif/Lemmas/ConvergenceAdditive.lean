import Verif.Lemmas.ConvergenceRuns

set_option autoImplicit false
set_option linter.unusedSectionVars false
set_option linter.unusedSimpArgs false

/-!
# Convergence of additive (implicit-explicit) and of diagonally implicit Runge-Kutta methods

A step is compared with reference stages that satisfy the stage equations up to a defect: stability of the stages then gives the
error of the step.
-/

namespace Gusto.Convergence
open Gusto.Spec Finset Set

variable {E : Type*} [NormedAddCommGroup E] [NormedSpace ℝ E]

/-- What stage `i` adds to the old state: implicit table `a`, explicit table `d`. -/
def stageSum (a d : ℕ → ℕ → ℝ) (f g : E → E) (Y : ℕ → E) (i : ℕ) : E :=
  ∑ j ∈ range (i + 1), a i j • f (Y j) + ∑ j ∈ range (i + 1), d i j • g (Y j)

/-- What the step adds to the old state. -/
def finalSum (b e : ℕ → ℝ) (s : ℕ) (f g : E → E) (Y : ℕ → E) : E :=
  ∑ j ∈ range s, b j • f (Y j) + ∑ j ∈ range s, e j • g (Y j)

/-- One step of the additive method. -/
def AdditiveStep (a d : ℕ → ℕ → ℝ) (b e : ℕ → ℝ) (s : ℕ) (f g : E → E) (h : ℝ) (x x' : E) : Prop :=
  ∃ Y : ℕ → E, (∀ i < s, Y i = x + h • stageSum a d f g Y i) ∧ x' = x + h • finalSum b e s f g Y

theorem sum_lip {f : E → E} {L : ℝ} (hf : Lip f L) (S : Finset ℕ) (c : ℕ → ℝ) (Y Z : ℕ → E) :
    ‖∑ j ∈ S, c j • f (Y j) - ∑ j ∈ S, c j • f (Z j)‖ ≤ ∑ j ∈ S, |c j| * L * ‖Y j - Z j‖ := by
  rw [← Finset.sum_sub_distrib]
  refine norm_sum_le_of_le _ fun j _ => ?_
  rw [← smul_sub, norm_smul, Real.norm_eq_abs, mul_assoc]
  exact mul_le_mul_of_nonneg_left (hf.2 _ _) (abs_nonneg _)

/-- The errors of the stages. -/
theorem stages_stable (a d : ℕ → ℕ → ℝ) {f g : E → E} {L L' : ℝ} (hf : Lip f L) (hg : Lip g L') (H : ℝ) (hH : 0 ≤ H) (i : ℕ) :
    ∃ C, 0 ≤ C ∧ ∀ h, 0 ≤ h → h ≤ H → ∀ (x z : E) (Y Z : ℕ → E) (ε : ℝ),
      (∀ j ≤ i, h * (|a j j| * L + |d j j| * L') ≤ 1 / 2) → (∀ j ≤ i, Y j = x + h • stageSum a d f g Y j) →
      (∀ j ≤ i, ‖Z j - z - h • stageSum a d f g Z j‖ ≤ ε) → ‖Y i - Z i‖ ≤ C * (‖x - z‖ + ε) := by
  induction i using Nat.strong_induction_on with
  | _ i ih =>
    have : ∀ j, ∃ C, 0 ≤ C ∧ (j < i → ∀ h, 0 ≤ h → h ≤ H → ∀ (x z : E) (Y Z : ℕ → E) (ε : ℝ),
      (∀ k ≤ j, h * (|a k k| * L + |d k k| * L') ≤ 1 / 2) → (∀ k ≤ j, Y k = x + h • stageSum a d f g Y k) →
      (∀ k ≤ j, ‖Z k - z - h • stageSum a d f g Z k‖ ≤ ε) → ‖Y j - Z j‖ ≤ C * (‖x - z‖ + ε)) := by
      intro j
      by_cases hj : j < i
      · obtain ⟨C, h0, h1⟩ := ih j hj
        exact ⟨C, h0, fun _ => h1⟩
      · exact ⟨0, le_rfl, fun h => absurd h hj⟩
    choose C hC0 hC using this
    have hL := hf.1
    have hL' := hg.1
    set K : ℝ := ∑ j ∈ range i, (|a i j| * L + |d i j| * L') * C j with hK
    have hK0 : 0 ≤ K := Finset.sum_nonneg fun j _ => by have := hC0 j; positivity
    refine ⟨2 * (1 + H * K), by positivity, fun h hh hhH x z Y Z ε hz hY hZ => ?_⟩
    have hε : 0 ≤ ε := (norm_nonneg _).trans (hZ i le_rfl)
    set e0 := ‖x - z‖ with he0
    have he00 : 0 ≤ e0 := norm_nonneg _
    have e1 : Y i - Z i = (x - z) + h • (stageSum a d f g Y i - stageSum a d f g Z i) - (Z i - z - h • stageSum a d f g Z i) := by
      nth_rewrite 1 [hY i le_rfl]
      simp only [smul_sub]; abel
    have e2 : ‖stageSum a d f g Y i - stageSum a d f g Z i‖ ≤ (|a i i| * L + |d i i| * L') * ‖Y i - Z i‖ + K * (e0 + ε) := by
      have q1 := sum_lip hf (range (i + 1)) (a i) Y Z
      have q2 := sum_lip hg (range (i + 1)) (d i) Y Z
      rw [Finset.sum_range_succ (fun j => |a i j| * L * ‖Y j - Z j‖)] at q1
      rw [Finset.sum_range_succ (fun j => |d i j| * L' * ‖Y j - Z j‖)] at q2
      have q3 : stageSum a d f g Y i - stageSum a d f g Z i
          = (∑ j ∈ range (i + 1), a i j • f (Y j) - ∑ j ∈ range (i + 1), a i j • f (Z j))
            + (∑ j ∈ range (i + 1), d i j • g (Y j) - ∑ j ∈ range (i + 1), d i j • g (Z j)) := by
        simp only [stageSum]; abel
      have q4 : ∑ j ∈ range i, |a i j| * L * ‖Y j - Z j‖ + ∑ j ∈ range i, |d i j| * L' * ‖Y j - Z j‖ ≤ K * (e0 + ε) := by
        rw [hK, Finset.sum_mul, ← Finset.sum_add_distrib]
        refine Finset.sum_le_sum fun j hj => ?_
        have hj := Finset.mem_range.1 hj
        have := hC j hj h hh hhH x z Y Z ε (fun k hk => hz k (by omega)) (fun k hk => hY k (by omega)) (fun k hk => hZ k (by omega))
        calc _ = (|a i j| * L + |d i j| * L') * ‖Y j - Z j‖ := by ring
          _ ≤ (|a i j| * L + |d i j| * L') * (C j * (e0 + ε)) := mul_le_mul_of_nonneg_left this (by positivity)
          _ = _ := by ring
      rw [q3]
      calc _ ≤ _ := norm_add_le _ _
        _ ≤ _ := add_le_add q1 q2
        _ ≤ _ := by linarith
    have e3 : ‖Y i - Z i‖ ≤ e0 + h * ((|a i i| * L + |d i i| * L') * ‖Y i - Z i‖ + K * (e0 + ε)) + ε := by
      nth_rewrite 1 [e1]
      refine (norm_sub_le _ _).trans (add_le_add ((norm_add_le _ _).trans (add_le_add le_rfl ?_)) (hZ i le_rfl))
      rw [norm_smul, Real.norm_eq_abs, abs_of_nonneg hh]
      exact mul_le_mul_of_nonneg_left e2 hh
    have hn : 0 ≤ ‖Y i - Z i‖ := norm_nonneg _
    have e4 : h * (|a i i| * L + |d i i| * L') * ‖Y i - Z i‖ ≤ 1 / 2 * ‖Y i - Z i‖ := mul_le_mul_of_nonneg_right (hz i le_rfl) hn
    have e5 : h * (K * (e0 + ε)) ≤ H * (K * (e0 + ε)) := mul_le_mul_of_nonneg_right hhH (by positivity)
    nlinarith [e3, e4, e5]

/-- The error of one step. -/
theorem step_stable (a d : ℕ → ℕ → ℝ) (b e : ℕ → ℝ) (s : ℕ) {f g : E → E} {L L' : ℝ} (hf : Lip f L) (hg : Lip g L')
    (H : ℝ) (hH : 0 ≤ H) :
    ∃ C, 0 ≤ C ∧ ∀ h, 0 ≤ h → h ≤ H → (∀ i < s, h * (|a i i| * L + |d i i| * L') ≤ 1 / 2) → ∀ (x x' z z' : E) (Z : ℕ → E) (ε η : ℝ), 0 ≤ ε →
      AdditiveStep a d b e s f g h x x' → (∀ i < s, ‖Z i - z - h • stageSum a d f g Z i‖ ≤ ε) →
      ‖z' - z - h • finalSum b e s f g Z‖ ≤ η → ‖x' - z'‖ ≤ (1 + h * C) * ‖x - z‖ + h * C * ε + η := by
  choose C hC0 hC using fun i => stages_stable a d hf hg H hH i
  have hL := hf.1
  have hL' := hg.1
  refine ⟨∑ j ∈ range s, (|b j| * L + |e j| * L') * C j, Finset.sum_nonneg fun j _ => by have := hC0 j; positivity, ?_⟩
  rintro h hh hhH hz x x' z z' Z ε η hε ⟨Y, hY, hx'⟩ hZ hη
  set K := ∑ j ∈ range s, (|b j| * L + |e j| * L') * C j with hK
  have q3 : finalSum b e s f g Y - finalSum b e s f g Z
      = (∑ j ∈ range s, b j • f (Y j) - ∑ j ∈ range s, b j • f (Z j))
        + (∑ j ∈ range s, e j • g (Y j) - ∑ j ∈ range s, e j • g (Z j)) := by
    simp only [finalSum]; abel
  have e2 : ‖finalSum b e s f g Y - finalSum b e s f g Z‖ ≤ K * (‖x - z‖ + ε) := by
    rw [q3]
    refine (norm_add_le _ _).trans ((add_le_add (sum_lip hf _ _ _ _) (sum_lip hg _ _ _ _)).trans ?_)
    rw [hK, Finset.sum_mul, ← Finset.sum_add_distrib]
    refine Finset.sum_le_sum fun j hj => ?_
    have hj := Finset.mem_range.1 hj
    have := hC j h hh hhH x z Y Z ε (fun k hk => hz k (by omega)) (fun k hk => hY k (by omega)) (fun k hk => hZ k (by omega))
    calc _ = (|b j| * L + |e j| * L') * ‖Y j - Z j‖ := by ring
      _ ≤ (|b j| * L + |e j| * L') * (C j * (‖x - z‖ + ε)) := mul_le_mul_of_nonneg_left this (by positivity)
      _ = _ := by ring
  have e1 : x' - z' = (x - z) + h • (finalSum b e s f g Y - finalSum b e s f g Z) - (z' - z - h • finalSum b e s f g Z) := by
    rw [hx']; simp only [smul_sub]; abel
  rw [e1]
  have e4 : ‖h • (finalSum b e s f g Y - finalSum b e s f g Z)‖ ≤ h * (K * (‖x - z‖ + ε)) := by
    rw [norm_smul, Real.norm_eq_abs, abs_of_nonneg hh]
    exact mul_le_mul_of_nonneg_left e2 hh
  calc _ ≤ _ := (norm_sub_le _ _).trans (add_le_add (norm_add_le _ _) le_rfl)
    _ ≤ ‖x - z‖ + h * (K * (‖x - z‖ + ε)) + η := by linarith
    _ = _ := by ring

/-- Reference stages with small defects give convergence. -/
theorem additive_converges (a d : ℕ → ℕ → ℝ) (b e : ℕ → ℝ) (s : ℕ) {f g : E → E} {L L' : ℝ} (hf : Lip f L) (hg : Lip g L')
    {y : ℝ → E} {T : ℝ} (hT : 0 ≤ T) (p : ℕ) (Z : ℕ → ℝ → ℝ → E)
    (hZ : ∀ i < s, BigO T 1 p (fun h t => Z i h t - y t - h • stageSum a d f g (fun j => Z j h t) i))
    (hF : BigO T 1 (p + 1) (fun h t => y (t + h) - y t - h • finalSum b e s f g (fun j => Z j h t))) :
    ∃ C, ∀ h, 0 ≤ h → (∀ i < s, h * (|a i i| * L + |d i i| * L') ≤ 1 / 2) → ∀ (x : ℕ → E) (N : ℕ), N * h ≤ T → x 0 = y 0 →
      (∀ n < N, AdditiveStep a d b e s f g h (x n) (x (n + 1))) → ‖x N - y (N * h)‖ ≤ C * h ^ p := by
  obtain ⟨C, hC0, hC⟩ := step_stable a d b e s hf hg T hT
  have : ∀ i, ∃ D, 0 ≤ D ∧ (i < s → ∀ h t, 0 ≤ h → h ≤ T → 0 ≤ t → t + 1 * h ≤ T →
      ‖Z i h t - y t - h • stageSum a d f g (fun j => Z j h t) i‖ ≤ D * h ^ p) := by
    intro i
    by_cases hi : i < s
    · obtain ⟨D, h0, h1⟩ := hZ i hi
      exact ⟨D, h0, fun _ => h1⟩
    · exact ⟨0, le_rfl, fun h => absurd h hi⟩
  choose D hD0 hD using this
  obtain ⟨D', hD0', hD'⟩ := hF
  set S := ∑ i ∈ range s, D i with hS
  have hS0 : 0 ≤ S := Finset.sum_nonneg fun j _ => hD0 j
  have hSi : ∀ i < s, D i ≤ S := fun i hi =>
    Finset.single_le_sum (f := D) (fun j _ => hD0 j) (Finset.mem_range.2 hi)
  refine ⟨Real.exp (T * C) * (T * (C * S + D')), fun h hh hz x N hN h0 hx => ?_⟩
  refine seq_global (x := x) (y := y) (lam := C) (D := C * S + D') (p := p) hC0 (by positivity) hh N hN h0 fun n hn => ?_
  have hth := step_le hh hn hN
  have ht0 : 0 ≤ (n : ℝ) * h := by positivity
  have hhT : h ≤ T := by linarith
  have hh1 : n * h + 1 * h ≤ T := by linarith
  have key := hC h hh hhT hz (x n) (x (n + 1)) (y (n * h)) (y (n * h + h)) (fun j => Z j h (n * h)) (S * h ^ p) (D' * h ^ (p + 1))
    (by positivity) (hx n hn) (fun i hi => (hD i hi h _ hh hhT ht0 hh1).trans (mul_le_mul_of_nonneg_right (hSi i hi) (by positivity)))
    (hD' h _ hh hhT ht0 hh1)
  calc _ ≤ _ := key
    _ = _ := by ring

/-! ### First order -/

theorem bigO_sol {y : ℝ → E} {T B : ℝ} {f : E → E} {L : ℝ} (hf : Lip f L) (hy : IsSol f y T) (hB0 : 0 ≤ B)
    (hB : ∀ t ∈ Icc 0 T, ‖f (y t)‖ ≤ B) : BigO T 1 2 (fun h t => y (t + h) - y t - h • f (y t)) := by
  have hL := hf.1
  exact ⟨L * B, by positivity, fun h t h0 _ t0 ht => (hy.taylor1 hf hB t0 h0 (by linarith)).2⟩

/-- A function of the solution is bounded. -/
theorem bigO_fun {y : ℝ → E} {T : ℝ} {f F : E → E} {L : ℝ} (hF : Lip F L) (hy : IsSol f y T) :
    BigO T 1 0 (fun _ t => F (y t)) := by
  obtain ⟨B, hB⟩ := isCompact_Icc.exists_bound_of_continuousOn (hF.continuous.comp_continuousOn hy.continuousOn)
  exact ⟨max B 0, le_max_right _ _, fun h t h0 _ t0 ht => by
    have := hB t ⟨t0, by linarith⟩
    simpa using Or.inl this⟩

theorem lip_add {f g : E → E} {L L' : ℝ} (hf : Lip f L) (hg : Lip g L') : Lip (fun x => f x + g x) (L + L') :=
  ⟨add_nonneg hf.1 hg.1, fun x z => by
    have : f x + g x - (f z + g z) = (f x - f z) + (g x - g z) := by abel
    rw [this, add_mul]
    exact (norm_add_le _ _).trans (add_le_add (hf.2 _ _) (hg.2 _ _))⟩

theorem additive_first (a d : ℕ → ℕ → ℝ) (b e : ℕ → ℝ) (s : ℕ) (hb : ∑ i ∈ range s, b i = 1) (he : ∑ i ∈ range s, e i = 1)
    {f g : E → E} {L L' : ℝ} (hf : Lip f L) (hg : Lip g L') {y : ℝ → E} {T : ℝ} (hT : 0 ≤ T)
    (hy : IsSol (fun x => f x + g x) y T) :
    ∃ C, ∀ h, 0 ≤ h → (∀ i < s, h * (|a i i| * L + |d i i| * L') ≤ 1 / 2) → ∀ (x : ℕ → E) (N : ℕ), N * h ≤ T → x 0 = y 0 →
      (∀ n < N, AdditiveStep a d b e s f g h (x n) (x (n + 1))) → ‖x N - y (N * h)‖ ≤ C * h ^ 1 := by
  have hbf := bigO_fun hf hy
  have hbg := bigO_fun hg hy
  obtain ⟨B, hB0, hB⟩ := hy.bounded (lip_add hf hg)
  refine additive_converges a d b e s hf hg hT 1 (fun _ _ t => y t) (fun i _ => ?_) ?_
  · have : BigO T 1 1 (fun h t => h • ((-∑ j ∈ range (i + 1), a i j) • f (y t) + (-∑ j ∈ range (i + 1), d i j) • g (y t))) :=
      ((hbf.smul _).add (hbg.smul _)).h_smul
    refine this.congr fun h t _ _ _ _ => ?_
    simp only [stageSum, ← Finset.sum_smul]; module
  · refine (bigO_sol (lip_add hf hg) hy hB0 hB).congr fun h t _ _ _ _ => ?_
    simp only [finalSum, ← Finset.sum_smul, hb, he, one_smul]

/-! ### Second order -/

theorem bigO_expand {f g F : E → E} {F' : E → E →L[ℝ] E} {L L' LF L2 : ℝ} (hF : Smooth2 F F' LF L2) (hf : Lip f L) (hg : Lip g L')
    {y : ℝ → E} {T : ℝ} (hy : IsSol (fun x => f x + g x) y T) (c c' : ℝ) :
    BigO T 1 2 (fun h t => F (y t + h • (c • f (y t) + c' • g (y t))) - F (y t)
      - h • (c • F' (y t) (f (y t)) + c' • F' (y t) (g (y t)))) := by
  obtain ⟨C, hC, h1⟩ := ((bigO_fun hf hy).smul c).add ((bigO_fun hg hy).smul c')
  have hL2 := hF.lip2
  refine ⟨L2 * C ^ 2, by positivity, fun h t h0 hT t0 ht => ?_⟩
  have e1 := hF.expand (y t) (h • (c • f (y t) + c' • g (y t)))
  have e2 : F' (y t) (h • (c • f (y t) + c' • g (y t))) = h • (c • F' (y t) (f (y t)) + c' • F' (y t) (g (y t))) := by
    simp only [map_smul, map_add]
  rw [e2] at e1
  refine e1.trans ?_
  have e3 : ‖h • (c • f (y t) + c' • g (y t))‖ ≤ h * C := by
    rw [norm_smul, Real.norm_eq_abs, abs_of_nonneg h0]
    have := h1 h t h0 hT t0 ht
    rw [pow_zero, mul_one] at this
    exact mul_le_mul_of_nonneg_left this h0
  calc _ ≤ L2 * (h * C) ^ 2 := mul_le_mul_of_nonneg_left (pow_le_pow_left₀ (norm_nonneg _) e3 2) hL2
    _ = _ := by ring

theorem bigO_lip {f g F : E → E} {L L' LF : ℝ} (hF : Lip F LF) (hf : Lip f L) (hg : Lip g L')
    {y : ℝ → E} {T : ℝ} (hy : IsSol (fun x => f x + g x) y T) (c c' : ℝ) :
    BigO T 1 1 (fun h t => F (y t + h • (c • f (y t) + c' • g (y t))) - F (y t)) := by
  obtain ⟨C, hC, h1⟩ := ((bigO_fun hf hy).smul c).add ((bigO_fun hg hy).smul c')
  have hL := hF.1
  refine ⟨LF * C, by positivity, fun h t h0 hT t0 ht => (hF.2 _ _).trans ?_⟩
  rw [add_sub_cancel_left, norm_smul, Real.norm_eq_abs, abs_of_nonneg h0]
  have := h1 h t h0 hT t0 ht
  rw [pow_zero, mul_one] at this
  calc _ ≤ LF * (h * C) := mul_le_mul_of_nonneg_left (mul_le_mul_of_nonneg_left this h0) hL
    _ = _ := by ring

theorem additive_second (a d : ℕ → ℕ → ℝ) (b e : ℕ → ℝ) (s : ℕ) (hb : ∑ i ∈ range s, b i = 1) (he : ∑ i ∈ range s, e i = 1)
    (c c' : ℕ → ℝ) (hc : ∀ i < s, c i = ∑ j ∈ range (i + 1), a i j) (hc' : ∀ i < s, c' i = ∑ j ∈ range (i + 1), d i j)
    (hbc : ∑ i ∈ range s, b i * c i = 1 / 2) (hbc' : ∑ i ∈ range s, b i * c' i = 1 / 2)
    (hec : ∑ i ∈ range s, e i * c i = 1 / 2) (hec' : ∑ i ∈ range s, e i * c' i = 1 / 2)
    {f g : E → E} {f' g' : E → E →L[ℝ] E} {L L' L2 L2' : ℝ} (hf : Smooth2 f f' L L2) (hg : Smooth2 g g' L' L2')
    {y : ℝ → E} {T : ℝ} (hT : 0 ≤ T) (hy : IsSol (fun x => f x + g x) y T) :
    ∃ C, ∀ h, 0 ≤ h → (∀ i < s, h * (|a i i| * L + |d i i| * L') ≤ 1 / 2) → ∀ (x : ℕ → E) (N : ℕ), N * h ≤ T → x 0 = y 0 →
      (∀ n < N, AdditiveStep a d b e s f g h (x n) (x (n + 1))) → ‖x N - y (N * h)‖ ≤ C * h ^ 2 := by
  have hL2 := hf.lip2
  have hL2' := hg.lip2
  have hL := hf.lip.1
  have hL' := hg.lip.1
  have hs : Smooth2 (fun x => f x + g x) (fun x => f' x + g' x) (L + L') (L2 + L2') :=
    ⟨lip_add hf.lip hg.lip, fun x => (hf.deriv x).add (hg.deriv x), fun x => (norm_add_le _ _).trans (add_le_add (hf.bound x) (hg.bound x)),
      by positivity, fun x z => by
        have : f' x + g' x - (f' z + g' z) = (f' x - f' z) + (g' x - g' z) := by abel
        rw [this, add_mul]
        exact (norm_add_le _ _).trans (add_le_add (hf.dlip _ _) (hg.dlip _ _))⟩
  obtain ⟨B, hB0, hB⟩ := hy.bounded hs.lip
  refine additive_converges a d b e s hf.lip hg.lip hT 2 (fun i h t => y t + h • (c i • f (y t) + c' i • g (y t))) (fun i hi => ?_) ?_
  · have r1 : BigO T 1 2 (fun h t => h • ∑ j ∈ range (i + 1), (-a i j) • (f (y t + h • (c j • f (y t) + c' j • g (y t))) - f (y t))) :=
      (BigO.sum _ fun j _ => (bigO_lip hf.lip hf.lip hg.lip hy (c j) (c' j)).smul _).h_smul
    have r2 : BigO T 1 2 (fun h t => h • ∑ j ∈ range (i + 1), (-d i j) • (g (y t + h • (c j • f (y t) + c' j • g (y t))) - g (y t))) :=
      (BigO.sum _ fun j _ => (bigO_lip hg.lip hf.lip hg.lip hy (c j) (c' j)).smul _).h_smul
    refine (r1.add r2).congr fun h t _ _ _ _ => ?_
    simp only [stageSum, neg_smul, Finset.sum_neg_distrib, smul_sub, Finset.sum_sub_distrib, ← Finset.sum_smul, ← hc i hi, ← hc' i hi]
    module
  · have r1 : BigO T 1 3 (fun h t => h • ∑ j ∈ range s, b j • (f (y t + h • (c j • f (y t) + c' j • g (y t))) - f (y t)
        - h • (c j • f' (y t) (f (y t)) + c' j • f' (y t) (g (y t))))) :=
      (BigO.sum _ fun j _ => (bigO_expand hf hf.lip hg.lip hy (c j) (c' j)).smul _).h_smul
    have r2 : BigO T 1 3 (fun h t => h • ∑ j ∈ range s, e j • (g (y t + h • (c j • f (y t) + c' j • g (y t))) - g (y t)
        - h • (c j • g' (y t) (f (y t)) + c' j • g' (y t) (g (y t))))) :=
      (BigO.sum _ fun j _ => (bigO_expand hg hf.lip hg.lip hy (c j) (c' j)).smul _).h_smul
    have r3 : BigO T 1 3 (fun h t => y (t + h) - y t - h • (f (y t) + g (y t))
        - (h ^ 2 / 2) • (f' (y t) + g' (y t)) (f (y t) + g (y t))) :=
      ⟨_, by positivity, fun h t h0 _ t0 ht => (hs.taylor2 hy hB t0 h0 (by linarith)).2⟩
    refine ((r3.sub r1).sub r2).congr fun h t _ _ _ _ => ?_
    have w : ∀ (b : ℕ → ℝ), (∑ i ∈ range s, b i = 1) → (∑ i ∈ range s, b i * c i = 1 / 2) → (∑ i ∈ range s, b i * c' i = 1 / 2) →
        ∀ (F : ℕ → E) (v u w : E), ∑ j ∈ range s, b j • (F j - v - h • (c j • u + c' j • w))
          = ∑ j ∈ range s, b j • F j - v - (h * (1 / 2)) • u - (h * (1 / 2)) • w := by
      intro b h1 h2 h3 F v u w
      have s1 : ∑ j ∈ range s, b j • v = v := by rw [← Finset.sum_smul, h1, one_smul]
      have s2 : ∑ j ∈ range s, b j • h • (c j • u + c' j • w) = (h * (1 / 2)) • u + (h * (1 / 2)) • w := by
        nth_rewrite 1 [← h2]
        rw [← h3, Finset.mul_sum, Finset.mul_sum, Finset.sum_smul, Finset.sum_smul, ← Finset.sum_add_distrib]
        refine Finset.sum_congr rfl fun j _ => ?_
        module
      simp only [smul_sub, Finset.sum_sub_distrib, s1, s2]
      abel
    rw [w b hb hbc hbc', w e he hec hec']
    simp only [finalSum, FunLike.coe_add, Pi.add_apply, map_add]
    module

/-! ### Third order -/

section third
variable {f : E → E} {f' : E → E →L[ℝ] E} {L L2 : ℝ} {w u q : ℕ → ℝ → E} {v : ℕ → ℝ → E →L[ℝ] E} {T : ℝ}

/-- The right-hand side at a reference stage. -/
theorem ref_expand (hf : Smooth2 f f' L L2) (hu : Chain u 3 T) (hq : Chain q 3 T) (hv : Chain v 1 T)
    (hu0 : ∀ t ∈ Icc 0 T, u 0 t = f (w 0 t)) (hv0 : ∀ t ∈ Icc 0 T, v 0 t = f' (w 0 t)) {c : ℝ} (h0 : 0 ≤ c) (h1 : c ≤ 1) (al al' : ℝ) :
    BigO T 1 3 (fun h t => f (w 0 (t + c * h) + h ^ 2 • (al • u 1 t + al' • q 1 t)) - u 0 (t + c * h)
      - h ^ 2 • (al • v 0 t (u 1 t) + al' • v 0 t (q 1 t))) := by
  have hz : BigO T 1 0 (fun (_ : ℝ) t => al • u 1 t + al' • q 1 t) :=
    ((hu.bigO_const 1 (by norm_num) zero_le_one).smul al).add ((hq.bigO_const 1 (by norm_num) zero_le_one).smul al')
  have r1 : BigO T 1 3 (fun h t => f (w 0 (t + c * h) + h ^ 2 • (al • u 1 t + al' • q 1 t)) - u 0 (t + c * h)
      - v 0 (t + c * h) (h ^ 2 • (al • u 1 t + al' • q 1 t))) := by
    refine BigO.mono (k := 4) (by norm_num) ?_
    obtain ⟨C, hC, hz⟩ := hz
    have hL2 := hf.lip2
    refine ⟨L2 * C ^ 2, by positivity, fun h t a b d e => ?_⟩
    have hm : t + c * h ∈ Icc 0 T := ⟨by positivity, by nlinarith⟩
    dsimp only
    rw [hu0 _ hm, hv0 _ hm]
    refine (hf.expand _ _).trans ?_
    have e3 : ‖h ^ 2 • (al • u 1 t + al' • q 1 t)‖ ≤ h ^ 2 * C := by
      rw [norm_smul, Real.norm_eq_abs, abs_of_nonneg (by positivity)]
      have := hz h t a b d e
      rw [pow_zero, mul_one] at this
      exact mul_le_mul_of_nonneg_left this (by positivity)
    calc _ ≤ L2 * (h ^ 2 * C) ^ 2 := mul_le_mul_of_nonneg_left (pow_le_pow_left₀ (norm_nonneg _) e3 2) hL2
      _ = _ := by ring
  have r2 : BigO T 1 (1 + 0 + 2) _ := ((lin_one hv h0 h1).apply hz).pow_smul 2
  refine (r1.add r2).congr fun h t _ _ _ _ => ?_
  simp only [map_add, map_smul, FunLike.coe_sub, Pi.sub_apply, smul_sub, smul_add]
  abel

/-- Expansion at the time `t`, to the first order. -/
theorem ref_expand1 (hf : Smooth2 f f' L L2) (hu : Chain u 3 T) (hq : Chain q 3 T) (hv : Chain v 1 T)
    (hu0 : ∀ t ∈ Icc 0 T, u 0 t = f (w 0 t)) (hv0 : ∀ t ∈ Icc 0 T, v 0 t = f' (w 0 t)) {c : ℝ} (h0 : 0 ≤ c) (h1 : c ≤ 1) (al al' : ℝ) :
    BigO T 1 2 (fun h t => f (w 0 (t + c * h) + h ^ 2 • (al • u 1 t + al' • q 1 t)) - u 0 t - (c * h) • u 1 t) := by
  have r1 := (ref_expand hf hu hq hv hu0 hv0 h0 h1 al al').mono (l := 2) (by norm_num)
  have r2 := hu.bigO 2 0 (by norm_num) h0 h1
  have r3 : BigO T 1 (0 + 0 + 2) (fun h t => h ^ 2 • (al • v 0 t (u 1 t) + al' • v 0 t (q 1 t))) :=
    (((((hv.bigO_const 0 (by norm_num) zero_le_one).apply (hu.bigO_const 1 (by norm_num) zero_le_one)).smul al).add
      (((hv.bigO_const 0 (by norm_num) zero_le_one).apply (hq.bigO_const 1 (by norm_num) zero_le_one)).smul al'))).pow_smul 2
  refine ((r1.add r2).add r3).congr fun h t _ _ _ _ => ?_
  simp [poly, Finset.sum_range_succ]
  abel

/-- Expansion at the time `t`, to the second order. -/
theorem ref_expand2 (hf : Smooth2 f f' L L2) (hu : Chain u 3 T) (hq : Chain q 3 T) (hv : Chain v 1 T)
    (hu0 : ∀ t ∈ Icc 0 T, u 0 t = f (w 0 t)) (hv0 : ∀ t ∈ Icc 0 T, v 0 t = f' (w 0 t)) {c : ℝ} (h0 : 0 ≤ c) (h1 : c ≤ 1) (al al' : ℝ) :
    BigO T 1 3 (fun h t => f (w 0 (t + c * h) + h ^ 2 • (al • u 1 t + al' • q 1 t)) - u 0 t - (c * h) • u 1 t
      - (c ^ 2 * h ^ 2 / 2) • u 2 t - h ^ 2 • (al • v 0 t (u 1 t) + al' • v 0 t (q 1 t))) := by
  have r1 := ref_expand hf hu hq hv hu0 hv0 h0 h1 al al'
  have r2 := hu.bigO 3 0 (by norm_num) h0 h1
  refine (r1.add r2).congr fun h t _ _ _ _ => ?_
  simp [poly, Finset.sum_range_succ, Nat.factorial]
  rw [mul_pow]
  abel

end third

/-- The weights of a third-order method on the terms of the expansion. -/
theorem third_weights {s : ℕ} {b c al al' : ℕ → ℝ} (h1 : ∑ i ∈ range s, b i = 1) (h2 : ∑ i ∈ range s, b i * c i = 1 / 2)
    (h3 : ∑ i ∈ range s, b i * c i ^ 2 = 1 / 3) (h4 : ∑ i ∈ range s, b i * al i = 0) (h5 : ∑ i ∈ range s, b i * al' i = 0)
    (h : ℝ) (F : ℕ → E) (u0 u1 u2 p p' : E) :
    ∑ j ∈ range s, b j • (F j - u0 - (c j * h) • u1 - (c j ^ 2 * h ^ 2 / 2) • u2 - h ^ 2 • (al j • p + al' j • p'))
      = ∑ j ∈ range s, b j • F j - u0 - (h / 2) • u1 - (h ^ 2 / 6) • u2 := by
  have s1 : ∑ j ∈ range s, b j • u0 = u0 := by rw [← Finset.sum_smul, h1, one_smul]
  have s2 : ∑ j ∈ range s, b j • (c j * h) • u1 = (h / 2) • u1 := by
    have : h / 2 = ∑ i ∈ range s, b i * (c i * h) := by
      rw [← Finset.sum_congr rfl (fun i _ => mul_assoc (b i) (c i) h), ← Finset.sum_mul, h2]; ring
    rw [this, Finset.sum_smul]
    exact Finset.sum_congr rfl fun j _ => smul_smul _ _ _
  have s3 : ∑ j ∈ range s, b j • (c j ^ 2 * h ^ 2 / 2) • u2 = (h ^ 2 / 6) • u2 := by
    have : h ^ 2 / 6 = ∑ i ∈ range s, b i * (c i ^ 2 * h ^ 2 / 2) := by
      have e : ∀ i ∈ range s, b i * (c i ^ 2 * h ^ 2 / 2) = b i * c i ^ 2 * (h ^ 2 / 2) := fun i _ => by ring
      rw [Finset.sum_congr rfl e, ← Finset.sum_mul, h3]; ring
    rw [this, Finset.sum_smul]
    exact Finset.sum_congr rfl fun j _ => smul_smul _ _ _
  have s4 : ∑ j ∈ range s, b j • h ^ 2 • (al j • p + al' j • p') = 0 := by
    have e : ∀ j ∈ range s, b j • h ^ 2 • (al j • p + al' j • p') = (b j * al j) • (h ^ 2 • p) + (b j * al' j) • (h ^ 2 • p') := fun j _ => by
      module
    rw [Finset.sum_congr rfl e, Finset.sum_add_distrib, ← Finset.sum_smul, ← Finset.sum_smul, h4, h5, zero_smul, zero_smul, add_zero]
  simp only [smul_sub, Finset.sum_sub_distrib, s1, s2, s3, s4, sub_zero]

/-- Third order: the abscissae of the two tables agree. -/
theorem additive_third (a d : ℕ → ℕ → ℝ) (b e : ℕ → ℝ) (s : ℕ) (hb : ∑ i ∈ range s, b i = 1) (he : ∑ i ∈ range s, e i = 1)
    (c al al' : ℕ → ℝ) (hc01 : ∀ i < s, 0 ≤ c i ∧ c i ≤ 1)
    (hc : ∀ i < s, c i = ∑ j ∈ range (i + 1), a i j) (hc' : ∀ i < s, c i = ∑ j ∈ range (i + 1), d i j)
    (hal : ∀ i < s, al i = ∑ j ∈ range (i + 1), a i j * c j - c i ^ 2 / 2)
    (hal' : ∀ i < s, al' i = ∑ j ∈ range (i + 1), d i j * c j - c i ^ 2 / 2)
    (hbc : ∑ i ∈ range s, b i * c i = 1 / 2) (hec : ∑ i ∈ range s, e i * c i = 1 / 2)
    (hbcc : ∑ i ∈ range s, b i * c i ^ 2 = 1 / 3) (hecc : ∑ i ∈ range s, e i * c i ^ 2 = 1 / 3)
    (hba : ∑ i ∈ range s, b i * al i = 0) (hba' : ∑ i ∈ range s, b i * al' i = 0)
    (hea : ∑ i ∈ range s, e i * al i = 0) (hea' : ∑ i ∈ range s, e i * al' i = 0)
    {f g : E → E} {L L' : ℝ} (hf : SmoothRHS f 3 L) (hg : SmoothRHS g 3 L')
    {y : ℝ → E} {T : ℝ} (hT : 0 < T) (hy : IsSol (fun x => f x + g x) y T) :
    ∃ C, ∀ h, 0 ≤ h → (∀ i < s, h * (|a i i| * L + |d i i| * L') ≤ 1 / 2) → ∀ (x : ℕ → E) (N : ℕ), N * h ≤ T → x 0 = y 0 →
      (∀ n < N, AdditiveStep a d b e s f g h (x n) (x (n + 1))) → ‖x N - y (N * h)‖ ≤ C * h ^ 3 := by
  have hF := hf.diff (by norm_num)
  have hG := hg.diff (by norm_num)
  have hY : ContDiffOn ℝ (3 + 1 : ℕ) y (Icc 0 T) := hy.contDiffOn hT 3 (hF.add hG)
  have hY3 : ContDiffOn ℝ (3 : ℕ) y (Icc 0 T) := hY.of_le (by norm_cast)
  have hY1 : ContDiffOn ℝ (1 : ℕ) y (Icc 0 T) := hY.of_le (by norm_cast)
  obtain ⟨L2, hs⟩ := hf.smooth2 (by norm_num)
  obtain ⟨L2', hs'⟩ := hg.smooth2 (by norm_num)
  have hu := ContDiffOn.chain hT 3 (hF.comp_contDiffOn hY3)
  have hq := ContDiffOn.chain hT 3 (hG.comp_contDiffOn hY3)
  have hF1 : ContDiff ℝ (1 : ℕ) (fderiv ℝ f) := hF.fderiv_right (by norm_cast)
  have hG1 : ContDiff ℝ (1 : ℕ) (fderiv ℝ g) := hG.fderiv_right (by norm_cast)
  have hv := ContDiffOn.chain hT 1 (hF1.comp_contDiffOn hY1)
  have hv' := ContDiffOn.chain hT 1 (hG1.comp_contDiffOn hY1)
  set u := fun j => iteratedDerivWithin j (f ∘ y) (Icc 0 T) with hudef
  set q := fun j => iteratedDerivWithin j (g ∘ y) (Icc 0 T) with hqdef
  set v := fun j => iteratedDerivWithin j (fderiv ℝ f ∘ y) (Icc 0 T) with hvdef
  set v' := fun j => iteratedDerivWithin j (fderiv ℝ g ∘ y) (Icc 0 T) with hvdef'
  have hu0 : ∀ t, u 0 t = f (y t) := fun t => by simp [hudef, iteratedDerivWithin_zero]
  have hq0 : ∀ t, q 0 t = g (y t) := fun t => by simp [hqdef, iteratedDerivWithin_zero]
  have hv0 : ∀ t, v 0 t = fderiv ℝ f (y t) := fun t => by simp [hvdef, iteratedDerivWithin_zero]
  have hv0' : ∀ t, v' 0 t = fderiv ℝ g (y t) := fun t => by simp [hvdef', iteratedDerivWithin_zero]
  let w : ℕ → ℝ → E := fun k => match k with | 0 => y | k + 1 => fun t => u k t + q k t
  have hw : Chain w 4 T := by
    refine ⟨fun j hj t ht => ?_, fun j hj => ?_⟩
    · rcases j with _ | j
      · show HasDerivWithinAt y (u 0 t + q 0 t) _ t
        rw [hu0, hq0]; exact hy t ht
      · exact (hu.deriv j (by omega) t ht).add (hq.deriv j (by omega) t ht)
    · rcases j with _ | j
      · obtain ⟨B, hB⟩ := isCompact_Icc.exists_bound_of_continuousOn hy.continuousOn
        exact ⟨max B 0, le_max_right _ _, fun t ht => (hB t ht).trans (le_max_left _ _)⟩
      · obtain ⟨B, h0, h1⟩ := hu.bound j (by omega)
        obtain ⟨B', h0', h1'⟩ := hq.bound j (by omega)
        exact ⟨B + B', by positivity, fun t ht => (norm_add_le _ _).trans (add_le_add (h1 t ht) (h1' t ht))⟩
  refine additive_converges a d b e s hf.lip hg.lip hT.le 3
    (fun i h t => w 0 (t + c i * h) + h ^ 2 • (al i • u 1 t + al' i • q 1 t)) (fun i hi => ?_) ?_
  · have r1 : BigO T 1 3 (fun h t => h • ∑ j ∈ range (i + 1), a i j •
        (f (w 0 (t + c j * h) + h ^ 2 • (al j • u 1 t + al' j • q 1 t)) - u 0 t - (c j * h) • u 1 t)) :=
      (BigO.sum _ fun j hj => (ref_expand1 hs hu hq hv (fun t _ => hu0 t) (fun t _ => hv0 t)
        (hc01 j (by have := Finset.mem_range.1 hj; omega)).1 (hc01 j (by have := Finset.mem_range.1 hj; omega)).2 _ _).smul _).h_smul
    have r2 : BigO T 1 3 (fun h t => h • ∑ j ∈ range (i + 1), d i j •
        (g (w 0 (t + c j * h) + h ^ 2 • (al j • u 1 t + al' j • q 1 t)) - q 0 t - (c j * h) • q 1 t)) :=
      (BigO.sum _ fun j hj => by
        have hj := Finset.mem_range.1 hj
        have := (ref_expand1 (w := w) hs' hq hu hv' (fun t _ => hq0 t) (fun t _ => hv0' t)
          (hc01 j (by omega)).1 (hc01 j (by omega)).2 (al' j) (al j)).smul (d i j)
        simpa only [add_comm (al' j • q 1 _)] using this).h_smul
    have r3 := hw.bigO 3 0 (by norm_num) (hc01 i hi).1 (hc01 i hi).2
    refine ((r3.sub r1).sub r2).congr fun h t _ _ _ _ => ?_
    have e1 : poly (fun l => w (0 + l) t) 3 (c i * h) = y t + (c i * h) • (u 0 t + q 0 t) + (c i ^ 2 * h ^ 2 / 2) • (u 1 t + q 1 t) := by
      simp [poly, Finset.sum_range_succ, Nat.factorial, w, mul_pow]
    have e2 : ∀ (S : Finset ℕ) (k : ℕ → ℝ) (F : ℕ → E) (p p' : E), h • ∑ j ∈ S, k j • (F j - p - (c j * h) • p')
        = h • ∑ j ∈ S, k j • F j - (h * ∑ j ∈ S, k j) • p - (h ^ 2 * ∑ j ∈ S, k j * c j) • p' := by
      intro S k F p p'
      simp only [smul_sub, Finset.sum_sub_distrib]
      congr 1
      · rw [← Finset.sum_smul, smul_smul]
      · rw [Finset.smul_sum, Finset.mul_sum, Finset.sum_smul]
        refine Finset.sum_congr rfl fun j _ => ?_
        module
    have e3 : ∑ j ∈ range (i + 1), a i j * c j = al i + c i ^ 2 / 2 := by rw [hal i hi]; ring
    have e4 : ∑ j ∈ range (i + 1), d i j * c j = al' i + c i ^ 2 / 2 := by rw [hal' i hi]; ring
    rw [e1, e2, e2, e3, e4, ← hc i hi, ← hc' i hi]
    simp only [stageSum]
    module
  · have r1 : BigO T 1 4 (fun h t => h • ∑ j ∈ range s, b j • (f (w 0 (t + c j * h) + h ^ 2 • (al j • u 1 t + al' j • q 1 t)) - u 0 t
        - (c j * h) • u 1 t - (c j ^ 2 * h ^ 2 / 2) • u 2 t - h ^ 2 • (al j • v 0 t (u 1 t) + al' j • v 0 t (q 1 t)))) :=
      (BigO.sum _ fun j hj => (ref_expand2 hs hu hq hv (fun t _ => hu0 t) (fun t _ => hv0 t)
        (hc01 j (Finset.mem_range.1 hj)).1 (hc01 j (Finset.mem_range.1 hj)).2 _ _).smul _).h_smul
    have r2 : BigO T 1 4 (fun h t => h • ∑ j ∈ range s, e j • (g (w 0 (t + c j * h) + h ^ 2 • (al j • u 1 t + al' j • q 1 t)) - q 0 t
        - (c j * h) • q 1 t - (c j ^ 2 * h ^ 2 / 2) • q 2 t - h ^ 2 • (al' j • v' 0 t (q 1 t) + al j • v' 0 t (u 1 t)))) :=
      (BigO.sum _ fun j hj => by
        have hj := Finset.mem_range.1 hj
        have := (ref_expand2 (w := w) hs' hq hu hv' (fun t _ => hq0 t) (fun t _ => hv0' t)
          (hc01 j (by omega)).1 (hc01 j (by omega)).2 (al' j) (al j)).smul (e j)
        simpa only [add_comm (al' j • q 1 _)] using this).h_smul
    have r3 := hw.bigO 4 0 (by norm_num) zero_le_one le_rfl
    refine ((r3.sub r1).sub r2).congr fun h t _ _ _ _ => ?_
    rw [third_weights hb hbc hbcc hba hba', third_weights he hec hecc hea' hea]
    have e1 : poly (fun l => w (0 + l) t) 4 (1 * h) = y t + h • (u 0 t + q 0 t) + (h ^ 2 / 2) • (u 1 t + q 1 t)
        + (h ^ 3 / 6) • (u 2 t + q 2 t) := by
      simp [poly, Finset.sum_range_succ, Nat.factorial, w]
    rw [e1, one_mul]
    simp only [finalSum]
    have e2 : w 0 = y := rfl
    rw [e2]
    module

end Gusto.Convergence
