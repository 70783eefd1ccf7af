import Verif.Lemmas.ConvergenceRuns
import Mathlib.Tactic.FieldSimp

set_option autoImplicit false
set_option linter.unusedSectionVars false
set_option linter.unusedSimpArgs false

/-!
# Convergence of multi-step methods
-/

namespace Gusto.Convergence
open Gusto.Spec Finset Set

variable {E : Type*} [NormedAddCommGroup E] [NormedSpace ℝ E]
variable {F : Type*} [NormedAddCommGroup F] [NormedSpace ℝ F]

/-- A few start-up steps with a one-step method. -/
theorem startup_error {e : ℕ → ℝ} {lam D h T : ℝ} {p m : ℕ} (hl : 0 ≤ lam) (hD : 0 ≤ D) (hh : 0 ≤ h) (h0 : e 0 = 0) (n : ℕ) (hn : n ≤ m)
    (hN : n * h ≤ T) (hs : ∀ k < n, e (k + 1) ≤ (1 + h * lam) * e k + D * h ^ p) :
    e n ≤ Real.exp (T * lam) * (m * D) * h ^ p := by
  have h1 := gronwall (a := h * lam) (b := D * h ^ p) (by positivity) (by positivity) n h0.ge hs
  rw [h0, zero_add] at h1
  refine h1.trans ?_
  have h2 : (n : ℝ) * (h * lam) ≤ T * lam := by nlinarith
  have hn' : (n : ℝ) ≤ m := by exact_mod_cast hn
  rw [mul_assoc (Real.exp (T * lam)), mul_assoc (m : ℝ)]
  exact mul_le_mul (Real.exp_le_exp.mpr h2) (mul_le_mul_of_nonneg_right hn' (by positivity)) (by positivity) (Real.exp_pos _).le

/-- Adams methods are stable: start-up errors and local errors give the global error. -/
theorem adams_stable {f : E → E} {L : ℝ} (hf : Lip f L) {h : ℝ} (hh : 0 ≤ h) (q : ℕ) (hq : 1 ≤ q) (w : ℕ → ℝ) (bi : ℝ)
    (hbi : h * (|bi| * L) ≤ 1 / 2) {S D : ℝ} (hS : 0 ≤ S) (hD : 0 ≤ D) {p : ℕ} (x Y : ℕ → E) (N : ℕ)
    (hstart : ∀ n < q, n ≤ N → ‖x n - Y n‖ ≤ S * h ^ p)
    (hx : ∀ n < N, q ≤ n + 1 → x (n + 1) = x n + h • ∑ j ∈ range q, w j • f (x (n + 1 + j - q)) + (h * bi) • f (x (n + 1)))
    (hY : ∀ n < N, q ≤ n + 1 → ‖Y (n + 1) - Y n - h • ∑ j ∈ range q, w j • f (Y (n + 1 + j - q)) - (h * bi) • f (Y (n + 1))‖ ≤ D * h ^ (p + 1)) :
    ‖x N - Y N‖ ≤ Real.exp (N * h * (4 * (|bi| * L) + 2 * (L * ∑ j ∈ range q, |w j|))) * (S + N * h * (2 * D)) * h ^ p := by
  have hL := hf.1
  set W := ∑ j ∈ range q, |w j| with hW
  have hW0 : 0 ≤ W := Finset.sum_nonneg fun j _ => abs_nonneg _
  set lam := 4 * (|bi| * L) + 2 * (L * W) with hlam
  have hl : 0 ≤ lam := by positivity
  set β : ℕ → ℝ := fun n => Real.exp (n * h * lam) * (S + n * h * (2 * D)) * h ^ p with hβ
  have hβ0 : ∀ n, 0 ≤ β n := fun n => by simp only [hβ]; positivity
  have hmono : ∀ m n, m ≤ n → β m ≤ β n := fun m n hmn => by
    have : (m : ℝ) ≤ n := by exact_mod_cast hmn
    have h1 : (m : ℝ) * h ≤ n * h := mul_le_mul_of_nonneg_right this hh
    simp only [hβ]
    gcongr
  have key : ∀ n ≤ N, ‖x n - Y n‖ ≤ β n := by
    intro n
    induction n using Nat.strong_induction_on with
    | _ n ih =>
      intro hn
      by_cases hnq : n < q
      · refine (hstart n hnq hn).trans ?_
        have h1 : S * h ^ p = β 0 := by simp [hβ]
        rw [h1]; exact hmono 0 n (Nat.zero_le _)
      · obtain ⟨k, rfl⟩ : ∃ k, n = k + 1 := ⟨n - 1, by omega⟩
        have r1 := hx k (by omega) (by omega)
        have r2 := hY k (by omega) (by omega)
        have ihk := ih k (by omega) (by omega)
        have e : x (k + 1) - Y (k + 1) = (x k - Y k) + h • ∑ j ∈ range q, w j • (f (x (k + 1 + j - q)) - f (Y (k + 1 + j - q)))
            + (h * bi) • (f (x (k + 1)) - f (Y (k + 1)))
            - (Y (k + 1) - Y k - h • ∑ j ∈ range q, w j • f (Y (k + 1 + j - q)) - (h * bi) • f (Y (k + 1))) := by
          nth_rewrite 1 [r1]
          simp only [smul_sub, Finset.sum_sub_distrib]; abel
        have n1 : ‖h • ∑ j ∈ range q, w j • (f (x (k + 1 + j - q)) - f (Y (k + 1 + j - q)))‖ ≤ h * (L * W) * β k := by
          rw [norm_smul, Real.norm_eq_abs, abs_of_nonneg hh, mul_assoc]
          refine mul_le_mul_of_nonneg_left ?_ hh
          rw [hW, Finset.mul_sum, Finset.sum_mul]
          refine norm_sum_le_of_le _ fun j hj => ?_
          have hj' := Finset.mem_range.1 hj
          rw [norm_smul, Real.norm_eq_abs]
          have b1 := hf.2 (x (k + 1 + j - q)) (Y (k + 1 + j - q))
          have b2 := (ih (k + 1 + j - q) (by omega) (by omega)).trans (hmono _ k (by omega))
          calc |w j| * ‖f (x (k + 1 + j - q)) - f (Y (k + 1 + j - q))‖ ≤ |w j| * (L * β k) :=
                mul_le_mul_of_nonneg_left (b1.trans (mul_le_mul_of_nonneg_left b2 hL)) (abs_nonneg _)
            _ = _ := by ring
        have n2 : ‖(h * bi) • (f (x (k + 1)) - f (Y (k + 1)))‖ ≤ h * (|bi| * L) * ‖x (k + 1) - Y (k + 1)‖ := by
          rw [norm_smul, Real.norm_eq_abs, abs_mul, abs_of_nonneg hh]
          calc h * |bi| * ‖f (x (k + 1)) - f (Y (k + 1))‖ ≤ h * |bi| * (L * ‖x (k + 1) - Y (k + 1)‖) :=
                mul_le_mul_of_nonneg_left (hf.2 _ _) (by positivity)
            _ = _ := by ring
        have n3 : ‖x (k + 1) - Y (k + 1)‖ ≤ ‖x k - Y k‖ + h * (L * W) * β k + h * (|bi| * L) * ‖x (k + 1) - Y (k + 1)‖
            + D * h ^ (p + 1) := by
          nth_rewrite 1 [e]
          exact (norm_sub_le _ _).trans (add_le_add ((norm_add_le _ _).trans (add_le_add ((norm_add_le _ _).trans
            (add_le_add le_rfl n1)) n2)) r2)
        have hb0 := hβ0 k
        have n4 := solve_err (by positivity) hbi (norm_nonneg _) (by positivity) (by positivity) n3
        have hz : 0 ≤ h * (|bi| * L) := by positivity
        calc ‖x (k + 1) - Y (k + 1)‖ ≤ (1 + 4 * (h * (|bi| * L))) * β k + 2 * (h * (L * W) * β k) + 2 * (D * h ^ (p + 1)) := by
              refine n4.trans ?_
              gcongr
          _ = (1 + h * lam) * β k + h * (2 * D) * h ^ p := by rw [hlam]; ring
          _ ≤ Real.exp (h * lam) * β k + Real.exp ((k + 1) * h * lam) * (h * (2 * D) * h ^ p) := by
              refine add_le_add (mul_le_mul_of_nonneg_right (by linarith [Real.add_one_le_exp (h * lam)]) hb0) ?_
              have h1 : 1 ≤ Real.exp ((k + 1) * h * lam) := Real.one_le_exp (by positivity)
              nlinarith [show 0 ≤ h * (2 * D) * h ^ p by positivity]
          _ = β (k + 1) := by
              simp only [hβ]
              push_cast
              rw [show ((k : ℝ) + 1) * h * lam = h * lam + k * h * lam by ring, Real.exp_add]
              ring
  exact key N le_rfl

/-- The local error of an Adams method. -/
theorem adams_local {w : ℕ → ℝ → F} {n : ℕ} {T : ℝ} (hw : Chain w n T) (p : ℕ) (hp : p + 1 ≤ n) (q : ℕ) (hq : 1 ≤ q) (c : ℕ → ℝ) (bi : ℝ)
    (hc : ∀ k < p, ∑ j ∈ range q, c j * (j : ℝ) ^ k + bi * (q : ℝ) ^ k = ((q : ℝ) ^ (k + 1) - ((q : ℝ) - 1) ^ (k + 1)) / (k + 1)) :
    BigO T q (p + 1) (fun h t => w 0 (t + q * h) - w 0 (t + (q - 1) * h) - h • ∑ j ∈ range q, c j • w 1 (t + j * h)
      - (h * bi) • w 1 (t + q * h)) := by
  have hq' : (1 : ℝ) ≤ q := by exact_mod_cast hq
  have h1 := hw.quadrature p hp (m := q) (range (q + 1)) (fun j => (j : ℝ)) (fun j => if j < q then c j else bi) (fun j hj => by
    have := Finset.mem_range.1 hj
    exact ⟨by positivity, by exact_mod_cast (by omega : j ≤ q)⟩) (g := q) (by positivity) le_rfl
  have h2 := hw.quadrature p hp (m := q) ∅ (fun j => (j : ℝ)) (fun _ => 0) (fun j hj => by simp at hj) (g := (q : ℝ) - 1)
    (by linarith) (by linarith)
  refine (h2.sub h1).congr fun h t _ _ _ _ => ?_
  have e1 : ∑ j ∈ range (q + 1), (if j < q then c j else bi) • w 1 (t + j * h)
      = ∑ j ∈ range q, c j • w 1 (t + j * h) + bi • w 1 (t + q * h) := by
    rw [Finset.sum_range_succ, if_neg (lt_irrefl _)]
    congr 1
    exact Finset.sum_congr rfl fun j hj => by rw [if_pos (Finset.mem_range.1 hj)]
  have e2 : ∀ k < p, ∑ j ∈ range (q + 1), (if j < q then c j else bi) * (j : ℝ) ^ k - (q : ℝ) ^ (k + 1) / (k + 1)
      = -(((q : ℝ) - 1) ^ (k + 1) / (k + 1)) := by
    intro k hk
    rw [Finset.sum_range_succ, if_neg (lt_irrefl _)]
    have : ∑ j ∈ range q, (if j < q then c j else bi) * (j : ℝ) ^ k = ∑ j ∈ range q, c j * (j : ℝ) ^ k :=
      Finset.sum_congr rfl fun j hj => by rw [if_pos (Finset.mem_range.1 hj)]
    rw [this, hc k hk]
    ring
  rw [e1]
  have e3 : ∑ k ∈ range p, (h ^ (k + 1) / (k.factorial : ℝ) * (∑ j ∈ range (q + 1), (if j < q then c j else bi) * (j : ℝ) ^ k
        - (q : ℝ) ^ (k + 1) / (k + 1))) • w (k + 1) t
      = ∑ k ∈ range p, (h ^ (k + 1) / (k.factorial : ℝ) * (∑ j ∈ (∅ : Finset ℕ), 0 * (j : ℝ) ^ k
        - ((q : ℝ) - 1) ^ (k + 1) / (k + 1))) • w (k + 1) t :=
    Finset.sum_congr rfl fun k hk => by
      rw [e2 k (Finset.mem_range.1 hk), Finset.sum_empty, zero_sub]
  rw [e3]
  simp only [Finset.sum_empty, smul_zero, add_zero, smul_add, smul_smul]
  abel

/-- Convergence of an Adams method with given start-up errors. -/
theorem adams_converges {f : E → E} {L : ℝ} {p : ℕ} (hf : SmoothRHS f p L) (hp : 2 ≤ p) (q : ℕ) (hq : 1 ≤ q) (c : ℕ → ℝ) (bi : ℝ)
    (hc : ∀ k < p, ∑ j ∈ range q, c j * (j : ℝ) ^ k + bi * (q : ℝ) ^ k = ((q : ℝ) ^ (k + 1) - ((q : ℝ) - 1) ^ (k + 1)) / (k + 1))
    {S : ℝ} (hS : 0 ≤ S) {y : ℝ → E} {T : ℝ} (hT : 0 < T) (hy : IsSol f y T) :
    ∃ C, ∀ h, 0 ≤ h → h * (|bi| * L) ≤ 1 / 2 → ∀ (x : ℕ → E) (N : ℕ), N * h ≤ T →
      (∀ n < q, n ≤ N → ‖x n - y (n * h)‖ ≤ S * h ^ p) →
      (∀ n < N, q ≤ n + 1 → x (n + 1) = x n + h • ∑ j ∈ range q, c j • f (x (n + 1 + j - q)) + (h * bi) • f (x (n + 1))) →
      ‖x N - y (N * h)‖ ≤ C * h ^ p := by
  obtain ⟨D, hD, hloc⟩ := adams_local (hf.sol_chain hp hT hy) p le_rfl q hq c bi hc
  have hL := hf.lip.1
  refine ⟨Real.exp (T * (4 * (|bi| * L) + 2 * (L * ∑ j ∈ range q, |c j|))) * (S + T * (2 * D)), fun h hh hhL x N hN hst hx => ?_⟩
  have := adams_stable hf.lip hh q hq c bi hhL hS hD (p := p) x (fun n => y (n * h)) N hst hx (fun n hn hqn => by
    have hn' : ((n : ℝ) + 1) ≤ N := by exact_mod_cast hn
    have hqn' : (q : ℝ) ≤ n + 1 := by exact_mod_cast hqn
    have hle : ((n : ℝ) + 1) * h ≤ T := (mul_le_mul_of_nonneg_right hn' hh).trans hN
    have hhT : h ≤ T := by
      have : (0 : ℝ) ≤ n := by positivity
      nlinarith
    have ht : 0 ≤ ((n : ℝ) + 1 - q) * h := mul_nonneg (by linarith) hh
    have b := hloc h (((n : ℝ) + 1 - q) * h) hh hhT ht (by linarith [show ((n : ℝ) + 1 - q) * h + q * h = (n + 1) * h by ring])
    simp only [chain_zero] at b
    have e1 : ((n : ℝ) + 1 - q) * h + q * h = ((n + 1 : ℕ) : ℝ) * h := by push_cast; ring
    have e2 : ((n : ℝ) + 1 - q) * h + (q - 1) * h = (n : ℝ) * h := by ring
    have e3 : ∀ j ∈ range q, c j • iteratedDerivWithin 1 y (Icc 0 T) (((n : ℝ) + 1 - q) * h + j * h)
        = c j • f (y (((n + 1 + j - q : ℕ) : ℝ) * h)) := fun j hj => by
      have hj' := Finset.mem_range.1 hj
      have e : ((n : ℝ) + 1 - q) * h + j * h = ((n + 1 + j - q : ℕ) : ℝ) * h := by
        rw [Nat.cast_sub (by omega)]; push_cast; ring
      rw [e, hy.chain_one hT]
      refine ⟨by positivity, ?_⟩
      have : ((n + 1 + j - q : ℕ) : ℝ) ≤ n + 1 := by exact_mod_cast (by omega : n + 1 + j - q ≤ n + 1)
      exact (mul_le_mul_of_nonneg_right this hh).trans hle
    rw [e1, e2, Finset.sum_congr rfl e3, hy.chain_one hT _ ⟨by positivity, by push_cast; exact hle⟩] at b
    exact b)
  refine this.trans ?_
  have hW : 0 ≤ ∑ j ∈ range q, |c j| := Finset.sum_nonneg fun j _ => abs_nonneg _
  gcongr

/-! ### BDF2 -/

theorem bdf2_local {w : ℕ → ℝ → F} {T : ℝ} (hw : Chain w 3 T) :
    BigO T 2 3 (fun h t => w 0 (t + 2 * h) - (4 / 3 : ℝ) • w 0 (t + 1 * h) + (1 / 3 : ℝ) • w 0 t - (2 / 3 * h) • w 1 (t + 2 * h)) := by
  have h1 := hw.bigO 3 0 (by norm_num) (m := 2) (c := 2) (by norm_num) le_rfl
  have h2 := (hw.bigO 3 0 (by norm_num) (m := 2) (c := 1) (by norm_num) (by norm_num)).smul (4 / 3)
  have h3 := ((hw.bigO 2 1 (by norm_num) (m := 2) (c := 2) (by norm_num) le_rfl).smul (2 / 3)).h_smul
  refine ((h1.sub h2).sub h3).congr fun h t _ _ _ _ => ?_
  simp only [poly, Finset.sum_range_succ, Finset.sum_range_zero, Nat.factorial]
  norm_num
  simp only [smul_sub, smul_add, smul_smul]
  module

theorem bdf2_converges {f : E → E} {L : ℝ} (hf : SmoothRHS f 2 L) {y : ℝ → E} {T : ℝ} (hT : 0 < T) (hy : IsSol f y T) :
    ∃ C, ∀ h, 0 ≤ h → h * L ≤ 1 / 2 → ∀ (x : ℕ → E) (N : ℕ), N * h ≤ T → x 0 = y 0 →
      (0 < N → x 1 = x 0 + h • f (x 1)) →
      (∀ n, n + 1 < N → x (n + 2) = (4 / 3 : ℝ) • x (n + 1) - (1 / 3 : ℝ) • x n + (2 / 3 * h) • f (x (n + 2))) →
      ‖x N - y (N * h)‖ ≤ C * h ^ 2 := by
  obtain ⟨D, hD, hloc⟩ := bdf2_local (hf.sol_chain le_rfl hT hy)
  obtain ⟨B, hB0, hB⟩ := hy.bounded hf.lip
  have hL := hf.lip.1
  refine ⟨Real.exp (T * (4 * L)) * (6 * L * B + T * (3 * D)), fun h hh hhL x N hN hx0 hx1 hx => ?_⟩
  rcases Nat.eq_zero_or_pos N with rfl | hN0
  · simp [hx0]; positivity
  obtain ⟨N, rfl⟩ : ∃ k, N = k + 1 := ⟨N - 1, by omega⟩
  set ε : ℕ → E := fun n => x n - y (n * h) with hε
  have hN' : ((N : ℝ) + 1) * h ≤ T := by push_cast at hN; exact hN
  have hhT : h ≤ T := by have : (0 : ℝ) ≤ N := by positivity
                         nlinarith
  have hε0 : ε 0 = 0 := by simp [hε, hx0]
  have hε1 : ‖ε 1‖ ≤ 4 * L * B * h ^ 2 := by
    have r : x 1 = x 0 + (h * 1) • f (x 1) + (h * (1 - 1)) • f (x 0) := by
      simpa using hx1 (by omega)
    have e1 := theta_error hf.lip hh zero_le_one le_rfl hhL r (Y := y 0) (Y' := y (0 + h))
    have hx0' : x 0 - y 0 = 0 := by rw [hx0, sub_self]
    have e2 := theta_local hf.lip hy hB zero_le_one le_rfl (t := 0) le_rfl hh (by linarith)
    rw [hx0', norm_zero, mul_zero, zero_add (2 * _)] at e1
    have e3 : ‖ε 1‖ = ‖x 1 - y (0 + h)‖ := by simp [hε]
    rw [e3]
    refine e1.trans ?_
    nlinarith
  have step : ∀ n < N, ‖ε (n + 2)‖ + ‖ε (n + 2) - ε (n + 1)‖ / 2 ≤
      (1 + h * (4 * L)) * (‖ε (n + 1)‖ + ‖ε (n + 1) - ε n‖ / 2) + 3 * D * h ^ 3 := by
    intro n hn
    have hn' : (n : ℝ) + 1 ≤ N := by exact_mod_cast hn
    have hle : ((n : ℝ) + 2) * h ≤ T := by nlinarith
    have b := hloc h (n * h) hh hhT (by positivity) (by linarith [show (n : ℝ) * h + 2 * h = (n + 2) * h by ring])
    simp only [chain_zero] at b
    rw [show (n : ℝ) * h + 2 * h = ((n + 2 : ℕ) : ℝ) * h by push_cast; ring,
      show (n : ℝ) * h + 1 * h = ((n + 1 : ℕ) : ℝ) * h by push_cast; ring,
      hy.chain_one hT _ ⟨by positivity, by push_cast; exact hle⟩] at b
    have r := hx n (by omega)
    set τ := y (((n + 2 : ℕ) : ℝ) * h) - (4 / 3 : ℝ) • y (((n + 1 : ℕ) : ℝ) * h) + (1 / 3 : ℝ) • y (n * h)
      - (2 / 3 * h) • f (y (((n + 2 : ℕ) : ℝ) * h)) with hτ
    set g := (2 / 3 * h) • (f (x (n + 2)) - f (y (((n + 2 : ℕ) : ℝ) * h))) - τ with hg
    have e1 : ε (n + 2) - ε (n + 1) = (1 / 3 : ℝ) • (ε (n + 1) - ε n) + g := by
      simp only [hε, hg, hτ]
      nth_rewrite 1 [r]
      module
    have hgn : ‖g‖ ≤ 2 / 3 * (h * L * ‖ε (n + 2)‖) + D * h ^ 3 := by
      refine (norm_sub_le _ _).trans (add_le_add ?_ b)
      rw [norm_smul, Real.norm_eq_abs, abs_of_nonneg (by positivity)]
      calc 2 / 3 * h * ‖f (x (n + 2)) - f (y (((n + 2 : ℕ) : ℝ) * h))‖ ≤ 2 / 3 * h * (L * ‖ε (n + 2)‖) :=
            mul_le_mul_of_nonneg_left (hf.lip.2 _ _) (by positivity)
        _ = _ := by ring
    have hv : ‖ε (n + 2) - ε (n + 1)‖ ≤ 1 / 3 * ‖ε (n + 1) - ε n‖ + ‖g‖ := by
      rw [e1]
      refine (norm_add_le _ _).trans ?_
      rw [norm_smul, Real.norm_eq_abs, abs_of_nonneg (by norm_num : (0 : ℝ) ≤ 1 / 3)]
    have hu : ‖ε (n + 2)‖ ≤ ‖ε (n + 1)‖ + ‖ε (n + 2) - ε (n + 1)‖ := by
      have := norm_add_le (ε (n + 1)) (ε (n + 2) - ε (n + 1))
      rwa [add_sub_cancel] at this
    set u := ‖ε (n + 1)‖
    set v := ‖ε (n + 1) - ε n‖
    set u' := ‖ε (n + 2)‖
    set v' := ‖ε (n + 2) - ε (n + 1)‖
    have hu0 : 0 ≤ u := norm_nonneg _
    have hv0 : 0 ≤ v := norm_nonneg _
    have hv0' : 0 ≤ v' := norm_nonneg _
    have hz : h * L * u' ≤ h * L * (u' + v' / 2) := mul_le_mul_of_nonneg_left (by linarith) (by positivity)
    have n3 : u' + v' / 2 ≤ (u + v / 2) + 0 + h * L * (u' + v' / 2) + 3 / 2 * (D * h ^ 3) := by linarith
    have := solve_err (by positivity) hhL (by positivity) le_rfl (by positivity) n3
    linarith
  have := global_error (e := fun n => ‖ε (n + 1)‖ + ‖ε (n + 1) - ε n‖ / 2) (N := N) (T := T) (p := 2) (lam := 4 * L) (D := 3 * D) (h := h)
    (by positivity) (by positivity) hh (by nlinarith) (by positivity) step
  have hfin : ‖ε (N + 1)‖ ≤ ‖ε (N + 1)‖ + ‖ε (N + 1) - ε N‖ / 2 := by have := norm_nonneg (ε (N + 1) - ε N); linarith
  refine hfin.trans (this.trans ?_)
  simp only [zero_add, hε0, sub_zero]
  have h3 : ‖ε 1‖ + ‖ε 1‖ / 2 ≤ 6 * L * B * h ^ 2 := by linarith
  calc _ ≤ Real.exp (T * (4 * L)) * (6 * L * B * h ^ 2 + T * (3 * D) * h ^ 2) := by gcongr
    _ = _ := by ring

end Gusto.Convergence
