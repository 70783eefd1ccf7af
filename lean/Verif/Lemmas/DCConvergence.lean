import Verif.Lemmas.Splitting
import Verif.Lemmas.ConvergenceRuns
import Verif.Lemmas.ConvergenceImplicit
import Verif.Spec.DCConvergence

set_option autoImplicit false
set_option linter.unusedSectionVars false
set_option linter.unusedSimpArgs false

/-!
# Convergence of deferred correction
-/

namespace Gusto.Convergence
open Gusto.Spec Finset Set

variable {E : Type*} [NormedAddCommGroup E] [NormedSpace ℝ E]

theorem dc_alg {h K c B a u d : ℝ} (h0 : 0 ≤ h) (h1 : h ≤ 1) (hK : 0 ≤ K) (hc : 0 ≤ c) (hB : 0 ≤ B) (ha : 0 ≤ a) (hu : 0 ≤ u) (hd : 0 ≤ d) :
    (1 + h * K) * ((1 + h * c) * a + h * c * u + c * d) + 2 * (h * B * u) + 2 * d
      ≤ (1 + h * (K + c + K * c + 2 * B + 2)) * a + h * (K + c + K * c + 2 * B + 2) * u + (K + c + K * c + 2 * B + 2) * d := by
  rw [← sub_nonneg]
  have h2 : 0 ≤ 1 - h := by linarith
  have e : (1 + h * (K + c + K * c + 2 * B + 2)) * a + h * (K + c + K * c + 2 * B + 2) * u + (K + c + K * c + 2 * B + 2) * d
      - ((1 + h * K) * ((1 + h * c) * a + h * c * u + c * d) + 2 * (h * B * u) + 2 * d)
      = (h * K * c * (1 - h) + h * (2 * B + 2)) * a + (h * K + h * K * c * (1 - h) + 2 * h) * u + (K + K * c * (1 - h) + 2 * B) * d := by
    ring
  rw [e]
  positivity

theorem dc_alg2 {h A L L' S x u m n : ℝ} (h0 : 0 ≤ h) (hA : 0 ≤ A) (hL : 0 ≤ L) (hL' : 0 ≤ L') (hx : 0 ≤ x) (hu : 0 ≤ u) (hn : 0 ≤ n)
    (hmn : m ≤ n) :
    h * A * L * (S + m * u) + h * A * (L * (x + u)) + h * A * L' * (S + m * u) + n * (h * A * ((L + L') * u))
        ≤ h * (A * (L + L')) * (S + x + (3 * n + 1) * u) := by
  rw [← sub_nonneg]
  have h2 : 0 ≤ n - m := by linarith
  have e : h * (A * (L + L')) * (S + x + (3 * n + 1) * u)
      - (h * A * L * (S + m * u) + h * A * (L * (x + u)) + h * A * L' * (S + m * u) + n * (h * A * ((L + L') * u)))
      = h * A * L' * (x + u) + h * A * (L + L') * ((n - m) + n) * u := by ring
  rw [e]
  positivity

/-- The errors at the nodes during a correction. -/
theorem dc_scalar (B : ℝ) (hB : 0 ≤ B) (n : ℕ) : ∃ c, 0 ≤ c ∧ ∀ h, 0 ≤ h → h ≤ 1 → h * B ≤ 1 / 2 → ∀ (z : Bool) (a : ℕ → ℝ) (u d : ℝ),
    (∀ m, 0 ≤ a m) → 0 ≤ u → 0 ≤ d →
    (∀ m < n, a (m + 1) ≤ (if z then a 0 else a m) + h * B * (∑ i ∈ range (m + 1), a i + a (m + 1) + u) + d) →
    ∀ m ≤ n, a m ≤ (1 + h * c) * a 0 + h * c * u + c * d := by
  induction n with
  | zero =>
    refine ⟨0, le_rfl, fun h _ _ _ z a u d _ _ _ _ m hm => ?_⟩
    obtain rfl : m = 0 := by omega
    simp
  | succ n ih =>
    obtain ⟨c, c0, hc⟩ := ih
    set K := 2 * B + B * (n + 1) + 2 * B * (B * (n + 1)) with hK
    have K0 : 0 ≤ K := by positivity
    refine ⟨K + c + K * c + 2 * B + 2, by positivity, fun h h0 h1 hhB z a u d ha hu hd hs m hm => ?_⟩
    have prev := hc h h0 h1 hhB z a u d ha hu hd fun m hm => hs m (by omega)
    set P := (1 + h * c) * a 0 + h * c * u + c * d with hP
    have ha0 := ha 0
    have P0 : 0 ≤ P := by positivity
    have hPle : P ≤ (1 + h * (K + c + K * c + 2 * B + 2)) * a 0 + h * (K + c + K * c + 2 * B + 2) * u + (K + c + K * c + 2 * B + 2) * d := by
      have : c ≤ K + c + K * c + 2 * B + 2 := by nlinarith [mul_nonneg K0 c0]
      rw [hP]
      gcongr
    by_cases hmn : m ≤ n
    · exact (prev m hmn).trans hPle
    · obtain rfl : m = n + 1 := by omega
      have e := hs n (by omega)
      have es : (if z then a 0 else a n) ≤ P := by
        cases z
        · exact prev n le_rfl
        · exact prev 0 (by omega)
      have esum : ∑ i ∈ range (n + 1), a i ≤ (n + 1) * P := by
        have := Finset.sum_le_sum fun i (hi : i ∈ range (n + 1)) => prev i (by have := mem_range.1 hi; omega)
        rw [Finset.sum_const, card_range, nsmul_eq_mul] at this
        push_cast at this
        exact this
      set x := a (n + 1)
      set S := ∑ i ∈ range (n + 1), a i
      have hx : 0 ≤ x := ha (n + 1)
      set w := h * B with hw
      have w0 : 0 ≤ w := by positivity
      have e1 : (1 - w) * x ≤ (1 + w * (n + 1)) * P + w * u + d := by nlinarith
      have e2 : x ≤ (1 + 2 * w) * ((1 + w * (n + 1)) * P + w * u + d) := by
        set Z := (1 + w * (n + 1)) * P + w * u + d
        have Z0 : 0 ≤ Z := by positivity
        have : 1 ≤ (1 - w) * (1 + 2 * w) := by nlinarith
        have h3 : (1 - w) * x ≤ (1 - w) * ((1 + 2 * w) * Z) := by nlinarith
        exact le_of_mul_le_mul_left h3 (by linarith)
      have e3 : (1 + 2 * w) * (1 + w * (n + 1)) ≤ 1 + h * K := by
        have : h * (h * (2 * B * (B * (n + 1)))) ≤ 1 * (h * (2 * B * (B * (n + 1)))) :=
          mul_le_mul_of_nonneg_right h1 (by positivity)
        rw [hw, hK]
        nlinarith
      have e4 : (1 + 2 * w) * (w * u) ≤ 2 * (w * u) := mul_le_mul_of_nonneg_right (by linarith) (by positivity)
      have e5 : (1 + 2 * w) * d ≤ 2 * d := mul_le_mul_of_nonneg_right (by linarith) hd
      calc x ≤ _ := e2
        _ = (1 + 2 * w) * (1 + w * (n + 1)) * P + (1 + 2 * w) * (w * u) + (1 + 2 * w) * d := by ring
        _ ≤ (1 + h * K) * P + 2 * (w * u) + 2 * d := by
          have := mul_le_mul_of_nonneg_right e3 P0
          linarith
        _ ≤ _ := by
          rw [hP, hw]
          exact dc_alg h0 h1 K0 c0 hB ha0 hu hd

/-- The error of the iterates of deferred correction: a sweep turns the error `u` at the nodes into `h u`, up to the defect `d`. -/
theorem dc_iterate {r p : ℕ} {c0 c1 D : ℝ} (h0 : 0 ≤ c0) (h1 : 0 ≤ c1) (hD : 0 ≤ D) (k : ℕ) :
    ∃ c, 0 ≤ c ∧ ∀ h, 0 ≤ h → h ≤ 1 → ∀ (e : ℝ) (u : ℕ → ℝ), 0 ≤ e → u 0 ≤ (1 + h * c0) * e + c0 * h ^ r →
      (∀ j < k, u (j + 1) ≤ (1 + h * c1) * e + h * c1 * u j + c1 * (D * h ^ (p + 1))) →
      u k ≤ (1 + h * c) * e + c * h ^ (r + k) + c * h ^ (p + 1) := by
  induction k with
  | zero =>
    refine ⟨c0, h0, fun h hh hh1 e u he hu _ => ?_⟩
    have : 0 ≤ c0 * h ^ (p + 1) := by positivity
    rw [add_zero]
    linarith
  | succ k ih =>
    obtain ⟨c, hc0, hc⟩ := ih
    refine ⟨c1 + c1 * (1 + c) + c1 * c + c1 * D, by positivity, fun h hh hh1 e u he hu hs => ?_⟩
    have prev := hc h hh hh1 e u he hu fun j hj => hs j (by omega)
    have e1 := hs k (by omega)
    have e2 : h * c1 * u k ≤ h * c1 * ((1 + h * c) * e + c * h ^ (r + k) + c * h ^ (p + 1)) :=
      mul_le_mul_of_nonneg_left prev (by positivity)
    have p1 : 0 ≤ h ^ (p + 1) := by positivity
    have p2 : 0 ≤ h ^ (r + (k + 1)) := by positivity
    have e3 : h * (h * (c1 * c * e)) ≤ 1 * (h * (c1 * c * e)) := mul_le_mul_of_nonneg_right hh1 (by positivity)
    have e4 : h * (c1 * c * h ^ (p + 1)) ≤ 1 * (c1 * c * h ^ (p + 1)) := mul_le_mul_of_nonneg_right hh1 (by positivity)
    have e5 : h * c1 * (c * h ^ (r + k)) = c1 * c * h ^ (r + (k + 1)) := by ring
    have r1 : 0 ≤ h * (c1 * c + c1 * D) * e := by positivity
    have r2 : 0 ≤ (c1 + c1 * (1 + c) + c1 * D) * h ^ (r + (k + 1)) := by positivity
    have r3 : 0 ≤ (c1 + c1 * (1 + c)) * h ^ (p + 1) := by positivity
    nlinarith

/-- One sweep of spectral deferred correction, without the mass operator. -/
def SweepEq (z2n : Bool) (q qi qe : ℕ → ℕ → ℝ) (n : ℕ) (f g : E → E) (h : ℝ) (U V : ℕ → E) : Prop :=
  V 0 = U 0 ∧ ∀ m < n, V (m + 1) = startNode z2n V m
      + ∑ i ∈ range (m + 1), (h * qi m i) • (f (V (i + 1)) - f (U (i + 1)))
      + ∑ i ∈ range m, (h * qe m i) • (g (V (i + 1)) - g (U (i + 1)))
      + ∑ k ∈ range n, (h * q m k) • (f (U (k + 1)) + g (U (k + 1)))

/-- A bound of the entries of a matrix. -/
theorem entries_bdd (q : ℕ → ℕ → ℝ) (n : ℕ) : ∃ A, 0 ≤ A ∧ ∀ m < n, ∀ k < n, |q m k| ≤ A := by
  refine ⟨∑ m ∈ range n, ∑ k ∈ range n, |q m k|, Finset.sum_nonneg fun _ _ => Finset.sum_nonneg fun _ _ => abs_nonneg _,
    fun m hm k hk => ?_⟩
  exact (Finset.single_le_sum (f := fun k => |q m k|) (fun _ _ => abs_nonneg _) (mem_range.2 hk)).trans
    (Finset.single_le_sum (f := fun m => ∑ k ∈ range n, |q m k|) (fun _ _ => Finset.sum_nonneg fun _ _ => abs_nonneg _) (mem_range.2 hm))

/-- The error of one sweep. -/
theorem sweep_error (q qi qe : ℕ → ℕ → ℝ) (n : ℕ) {f g : E → E} {L L' : ℝ} (hf : Lip f L) (hg : Lip g L') :
    ∃ B c, 0 ≤ B ∧ 0 ≤ c ∧ ∀ h, 0 ≤ h → h ≤ 1 → h * B ≤ 1 / 2 → ∀ (z2n : Bool) (U V Y : ℕ → E) (u d : ℝ),
      SweepEq z2n q qi qe n f g h U V → (∀ m ≤ n, ‖U m - Y m‖ ≤ u) → 0 ≤ d →
      (∀ m < n, ‖Y (m + 1) - startNode z2n Y m - ∑ k ∈ range n, (h * q m k) • (f (Y (k + 1)) + g (Y (k + 1)))‖ ≤ d) →
      ∀ m ≤ n, ‖V m - Y m‖ ≤ (1 + h * c) * ‖U 0 - Y 0‖ + h * c * u + c * d := by
  obtain ⟨A1, a10, hA1⟩ := entries_bdd q n
  obtain ⟨A2, a20, hA2⟩ := entries_bdd qi n
  obtain ⟨A3, a30, hA3⟩ := entries_bdd qe n
  have hL := hf.1
  have hL' := hg.1
  set A := A1 + A2 + A3
  have A0 : 0 ≤ A := by positivity
  set b := A * (L + L') with hb
  have b0 : 0 ≤ b := by positivity
  set B := b * (3 * n + 1) with hB
  have B0 : 0 ≤ B := by positivity
  obtain ⟨c, c0, hc⟩ := dc_scalar B B0 n
  refine ⟨B, c, B0, c0, fun h h0 h1 hhB z2n U V Y u d hs hU hd hY m hm => ?_⟩
  have u0 : 0 ≤ u := (norm_nonneg _).trans (hU 0 (by omega))
  obtain ⟨hV0, hs⟩ := hs
  have := hc h h0 h1 hhB z2n (fun m => ‖V m - Y m‖) u d (fun _ => norm_nonneg _) u0 hd (fun m hm => ?_) m hm
  · simpa only [hV0] using this
  · set a := fun m => ‖V m - Y m‖ with ha
    have ha0 : ∀ m, 0 ≤ a m := fun _ => norm_nonneg _
    have key : V (m + 1) - Y (m + 1) = (startNode z2n V m - startNode z2n Y m)
        + ∑ i ∈ range (m + 1), (h * qi m i) • (f (V (i + 1)) - f (U (i + 1)))
        + ∑ i ∈ range m, (h * qe m i) • (g (V (i + 1)) - g (U (i + 1)))
        + ∑ k ∈ range n, (h * q m k) • ((f (U (k + 1)) + g (U (k + 1))) - (f (Y (k + 1)) + g (Y (k + 1))))
        - (Y (m + 1) - startNode z2n Y m - ∑ k ∈ range n, (h * q m k) • (f (Y (k + 1)) + g (Y (k + 1)))) := by
      rw [hs m hm]
      simp only [smul_sub, Finset.sum_sub_distrib]
      abel
    have hdiff : ∀ {φ : E → E} {M : ℝ} (hφ : Lip φ M) (i : ℕ), i + 1 ≤ n →
        ‖φ (V (i + 1)) - φ (U (i + 1))‖ ≤ M * (a (i + 1) + u) := fun hφ i hi => by
      refine (hφ.2 _ _).trans (mul_le_mul_of_nonneg_left ?_ hφ.1)
      have e : V (i + 1) - U (i + 1) = (V (i + 1) - Y (i + 1)) - (U (i + 1) - Y (i + 1)) := by abel
      rw [e]
      exact (norm_sub_le _ _).trans (add_le_add le_rfl (hU _ hi))
    have n1 : ‖∑ i ∈ range (m + 1), (h * qi m i) • (f (V (i + 1)) - f (U (i + 1)))‖
        ≤ ∑ i ∈ range (m + 1), h * A * (L * (a (i + 1) + u)) := norm_sum_le_of_le _ fun i hi => by
      have hi := mem_range.1 hi
      rw [norm_smul, Real.norm_eq_abs, abs_mul, abs_of_nonneg h0]
      have := hA2 m hm i (by omega)
      have := hdiff hf i (by omega)
      have : |qi m i| ≤ A := by simp only [A]; linarith
      gcongr
    have n2 : ‖∑ i ∈ range m, (h * qe m i) • (g (V (i + 1)) - g (U (i + 1)))‖
        ≤ ∑ i ∈ range m, h * A * (L' * (a (i + 1) + u)) := norm_sum_le_of_le _ fun i hi => by
      have hi := mem_range.1 hi
      rw [norm_smul, Real.norm_eq_abs, abs_mul, abs_of_nonneg h0]
      have := hA3 m hm i (by omega)
      have := hdiff hg i (by omega)
      have : |qe m i| ≤ A := by simp only [A]; linarith
      gcongr
    have n3 : ‖∑ k ∈ range n, (h * q m k) • ((f (U (k + 1)) + g (U (k + 1))) - (f (Y (k + 1)) + g (Y (k + 1))))‖
        ≤ ∑ k ∈ range n, h * A * ((L + L') * u) := norm_sum_le_of_le _ fun k hk => by
      have hk := mem_range.1 hk
      rw [norm_smul, Real.norm_eq_abs, abs_mul, abs_of_nonneg h0]
      have := hA1 m hm k (by omega)
      have h4 : |q m k| ≤ A := by simp only [A]; linarith
      have h5 : ‖(f (U (k + 1)) + g (U (k + 1))) - (f (Y (k + 1)) + g (Y (k + 1)))‖ ≤ (L + L') * u :=
        ((hf.add hg).2 _ _).trans (mul_le_mul_of_nonneg_left (hU _ hk) (by positivity))
      gcongr
    have n4 : ‖startNode z2n V m - startNode z2n Y m‖ = if z2n then a 0 else a m := by
      cases z2n <;> simp [startNode, ha]
    have hn : (m : ℝ) + 1 ≤ n := by exact_mod_cast hm
    have total : a (m + 1) ≤ (if z2n then a 0 else a m) + ∑ i ∈ range (m + 1), h * A * (L * (a (i + 1) + u))
        + ∑ i ∈ range m, h * A * (L' * (a (i + 1) + u)) + ∑ k ∈ range n, h * A * ((L + L') * u) + d := by
      calc a (m + 1) = ‖V (m + 1) - Y (m + 1)‖ := rfl
        _ ≤ _ := by
          rw [key]
          refine (norm_sub_le _ _).trans (add_le_add ((norm_add_le _ _).trans (add_le_add ((norm_add_le _ _).trans (add_le_add
            ((norm_add_le _ _).trans (add_le_add n4.le n1)) n2)) n3)) (hY m hm))
    refine total.trans ?_
    rw [Finset.sum_range_succ]
    have s0 : ∑ i ∈ range m, a (i + 1) ≤ ∑ i ∈ range (m + 1), a i := by
      rw [Finset.sum_range_succ' a m]
      linarith [ha0 0]
    set S := ∑ i ∈ range m, a (i + 1) with hS
    have S0 : 0 ≤ S := Finset.sum_nonneg fun i _ => ha0 _
    have s1 : ∑ i ∈ range m, h * A * (L * (a (i + 1) + u)) = h * A * L * (S + m * u) := by
      rw [← Finset.mul_sum, ← Finset.mul_sum, Finset.sum_add_distrib, Finset.sum_const, card_range, nsmul_eq_mul]; ring
    have s2 : ∑ i ∈ range m, h * A * (L' * (a (i + 1) + u)) = h * A * L' * (S + m * u) := by
      rw [← Finset.mul_sum, ← Finset.mul_sum, Finset.sum_add_distrib, Finset.sum_const, card_range, nsmul_eq_mul]; ring
    rw [s1, s2, Finset.sum_const, card_range, nsmul_eq_mul]
    have g1 : h * A * L * (S + m * u) + h * A * (L * (a (m + 1) + u)) + h * A * L' * (S + m * u) + n * (h * A * ((L + L') * u))
        ≤ h * b * (S + a (m + 1) + (3 * n + 1) * u) := by
      exact dc_alg2 h0 A0 hL hL' (ha0 _) u0 (by positivity) (by linarith)
    have g2 : h * b * (S + a (m + 1) + (3 * n + 1) * u) ≤ h * B * (∑ i ∈ range (m + 1), a i + a (m + 1) + u) := by
      rw [hB]
      have k1 : S + a (m + 1) ≤ (3 * n + 1) * (∑ i ∈ range (m + 1), a i + a (m + 1)) := by
        have t0 : 0 ≤ ∑ i ∈ range (m + 1), a i + a (m + 1) := add_nonneg (S0.trans s0) (ha0 (m + 1))
        have n0 : (0 : ℝ) ≤ n := by positivity
        have := mul_nonneg n0 t0
        linarith
      have k2 : S + a (m + 1) + (3 * n + 1) * u ≤ (3 * n + 1) * (∑ i ∈ range (m + 1), a i + a (m + 1) + u) := by linarith
      calc _ ≤ h * b * ((3 * n + 1) * (∑ i ∈ range (m + 1), a i + a (m + 1) + u)) := mul_le_mul_of_nonneg_left k2 (by positivity)
        _ = _ := by ring
    linarith

/-! ### Defects of the exact solution -/

theorem NodesOK.nonneg {c : ℕ → ℝ} {n : ℕ} (hc : NodesOK c n) : ∀ m ≤ n, 0 ≤ c m := by
  intro m
  induction m with
  | zero => intro _; exact hc.zero.ge
  | succ m ih => intro hm; exact (ih (by omega)).trans (hc.mono m (by omega))

/-- The defect of a quadrature from the time `t + b h` to the time `t + a h`. -/
theorem quadrature_defect {F : E → E} {y : ℝ → E} {T : ℝ} (hT : 0 < T) (hy : IsSol F y T) {p : ℕ} (hF : ContDiff ℝ p F) {S : Finset ℕ}
    {c e : ℕ → ℝ} (hc : ∀ k ∈ S, 0 ≤ c k ∧ c k ≤ 1) {a b : ℝ} (ha : 0 ≤ a) (ha1 : a ≤ 1) (hb : 0 ≤ b) (hb1 : b ≤ 1)
    (he : ∀ j < p, ∑ k ∈ S, e k * c k ^ j = (a ^ (j + 1) - b ^ (j + 1)) / (j + 1)) :
    BigO T 1 (p + 1) (fun h t => y (t + a * h) - y (t + b * h) - ∑ k ∈ S, (h * e k) • F (y (t + c k * h))) := by
  have hw := ContDiffOn.chain hT (p + 1) (hy.contDiffOn hT p hF)
  have q1 := hw.quadrature p le_rfl (m := 1) S c e hc ha ha1
  have q2 := hw.quadrature p le_rfl (m := 1) S c (fun _ => 0) hc hb hb1
  refine (q2.sub q1).congr fun h t hh hhT ht htT => ?_
  have e1 : ∀ k ∈ S, iteratedDerivWithin 1 y (Icc 0 T) (t + c k * h) = F (y (t + c k * h)) := fun k hk => by
    refine hy.chain_one hT _ ⟨add_nonneg ht (mul_nonneg (hc k hk).1 hh), ?_⟩
    have := mul_le_mul_of_nonneg_right (hc k hk).2 hh
    linarith
  have e2 : h • ∑ k ∈ S, e k • iteratedDerivWithin 1 y (Icc 0 T) (t + c k * h) = ∑ k ∈ S, (h * e k) • F (y (t + c k * h)) := by
    rw [Finset.smul_sum]
    exact Finset.sum_congr rfl fun k hk => by rw [e1 k hk, smul_smul]
  rw [e2]
  have e3 : ∑ k ∈ range p, (h ^ (k + 1) / (k.factorial : ℝ) * (∑ j ∈ S, e j * c j ^ k - a ^ (k + 1) / (k + 1))) •
        iteratedDerivWithin (k + 1) y (Icc 0 T) t
      = ∑ k ∈ range p, (h ^ (k + 1) / (k.factorial : ℝ) * (∑ j ∈ S, (0 : ℝ) * c j ^ k - b ^ (k + 1) / (k + 1))) •
        iteratedDerivWithin (k + 1) y (Icc 0 T) t := by
    refine Finset.sum_congr rfl fun k hk => ?_
    rw [he k (mem_range.1 hk)]
    simp only [zero_mul, Finset.sum_const_zero]
    congr 2
    ring
  rw [e3]
  simp only [zero_smul, Finset.sum_const_zero, smul_zero, chain_zero]
  abel

/-- The defect of the exact solution at the nodes. -/
theorem nodes_defect {F : E → E} {y : ℝ → E} {T : ℝ} (hT : 0 < T) (hy : IsSol F y T) {p n : ℕ} (hF : ContDiff ℝ p F) {z2n : Bool}
    {c : ℕ → ℝ} {q : ℕ → ℕ → ℝ} (hc : NodesOK c n) (hq : IntegratesNodes z2n c q n p) :
    ∃ D, 0 ≤ D ∧ ∀ h t, 0 ≤ h → 0 ≤ t → t + h ≤ T → ∀ m < n,
      ‖y (t + c (m + 1) * h) - startNode z2n (fun m => y (t + c m * h)) m
        - ∑ k ∈ range n, (h * q m k) • F (y (t + c (k + 1) * h))‖ ≤ D * h ^ (p + 1) := by
  have key : ∀ m, ∃ D, 0 ≤ D ∧ (m < n → ∀ h t, 0 ≤ h → 0 ≤ t → t + h ≤ T →
      ‖y (t + c (m + 1) * h) - startNode z2n (fun m => y (t + c m * h)) m
        - ∑ k ∈ range n, (h * q m k) • F (y (t + c (k + 1) * h))‖ ≤ D * h ^ (p + 1)) := by
    intro m
    by_cases hm : m < n
    · obtain ⟨D, D0, hD⟩ := quadrature_defect hT hy hF (S := range n) (c := fun k => c (k + 1)) (e := q m)
        (fun k hk => ⟨hc.nonneg _ (mem_range.1 hk), hc.le_one _ (mem_range.1 hk)⟩)
        (a := c (m + 1)) (b := if z2n then 0 else c m) (hc.nonneg _ hm) (hc.le_one _ hm)
        (by split; exacts [le_rfl, hc.nonneg _ hm.le]) (by split; exacts [zero_le_one, hc.le_one _ hm.le])
        (fun j hj => hq m hm j hj)
      refine ⟨D, D0, fun _ h t hh ht htT => ?_⟩
      have := hD h t hh (by linarith) ht (by linarith)
      refine le_trans (le_of_eq ?_) this
      cases z2n <;> simp [startNode, hc.zero]
    · exact ⟨0, le_rfl, fun h => absurd h hm⟩
  choose D D0 hD using key
  refine ⟨∑ m ∈ range n, D m, Finset.sum_nonneg fun m _ => D0 m, fun h t hh ht htT m hm => ?_⟩
  refine (hD m hm h t hh ht htT).trans (mul_le_mul_of_nonneg_right ?_ (by positivity))
  exact Finset.single_le_sum (f := D) (fun m _ => D0 m) (mem_range.2 hm)

/-- The defect of the quadrature over the whole step. -/
theorem step_defect {F : E → E} {y : ℝ → E} {T : ℝ} (hT : 0 < T) (hy : IsSol F y T) {s n : ℕ} (hF : ContDiff ℝ s F)
    {c w : ℕ → ℝ} (hc : NodesOK c n) (hq : IntegratesStep c w n s) :
    ∃ D, 0 ≤ D ∧ ∀ h t, 0 ≤ h → 0 ≤ t → t + h ≤ T →
      ‖y (t + h) - y t - ∑ k ∈ range n, (h * w k) • F (y (t + c (k + 1) * h))‖ ≤ D * h ^ (s + 1) := by
  obtain ⟨D, D0, hD⟩ := quadrature_defect hT hy hF (S := range n) (c := fun k => c (k + 1)) (e := w)
    (fun k hk => ⟨hc.nonneg _ (mem_range.1 hk), hc.le_one _ (mem_range.1 hk)⟩)
    (a := 1) (b := 0) zero_le_one le_rfl le_rfl zero_le_one (fun j hj => by rw [hq j hj]; simp)
  refine ⟨D, D0, fun h t hh ht htT => ?_⟩
  have := hD h t hh (by linarith) ht (by linarith)
  simpa using this

/-! ### The initial guess -/

/-- The old state, copied to every node. -/
theorem copy_guess {F : E → E} {L : ℝ} (hF : Lip F L) {y : ℝ → E} {T : ℝ} (hy : IsSol F y T) {c : ℕ → ℝ} {n : ℕ} (hc : NodesOK c n) :
    ∃ B, 0 ≤ B ∧ ∀ h t, 0 ≤ h → 0 ≤ t → t + h ≤ T → ∀ x : E, ∀ m ≤ n, ‖x - y (t + c m * h)‖ ≤ ‖x - y t‖ + B * h := by
  obtain ⟨B, B0, hB⟩ := hy.bounded hF
  refine ⟨B, B0, fun h t hh ht htT x m hm => ?_⟩
  have c0 := hc.nonneg m hm
  have c1 := hc.le_one m hm
  have hch : c m * h ≤ 1 * h := mul_le_mul_of_nonneg_right c1 hh
  have := (hy.taylor1 hF hB ht (mul_nonneg c0 hh) (by linarith)).1
  have e : x - y (t + c m * h) = (x - y t) - (y (t + c m * h) - y t) := by abel
  rw [e]
  refine (norm_sub_le _ _).trans (add_le_add le_rfl (this.trans ?_))
  exact mul_le_mul_of_nonneg_left (by linarith) B0

/-- The predictor, applied from node to node. -/
theorem base_guess {φ : ℝ → E → E} {y : ℝ → E} {T : ℝ} {b : ℕ} (hφ : AccurateAlong φ y T b) {c : ℕ → ℝ} {n : ℕ} (hc : NodesOK c n) :
    ∃ H C, 0 < H ∧ 0 ≤ C ∧ ∀ h t, 0 ≤ h → h ≤ 1 → h ≤ H → 0 ≤ t → t + h ≤ T → ∀ U : ℕ → E,
      (∀ m < n, U (m + 1) = φ (h * (c (m + 1) - c m)) (U m)) →
      ∀ m ≤ n, ‖U m - y (t + c m * h)‖ ≤ (1 + h * C) * ‖U 0 - y t‖ + C * h ^ (b + 1) := by
  obtain ⟨H, A, lam, H0, A0, l0, hφ⟩ := hφ
  have key : ∀ m, m ≤ n → ∃ C, 0 ≤ C ∧ ∀ h t, 0 ≤ h → h ≤ 1 → h ≤ H → 0 ≤ t → t + h ≤ T → ∀ U : ℕ → E,
      (∀ m < n, U (m + 1) = φ (h * (c (m + 1) - c m)) (U m)) →
      ‖U m - y (t + c m * h)‖ ≤ (1 + h * C) * ‖U 0 - y t‖ + C * h ^ (b + 1) := by
    intro m
    induction m with
    | zero =>
      intro _
      refine ⟨0, le_rfl, fun h t _ _ _ _ _ U _ => ?_⟩
      simp [hc.zero]
    | succ m ih =>
      intro hm
      obtain ⟨C, C0, hC⟩ := ih (by omega)
      refine ⟨lam + C + lam * C + A, by positivity, fun h t hh h1 hH ht htT U hU => ?_⟩
      have prev := hC h t hh h1 hH ht htT U hU
      have d0 : 0 ≤ c (m + 1) - c m := sub_nonneg.2 (hc.mono m hm)
      have cm0 := hc.nonneg m (by omega)
      have d1 : c (m + 1) - c m ≤ 1 := by linarith [hc.le_one (m + 1) hm]
      set k := h * (c (m + 1) - c m) with hk
      have k0 : 0 ≤ k := mul_nonneg hh d0
      have kh : k ≤ h := by nlinarith
      have c1 : c (m + 1) * h ≤ 1 * h := mul_le_mul_of_nonneg_right (hc.le_one _ hm) hh
      have e0 : t + c m * h + k = t + c (m + 1) * h := by rw [hk]; ring
      have e1 := hφ k k0 (kh.trans hH) (t + c m * h) (by positivity) (by rw [e0]; linarith) (U m)
      rw [e0] at e1
      rw [hU m hm]
      refine e1.trans ?_
      set e := ‖U 0 - y t‖
      have he : 0 ≤ e := norm_nonneg _
      set P := h ^ (b + 1)
      have P0 : 0 ≤ P := by positivity
      have f1 : (1 + k * lam) * ‖U m - y (t + c m * h)‖ ≤ (1 + h * lam) * ((1 + h * C) * e + C * P) := by
        gcongr
      have f2 : A * k ^ (b + 1) ≤ A * P := mul_le_mul_of_nonneg_left (pow_le_pow_left₀ k0 kh _) A0
      have h2 : 0 ≤ 1 - h := by linarith
      rw [← sub_nonneg]
      have f3 : (1 + h * (lam + C + lam * C + A)) * e + (lam + C + lam * C + A) * P - ((1 + h * lam) * ((1 + h * C) * e + C * P) + A * P)
          = (h * lam * C * (1 - h) + h * A) * e + (lam + lam * C * (1 - h)) * P := by ring
      have f4 : 0 ≤ (h * lam * C * (1 - h) + h * A) * e + (lam + lam * C * (1 - h)) * P := by positivity
      linarith
  choose C C0 hC using fun m : ℕ => (show ∃ C, 0 ≤ C ∧ (m ≤ n → ∀ h t, 0 ≤ h → h ≤ 1 → h ≤ H → 0 ≤ t → t + h ≤ T → ∀ U : ℕ → E,
      (∀ m < n, U (m + 1) = φ (h * (c (m + 1) - c m)) (U m)) →
      ‖U m - y (t + c m * h)‖ ≤ (1 + h * C) * ‖U 0 - y t‖ + C * h ^ (b + 1)) by
    by_cases hm : m ≤ n
    · obtain ⟨C, C0, h⟩ := key m hm
      exact ⟨C, C0, fun _ => h⟩
    · exact ⟨0, le_rfl, fun h => absurd h hm⟩)
  refine ⟨H, ∑ m ∈ range (n + 1), C m, H0, Finset.sum_nonneg fun m _ => C0 m, fun h t hh h1 hH ht htT U hU m hm => ?_⟩
  refine (hC m hm h t hh h1 hH ht htT U hU).trans ?_
  have : C m ≤ ∑ m ∈ range (n + 1), C m := Finset.single_le_sum (f := C) (fun m _ => C0 m) (mem_range.2 (by omega))
  gcongr

/-- The initial guess of a base scheme that takes steps of another size. -/
theorem captured_guess {F : E → E} {L : ℝ} (hF : Lip F L) {y : ℝ → E} {T : ℝ} (hy : IsSol F y T) {B : ℝ → ℝ → E → E}
    (hB : ModerateSteps B y T) {c : ℕ → ℝ} {n : ℕ} (hc : NodesOK c n) {a : ℝ} (ha : 0 ≤ a) (ha1 : a ≤ 1) :
    ∃ H C, 0 < H ∧ 0 ≤ C ∧ ∀ h t, 0 ≤ h → h ≤ 1 → h ≤ H → 0 ≤ t → t + h ≤ T → ∀ U : ℕ → E,
      (∀ m < n, U (m + 1) = B (h * a) (h * (c (m + 1) - c m)) (U m)) →
      ∀ m ≤ n, ‖U m - y (t + c m * h)‖ ≤ (1 + h * C) * ‖U 0 - y t‖ + C * h := by
  obtain ⟨A, A0, hA⟩ := copy_guess hF hy hc
  obtain ⟨H, C, H0, C0, hB⟩ := hB
  have key : ∀ m, ∃ K, 0 ≤ K ∧ (m ≤ n → ∀ h t, 0 ≤ h → h ≤ 1 → h ≤ H → 0 ≤ t → t + h ≤ T → ∀ U : ℕ → E,
      (∀ m < n, U (m + 1) = B (h * a) (h * (c (m + 1) - c m)) (U m)) →
      ‖U m - y t‖ ≤ (1 + h * K) * ‖U 0 - y t‖ + K * h) := by
    intro m
    induction m with
    | zero => exact ⟨0, le_rfl, fun _ h t _ _ _ _ _ U _ => by simp⟩
    | succ m ih =>
      obtain ⟨K, K0, hK⟩ := ih
      refine ⟨K + C * (1 + K) + C * (1 + K), by positivity, fun hm h t hh h1 hH ht htT U hU => ?_⟩
      have e := hK (by omega) h t hh h1 hH ht htT U hU
      have c1 := hc.mono m (by omega)
      have c2 := hc.le_one (m + 1) hm
      have c3 := hc.nonneg m (by omega)
      have s := hB h hh hH (h * a) (h * (c (m + 1) - c m)) (by positivity) (by nlinarith) (mul_nonneg hh (by linarith)) (by nlinarith)
        t ht (by linarith) (U m)
      rw [← hU m (by omega)] at s
      have tri : ‖U (m + 1) - y t‖ ≤ ‖U (m + 1) - U m‖ + ‖U m - y t‖ := by
        have := norm_add_le (U (m + 1) - U m) (U m - y t)
        simpa using this
      set x := ‖U m - y t‖
      set z := ‖U 0 - y t‖
      have z0 : 0 ≤ z := norm_nonneg _
      have x0 : 0 ≤ x := norm_nonneg _
      have f1 : C * h * (1 + x) ≤ C * h * (1 + ((1 + h * K) * z + K * h)) := by gcongr
      have f2 : C * h * (1 + ((1 + h * K) * z + K * h)) ≤ C * h * (1 + ((1 + 1 * K) * z + K * 1)) := by gcongr
      have q : 0 ≤ C * (1 + K) * (h * z) := by positivity
      have q2 : 0 ≤ C * (1 + K) * h := by positivity
      nlinarith
  choose K K0 hK using key
  refine ⟨H, ∑ m ∈ range (n + 1), K m + A, H0, add_nonneg (Finset.sum_nonneg fun m _ => K0 m) A0, fun h t hh h1 hH ht htT U hU m hm => ?_⟩
  have e := hK m hm h t hh h1 hH ht htT U hU
  have a1 := hA h t hh ht htT (U m) m hm
  have s : K m ≤ ∑ m ∈ range (n + 1), K m := Finset.single_le_sum (f := K) (fun m _ => K0 m) (by simp; omega)
  set z := ‖U 0 - y t‖
  have z0 : 0 ≤ z := norm_nonneg _
  have f1 : h * K m * z ≤ h * (∑ m ∈ range (n + 1), K m + A) * z := by gcongr; linarith
  have f2 : K m * h ≤ (∑ m ∈ range (n + 1), K m) * h := by gcongr
  nlinarith

/-- A stable method of the first order is accurate along the solution. -/
theorem FirstOrder.accurate {φ : ℝ → E → E} {f : E → E} {L : ℝ} (h1 : FirstOrder φ f) (hf : Lip f L) {y : ℝ → E} {T : ℝ}
    (hy : IsSol f y T) : AccurateAlong φ y T 1 := by
  obtain ⟨H, H0, ⟨lam, l0, hl⟩, hc⟩ := h1
  obtain ⟨B, hB⟩ := hy.norm_bdd
  obtain ⟨A, hA0, hA⟩ := hy.bounded hf
  obtain ⟨c, c0, hc⟩ := hc B
  have hL := hf.1
  refine ⟨H, c + L * A, lam, H0, by positivity, l0, fun h hh hH t ht hth x => ?_⟩
  have e1 := hc h hh hH (y t) (hB t ⟨ht, by linarith⟩)
  have e2 := (hy.taylor1 hf hA ht hh hth).2
  have e3 := hl h hh hH x (y t)
  have e : φ h x - y (t + h) = (φ h x - φ h (y t)) + (φ h (y t) - (y t + h • f (y t))) - (y (t + h) - y t - h • f (y t)) := by abel
  rw [e]
  refine (norm_sub_le _ _).trans ?_
  refine (add_le_add (norm_add_le _ _) le_rfl).trans ?_
  calc _ ≤ (1 + h * lam) * ‖x - y t‖ + c * h ^ 2 + L * A * h ^ 2 := add_le_add (add_le_add e3 e1) e2
    _ = _ := by ring

/-! ### The order of a step -/

/-- One time step of deferred correction with `K` sweeps from an initial guess of the order `r`; the errors at the nodes. -/
theorem dc_step {q qi qe : ℕ → ℕ → ℝ} {n p : ℕ} {z2n : Bool} {c : ℕ → ℝ} (hc : NodesOK c n) (hq : IntegratesNodes z2n c q n p)
    {f g : E → E} {L L' : ℝ} (hf : Lip f L) (hg : Lip g L') (hF : ContDiff ℝ p (fun x => f x + g x)) {y : ℝ → E} {T : ℝ} (hT : 0 < T)
    (hy : IsSol (fun x => f x + g x) y T) (r K : ℕ) {c0 : ℝ} (hc0 : 0 ≤ c0) :
    ∃ H C, 0 < H ∧ H ≤ 1 ∧ 0 ≤ C ∧ ∀ h t, 0 ≤ h → h ≤ H → 0 ≤ t → t + h ≤ T → ∀ U : ℕ → ℕ → E,
      (∀ m ≤ n, ‖U 0 m - y (t + c m * h)‖ ≤ (1 + h * c0) * ‖U 0 0 - y t‖ + c0 * h ^ r) →
      (∀ j < K, SweepEq z2n q qi qe n f g h (U j) (U (j + 1))) →
      ∀ m ≤ n, ‖U K m - y (t + c m * h)‖ ≤ (1 + h * C) * ‖U 0 0 - y t‖ + C * h ^ (r + K) + C * h ^ (p + 1) := by
  obtain ⟨B, c1, B0, c10, hs⟩ := sweep_error q qi qe n hf hg
  obtain ⟨D, D0, hD⟩ := nodes_defect hT hy hF hc hq
  obtain ⟨C, C0, hC⟩ := dc_iterate (r := r) (p := p) hc0 c10 D0 K
  have Bp : 0 < 2 * B + 1 := by positivity
  refine ⟨(2 * B + 1)⁻¹, C, by positivity, inv_le_one_of_one_le₀ (by linarith), C0, fun h t hh hH ht htT U h0 hU m hm => ?_⟩
  have h1 : h ≤ 1 := hH.trans (inv_le_one_of_one_le₀ (by linarith))
  have hhB : h * B ≤ 1 / 2 := by
    have : h * (2 * B + 1) ≤ 1 := by
      calc h * (2 * B + 1) ≤ (2 * B + 1)⁻¹ * (2 * B + 1) := mul_le_mul_of_nonneg_right hH Bp.le
        _ = 1 := inv_mul_cancel₀ Bp.ne'
    nlinarith
  set e := ‖U 0 0 - y t‖ with he
  have hU0 : ∀ j ≤ K, U j 0 = U 0 0 := by
    intro j
    induction j with
    | zero => intro _; rfl
    | succ j ih => intro hj; rw [(hU j (by omega)).1, ih (by omega)]
  -- the sequence of bounds
  let u : ℕ → ℝ := fun j => Nat.rec ((1 + h * c0) * e + c0 * h ^ r) (fun _ v => (1 + h * c1) * e + h * c1 * v + c1 * (D * h ^ (p + 1))) j
  have hu : ∀ j ≤ K, ∀ m ≤ n, ‖U j m - y (t + c m * h)‖ ≤ u j := by
    intro j
    induction j with
    | zero => intro _ m hm; exact h0 m hm
    | succ j ih =>
      intro hj m hm
      have := hs h hh h1 hhB z2n (U j) (U (j + 1)) (fun m => y (t + c m * h)) (u j) (D * h ^ (p + 1)) (hU j (by omega))
        (ih (by omega)) (by positivity) (fun m hm => hD h t hh ht htT m hm) m hm
      have e0 : y (t + c 0 * h) = y t := by rw [hc.zero]; simp
      simp only [e0] at this
      rwa [hU0 j (by omega)] at this
  exact (hu K le_rfl m hm).trans (hC h hh h1 e u (norm_nonneg _) le_rfl (fun j _ => le_rfl))

end Gusto.Convergence
