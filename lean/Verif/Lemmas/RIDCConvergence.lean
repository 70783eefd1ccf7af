import Verif.Lemmas.DCConvergence

set_option autoImplicit false
set_option linter.unusedSectionVars false
set_option linter.unusedSimpArgs false

/-!
# Convergence of revisionist integral deferred correction
-/

namespace Gusto.Convergence
open Gusto.Spec Finset Set

variable {E : Type*} [NormedAddCommGroup E] [NormedSpace ℝ E]

/-- The errors of the iterates when the defect of the sweep number `j` is of the order `h^(j+2)`. -/
theorem ridc_iterate {c0 c1 D : ℝ} (h0 : 0 ≤ c0) (h1 : 0 ≤ c1) (hD : 0 ≤ D) (k : ℕ) :
    ∃ c, 0 ≤ c ∧ ∀ h, 0 ≤ h → h ≤ 1 → ∀ (e : ℝ) (u : ℕ → ℝ), 0 ≤ e → u 0 ≤ (1 + h * c0) * e + c0 * h ^ 2 →
      (∀ j < k, u (j + 1) ≤ (1 + h * c1) * e + h * c1 * u j + c1 * (D * h ^ (j + 3))) →
      u k ≤ (1 + h * c) * e + c * h ^ (k + 2) := by
  induction k with
  | zero => exact ⟨c0, h0, fun h hh hh1 e u he hu _ => by simpa using hu⟩
  | succ k ih =>
    obtain ⟨c, hc0, hc⟩ := ih
    refine ⟨c1 + c1 * (1 + c) + c1 * c + c1 * D, by positivity, fun h hh hh1 e u he hu hs => ?_⟩
    have prev := hc h hh hh1 e u he hu fun j hj => hs j (by omega)
    have e1 := hs k (by omega)
    have e2 : h * c1 * u k ≤ h * c1 * ((1 + h * c) * e + c * h ^ (k + 2)) := mul_le_mul_of_nonneg_left prev (by positivity)
    have p2 : 0 ≤ h ^ (k + 3) := by positivity
    have e3 : h * (h * (c1 * c * e)) ≤ 1 * (h * (c1 * c * e)) := mul_le_mul_of_nonneg_right hh1 (by positivity)
    have e5 : h * c1 * (c * h ^ (k + 2)) = c1 * c * h ^ (k + 3) := by ring
    have r1 : 0 ≤ h * (c1 * c + c1 * D) * e := by positivity
    have r2 : 0 ≤ (c1 + c1 * (1 + c)) * h ^ (k + 3) := by positivity
    show u (k + 1) ≤ _ + _ * h ^ (k + 3)
    nlinarith

/-- One correction, without the mass operator; `a h` is the distance of the nodes. -/
def RIDCEq (q : ℕ → ℕ → ℝ) (l n : ℕ) (f g : E → E) (a h : ℝ) (U V : ℕ → E) : Prop :=
  V 0 = U 0 ∧ ∀ m < n, V (m + 1) = V m + (h * a) • (f (V (m + 1)) - f (U (m + 1))) + (h * a) • (g (V m) - g (U m))
    + ridcQuad (fun i j => h * q i j) l (fun j => f (U j) + g (U j)) m

theorem ridcQuad_sub (q : ℕ → ℕ → ℝ) (l : ℕ) (F G : ℕ → E) (m : ℕ) : ridcQuad q l F m - ridcQuad q l G m = ridcQuad q l (fun j => F j - G j) m := by
  unfold ridcQuad
  split <;> simp [smul_sub, Finset.sum_sub_distrib]

theorem ridcQuad_le {q : ℕ → ℕ → ℝ} {l n : ℕ} {A : ℝ} (hA : ∀ i < l + 1, ∀ j < l + 1, |q i j| ≤ A) {h : ℝ} (hh : 0 ≤ h) {F : ℕ → E} {u : ℝ}
    (hu : ∀ j ≤ n, ‖F j‖ ≤ u) (hl : l ≤ n) {m : ℕ} (hm : m < n) :
    ‖ridcQuad (fun i j => h * q i j) l F m‖ ≤ (l + 1) * (h * A * u) := by
  have u0 : 0 ≤ u := (norm_nonneg _).trans (hu 0 (by omega))
  have A0 : 0 ≤ A := (abs_nonneg _).trans (hA 0 (by omega) 0 (by omega))
  unfold ridcQuad
  split
  · rename_i hml
    have := norm_sum_le_of_le (range (l + 1)) (f := fun j => (h * q (m + 1) j) • F j) (n := fun _ => h * A * u) fun j hj => by
      have hj := mem_range.1 hj
      rw [norm_smul, Real.norm_eq_abs, abs_mul, abs_of_nonneg hh]
      have := hA (m + 1) (by omega) j hj
      have := hu j (by omega)
      gcongr
    rw [Finset.sum_const, card_range, nsmul_eq_mul] at this
    exact_mod_cast this
  · rename_i hml
    have := norm_sum_le_of_le (range (l + 1)) (f := fun j => (h * q l j) • F (m + 1 - l + j)) (n := fun _ => h * A * u) fun j hj => by
      have hj := mem_range.1 hj
      rw [norm_smul, Real.norm_eq_abs, abs_mul, abs_of_nonneg hh]
      have := hA l (by omega) j hj
      have := hu (m + 1 - l + j) (by omega)
      gcongr
    rw [Finset.sum_const, card_range, nsmul_eq_mul] at this
    exact_mod_cast this

/-- The error of one correction. -/
theorem ridc_error (q : ℕ → ℕ → ℝ) (l n : ℕ) (hl : l ≤ n) {a : ℝ} (ha : 0 ≤ a) {f g : E → E} {L L' : ℝ} (hf : Lip f L) (hg : Lip g L') :
    ∃ B c, 0 ≤ B ∧ 0 ≤ c ∧ ∀ h, 0 ≤ h → h ≤ 1 → h * B ≤ 1 / 2 → ∀ (U V Y : ℕ → E) (u d : ℝ),
      RIDCEq q l n f g a h U V → (∀ m ≤ n, ‖U m - Y m‖ ≤ u) → 0 ≤ d →
      (∀ m < n, ‖Y (m + 1) - Y m - ridcQuad (fun i j => h * q i j) l (fun j => f (Y j) + g (Y j)) m‖ ≤ d) →
      ∀ m ≤ n, ‖V m - Y m‖ ≤ (1 + h * c) * ‖U 0 - Y 0‖ + h * c * u + c * d := by
  obtain ⟨A, A0, hA⟩ := entries_bdd q (l + 1)
  have hL := hf.1
  have hL' := hg.1
  set B := (2 * a + A * (l + 1)) * (L + L') with hB
  have B0 : 0 ≤ B := by positivity
  obtain ⟨c, c0, hc⟩ := dc_scalar B B0 n
  refine ⟨B, c, B0, c0, fun h h0 h1 hhB U V Y u d hs hU hd hY m hm => ?_⟩
  have u0 : 0 ≤ u := (norm_nonneg _).trans (hU 0 (by omega))
  obtain ⟨hV0, hs⟩ := hs
  have := hc h h0 h1 hhB false (fun m => ‖V m - Y m‖) u d (fun _ => norm_nonneg _) u0 hd (fun m hm => ?_) m hm
  · simpa only [hV0] using this
  · set x := fun m => ‖V m - Y m‖ with hx
    have hx0 : ∀ m, 0 ≤ x m := fun _ => norm_nonneg _
    have key : V (m + 1) - Y (m + 1) = (V m - Y m) + (h * a) • (f (V (m + 1)) - f (U (m + 1))) + (h * a) • (g (V m) - g (U m))
        + ridcQuad (fun i j => h * q i j) l (fun j => (f (U j) + g (U j)) - (f (Y j) + g (Y j))) m
        - (Y (m + 1) - Y m - ridcQuad (fun i j => h * q i j) l (fun j => f (Y j) + g (Y j)) m) := by
      have e := ridcQuad_sub (fun i j => h * q i j) l (fun j => f (U j) + g (U j)) (fun j => f (Y j) + g (Y j)) m
      rw [← e]
      nth_rewrite 1 [hs m hm]
      abel
    have hdiff : ∀ {φ : E → E} {M : ℝ} (hφ : Lip φ M) (i : ℕ), i ≤ n → ‖φ (V i) - φ (U i)‖ ≤ M * (x i + u) := fun hφ i hi => by
      refine (hφ.2 _ _).trans (mul_le_mul_of_nonneg_left ?_ hφ.1)
      have e : V i - U i = (V i - Y i) - (U i - Y i) := by abel
      rw [e]
      exact (norm_sub_le _ _).trans (add_le_add le_rfl (hU _ hi))
    have n1 : ‖(h * a) • (f (V (m + 1)) - f (U (m + 1)))‖ ≤ h * a * (L * (x (m + 1) + u)) := by
      rw [norm_smul, Real.norm_eq_abs, abs_of_nonneg (by positivity)]
      exact mul_le_mul_of_nonneg_left (hdiff hf _ hm) (by positivity)
    have n2 : ‖(h * a) • (g (V m) - g (U m))‖ ≤ h * a * (L' * (x m + u)) := by
      rw [norm_smul, Real.norm_eq_abs, abs_of_nonneg (by positivity)]
      exact mul_le_mul_of_nonneg_left (hdiff hg _ hm.le) (by positivity)
    have n3 : ‖ridcQuad (fun i j => h * q i j) l (fun j => (f (U j) + g (U j)) - (f (Y j) + g (Y j))) m‖
        ≤ (l + 1) * (h * A * ((L + L') * u)) :=
      ridcQuad_le hA h0 (fun j hj => ((hf.add hg).2 _ _).trans (mul_le_mul_of_nonneg_left (hU j hj) (by positivity))) hl hm
    have total : x (m + 1) ≤ x m + h * a * (L * (x (m + 1) + u)) + h * a * (L' * (x m + u)) + (l + 1) * (h * A * ((L + L') * u)) + d := by
      calc x (m + 1) = ‖V (m + 1) - Y (m + 1)‖ := rfl
        _ ≤ _ := by
          rw [key]
          refine (norm_sub_le _ _).trans (add_le_add ((norm_add_le _ _).trans (add_le_add ((norm_add_le _ _).trans (add_le_add
            ((norm_add_le _ _).trans (add_le_add le_rfl n1)) n2)) n3)) (hY m hm))
    refine total.trans ?_
    have s0 : x m ≤ ∑ i ∈ range (m + 1), x i := Finset.single_le_sum (f := x) (fun i _ => hx0 i) (mem_range.2 (by omega))
    set S := ∑ i ∈ range (m + 1), x i
    have S0 : 0 ≤ S := (hx0 m).trans s0
    have hx1 := hx0 (m + 1)
    show _ ≤ x m + h * B * (S + x (m + 1) + u) + d
    have e : h * B * (S + x (m + 1) + u) - (h * a * (L * (x (m + 1) + u)) + h * a * (L' * (x m + u)) + (l + 1) * (h * A * ((L + L') * u)))
        = h * a * L' * (S - x m) + h * (2 * a * L + a * L' + A * (l + 1) * (L + L')) * S + h * (a * L + 2 * a * L' + A * (l + 1) * (L + L')) * x (m + 1)
          + h * (a * L + a * L') * u := by
      rw [hB]; ring
    have s1 : 0 ≤ S - x m := by linarith
    have : 0 ≤ h * a * L' * (S - x m) + h * (2 * a * L + a * L' + A * (l + 1) * (L + L')) * S + h * (a * L + 2 * a * L' + A * (l + 1) * (L + L')) * x (m + 1)
          + h * (a * L + a * L') * u := by positivity
    linarith

/-- The defect of the exact solution: `n` subintervals of the length `h / n`, quadrature with `l + 1` nodes. -/
theorem ridc_defect {F : E → E} {y : ℝ → E} {T : ℝ} (hT : 0 < T) (hy : IsSol F y T) {l n : ℕ} (hF : ContDiff ℝ (l + 1 : ℕ) F) (hl0 : 0 < l)
    (hl : l ≤ n) {q : ℕ → ℕ → ℝ} (hq : IntegratesEquidistant q l) :
    ∃ D, 0 ≤ D ∧ ∀ h t, 0 ≤ h → 0 ≤ t → t + h ≤ T → ∀ m < n,
      ‖y (t + (m + 1 : ℕ) / n * h) - y (t + m / n * h)
        - ridcQuad (fun i j => h * (l / n * q i j)) l (fun j => F (y (t + j / n * h))) m‖ ≤ D * h ^ (l + 2) := by
  have ln : (0 : ℝ) < l := by exact_mod_cast hl0
  have nn : (0 : ℝ) < n := by exact_mod_cast (by omega : 0 < n)
  have key : ∀ i, ∃ D, 0 ≤ D ∧ (i < l → ∀ k t, 0 ≤ k → 0 ≤ t → t + k ≤ T →
      ‖y (t + (i + 1 : ℕ) / l * k) - y (t + i / l * k) - ∑ j ∈ range (l + 1), (k * q (i + 1) j) • F (y (t + j / l * k))‖ ≤ D * k ^ (l + 2)) := by
    intro i
    by_cases hi : i < l
    · have c1 : ((i + 1 : ℕ) : ℝ) / l ≤ 1 := by rw [div_le_one ln]; exact_mod_cast hi
      have c2 : (i : ℝ) / l ≤ 1 := by rw [div_le_one ln]; exact_mod_cast hi.le
      obtain ⟨D, D0, hD⟩ := quadrature_defect hT hy hF (S := range (l + 1)) (c := fun k => (k : ℝ) / l) (e := q (i + 1))
        (fun k hk => ⟨by positivity, by
          rw [div_le_one ln]; exact_mod_cast Nat.lt_succ_iff.1 (mem_range.1 hk)⟩)
        (a := (i + 1 : ℕ) / l) (b := i / l) (by positivity) c1 (by positivity) c2
        (fun j hj => hq i hi j (by omega))
      exact ⟨D, D0, fun _ k t hk ht htT => hD k t hk (by linarith) ht (by linarith)⟩
    · exact ⟨0, le_rfl, fun h => absurd h hi⟩
  choose D D0 hD using key
  refine ⟨∑ i ∈ range l, D i, Finset.sum_nonneg fun i _ => D0 i, fun h t hh ht htT m hm => ?_⟩
  have kle : (l : ℝ) / n ≤ 1 := by rw [div_le_one nn]; exact_mod_cast hl
  set k := (l : ℝ) / n * h with hk
  have k0 : 0 ≤ k := by positivity
  have kh : k ≤ h := by nlinarith
  have kp : k ^ (l + 2) ≤ h ^ (l + 2) := pow_le_pow_left₀ k0 kh _
  have fin : ∀ i < l, D i * k ^ (l + 2) ≤ (∑ i ∈ range l, D i) * h ^ (l + 2) := fun i hi =>
    mul_le_mul (Finset.single_le_sum (f := D) (fun i _ => D0 i) (mem_range.2 hi)) kp (by positivity)
      (Finset.sum_nonneg fun i _ => D0 i)
  have conv : ∀ s : ℝ, s / l * k = s / n * h := fun s => by rw [hk]; field_simp
  by_cases hml : m < l
  · have := hD m hml k t k0 ht (by linarith)
    refine le_trans (le_of_eq ?_) (this.trans (fin m hml))
    simp only [ridcQuad, hml, if_true, conv]
    congr 2
    refine Finset.sum_congr rfl fun j _ => ?_
    rw [hk]
    congr 1
    ring
  · set s := m + 1 - l with hs
    have hs1 : (s : ℝ) = m + 1 - l := by
      rw [hs, Nat.cast_sub (by omega)]; push_cast; ring
    have e0 : t + s / n * h + k ≤ T := by
      have : (s : ℝ) / n * h + k ≤ h := by
        have h1 : (s : ℝ) / n * h + k = (m + 1 : ℕ) / n * h := by rw [hk, hs1]; push_cast; field_simp; ring
        rw [h1]
        have : ((m + 1 : ℕ) : ℝ) / n ≤ 1 := by rw [div_le_one nn]; exact_mod_cast hm
        nlinarith
      linarith
    have := hD (l - 1) (by omega) k (t + s / n * h) k0 (by positivity) e0
    refine le_trans (le_of_eq ?_) (this.trans (fin (l - 1) (by omega)))
    have l1 : l - 1 + 1 = l := by omega
    have l2 : ((l - 1 : ℕ) : ℝ) = l - 1 := by rw [Nat.cast_sub (by omega)]; push_cast; ring
    simp only [ridcQuad, hml, if_false, conv, l1]
    have t1 : t + s / n * h + (l : ℝ) / n * h = t + (m + 1 : ℕ) / n * h := by rw [hs1]; push_cast; field_simp; ring
    have t2 : t + s / n * h + ((l - 1 : ℕ) : ℝ) / n * h = t + m / n * h := by rw [hs1, l2]; field_simp; ring
    rw [t1, t2]
    congr 2
    refine Finset.sum_congr rfl fun j _ => ?_
    have t3 : t + s / n * h + (j : ℝ) / n * h = t + ((m + 1 - l + j : ℕ) : ℝ) / n * h := by rw [← hs]; push_cast; ring
    rw [t3, hk]
    congr 1
    ring

/-- The error at the nodes after `K` corrections of a first-order prediction. -/
theorem ridc_step {n K : ℕ} (hn : 0 < n) {l : ℕ → ℕ} {q : ℕ → ℕ → ℕ → ℝ} (hl : ∀ j < K, j + 1 ≤ l j ∧ l j ≤ n)
    (hq : ∀ j < K, IntegratesEquidistant (q j) (l j))
    {f g : E → E} {L L' : ℝ} (hf : Lip f L) (hg : Lip g L') (hF : ∀ j < K, ContDiff ℝ (l j + 1 : ℕ) (fun x => f x + g x)) {y : ℝ → E} {T : ℝ}
    (hT : 0 < T) (hy : IsSol (fun x => f x + g x) y T) {c0 : ℝ} (hc0 : 0 ≤ c0) :
    ∃ H C, 0 < H ∧ H ≤ 1 ∧ 0 ≤ C ∧ ∀ h t, 0 ≤ h → h ≤ H → 0 ≤ t → t + h ≤ T → ∀ U : ℕ → ℕ → E,
      (∀ m ≤ n, ‖U 0 m - y (t + m / n * h)‖ ≤ (1 + h * c0) * ‖U 0 0 - y t‖ + c0 * h ^ 2) →
      (∀ j < K, RIDCEq (fun i k => l j / n * q j i k) (l j) n f g (1 / n) h (U j) (U (j + 1))) →
      ∀ m ≤ n, ‖U K m - y (t + m / n * h)‖ ≤ (1 + h * C) * ‖U 0 0 - y t‖ + C * h ^ (K + 2) := by
  have hs : ∀ j, ∃ B c, 0 ≤ B ∧ 0 ≤ c ∧ (j < K → ∀ h, 0 ≤ h → h ≤ 1 → h * B ≤ 1 / 2 → ∀ (U V Y : ℕ → E) (u d : ℝ),
      RIDCEq (fun i k => l j / n * q j i k) (l j) n f g (1 / n) h U V → (∀ m ≤ n, ‖U m - Y m‖ ≤ u) → 0 ≤ d →
      (∀ m < n, ‖Y (m + 1) - Y m - ridcQuad (fun i k => h * (l j / n * q j i k)) (l j) (fun j => f (Y j) + g (Y j)) m‖ ≤ d) →
      ∀ m ≤ n, ‖V m - Y m‖ ≤ (1 + h * c) * ‖U 0 - Y 0‖ + h * c * u + c * d) := by
    intro j
    by_cases hj : j < K
    · obtain ⟨B, c, B0, c0, h⟩ := ridc_error (fun i k => l j / n * q j i k) (l j) n (hl j hj).2 (a := 1 / n) (by positivity) hf hg
      exact ⟨B, c, B0, c0, fun _ => h⟩
    · exact ⟨0, 0, le_rfl, le_rfl, fun h => absurd h hj⟩
  choose B c B0 c1 hs using hs
  have hd : ∀ j, ∃ D, 0 ≤ D ∧ (j < K → ∀ h t, 0 ≤ h → 0 ≤ t → t + h ≤ T → ∀ m < n,
      ‖y (t + (m + 1 : ℕ) / n * h) - y (t + m / n * h)
        - ridcQuad (fun i k => h * (l j / n * q j i k)) (l j) (fun j => f (y (t + j / n * h)) + g (y (t + j / n * h))) m‖ ≤ D * h ^ (l j + 2)) := by
    intro j
    by_cases hj : j < K
    · obtain ⟨D, D0, h⟩ := ridc_defect hT hy (hF j hj) (by have := (hl j hj).1; omega) (hl j hj).2 (hq j hj)
      exact ⟨D, D0, fun _ => h⟩
    · exact ⟨0, le_rfl, fun h => absurd h hj⟩
  choose D D0 hD using hd
  set Bs := ∑ j ∈ range K, B j with hBs
  set cs := ∑ j ∈ range K, c j with hcs
  set Ds := ∑ j ∈ range K, D j with hDs
  have Bs0 : 0 ≤ Bs := Finset.sum_nonneg fun i _ => B0 i
  have cs0 : 0 ≤ cs := Finset.sum_nonneg fun i _ => c1 i
  have Ds0 : 0 ≤ Ds := Finset.sum_nonneg fun i _ => D0 i
  have lB : ∀ j < K, B j ≤ Bs := fun j hj => Finset.single_le_sum (f := B) (fun i _ => B0 i) (mem_range.2 hj)
  have lc : ∀ j < K, c j ≤ cs := fun j hj => Finset.single_le_sum (f := c) (fun i _ => c1 i) (mem_range.2 hj)
  have lD : ∀ j < K, D j ≤ Ds := fun j hj => Finset.single_le_sum (f := D) (fun i _ => D0 i) (mem_range.2 hj)
  obtain ⟨C, C0, hC⟩ := ridc_iterate hc0 cs0 Ds0 K
  have Bp : 0 < 2 * Bs + 1 := by positivity
  refine ⟨(2 * Bs + 1)⁻¹, C, by positivity, inv_le_one_of_one_le₀ (by linarith), C0, fun h t hh hH ht htT U h0 hU m hm => ?_⟩
  have h1 : h ≤ 1 := hH.trans (inv_le_one_of_one_le₀ (by linarith))
  have hhB : h * Bs ≤ 1 / 2 := by
    have : h * (2 * Bs + 1) ≤ 1 := by
      calc h * (2 * Bs + 1) ≤ (2 * Bs + 1)⁻¹ * (2 * Bs + 1) := mul_le_mul_of_nonneg_right hH Bp.le
        _ = 1 := inv_mul_cancel₀ Bp.ne'
    nlinarith
  set e := ‖U 0 0 - y t‖ with he
  have e0' : 0 ≤ e := norm_nonneg _
  have hU0 : ∀ j ≤ K, U j 0 = U 0 0 := by
    intro j
    induction j with
    | zero => intro _; rfl
    | succ j ih => intro hj; rw [(hU j (by omega)).1, ih (by omega)]
  let u : ℕ → ℝ := fun j => Nat.rec ((1 + h * c0) * e + c0 * h ^ 2) (fun j v => (1 + h * cs) * e + h * cs * v + cs * (Ds * h ^ (j + 3))) j
  have hu : ∀ j ≤ K, ∀ m ≤ n, ‖U j m - y (t + m / n * h)‖ ≤ u j := by
    intro j
    induction j with
    | zero => intro _ m hm; exact h0 m hm
    | succ j ih =>
      intro hj m hm
      have hj : j < K := hj
      have hhBj : h * B j ≤ 1 / 2 := (mul_le_mul_of_nonneg_left (lB j hj) hh).trans hhB
      have pw : D j * h ^ (l j + 2) ≤ Ds * h ^ (j + 3) :=
        mul_le_mul (lD j hj) (pow_le_pow_of_le_one hh h1 (by have := (hl j hj).1; omega)) (by positivity) Ds0
      have uj0 : 0 ≤ u j := (norm_nonneg _).trans (ih hj.le 0 (by omega))
      have := hs j hj h hh h1 hhBj (U j) (U (j + 1)) (fun m => y (t + m / n * h)) (u j) (Ds * h ^ (j + 3)) (hU j hj)
        (ih hj.le) (by positivity) (fun m hm => (hD j hj h t hh ht htT m hm).trans pw) m hm
      have e0 : y (t + ((0 : ℕ) : ℝ) / n * h) = y t := by simp
      rw [hU0 j hj.le] at this
      simp only [e0] at this
      refine this.trans ?_
      show _ ≤ (1 + h * cs) * e + h * cs * u j + cs * (Ds * h ^ (j + 3))
      have := lc j hj
      have P0 : 0 ≤ h ^ (j + 3) := by positivity
      have a1 : h * c j * e ≤ h * cs * e := by gcongr
      have a2 : h * c j * u j ≤ h * cs * u j := by gcongr
      have a3 : c j * (Ds * h ^ (j + 3)) ≤ cs * (Ds * h ^ (j + 3)) := by gcongr
      have a4 : (1 + h * c j) * e = e + h * c j * e := by ring
      rw [← he, a4]
      linarith
  exact (hu K le_rfl m hm).trans (hC h hh h1 e u (norm_nonneg _) le_rfl (fun j _ => le_rfl))

end Gusto.Convergence
