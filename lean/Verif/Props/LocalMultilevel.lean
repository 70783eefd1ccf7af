import Verif.Props.LocalConvergence
import Verif.Props.MultilevelConvergence

set_option autoImplicit false
set_option linter.unusedSectionVars false
set_option linter.unusedSimpArgs false

/-!
# C123 without a global Lipschitz condition
-/

namespace Gusto.Props.LocalMultilevelProps
open Gusto LForm TimeDisc Multilevel Spec Finset Gusto.Props Gusto.Convergence Gusto.Props.MultilevelConvergenceProps
open Gusto.Props.LocalConvergenceProps (squareR square_mass square_rhs square_sol nearSolve nearSolve_near)
open Gusto.Props.ConvergenceProps (implicit_unique sineM)

variable {E D : Type*} [NormedAddCommGroup E] [NormedSpace ℝ E] [FiniteDimensional ℝ E] [AddCommGroup D] [Module ℝ D] [Inhabited E]

/-! ### The equation with the right-hand side cut off -/

/-- The residual of `M x' = M g(x)`. -/
def cutR (M : E ≃ₗ[ℝ] D) (g : E → E) : LForm E D :=
  [ { labels := [.timeDerivative], op := fun x => M x, subj := 0 }, { labels := [.transport], op := fun x => -M (g x), subj := 0 } ]

theorem cut_mass (M : E ≃ₗ[ℝ] D) (g : E → E) (x : E) : mass (cutR M g) x = M x := by simp [mass, part, cutR]

theorem cut_tendency (M : E ≃ₗ[ℝ] D) (g : E → E) : tendency (cutR M g) M = g := by
  funext x; simp [tendency, rest, part, cutR]

theorem near_sol {x : ℕ → E} {y : ℝ → E} {T h Y K : ℝ} {N p : ℕ} (hY : ∀ t ∈ Set.Icc 0 T, ‖y t‖ ≤ Y) (hh : 0 ≤ h) (hN : N * h ≤ T)
    (hx : ∀ n : ℕ, n * h ≤ T → ‖x n - y (n * h)‖ ≤ K * h ^ p) (hK : K * h ^ p ≤ 1) (n : ℕ) (hn : n ≤ N) : ‖x n‖ ≤ Y + 1 := by
  have hnT : (n : ℝ) * h ≤ T := (mul_le_mul_of_nonneg_right (by exact_mod_cast hn) hh).trans hN
  have h1 := (hx n hnT).trans hK
  have h2 := hY (n * h) ⟨by positivity, hnT⟩
  have h3 : ‖x n‖ ≤ ‖x n - y (n * h)‖ + ‖y (n * h)‖ := by simpa using norm_add_le (x n - y (n * h)) (y (n * h))
  linarith

variable (R : LForm E D) (M : E ≃ₗ[ℝ] D) (hM : ∀ x, mass R x = M x)
include hM

/-! ### Adams-Bashforth and Leapfrog -/

/-- **C123** (AdamsBashforth, no global Lipschitz condition): first order with order 1, second order with the orders 2, 3 and 4. -/
theorem C123_adams_bashforth_local_partial {o : ℕ} (ho1 : 1 ≤ o) (ho : o ≤ 4) {b : List ℚ} (hb : abTable o = some b)
    (hf : LocalRHS (tendency R M) (min o 2)) {y : ℝ → E} {T : ℝ} (hT : 0 < T) (hy : IsSol (tendency R M) y T) :
    ∃ C h0, 0 < h0 ∧ ∀ h, 0 ≤ h → h ≤ h0 → ∀ (solve : Solver E D), ExactSolver solve → ∀ s, Fresh (adamsBashforth R h (realList b)) s →
      s.levels.np1 = y 0 → ∀ N : ℕ, N * h ≤ T →
        ‖result (adamsBashforth R h (realList b)) solve s N - y (N * h)‖ ≤ C * h ^ min o 2 := by
  obtain ⟨Y, hY0, hY⟩ := hy.norm_bound
  obtain ⟨g, L, hg, hfg⟩ := hf.cutoff (Y + 1)
  have hyg : IsSol g y T := hy.congr hY fun x hx => hfg x (by linarith)
  rw [← cut_tendency M g] at hg hyg
  obtain ⟨C, hC⟩ := C123_adams_bashforth_partial (cutR M g) M (cut_mass M g) ho hb hg hT hyg
  obtain ⟨h0, hh0, -, hs0⟩ := small_step C
  refine ⟨C, h0, hh0, fun h hh hl solve hs s hfr hs0' N hN => ?_⟩
  have hbn : realList b ≠ [] := by
    have := hfr.pos
    intro e; rw [e] at this; simp [adamsBashforth] at this
  have hfr' : Fresh (adamsBashforth (cutR M g) h (realList b)) s := ⟨hfr.pos, hfr.len, hfr.init⟩
  have hz := fun n hn => hC h hh solve hs s hfr' hs0' n hn
  have hb1 := near_sol hY hh hN hz (hs0 h hh hl (min o 2) (by omega))
  have e1 := ab_step R M hM solve hs h (realList b) hbn s hfr
  have e2 := ab_step (cutR M g) M (cut_mass M g) solve hs h (realList b) hbn s hfr'
  simp only [cut_tendency] at e2
  have key : ∀ n ≤ N, result (adamsBashforth R h (realList b)) solve s n = result (adamsBashforth (cutR M g) h (realList b)) solve s n := by
    intro n
    induction n using Nat.strong_induction_on with
    | _ n ih =>
      intro hn
      rcases n with _ | n
      · rfl
      rw [e1 n, e2 n]
      have hf' : ∀ m ≤ n, tendency R M (result (adamsBashforth R h (realList b)) solve s m) =
          g (result (adamsBashforth (cutR M g) h (realList b)) solve s m) := fun m hm => by
        rw [ih m (by omega) (by omega), hfg _ (hb1 m (by omega))]
      split
      · rw [hf' n le_rfl, ih n (by omega) (by omega)]
      · rw [ih n (by omega) (by omega)]
        congr 2
        refine Finset.sum_congr rfl fun j hj => ?_
        rw [hf' _ (by have := Finset.mem_range.1 hj; omega)]
  rw [key N le_rfl]
  exact hz N hN

/-- **C123** (Leapfrog, no global Lipschitz condition): first order. -/
theorem C123_leapfrog_local_partial (hf : LocalLip (tendency R M)) {y : ℝ → E} {T : ℝ} (hy : IsSol (tendency R M) y T) :
    ∃ C h0, 0 < h0 ∧ ∀ h, 0 ≤ h → h ≤ h0 → ∀ (solve : Solver E D), ExactSolver solve → ∀ s, Fresh (leapfrog R h) s →
      s.levels.np1 = y 0 → ∀ N : ℕ, N * h ≤ T → ‖result (leapfrog R h) solve s N - y (N * h)‖ ≤ C * h := by
  obtain ⟨Y, hY0, hY⟩ := hy.norm_bound
  obtain ⟨g, L, hg, hfg⟩ := cutoff_lip hf (Y + 1)
  have hyg : IsSol g y T := hy.congr hY fun x hx => hfg x (by linarith)
  rw [← cut_tendency M g] at hg hyg
  obtain ⟨C, hC⟩ := C123_leapfrog_partial (cutR M g) M (cut_mass M g) hg hyg
  obtain ⟨h0, hh0, -, hs0⟩ := small_step C
  refine ⟨C, h0, hh0, fun h hh hl solve hs s hfr hs0' N hN => ?_⟩
  have hfr' : Fresh (leapfrog (cutR M g) h) s := ⟨hfr.pos, hfr.len, hfr.init⟩
  have hz := fun n hn => hC h hh solve hs s hfr' hs0' n hn
  have hb1 := near_sol (p := 1) hY hh hN (by simpa only [pow_one] using hz) (hs0 h hh hl 1 le_rfl)
  have e1 := leapfrog_step R M hM solve hs h s hfr
  have e2 := leapfrog_step (cutR M g) M (cut_mass M g) solve hs h s hfr'
  simp only [cut_tendency] at e2
  have key : ∀ n ≤ N, result (leapfrog R h) solve s n = result (leapfrog (cutR M g) h) solve s n := by
    intro n
    induction n with
    | zero => intro _; rfl
    | succ n ih =>
      intro hn
      rw [e1 n, e2 n, ih (by omega), hfg _ (hb1 n (by omega))]
  rw [key N le_rfl]
  exact hz N hN

/-! ### The implicit methods -/

/-- An implicit step found near the state is the step with the right-hand side cut off. -/
theorem same_root {g : E → E} {L B δ k : ℝ} (hg : Lip g L) (hfg : ∀ x, ‖x‖ ≤ B → g x = tendency R M x) (hk : 0 ≤ k)
    (hkL : k * L ≤ 1 / 2) {x c z w : E} (hx : ‖x‖ + δ ≤ B) (hδ : 2 * (‖c - x‖ + k * ‖g x‖) ≤ δ)
    (hz : Found δ x (fun w => w = c + k • tendency R M w) z) (hw : w = c + k • g w) : z = w := by
  have : CompleteSpace E := FiniteDimensional.complete ℝ E
  obtain ⟨-, h1⟩ := hz.root hg hfg hk hkL hx hδ
  exact (implicit_unique hg hk hkL c).unique h1 hw

theorem am_found {δ : ℝ} (solve : Solver E D) (hs : NearbySolver δ solve) (h bl : ℝ) (b : List ℝ) (hb : b ≠ [])
    (s : RunState E) (hfr : Fresh (adamsMoulton R h bl b) s) (k : ℕ) :
    let x := result (adamsMoulton R h bl b) solve s
    if k < b.length - 1 then Found δ (x k) (fun z => z = (x k + (1 / 2 * h) • tendency R M (x k)) + (1 / 2 * h) • tendency R M z) (x (k + 1))
    else Found δ (x k) (fun z => z = (x k + h • ∑ j ∈ range b.length, b.getD j 0 • tendency R M (x (k + 1 + j - b.length))) +
      (h * bl) • tendency R M z) (x (k + 1)) := by
  intro x
  have hp : 1 ≤ b.length := hfr.pos
  have key := C10_which_residual (adamsMoulton R h bl b) solve s hfr k
  have hget : ∀ j < b.length, b.length ≤ k + 1 + j →
      (handed (adamsMoulton R h bl b) solve s k).getD j default = x (k + 1 + j - b.length) :=
    fun j hj hk => handed_getD (adamsMoulton R h bl b) solve s hfr k j hj hk
  have hlast : (handed (adamsMoulton R h bl b) solve s k).getD (b.length - 1) default = x k := by
    rw [hget _ (by omega) (by omega)]; congr 1; omega
  change x (k + 1) = _ at key
  by_cases hk : k < b.length - 1
  · rw [if_pos hk]
    rw [if_pos (show k < (adamsMoulton R h bl b).nlevels - 1 from hk)] at key
    rw [key]
    refine hs.found (fun z => ?_) _
    change (amRes0 R h z ((handed (adamsMoulton R h bl b) solve s k).getD (b.length - 1) default)).eval = 0 ↔ _
    rw [hlast, C08_adams_moulton_startup]
    exact implicit_iff R M hM (1 / 2 * h) z _ _ (by rw [hM, rest_eq R M hM, map_add, map_smul, smul_neg, sub_neg_eq_add])
  · rw [if_neg hk]
    rw [if_neg (show ¬ k < (adamsMoulton R h bl b).nlevels - 1 from hk)] at key
    rw [key]
    refine hs.found (fun z => ?_) _
    change (amRes R h bl b z (fun j => (handed (adamsMoulton R h bl b) solve s k).getD j default)).eval = 0 ↔ _
    rw [C08_adams_moulton R h bl b hb, smul_smul, hlast]
    refine implicit_iff R M hM (h * bl) z _ _ ?_
    simp only [hM, rest_eq R M hM, map_add, map_smul, map_sum, smul_neg, Finset.sum_neg_distrib, sub_neg_eq_add]
    congr 2
    refine Finset.sum_congr rfl fun j hj => ?_
    rw [hget j (Finset.mem_range.1 hj) (by omega)]

/-- **C123** (AdamsMoulton, no global Lipschitz condition): second order with order 1, third with the orders 2 and 3. -/
theorem C123_adams_moulton_local_partial {o : ℕ} (ho : o ≤ 3) {bl : ℚ} {b : List ℚ} (hb : amTable o = some (bl, b))
    (hf : LocalRHS (tendency R M) (min (o + 1) 3)) {y : ℝ → E} {T : ℝ} (hT : 0 < T) (hy : IsSol (tendency R M) y T) {δ : ℝ} (hδ : 0 < δ) :
    ∃ C h0 : ℝ, 0 < h0 ∧ ∀ h : ℝ, 0 ≤ h → h ≤ h0 → ∀ (solve : Solver E D), NearbySolver δ solve → ∀ s,
      Fresh (adamsMoulton R h (bl : ℝ) (realList b)) s → s.levels.np1 = y 0 → ∀ N : ℕ, N * h ≤ T →
        ‖result (adamsMoulton R h (bl : ℝ) (realList b)) solve s N - y (N * h)‖ ≤ C * h ^ min (o + 1) 3 := by
  have : CompleteSpace E := FiniteDimensional.complete ℝ E
  obtain ⟨Y, hY0, hY⟩ := hy.norm_bound
  obtain ⟨g, L, hg, hfg⟩ := hf.cutoff (Y + 1 + δ)
  have hyg : IsSol g y T := hy.congr hY fun x hx => hfg x (by linarith)
  have hg0 := hg.lip
  have hL := hg0.1
  rw [← cut_tendency M g] at hg hyg
  obtain ⟨C, hC⟩ := C123_adams_moulton_partial (cutR M g) M (cut_mass M g) ho hb hg hT hyg
  have hbl : (0 : ℝ) ≤ bl ∧ (bl : ℝ) ≤ 1 := by
    have : (0 : ℚ) ≤ bl ∧ bl ≤ 1 := by
      unfold amTable at hb; split at hb <;> simp at hb <;> (try exact hb.1 ▸ by norm_num)
    exact ⟨by exact_mod_cast this.1, by exact_mod_cast this.2⟩
  obtain ⟨m, hm0, hm⟩ := lip_bound hg0 (Y + 1)
  set S := ∑ j ∈ range (realList b).length, |(realList b).getD j 0| with hS
  have hS0 : 0 ≤ S := Finset.sum_nonneg fun j _ => abs_nonneg _
  obtain ⟨a1, ha1, h1⟩ := small_mul L (δ := 1 / 2) (by norm_num)
  obtain ⟨a2, ha2, h2⟩ := small_mul (2 * (S * m + 2 * m)) hδ
  obtain ⟨a3, ha3, -, h3⟩ := small_step C
  refine ⟨C, min a1 (min a2 a3), lt_min ha1 (lt_min ha2 ha3), fun h hh hl solve hs s hfr hs0 N hN => ?_⟩
  have i1 := h1 h hh (hl.trans (min_le_left _ _))
  have i2 := h2 h hh (hl.trans ((min_le_right _ _).trans (min_le_left _ _)))
  have i3 := h3 h hh (hl.trans ((min_le_right _ _).trans (min_le_right _ _))) (min (o + 1) 3) (by omega)
  have hbn : realList b ≠ [] := by
    have := hfr.pos
    intro e; rw [e] at this; simp [adamsMoulton] at this
  have hfr' : Fresh (adamsMoulton (cutR M g) h bl (realList b)) s := ⟨hfr.pos, hfr.len, hfr.init⟩
  have hz := fun n hn => hC h hh (by linarith) choiceSolve choiceSolve_exact s hfr' hs0 n hn
  have hb1 := near_sol hY hh hN hz i3
  have e1 := am_found R M hM solve hs h bl (realList b) hbn s hfr
  have e2 := am_step (cutR M g) M (cut_mass M g) choiceSolve choiceSolve_exact hg.lip hh (by linarith) bl hbl.1 hbl.2 (realList b) hbn s hfr'
  simp only [cut_tendency] at e2
  set x := result (adamsMoulton R h bl (realList b)) solve s with hx
  set w := result (adamsMoulton (cutR M g) h bl (realList b)) choiceSolve s with hw
  have key : ∀ n ≤ N, x n = w n := by
    intro n
    induction n using Nat.strong_induction_on with
    | _ n ih =>
      intro hn
      rcases n with _ | n
      · rfl
      have hwn := hb1 n (by omega)
      have hmn := hm _ hwn
      have hh' : 0 ≤ h * m := by positivity
      have hSm : 0 ≤ S * m * h := by positivity
      have e1n := e1 n
      have e2n := e2 n
      have hf' : ∀ j ≤ n, tendency R M (x j) = g (w j) := fun j hj => by
        rw [ih j (by omega) (by omega), hfg _ (by have := hb1 j (by omega); linarith)]
      simp only at e1n
      by_cases hk : n < (realList b).length - 1
      · rw [if_pos hk] at e1n e2n
        rw [hf' n le_rfl, ih n (by omega) (by omega)] at e1n
        refine same_root R M hM hg0 hfg (by positivity) (by nlinarith) (by linarith) ?_ e1n ?_
        · rw [add_sub_cancel_left, norm_smul, Real.norm_eq_abs, abs_of_nonneg (by positivity)]
          have := mul_le_mul_of_nonneg_left hmn hh
          nlinarith
        · nth_rewrite 1 [e2n]
          rw [add_right_comm]; congr 2 <;> ring_nf
      · rw [if_neg hk] at e1n e2n
        have es : ∑ j ∈ range (realList b).length, (realList b).getD j 0 • tendency R M (x (n + 1 + j - (realList b).length)) =
            ∑ j ∈ range (realList b).length, (realList b).getD j 0 • g (w (n + 1 + j - (realList b).length)) :=
          Finset.sum_congr rfl fun j hj => by rw [hf' _ (by have := Finset.mem_range.1 hj; omega)]
        rw [es, ih n (by omega) (by omega)] at e1n
        refine same_root R M hM hg0 hfg (mul_nonneg hh hbl.1) ?_ (by linarith) ?_ e1n e2n
        · calc h * bl * L = bl * (L * h) := by ring
            _ ≤ 1 * (L * h) := mul_le_mul_of_nonneg_right hbl.2 (by positivity)
            _ ≤ _ := by linarith
        · rw [add_sub_cancel_left, norm_smul, Real.norm_eq_abs, abs_of_nonneg hh]
          have s1 : ‖∑ j ∈ range (realList b).length, (realList b).getD j 0 • g (w (n + 1 + j - (realList b).length))‖ ≤ S * m := by
            rw [hS, Finset.sum_mul]
            refine norm_sum_le_of_le _ fun j hj => ?_
            rw [norm_smul, Real.norm_eq_abs]
            exact mul_le_mul_of_nonneg_left (hm _ (hb1 _ (by have := Finset.mem_range.1 hj; omega))) (abs_nonneg _)
          have s2 := mul_le_mul_of_nonneg_left s1 hh
          have s3 : h * bl * ‖g (w n)‖ ≤ h * 1 * m := mul_le_mul (mul_le_mul_of_nonneg_left hbl.2 hh) hmn (norm_nonneg _) (by linarith)
          nlinarith
  rw [key N le_rfl]
  exact hz N hN

theorem bdf2_found {δ : ℝ} (solve : Solver E D) (hs : NearbySolver δ solve) (h : ℝ) (s : RunState E) (hfr : Fresh (bdf2 R h) s) (k : ℕ) :
    let x := result (bdf2 R h) solve s
    if k = 0 then Found δ (x 0) (fun z => z = x 0 + h • tendency R M z) (x 1)
    else Found δ (x k) (fun z => z = ((4 / 3 : ℝ) • x k - (1 / 3 : ℝ) • x (k - 1)) + (2 / 3 * h) • tendency R M z) (x (k + 1)) := by
  intro x
  have key := C10_which_residual (bdf2 R h) solve s hfr k
  have hn : (bdf2 R h).nlevels = 2 := rfl
  have g1 := handed_getD (bdf2 R h) solve s hfr k 1 (by rw [hn]; omega) (by rw [hn]; omega)
  rw [hn, show k + 1 + 1 - 2 = k by omega] at g1
  change _ = x k at g1
  change x (k + 1) = _ at key
  rw [hn] at key
  split
  · rename_i hk
    subst hk
    rw [if_pos (by omega)] at key
    rw [show x 1 = x (0 + 1) from rfl, key]
    refine hs.found (fun z => ?_) _
    change (bdf2Res0 R h z ((handed (bdf2 R h) solve s 0).getD 1 default)).eval = 0 ↔ _
    rw [g1, C08_bdf2_startup]
    exact implicit_iff R M hM h z (x 0) _ (hM _)
  · rename_i hk
    rw [if_neg (by omega)] at key
    have g0 := handed_getD (bdf2 R h) solve s hfr k 0 (by rw [hn]; omega) (by rw [hn]; omega)
    rw [hn, show k + 1 + 0 - 2 = k - 1 by omega] at g0
    change _ = x (k - 1) at g0
    rw [key]
    refine hs.found (fun z => ?_) _
    change (bdf2Res R h z ((handed (bdf2 R h) solve s k).getD 1 default) ((handed (bdf2 R h) solve s k).getD 0 default)).eval = 0 ↔ _
    rw [g1, g0, eval_bdf2Res, sub_eq_zero]
    exact implicit_iff R M hM (2 / 3 * h) z _ _ (by simp [hM])

/-- **C123** (BDF2, no global Lipschitz condition): second order. -/
theorem C123_bdf2_local (hf : LocalRHS (tendency R M) 2) {y : ℝ → E} {T : ℝ} (hT : 0 < T) (hy : IsSol (tendency R M) y T)
    {δ : ℝ} (hδ : 0 < δ) :
    ∃ C h0, 0 < h0 ∧ ∀ h, 0 ≤ h → h ≤ h0 → ∀ (solve : Solver E D), NearbySolver δ solve → ∀ s, Fresh (bdf2 R h) s →
      s.levels.np1 = y 0 → ∀ N : ℕ, N * h ≤ T → ‖result (bdf2 R h) solve s N - y (N * h)‖ ≤ C * h ^ 2 := by
  have : CompleteSpace E := FiniteDimensional.complete ℝ E
  obtain ⟨Y, hY0, hY⟩ := hy.norm_bound
  obtain ⟨g, L, hg, hfg⟩ := hf.cutoff (Y + 1 + δ)
  have hyg : IsSol g y T := hy.congr hY fun x hx => hfg x (by linarith)
  obtain ⟨A, hA0, hA⟩ := hyg.bounded hg.lip
  have htay := fun t k ht hk hT => (hyg.taylor1 hg.lip hA (t := t) (k := k) ht hk hT).1
  have hg0 := hg.lip
  have hL := hg0.1
  rw [← cut_tendency M g] at hg hyg
  obtain ⟨C, hC⟩ := C123_bdf2 (cutR M g) M (cut_mass M g) hg hT hyg
  obtain ⟨m, hm0, hm⟩ := lip_bound hg0 (Y + 1)
  obtain ⟨a1, ha1, h1⟩ := small_mul L (δ := 1 / 2) (by norm_num)
  obtain ⟨a2, ha2, h2⟩ := small_mul (2 * (2 * |C| + A + m)) hδ
  obtain ⟨a3, ha3, ha31, h3⟩ := small_step C
  refine ⟨C, min a1 (min a2 a3), lt_min ha1 (lt_min ha2 ha3), fun h hh hl solve hs s hfr hs0 N hN => ?_⟩
  have i1 := h1 h hh (hl.trans (min_le_left _ _))
  have i2 := h2 h hh (hl.trans ((min_le_right _ _).trans (min_le_left _ _)))
  have hl3 : h ≤ a3 := hl.trans ((min_le_right _ _).trans (min_le_right _ _))
  have i3 := h3 h hh hl3 2 (by norm_num)
  have hfr' : Fresh (bdf2 (cutR M g) h) s := ⟨hfr.pos, hfr.len, hfr.init⟩
  have hz := fun n hn => hC h hh (by linarith) choiceSolve choiceSolve_exact s hfr' hs0 n hn
  have hb1 := near_sol hY hh hN hz i3
  have e1 := bdf2_found R M hM solve hs h s hfr
  have hu : ∀ c ∈ [h, 2 / 3 * h], ∀ d : D, ∃! y, mass (cutR M g) y + c • rest (cutR M g) y = d := by
    intro c hc d
    have : 0 ≤ h * L := by positivity
    simp only [List.mem_cons, List.not_mem_nil, or_false] at hc
    rcases hc with rfl | rfl
    · exact implicit_uniq (cutR M g) M (cut_mass M g) hg.lip hh (by linarith) d
    · exact implicit_uniq (cutR M g) M (cut_mass M g) hg.lip (by positivity) (by nlinarith) d
  have e2 := C10_bdf2_run choiceSolve choiceSolve_exact (cutR M g) h hu s hfr'
  have e2' : ∀ k, let w := result (bdf2 (cutR M g) h) choiceSolve s
      if k = 0 then w 1 = w 0 + h • g (w 1)
      else w (k + 1) = ((4 / 3 : ℝ) • w k - (1 / 3 : ℝ) • w (k - 1)) + (2 / 3 * h) • g (w (k + 1)) := by
    intro k w
    have := e2 k
    simp only at this
    split
    · rename_i hk
      rw [if_pos hk] at this
      have := (implicit_iff (cutR M g) M (cut_mass M g) h (w 1) (w 0) _ (cut_mass M g _)).1 this
      rwa [cut_tendency] at this
    · rename_i hk
      rw [if_neg hk, eq_sub_iff_add_eq] at this
      have := (implicit_iff (cutR M g) M (cut_mass M g) (2 / 3 * h) (w (k + 1)) ((4 / 3 : ℝ) • w k - (1 / 3 : ℝ) • w (k - 1)) _
        (by simp [cut_mass, w])).1 this
      rwa [cut_tendency] at this
  set x := result (bdf2 R h) solve s with hx
  set w := result (bdf2 (cutR M g) h) choiceSolve s with hw
  have key : ∀ n ≤ N, x n = w n := by
    intro n
    induction n using Nat.strong_induction_on with
    | _ n ih =>
      intro hn
      rcases n with _ | n
      · rfl
      have hwn := hb1 n (by omega)
      have hmn := hm _ hwn
      have hh' : 0 ≤ h * m := by positivity
      have hAh : 0 ≤ A * h := by positivity
      have hCh : 0 ≤ |C| * h := by positivity
      have e1n := e1 n
      have e2n := e2' n
      simp only at e1n e2n
      by_cases hk : n = 0
      · subst hk
        simp only [if_true] at e1n e2n
        rw [ih 0 (by omega) (by omega)] at e1n
        refine same_root R M hM hg0 hfg hh (by linarith) (by linarith) ?_ e1n e2n
        rw [sub_self, norm_zero, zero_add]
        have := mul_le_mul_of_nonneg_left hmn hh
        nlinarith
      · rw [if_neg hk] at e1n e2n
        rw [ih n (by omega) (by omega), ih (n - 1) (by omega) (by omega)] at e1n
        refine same_root R M hM hg0 hfg (by positivity) (by nlinarith) (by linarith) ?_ e1n e2n
        have hnT : ∀ j ≤ n, (j : ℝ) * h ≤ T := fun j hj =>
          (mul_le_mul_of_nonneg_right (by exact_mod_cast (by omega : j ≤ N)) hh).trans hN
        have c1 := hz n (hnT n le_rfl)
        have c2 := hz (n - 1) (hnT _ (by omega))
        have en : ((n - 1 : ℕ) : ℝ) * h + h = n * h := by
          rw [Nat.cast_sub (by omega)]; push_cast; ring
        have c3 := htay (((n - 1 : ℕ) : ℝ) * h) h (by positivity) hh (by rw [en]; exact hnT n le_rfl)
        rw [en] at c3
        have c4 : ‖w n - w (n - 1)‖ ≤ (2 * |C| + A) * h := by
          have e : w n - w (n - 1) = (w n - y (n * h)) + (y (n * h) - y (((n - 1 : ℕ) : ℝ) * h)) - (w (n - 1) - y (((n - 1 : ℕ) : ℝ) * h)) := by
            abel
          rw [e]
          refine (norm_sub_le _ _).trans ((add_le_add (norm_add_le _ _) le_rfl).trans ?_)
          have hsq : C * h ^ 2 ≤ |C| * h := by
            have : h ^ 2 ≤ h := by nlinarith
            calc C * h ^ 2 ≤ |C| * h ^ 2 := mul_le_mul_of_nonneg_right (le_abs_self C) (by positivity)
              _ ≤ _ := mul_le_mul_of_nonneg_left this (abs_nonneg C)
          have c1' : ‖w n - y (n * h)‖ ≤ |C| * h := c1.trans hsq
          have c2' : ‖w (n - 1) - y (((n - 1 : ℕ) : ℝ) * h)‖ ≤ |C| * h := c2.trans hsq
          linarith
        have e : (4 / 3 : ℝ) • w n - (1 / 3 : ℝ) • w (n - 1) - w n = (1 / 3 : ℝ) • (w n - w (n - 1)) := by module
        rw [e, norm_smul, Real.norm_eq_abs, abs_of_nonneg (by norm_num : (0 : ℝ) ≤ 1 / 3)]
        have := mul_le_mul_of_nonneg_left hmn hh
        nlinarith
  rw [key N le_rfl]
  exact hz N hN

omit hM in
/-- BDF2 for `2 x' = -2 x²`, with junk in the older level. -/
example : ∃ C h0, 0 < h0 ∧ ∀ h : ℝ, 0 ≤ h → h ≤ h0 → ∀ N : ℕ, N * h ≤ 10 →
    ‖result (bdf2 squareR h) (nearSolve (1 / 10)) ⟨⟨[17, 23], 1⟩, 0⟩ N - (1 + N * h)⁻¹‖ ≤ C * h ^ 2 := by
  obtain ⟨C, h0, hh0, hC⟩ := C123_bdf2_local squareR sineM square_mass (square_rhs 2) (T := 10) (by norm_num) (square_sol 10)
    (δ := 1 / 10) (by norm_num)
  exact ⟨C, h0, hh0, fun h hh hl N hN => hC h hh hl _ (nearSolve_near _) _ ⟨by simp [bdf2], rfl, rfl⟩ (by simp) N hN⟩

omit hM in
/-- AdamsBashforth 3 for the same equation. -/
example : ∃ C h0, 0 < h0 ∧ ∀ h : ℝ, 0 ≤ h → h ≤ h0 → ∀ N : ℕ, N * h ≤ 10 →
    ‖result (adamsBashforth squareR h (realList [5/12, -(16/12), 23/12])) choiceSolve ⟨⟨[17, 23, 5], 1⟩, 0⟩ N - (1 + N * h)⁻¹‖
      ≤ C * h ^ 2 := by
  obtain ⟨C, h0, hh0, hC⟩ := C123_adams_bashforth_local_partial squareR sineM square_mass (o := 3) (by norm_num) (by norm_num) rfl
    (square_rhs 2) (T := 10) (by norm_num) (square_sol 10)
  exact ⟨C, h0, hh0, fun h hh hl N hN => hC h hh hl _ choiceSolve_exact _
    ⟨by simp [adamsBashforth, realList], by simp [adamsBashforth, realList, numPrevious], rfl⟩ (by simp) N hN⟩

end Gusto.Props.LocalMultilevelProps
