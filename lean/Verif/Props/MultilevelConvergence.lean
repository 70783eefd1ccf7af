import Verif.Lemmas.ConvergenceMultilevel
import Verif.Props.Convergence
import Verif.Props.Multilevel
import Mathlib.Analysis.Calculus.Deriv.Prod

set_option autoImplicit false
set_option linter.unusedSectionVars false
set_option linter.unusedSimpArgs false

/-!
# C123: the multi-level time discretisations converge
-/

namespace Gusto.Props.MultilevelConvergenceProps
open Gusto LForm TimeDisc Multilevel Spec Finset Gusto.Props Gusto.Convergence
open Gusto.Props.ConvergenceProps (implicit_unique clockR clock_mass clock_tendency sineR sineM sine_mass sine_smooth sine_sol)

/-! ### Coefficients -/

/-- Coefficients in the real numbers. -/
def realList (b : List ℚ) : List ℝ := List.map (Rat.cast : ℚ → ℝ) b

theorem realList_getD (b : List ℚ) (j : ℕ) : (realList b).getD j 0 = ((b.getD j 0 : ℚ) : ℝ) := by
  unfold realList
  rw [List.getD_eq_getElem?_getD, List.getD_eq_getElem?_getD, List.getElem?_map]
  cases b[j]? <;> simp

/-- The conditions on the coefficients of an Adams method (`bi` belongs to the new level) for the order `p`. -/
def AdamsOrder (b : List ℚ) (bi : ℚ) (p : ℕ) : Prop :=
  b ≠ [] ∧ |bi| ≤ 1 ∧ ∀ k < p, ∑ j ∈ range b.length, b.getD j 0 * (j : ℚ) ^ k + bi * (b.length : ℚ) ^ k
    = ((b.length : ℚ) ^ (k + 1) - ((b.length : ℚ) - 1) ^ (k + 1)) / (k + 1)

instance (b : List ℚ) (bi : ℚ) (p : ℕ) : Decidable (AdamsOrder b bi p) := by unfold AdamsOrder; infer_instance

theorem AdamsOrder.real {b : List ℚ} {bi : ℚ} {p : ℕ} (h : AdamsOrder b bi p) (k : ℕ) (hk : k < p) :
    ∑ j ∈ range b.length, (realList b).getD j 0 * (j : ℝ) ^ k + (bi : ℝ) * (b.length : ℝ) ^ k
      = ((b.length : ℝ) ^ (k + 1) - ((b.length : ℝ) - 1) ^ (k + 1)) / (k + 1) := by
  have := congrArg (Rat.cast (K := ℝ)) (h.2.2 k hk)
  simp only [realList_getD]
  push_cast at this
  exact this

variable {E D : Type*} [NormedAddCommGroup E] [NormedSpace ℝ E] [AddCommGroup D] [Module ℝ D] [Inhabited E]
variable (R : LForm E D) (M : E ≃ₗ[ℝ] D) (hM : ∀ x, mass R x = M x)
include hM

theorem rest_eq (x : E) : rest R x = -M (tendency R M x) := by simp [tendency]

theorem mass_bijective : Function.Bijective (mass R) := by
  have : mass R = M := funext hM
  rw [this]; exact M.bijective

/-- The equation of an implicit step, without the mass operator. -/
theorem implicit_iff (c : ℝ) (x z : E) (d : D) (hd : d = M z) : mass R x + c • rest R x = d ↔ x = z + c • tendency R M x := by
  rw [hM, rest_eq R M hM, hd, ← M.injective.eq_iff]
  simp only [map_add, map_smul, smul_neg]
  constructor
  · intro e; rw [← e]; abel
  · intro e; nth_rewrite 1 [e]; abel

theorem implicit_uniq [CompleteSpace E] {L : ℝ} (hf : Lip (tendency R M) L) {c : ℝ} (hc : 0 ≤ c) (hcL : c * L ≤ 1 / 2) (d : D) :
    ∃! y, mass R y + c • rest R y = d := by
  obtain ⟨y, hy, hu⟩ := implicit_unique hf hc hcL (M.symm d)
  exact ⟨y, (implicit_iff R M hM c y (M.symm d) d (by simp)).2 hy, fun z hz => hu z ((implicit_iff R M hM c z (M.symm d) d (by simp)).1 hz)⟩

/-! ### Adams-Bashforth -/

theorem ab_step (solve : Solver E D) (hs : ExactSolver solve) (h : ℝ) (b : List ℝ) (hb : b ≠ [])
    (s : RunState E) (hfr : Fresh (adamsBashforth R h b) s) (k : ℕ) :
    let x := result (adamsBashforth R h b) solve s
    x (k + 1) = if k < b.length - 1 then x k + h • tendency R M (x k)
      else x k + h • ∑ j ∈ range b.length, b.getD j 0 • tendency R M (x (k + 1 + j - b.length)) := by
  intro x
  have key := C10_adams_bashforth_run solve hs R h b hb (mass_bijective R M hM) s hfr k
  change mass R (x (k + 1)) = if k < b.length - 1 then mass R (x k) - h • rest R (x k)
    else mass R (x k) - h • ∑ j ∈ range b.length, b.getD j 0 • rest R (x (k + 1 + j - b.length)) at key
  rw [← M.injective.eq_iff, ← hM, key]
  split
  · rw [hM, rest_eq R M hM, map_add, map_smul, smul_neg, sub_neg_eq_add]
  · simp only [hM, rest_eq R M hM, map_add, map_smul, map_sum, smul_neg, Finset.sum_neg_distrib, sub_neg_eq_add]

/-- A run of Adams-Bashforth whose coefficients satisfy the conditions of the second order converges with the second order. -/
theorem ab_second {b : List ℚ} (hb : AdamsOrder b 0 2) {L : ℝ} (hf : SmoothRHS (tendency R M) 2 L) {y : ℝ → E} {T : ℝ} (hT : 0 < T)
    (hy : IsSol (tendency R M) y T) :
    ∃ C, ∀ h, 0 ≤ h → ∀ (solve : Solver E D), ExactSolver solve → ∀ s, Fresh (adamsBashforth R h (realList b)) s →
      s.levels.np1 = y 0 → ∀ N : ℕ, N * h ≤ T → ‖result (adamsBashforth R h (realList b)) solve s N - y (N * h)‖ ≤ C * h ^ 2 := by
  obtain ⟨B, hB0, hB⟩ := hy.bounded hf.lip
  have hL := hf.lip.1
  have hlen : (realList b).length = b.length := by simp [realList]
  have hq : 1 ≤ b.length := List.length_pos_iff.2 hb.1
  obtain ⟨C, hC⟩ := adams_converges hf le_rfl b.length hq (fun j => (realList b).getD j 0) (0 : ℝ)
    (fun k hk => by simpa using hb.real k hk) (S := Real.exp (T * L) * (b.length * (L * B))) (by positivity) hT hy
  refine ⟨C, fun h hh solve hs s hfr h0 N hN => ?_⟩
  have hrun := ab_step R M hM solve hs h (realList b) (by simpa [realList] using hb.1) s hfr
  set x := result (adamsBashforth R h (realList b)) solve s with hx
  refine hC h hh (by simp) x N hN ?_ ?_
  · intro n hn hnN
    have hnh : (n : ℝ) * h ≤ T := (mul_le_mul_of_nonneg_right (by exact_mod_cast hnN) hh).trans hN
    refine startup_error (e := fun n => ‖x n - y (n * h)‖) (lam := L) (D := L * B) (p := 2) hL (by positivity) hh ?_ n hn.le hnh ?_
    · have : x 0 = y 0 := h0
      simp [this]
    · intro k hk
      have hr := hrun k
      simp only at hr
      rw [if_pos (by omega)] at hr
      have hkT := step_le hh hk hnh
      have e2 := (hy.taylor1 hf.lip hB (by positivity : 0 ≤ (k : ℝ) * h) hh hkT).2
      have e3 : ((k + 1 : ℕ) : ℝ) * h = k * h + h := by push_cast; ring
      simp only [e3]
      have e4 : x (k + 1) - y (k * h + h) = (x k - y (k * h)) + h • (tendency R M (x k) - tendency R M (y (k * h)))
          - (y (k * h + h) - y (k * h) - h • tendency R M (y (k * h))) := by
        rw [hr]; module
      rw [e4]
      have e5 : ‖h • (tendency R M (x k) - tendency R M (y (k * h)))‖ ≤ h * L * ‖x k - y (k * h)‖ := by
        rw [norm_smul, Real.norm_eq_abs, abs_of_nonneg hh, mul_assoc]
        exact mul_le_mul_of_nonneg_left (hf.lip.2 _ _) hh
      calc _ ≤ _ := (norm_sub_le _ _).trans (add_le_add (norm_add_le _ _) le_rfl)
        _ ≤ ‖x k - y (k * h)‖ + h * L * ‖x k - y (k * h)‖ + L * B * h ^ 2 := by linarith
        _ = _ := by ring
  · intro n hn hqn
    have hr := hrun n
    simp only at hr
    rw [if_neg (by omega), hlen] at hr
    simpa using hr

/-- **C123** (AdamsBashforth).  With order 1 the scheme converges with the first order; with the orders 2, 3 and 4 it converges with
the second order (the forward-Euler start-up steps limit the accuracy). -/
theorem C123_adams_bashforth_partial {o : ℕ} (ho : o ≤ 4) {b : List ℚ} (hb : abTable o = some b) {L : ℝ}
    (hf : SmoothRHS (tendency R M) (min o 2) L) {y : ℝ → E} {T : ℝ} (hT : 0 < T) (hy : IsSol (tendency R M) y T) :
    ∃ C, ∀ h, 0 ≤ h → ∀ (solve : Solver E D), ExactSolver solve → ∀ s, Fresh (adamsBashforth R h (realList b)) s →
      s.levels.np1 = y 0 → ∀ N : ℕ, N * h ≤ T →
        ‖result (adamsBashforth R h (realList b)) solve s N - y (N * h)‖ ≤ C * h ^ min o 2 := by
  rcases (by omega : o = 0 ∨ o = 1 ∨ o = 2 ∨ o = 3 ∨ o = 4) with rfl | rfl | rfl | rfl | rfl
  · simp [abTable] at hb
  · obtain rfl : b = [1] := by simpa [abTable, eq_comm] using hb
    obtain ⟨B, hB0, hB⟩ := hy.bounded hf.lip
    have hL := hf.lip.1
    refine ⟨Real.exp (T * L) * (T * (L * B)), fun h hh solve hs s hfr h0 N hN => ?_⟩
    have hrun := ab_step R M hM solve hs h (realList [1]) (by simp [realList]) s hfr
    set x := result (adamsBashforth R h (realList [1])) solve s with hx
    refine seq_global (x := x) (lam := L) (D := L * B) (T := T) (p := 1) hL (by positivity) hh N hN h0 fun n hn => ?_
    have hr := hrun n
    simp only [realList, List.map, List.length_singleton, Nat.sub_self, not_lt_zero, if_false, Finset.sum_range_one,
      List.getD_cons_zero, Rat.cast_one, one_smul, Nat.add_zero, Nat.add_sub_cancel] at hr
    have e2 := (hy.taylor1 hf.lip hB (by positivity : 0 ≤ (n : ℝ) * h) hh (step_le hh hn hN)).2
    have e4 : x (n + 1) - y (n * h + h) = (x n - y (n * h)) + h • (tendency R M (x n) - tendency R M (y (n * h)))
        - (y (n * h + h) - y (n * h) - h • tendency R M (y (n * h))) := by
      rw [hr]; module
    rw [e4]
    have e5 : ‖h • (tendency R M (x n) - tendency R M (y (n * h)))‖ ≤ h * L * ‖x n - y (n * h)‖ := by
      rw [norm_smul, Real.norm_eq_abs, abs_of_nonneg hh, mul_assoc]
      exact mul_le_mul_of_nonneg_left (hf.lip.2 _ _) hh
    calc _ ≤ _ := (norm_sub_le _ _).trans (add_le_add (norm_add_le _ _) le_rfl)
      _ ≤ ‖x n - y (n * h)‖ + h * L * ‖x n - y (n * h)‖ + L * B * h ^ 2 := by linarith
      _ = _ := by ring
  all_goals
    simp only [abTable, Option.some.injEq] at hb
    subst hb
    exact ab_second R M hM (by decide +kernel) hf hT hy

/-! ### Adams-Moulton -/

theorem am_step [CompleteSpace E] (solve : Solver E D) (hs : ExactSolver solve) {L : ℝ} (hf : Lip (tendency R M) L) {h : ℝ} (hh : 0 ≤ h)
    (hhL : h * L ≤ 1 / 2) (bl : ℝ) (hbl0 : 0 ≤ bl) (hbl : bl ≤ 1) (b : List ℝ) (hb : b ≠ [])
    (s : RunState E) (hfr : Fresh (adamsMoulton R h bl b) s) (k : ℕ) :
    let x := result (adamsMoulton R h bl b) solve s
    x (k + 1) = if k < b.length - 1 then x k + (h * (1 / 2)) • tendency R M (x (k + 1)) + (h * (1 - 1 / 2)) • tendency R M (x k)
      else x k + h • ∑ j ∈ range b.length, b.getD j 0 • tendency R M (x (k + 1 + j - b.length)) + (h * bl) • tendency R M (x (k + 1)) := by
  intro x
  have hL := hf.1
  have hu : ∀ c ∈ [1 / 2 * h, h * bl], ∀ d : D, ∃! y, mass R y + c • rest R y = d := by
    intro c hc d
    have h2 : 0 ≤ h * L := by positivity
    simp only [List.mem_cons, List.not_mem_nil, or_false] at hc
    rcases hc with rfl | rfl
    · exact implicit_uniq R M hM hf (by positivity) (by nlinarith) d
    · refine implicit_uniq R M hM hf (by positivity) ?_ d
      calc h * bl * L = bl * (h * L) := by ring
        _ ≤ 1 * (h * L) := mul_le_mul_of_nonneg_right hbl h2
        _ ≤ _ := by linarith
  have key := C10_adams_moulton_run solve hs R h bl b hb hu s hfr k
  dsimp only at key
  change if k < b.length - 1 then mass R (x (k + 1)) + (1 / 2 * h) • rest R (x (k + 1)) = mass R (x k) - (1 / 2 * h) • rest R (x k)
    else mass R (x (k + 1)) + h • bl • rest R (x (k + 1)) = mass R (x k)
        - h • ∑ j ∈ range b.length, b.getD j 0 • rest R (x (k + 1 + j - b.length)) at key
  split
  · rename_i hk
    rw [if_pos hk] at key
    have := (implicit_iff R M hM (1 / 2 * h) (x (k + 1)) (x k + (1 / 2 * h) • tendency R M (x k)) _ (by
      rw [hM, rest_eq R M hM, map_add, map_smul, smul_neg, sub_neg_eq_add])).1 key
    rw [mul_comm h (1 / 2), show h * (1 - 1 / 2) = 1 / 2 * h by ring, add_right_comm]
    exact this
  · rename_i hk
    rw [if_neg hk, smul_smul] at key
    exact (implicit_iff R M hM (h * bl) (x (k + 1)) (x k + h • ∑ j ∈ range b.length, b.getD j 0 • tendency R M (x (k + 1 + j - b.length))) _ (by
      simp only [hM, rest_eq R M hM, map_add, map_smul, map_sum, smul_neg, Finset.sum_neg_distrib, sub_neg_eq_add])).1 key

theorem am_order [CompleteSpace E] {p : ℕ} (hp : p = 2 ∨ p = 3) {b : List ℚ} {bl : ℚ} (hbl0 : 0 ≤ bl) (hb : AdamsOrder b bl p) {L : ℝ}
    (hf : SmoothRHS (tendency R M) p L) {y : ℝ → E} {T : ℝ} (hT : 0 < T)
    (hy : IsSol (tendency R M) y T) :
    ∃ C, ∀ h, 0 ≤ h → h * L ≤ 1 / 2 → ∀ (solve : Solver E D), ExactSolver solve → ∀ s, Fresh (adamsMoulton R h bl (realList b)) s →
      s.levels.np1 = y 0 → ∀ N : ℕ, N * h ≤ T → ‖result (adamsMoulton R h bl (realList b)) solve s N - y (N * h)‖ ≤ C * h ^ p := by
  obtain ⟨B, hB0, hB⟩ := hy.bounded hf.lip
  have h2p : 2 ≤ p := by omega
  obtain ⟨L2, hf2⟩ := hf.smooth2 h2p
  have hL := hf.lip.1
  have hL2 := hf2.lip2
  have hlen : (realList b).length = b.length := by simp [realList]
  have hq : 1 ≤ b.length := List.length_pos_iff.2 hb.1
  have hbl : |(bl : ℝ)| ≤ 1 := by have := hb.2.1; exact_mod_cast this
  have hbl0' : (0 : ℝ) ≤ bl := by exact_mod_cast hbl0
  rw [abs_of_nonneg hbl0'] at hbl
  set Q := 2 * (2 * (L2 * B ^ 2 + L * (L * B))) with hQ
  have hQ0 : 0 ≤ Q := by positivity
  obtain ⟨C, hC⟩ := adams_converges hf h2p b.length hq (fun j => (realList b).getD j 0) (bl : ℝ)
    (fun k hk => hb.real k hk) (S := Real.exp (T * (4 * L)) * (b.length * Q) * T ^ (3 - p)) (by positivity) hT hy
  refine ⟨C, fun h hh hhL solve hs s hfr h0 N hN => ?_⟩
  have hrun := am_step R M hM solve hs hf.lip hh hhL bl hbl0' hbl (realList b) (by simpa [realList] using hb.1) s hfr
  set x := result (adamsMoulton R h bl (realList b)) solve s with hx
  refine hC h hh ?_ x N hN ?_ ?_
  · rw [abs_of_nonneg hbl0']
    calc h * ((bl : ℝ) * L) = bl * (h * L) := by ring
      _ ≤ 1 * (h * L) := mul_le_mul_of_nonneg_right hbl (by positivity)
      _ ≤ _ := by linarith
  · intro n hn hnN
    have hnh : (n : ℝ) * h ≤ T := (mul_le_mul_of_nonneg_right (by exact_mod_cast hnN) hh).trans hN
    rcases Nat.eq_zero_or_pos n with rfl | hn0
    · have : x 0 = y 0 := h0
      simp [this]; positivity
    have hhT : h ≤ T := by
      have : (1 : ℝ) ≤ n := by exact_mod_cast hn0
      nlinarith
    have := startup_error (e := fun n => ‖x n - y (n * h)‖) (lam := 4 * L) (D := Q) (p := 3) (m := b.length) (h := h) (T := T)
      (by positivity) hQ0 hh (by
        have : x 0 = y 0 := h0
        simp [this]) n hn.le hnh (by
      intro k hk
      have hr := hrun k
      simp only at hr
      rw [if_pos (by omega)] at hr
      have hkT := step_le hh hk hnh
      have e1 := theta_error hf.lip hh (by norm_num : (0 : ℝ) ≤ 1 / 2) (by norm_num) hhL hr (Y := y (k * h)) (Y' := y (k * h + h))
      have e2 := trapezium_local hf2 hy hB (t := k * h) (by positivity) hh hkT
      have e3 : ((k + 1 : ℕ) : ℝ) * h = k * h + h := by push_cast; ring
      simp only [e3]
      refine e1.trans ?_
      rw [hQ]
      linarith)
    refine this.trans ?_
    have e : h ^ 3 = h ^ (3 - p) * h ^ p := by rw [← pow_add]; congr 1; omega
    rw [e, ← mul_assoc]
    have := pow_le_pow_left₀ hh hhT (3 - p)
    gcongr
  · intro n hn hqn
    have hr := hrun n
    simp only at hr
    rw [if_neg (by omega), hlen] at hr
    exact hr

/-- **C123** (AdamsMoulton).  With order 1 the scheme converges with the second order, with the orders 2 and 3 with the third. -/
theorem C123_adams_moulton_partial [CompleteSpace E] {o : ℕ} (ho : o ≤ 3) {bl : ℚ} {b : List ℚ} (hb : amTable o = some (bl, b)) {L : ℝ}
    (hf : SmoothRHS (tendency R M) (min (o + 1) 3) L) {y : ℝ → E} {T : ℝ} (hT : 0 < T) (hy : IsSol (tendency R M) y T) :
    ∃ C, ∀ h, 0 ≤ h → h * L ≤ 1 / 2 → ∀ (solve : Solver E D), ExactSolver solve → ∀ s, Fresh (adamsMoulton R h bl (realList b)) s →
      s.levels.np1 = y 0 → ∀ N : ℕ, N * h ≤ T →
        ‖result (adamsMoulton R h bl (realList b)) solve s N - y (N * h)‖ ≤ C * h ^ min (o + 1) 3 := by
  rcases (by omega : o = 0 ∨ o = 1 ∨ o = 2 ∨ o = 3) with rfl | rfl | rfl | rfl
  · simp [amTable] at hb
  all_goals
    simp only [amTable, Option.some.injEq, Prod.mk.injEq] at hb
    obtain ⟨rfl, rfl⟩ := hb
    exact am_order R M hM (by norm_num) (by norm_num) (by decide +kernel) hf hT hy

/-! ### BDF2 -/

/-- **C123** (BDF2): second order. -/
theorem C123_bdf2 [CompleteSpace E] {L : ℝ} (hf : SmoothRHS (tendency R M) 2 L) {y : ℝ → E} {T : ℝ} (hT : 0 < T)
    (hy : IsSol (tendency R M) y T) :
    ∃ C, ∀ h, 0 ≤ h → h * L ≤ 1 / 2 → ∀ (solve : Solver E D), ExactSolver solve → ∀ s, Fresh (bdf2 R h) s →
      s.levels.np1 = y 0 → ∀ N : ℕ, N * h ≤ T → ‖result (bdf2 R h) solve s N - y (N * h)‖ ≤ C * h ^ 2 := by
  obtain ⟨C, hC⟩ := bdf2_converges hf hT hy
  have hL := hf.lip.1
  refine ⟨C, fun h hh hhL solve hs s hfr h0 N hN => ?_⟩
  have hu : ∀ c ∈ [h, 2 / 3 * h], ∀ d : D, ∃! y, mass R y + c • rest R y = d := by
    intro c hc d
    have h2 : 0 ≤ h * L := by positivity
    simp only [List.mem_cons, List.not_mem_nil, or_false] at hc
    rcases hc with rfl | rfl
    · exact implicit_uniq R M hM hf.lip (by positivity) hhL d
    · exact implicit_uniq R M hM hf.lip (by positivity) (by nlinarith) d
  have key := C10_bdf2_run solve hs R h hu s hfr
  dsimp only at key
  refine hC h hh hhL _ N hN h0 (fun _ => ?_) fun n _ => ?_
  · have := key 0
    rw [if_pos rfl] at this
    exact (implicit_iff R M hM h _ _ _ (hM _)).1 this
  · have := key (n + 1)
    rw [if_neg (by omega), Nat.add_sub_cancel] at this
    have h2 := (implicit_iff R M hM (2 / 3 * h) (result (bdf2 R h) solve s (n + 2)) ((4 / 3 : ℝ) • result (bdf2 R h) solve s (n + 1)
      - (1 / 3 : ℝ) • result (bdf2 R h) solve s n) _ rfl).1 (by
        rw [this, hM, hM, map_sub, map_smul, map_smul]; abel)
    exact h2

/-! ### Leapfrog -/

theorem leapfrog_step (solve : Solver E D) (hs : ExactSolver solve) (h : ℝ) (s : RunState E) (hfr : Fresh (leapfrog R h) s) (k : ℕ) :
    let x := result (leapfrog R h) solve s
    x (k + 1) = x k + h • tendency R M (x k) := by
  intro x
  have hbij := mass_bijective R M hM
  have hu : ∀ d : D, ∃! y, mass R y = d := fun d => hbij.existsUnique d
  have key := C10_run_solves (leapfrog R h) solve hs
    (fun x => by
      have : ∀ y, ((leapfrog R h).res0 x y).eval = 0 ↔ mass R y = mass R (x 1) - h • rest R (x 1) := fun y => by
        rw [← C08_adams_bashforth_startup R h y (x 1)]; rfl
      simp only [this]; exact hu _)
    (fun x => by
      have : ∀ y, ((leapfrog R h).res x y).eval = 0 ↔ mass R y = mass R (x 1) - h • rest R (x 1) := fun y => by
        rw [← C08_leapfrog_solves_forward_euler R h y (x 1) (x 0)]; rfl
      simp only [this]; exact hu _) s hfr k
  have hn : (leapfrog R h).nlevels = 2 := rfl
  have g1 := handed_getD (leapfrog R h) solve s hfr k 1 (by rw [hn]; omega) (by rw [hn]; omega)
  rw [hn, show k + 1 + 1 - 2 = k by omega] at g1
  have e : mass R (x (k + 1)) = mass R (x k) - h • rest R (x k) := by
    simp only [hn] at key
    split at key
    · have := (C08_adams_bashforth_startup R h (x (k + 1)) _).1 key
      rw [this]; dsimp only; rw [g1]
    · have := (C08_leapfrog_solves_forward_euler R h (x (k + 1)) _
        ((handed (leapfrog R h) solve s k).getD 0 default)).1 key
      rw [this]; dsimp only; rw [g1]
  rw [hM, hM, rest_eq R M hM] at e
  rw [← M.injective.eq_iff, e, map_add, map_smul, smul_neg, sub_neg_eq_add]

/-- **C123** (Leapfrog): only the first order. -/
theorem C123_leapfrog_partial {L : ℝ} (hf : Lip (tendency R M) L) {y : ℝ → E} {T : ℝ} (hy : IsSol (tendency R M) y T) :
    ∃ C, ∀ h, 0 ≤ h → ∀ (solve : Solver E D), ExactSolver solve → ∀ s, Fresh (leapfrog R h) s →
      s.levels.np1 = y 0 → ∀ N : ℕ, N * h ≤ T → ‖result (leapfrog R h) solve s N - y (N * h)‖ ≤ C * h := by
  obtain ⟨B, hB0, hB⟩ := hy.bounded hf
  have hL := hf.1
  refine ⟨Real.exp (T * L) * (T * (L * B)), fun h hh solve hs s hfr h0 N hN => ?_⟩
  have hrun := leapfrog_step R M hM solve hs h s hfr
  set x := result (leapfrog R h) solve s with hx
  have := seq_global (x := x) (y := y) (lam := L) (D := L * B) (T := T) (p := 1) hL (by positivity) hh N hN h0 fun n hn => by
    have e2 := (hy.taylor1 hf hB (by positivity : 0 ≤ (n : ℝ) * h) hh (step_le hh hn hN)).2
    have e4 : x (n + 1) - y (n * h + h) = (x n - y (n * h)) + h • (tendency R M (x n) - tendency R M (y (n * h)))
        - (y (n * h + h) - y (n * h) - h • tendency R M (y (n * h))) := by
      rw [hrun n]; module
    rw [e4]
    have e5 : ‖h • (tendency R M (x n) - tendency R M (y (n * h)))‖ ≤ h * L * ‖x n - y (n * h)‖ := by
      rw [norm_smul, Real.norm_eq_abs, abs_of_nonneg hh, mul_assoc]
      exact mul_le_mul_of_nonneg_left (hf.2 _ _) hh
    calc _ ≤ _ := (norm_sub_le _ _).trans (add_le_add (norm_add_le _ _) le_rfl)
      _ ≤ ‖x n - y (n * h)‖ + h * L * ‖x n - y (n * h)‖ + L * B * h ^ 2 := by linarith
      _ = _ := by ring
  rwa [pow_one] at this

omit hM

/-! ### What is wrong -/

/-- The residual of `t' = 1`, `y' = 2 t`. -/
noncomputable def rampR : LForm (ℝ × ℝ) (ℝ × ℝ) :=
  [ { labels := [.timeDerivative], op := fun x => x, subj := 0 }, { labels := [.named "forcing"], op := fun x => (-1, -2 * x.1), subj := 0 } ]

theorem ramp_mass (x : ℝ × ℝ) : mass rampR x = LinearEquiv.refl ℝ (ℝ × ℝ) x := by simp [mass, part, rampR]
theorem ramp_tendency (x : ℝ × ℝ) : tendency rampR (LinearEquiv.refl ℝ (ℝ × ℝ)) x = (1, 2 * x.1) := by
  simp [tendency, rest, part, rampR]

/-- The exact solution from the origin. -/
theorem ramp_sol (T : ℝ) : IsSol (tendency rampR (LinearEquiv.refl ℝ (ℝ × ℝ))) (fun t => (t, t ^ 2)) T := by
  intro t _
  rw [ramp_tendency]
  have h2 : HasDerivAt (fun t : ℝ => t ^ 2) (2 * t) t := by simpa using hasDerivAt_pow 2 t
  exact (HasDerivAt.prodMk (hasDerivAt_id t) h2).hasDerivWithinAt

/-- **C123** is refuted for AdamsBashforth of the orders 3 and 4: they are only second-order accurate, because of their
forward-Euler start-up.  For `t' = 1`, `y' = 2 t` the error is `2 h²` (`3 h²`) after every step from the second (third) on. -/
theorem C123_adams_bashforth_order_refuted (h : ℝ) (solve : Solver (ℝ × ℝ) (ℝ × ℝ)) (hs : ExactSolver solve) :
    (∀ b, abTable 3 = some b → ∀ s, Fresh (adamsBashforth rampR h (realList b)) s → s.levels.np1 = (0, 0) → ∀ N : ℕ, 2 ≤ N →
      result (adamsBashforth rampR h (realList b)) solve s N = (N * h, (N * h) ^ 2 - 2 * h ^ 2)) ∧
    (∀ b, abTable 4 = some b → ∀ s, Fresh (adamsBashforth rampR h (realList b)) s → s.levels.np1 = (0, 0) → ∀ N : ℕ, 3 ≤ N →
      result (adamsBashforth rampR h (realList b)) solve s N = (N * h, (N * h) ^ 2 - 3 * h ^ 2)) := by
  constructor
  · intro b hb s hfr h0 N hN
    obtain rfl : b = [5/12, -(16/12), 23/12] := by simpa [abTable, eq_comm] using hb
    have hrun := ab_step rampR _ ramp_mass solve hs h (realList [5/12, -(16/12), 23/12]) (by simp [realList]) s hfr
    set x := result (adamsBashforth rampR h (realList [5/12, -(16/12), 23/12])) solve s with hx
    have x0 : x 0 = (0, 0) := h0
    simp only [realList, List.map, List.length_cons, List.length_nil, ramp_tendency] at hrun
    have x1 : x 1 = (h, 0) := by
      have := hrun 0; rw [if_pos (by norm_num), x0] at this; simpa using this
    have x2 : x 2 = (2 * h, 2 * h ^ 2) := by
      have := hrun 1; rw [if_pos (by norm_num), x1] at this; rw [this]; ext <;> simp <;> ring
    have key : ∀ n : ℕ, (∀ j ≤ n, (x j).1 = j * h) ∧ (2 ≤ n → (x n).2 = (n * h) ^ 2 - 2 * h ^ 2) := by
      intro n
      induction n with
      | zero => exact ⟨fun j hj => by obtain rfl : j = 0 := by omega
                                      simp [x0], fun h => by omega⟩
      | succ n ih =>
        by_cases hn2 : 2 ≤ n
        · have := hrun n
          rw [if_neg (by omega)] at this
          simp only [Nat.zero_add, Nat.reduceAdd, Finset.sum_range_succ, Finset.sum_range_zero, List.getD_cons_zero, List.getD_cons_succ,
            zero_add] at this
          have a0 := ih.1 (n - 2) (by omega)
          have a1 := ih.1 (n - 1) (by omega)
          have a2 := ih.1 n le_rfl
          rw [show n + 1 + 0 - 3 = n - 2 by omega, show n + 1 + 1 - 3 = n - 1 by omega, show n + 1 + 2 - 3 = n by omega, a0, a1, a2,
            Nat.cast_sub hn2, Nat.cast_sub (by omega : 1 ≤ n)] at this
          have e1 : (x (n + 1)).1 = ((n + 1 : ℕ) : ℝ) * h := by
            rw [this]; simp [a2]; ring
          refine ⟨fun j hj => ?_, fun _ => ?_⟩
          · rcases Nat.lt_or_ge j (n + 1) with h1 | h1
            · exact ih.1 j (by omega)
            · obtain rfl : j = n + 1 := by omega
              exact e1
          · rw [this]; simp [ih.2 hn2]; ring
        · rcases (by omega : n = 0 ∨ n = 1) with rfl | rfl
          · refine ⟨fun j hj => ?_, fun h => by omega⟩
            rcases (by omega : j = 0 ∨ j = 1) with rfl | rfl
            · simp [x0]
            · simp [x1]
          · refine ⟨fun j hj => ?_, fun _ => ?_⟩
            · rcases (by omega : j = 0 ∨ j = 1 ∨ j = 2) with rfl | rfl | rfl
              · simp [x0]
              · simp [x1]
              · simp [x2]
            · simp [x2]; ring
    ext
    · exact (key N).1 N le_rfl
    · exact (key N).2 hN
  · intro b hb s hfr h0 N hN
    obtain rfl : b = [-(9/24), 37/24, -(59/24), 55/24] := by simpa [abTable, eq_comm] using hb
    have hrun := ab_step rampR _ ramp_mass solve hs h (realList [-(9/24), 37/24, -(59/24), 55/24]) (by simp [realList]) s hfr
    set x := result (adamsBashforth rampR h (realList [-(9/24), 37/24, -(59/24), 55/24])) solve s with hx
    have x0 : x 0 = (0, 0) := h0
    simp only [realList, List.map, List.length_cons, List.length_nil, ramp_tendency] at hrun
    have x1 : x 1 = (h, 0) := by
      have := hrun 0; rw [if_pos (by norm_num), x0] at this; simpa using this
    have x2 : x 2 = (2 * h, 2 * h ^ 2) := by
      have := hrun 1; rw [if_pos (by norm_num), x1] at this; rw [this]; ext <;> simp <;> ring
    have x3 : x 3 = (3 * h, 6 * h ^ 2) := by
      have := hrun 2; rw [if_pos (by norm_num), x2] at this; rw [this]; ext <;> simp <;> ring
    have key : ∀ n : ℕ, (∀ j ≤ n, (x j).1 = j * h) ∧ (3 ≤ n → (x n).2 = (n * h) ^ 2 - 3 * h ^ 2) := by
      intro n
      induction n with
      | zero => exact ⟨fun j hj => by obtain rfl : j = 0 := by omega
                                      simp [x0], fun h => by omega⟩
      | succ n ih =>
        by_cases hn2 : 3 ≤ n
        · have := hrun n
          rw [if_neg (by omega)] at this
          simp only [Nat.zero_add, Nat.reduceAdd, Finset.sum_range_succ, Finset.sum_range_zero, List.getD_cons_zero, List.getD_cons_succ,
            zero_add] at this
          have a0 := ih.1 (n - 3) (by omega)
          have a1 := ih.1 (n - 2) (by omega)
          have a2 := ih.1 (n - 1) (by omega)
          have a3 := ih.1 n le_rfl
          rw [show n + 1 + 0 - 4 = n - 3 by omega, show n + 1 + 1 - 4 = n - 2 by omega, show n + 1 + 2 - 4 = n - 1 by omega,
            show n + 1 + 3 - 4 = n by omega, a0, a1, a2, a3,
            Nat.cast_sub hn2, Nat.cast_sub (by omega : 2 ≤ n), Nat.cast_sub (by omega : 1 ≤ n)] at this
          have e1 : (x (n + 1)).1 = ((n + 1 : ℕ) : ℝ) * h := by
            rw [this]; simp [a3]; ring
          refine ⟨fun j hj => ?_, fun _ => ?_⟩
          · rcases Nat.lt_or_ge j (n + 1) with h1 | h1
            · exact ih.1 j (by omega)
            · obtain rfl : j = n + 1 := by omega
              exact e1
          · rw [this]; simp [ih.2 hn2]; ring
        · rcases (by omega : n = 0 ∨ n = 1 ∨ n = 2) with rfl | rfl | rfl
          · refine ⟨fun j hj => ?_, fun h => by omega⟩
            rcases (by omega : j = 0 ∨ j = 1) with rfl | rfl
            · simp [x0]
            · simp [x1]
          · refine ⟨fun j hj => ?_, fun h => by omega⟩
            rcases (by omega : j = 0 ∨ j = 1 ∨ j = 2) with rfl | rfl | rfl
            · simp [x0]
            · simp [x1]
            · simp [x2]
          · refine ⟨fun j hj => ?_, fun _ => ?_⟩
            · rcases (by omega : j = 0 ∨ j = 1 ∨ j = 2 ∨ j = 3) with rfl | rfl | rfl | rfl
              · simp [x0]
              · simp [x1]
              · simp [x2]
              · simp [x3]
            · simp [x3]; ring
    ext
    · exact (key N).1 N le_rfl
    · exact (key N).2 hN

/-- **C123** is refuted for Leapfrog: it is not of the second order.  For `t' = 1`, `y' = 2 t` its error at the time `N h` is
`h` times the time. -/
theorem C123_leapfrog_refuted (h : ℝ) (solve : Solver (ℝ × ℝ) (ℝ × ℝ)) (hs : ExactSolver solve) (s : RunState (ℝ × ℝ))
    (hfr : Fresh (leapfrog rampR h) s) (h0 : s.levels.np1 = (0, 0)) (N : ℕ) :
    result (leapfrog rampR h) solve s N = (N * h, (N * h) ^ 2 - h * (N * h)) := by
  have hrun := leapfrog_step rampR _ ramp_mass solve hs h s hfr
  induction N with
  | zero => have : result (leapfrog rampR h) solve s 0 = (0, 0) := h0
            simp [this]
  | succ n ih =>
    rw [hrun n, ramp_tendency, ih]
    ext
    · simp; ring
    · simp; ring

/-- **C123** is refuted for AdamsBashforth of the order 5: its coefficients add up to `1720/720`, so it does not converge.  For
`x' = 1` the error is `25/18` of the time after the start-up steps. -/
theorem C123_adams_bashforth_five_refuted (h : ℝ) (solve : Solver ℝ ℝ) (hs : ExactSolver solve) (b : List ℚ) (hb : abTable 5 = some b)
    (s : RunState ℝ) (hfr : Fresh (adamsBashforth clockR h (realList b)) s) (N : ℕ) (hN : 4 ≤ N) :
    result (adamsBashforth clockR h (realList b)) solve s N - (s.levels.np1 + N * h) = 25 / 18 * ((N - 4) * h) := by
  obtain rfl : b = [251/720, -(1274/720), 2616/720, -(2774/720), 2901/720] := by simpa [abTable, eq_comm] using hb
  have hrun := ab_step clockR _ clock_mass solve hs h (realList [251/720, -(1274/720), 2616/720, -(2774/720), 2901/720])
    (by simp [realList]) s hfr
  set x := result (adamsBashforth clockR h (realList [251/720, -(1274/720), 2616/720, -(2774/720), 2901/720])) solve s with hx
  have x0 : x 0 = s.levels.np1 := rfl
  simp only [realList, List.map, List.length_cons, List.length_nil, clock_tendency] at hrun
  have st : ∀ n ≤ 4, x n = s.levels.np1 + n * h := by
    intro n
    induction n with
    | zero => intro _; simp [x0]
    | succ n ih => intro hn; rw [hrun n, if_pos (by omega), ih (by omega)]; simp; ring
  obtain ⟨m, rfl⟩ : ∃ m, N = 4 + m := ⟨N - 4, by omega⟩
  clear hN
  induction m with
  | zero => rw [st 4 le_rfl]; simp
  | succ m ih =>
    rw [← add_assoc, hrun (4 + m), if_neg (by omega)]
    simp only [Nat.zero_add, Nat.reduceAdd, Finset.sum_range_succ, Finset.sum_range_zero, List.getD_cons_zero, List.getD_cons_succ, zero_add]
    push_cast at ih ⊢
    simp only [smul_eq_mul]
    linarith

/-- **C123** is refuted for AdamsMoulton of the order 4: its coefficients add up to `730/720`, so it does not converge.  For `x' = 1`
the error is `1/72` of the time after the start-up steps. -/
theorem C123_adams_moulton_four_refuted (h : ℝ) (hh : 0 ≤ h) (solve : Solver ℝ ℝ) (hs : ExactSolver solve) (bl : ℚ) (b : List ℚ)
    (hb : amTable 4 = some (bl, b)) (s : RunState ℝ) (hfr : Fresh (adamsMoulton clockR h bl (realList b)) s) (N : ℕ) (hN : 3 ≤ N) :
    result (adamsMoulton clockR h bl (realList b)) solve s N - (s.levels.np1 + N * h) = 1 / 72 * ((N - 3) * h) := by
  simp only [amTable, Option.some.injEq, Prod.mk.injEq] at hb
  obtain ⟨rfl, rfl⟩ := hb
  have hrun := am_step clockR _ clock_mass solve hs (L := 0) ⟨le_rfl, fun x z => by simp [clock_tendency]⟩ hh (by norm_num)
    ((251 / 720 : ℚ) : ℝ) (by norm_num) (by norm_num) (realList [-(19/720), 106/720, -(254/720), 646/720]) (by simp [realList]) s hfr
  set x := result (adamsMoulton clockR h ((251 / 720 : ℚ) : ℝ) (realList [-(19/720), 106/720, -(254/720), 646/720])) solve s with hx
  have x0 : x 0 = s.levels.np1 := rfl
  simp only [realList, List.map, List.length_cons, List.length_nil, clock_tendency] at hrun
  have st : ∀ n ≤ 3, x n = s.levels.np1 + n * h := by
    intro n
    induction n with
    | zero => intro _; simp [x0]
    | succ n ih => intro hn; rw [hrun n, if_pos (by omega), ih (by omega)]; simp; ring
  obtain ⟨m, rfl⟩ : ∃ m, N = 3 + m := ⟨N - 3, by omega⟩
  clear hN
  induction m with
  | zero => rw [st 3 le_rfl]; simp
  | succ m ih =>
    rw [← add_assoc, hrun (3 + m), if_neg (by omega)]
    simp only [Nat.zero_add, Nat.reduceAdd, Finset.sum_range_succ, Finset.sum_range_zero, List.getD_cons_zero, List.getD_cons_succ, zero_add]
    push_cast at ih ⊢
    simp only [smul_eq_mul]
    linarith

/-! ### Examples: `2 x' = 2 sin x` -/

/-- A fresh run with rubbish in the older levels. -/
noncomputable def sineStart (n : ℕ) : RunState ℝ :=
  { levels := { previous := List.replicate n 17, np1 := 2 * Real.arctan (Real.exp 0) }, initialTimesteps := 0 }

example : ∃ C, ∀ h : ℝ, 0 ≤ h → ∀ N : ℕ, N * h ≤ 10 →
    ‖result (adamsBashforth sineR h (realList [5/12, -(16/12), 23/12])) choiceSolve (sineStart 3) N - 2 * Real.arctan (Real.exp (N * h))‖
      ≤ C * h ^ 2 := by
  obtain ⟨C, hC⟩ := C123_adams_bashforth_partial sineR sineM sine_mass (o := 3) (by norm_num) rfl (sine_smooth 2) (T := 10) (by norm_num)
    (sine_sol 10)
  exact ⟨C, fun h hh N hN => hC h hh choiceSolve choiceSolve_exact (sineStart 3)
    ⟨by simp [adamsBashforth, realList], by simp [sineStart, adamsBashforth, realList, numPrevious], rfl⟩ rfl N hN⟩

example : ∃ C, ∀ h : ℝ, 0 ≤ h → h ≤ 1 / 2 → ∀ N : ℕ, N * h ≤ 10 →
    ‖result (adamsMoulton sineR h ((9/24 : ℚ) : ℝ) (realList [1/24, -(5/24), 19/24])) choiceSolve (sineStart 3) N
      - 2 * Real.arctan (Real.exp (N * h))‖ ≤ C * h ^ 3 := by
  obtain ⟨C, hC⟩ := C123_adams_moulton_partial sineR sineM sine_mass (o := 3) (by norm_num) rfl (sine_smooth 3) (T := 10) (by norm_num)
    (sine_sol 10)
  exact ⟨C, fun h hh h1 N hN => hC h hh (by linarith) choiceSolve choiceSolve_exact (sineStart 3)
    ⟨by simp [adamsMoulton, realList], by simp [sineStart, adamsMoulton, realList, numPrevious], rfl⟩ rfl N hN⟩

example : ∃ C, ∀ h : ℝ, 0 ≤ h → h ≤ 1 / 2 → ∀ N : ℕ, N * h ≤ 10 →
    ‖result (bdf2 sineR h) choiceSolve (sineStart 2) N - 2 * Real.arctan (Real.exp (N * h))‖ ≤ C * h ^ 2 := by
  obtain ⟨C, hC⟩ := C123_bdf2 sineR sineM sine_mass (sine_smooth 2) (T := 10) (by norm_num) (sine_sol 10)
  exact ⟨C, fun h hh h1 N hN => hC h hh (by linarith) choiceSolve choiceSolve_exact (sineStart 2)
    ⟨by simp [bdf2], by simp [sineStart, bdf2, numPrevious], rfl⟩ rfl N hN⟩

/-- The refutations are about runs that exist. -/
example : Fresh (adamsBashforth rampR 1 (realList [5/12, -(16/12), 23/12])) { levels := { previous := [(1, 2), (3, 4), (5, 6)], np1 := (0, 0) }, initialTimesteps := 0 } :=
  ⟨by simp [adamsBashforth, realList], by simp [adamsBashforth, realList, numPrevious], rfl⟩

end Gusto.Props.MultilevelConvergenceProps
