import Verif.Spec.Splitting
import Verif.Lemmas.ConvergenceImplicit
import Mathlib.Tactic.Module

set_option autoImplicit false
set_option linter.unusedSectionVars false
set_option linter.unusedSimpArgs false

/-!
# Composition of methods
-/

namespace Gusto.Convergence
open Set

variable {E : Type*} [NormedAddCommGroup E] [NormedSpace ℝ E]

theorem Lip.bddOn {f : E → E} {L : ℝ} (hf : Lip f L) (x : E) {B : ℝ} (hx : ‖x‖ ≤ B) : ‖f x‖ ≤ L * B + ‖f 0‖ := by
  have h1 := hf.2 x 0
  rw [sub_zero] at h1
  have h2 : ‖f x‖ ≤ ‖f x - f 0‖ + ‖f 0‖ := by simpa using norm_add_le (f x - f 0) (f 0)
  have h3 := mul_le_mul_of_nonneg_left hx hf.1
  linarith

theorem Lip.add {f g : E → E} {L M : ℝ} (hf : Lip f L) (hg : Lip g M) : Lip (fun x => f x + g x) (L + M) :=
  ⟨add_nonneg hf.1 hg.1, fun x z => by
    rw [add_sub_add_comm, add_mul]
    exact (norm_add_le _ _).trans (add_le_add (hf.2 x z) (hg.2 x z))⟩

theorem Lip.smul {f : E → E} {L : ℝ} (hf : Lip f L) (w : ℝ) : Lip (fun x => w • f x) (|w| * L) :=
  ⟨mul_nonneg (abs_nonneg _) hf.1, fun x z => by
    rw [← smul_sub, norm_smul, Real.norm_eq_abs, mul_assoc]
    exact mul_le_mul_of_nonneg_left (hf.2 x z) (abs_nonneg _)⟩

theorem Lip.zero : Lip (fun _ : E => (0 : E)) 0 := ⟨le_rfl, fun x z => by simp⟩

theorem Lip.listSum {ι : Type*} {f : ι → E → E} (es : List ι) (hf : ∀ i ∈ es, ∃ L, Lip (f i) L) :
    ∃ L, Lip (fun x => (es.map fun i => f i x).sum) L := by
  induction es with
  | nil => exact ⟨0, by simpa using Lip.zero⟩
  | cons i es ih =>
    obtain ⟨L, hL⟩ := hf i (by simp)
    obtain ⟨M, hM⟩ := ih fun j hj => hf j (by simp [hj])
    exact ⟨L + M, by simpa using hL.add hM⟩

theorem Lip.finSum {n : ℕ} {f : Fin n → E → E} (hf : ∀ i, ∃ L, Lip (f i) L) : ∃ L, Lip (fun x => ∑ i, f i x) L := by
  obtain ⟨L, hL⟩ := Lip.listSum (List.finRange n) fun i _ => hf i
  refine ⟨L, ?_⟩
  simpa only [← List.sum_ofFn, List.ofFn_eq_map] using hL

/-! ### Stability -/

theorem Stable.mono {φ : ℝ → E → E} {H H' : ℝ} (h : Stable φ H) (hH : H' ≤ H) : Stable φ H' := by
  obtain ⟨c, h0, hc⟩ := h
  exact ⟨c, h0, fun k hk hkH => hc k hk (hkH.trans hH)⟩

theorem Stable.comp {φ ψ : ℝ → E → E} {H : ℝ} (h1 : Stable φ H) (h2 : Stable ψ H) : Stable (fun h x => ψ h (φ h x)) H := by
  obtain ⟨c, c0, hc⟩ := h1
  obtain ⟨d, d0, hd⟩ := h2
  refine ⟨c + d + |H| * c * d, by positivity, fun h hh hH x z => ?_⟩
  calc _ ≤ (1 + h * d) * ‖φ h x - φ h z‖ := hd h hh hH _ _
    _ ≤ (1 + h * d) * ((1 + h * c) * ‖x - z‖) := mul_le_mul_of_nonneg_left (hc h hh hH _ _) (by positivity)
    _ = (1 + h * (c + d + h * c * d)) * ‖x - z‖ := by ring
    _ ≤ _ := by
      have : h ≤ |H| := hH.trans (le_abs_self _)
      gcongr

theorem Stable.scale {φ : ℝ → E → E} {H w : ℝ} (h1 : Stable φ H) (hw : 0 ≤ w) :
    Stable (fun h => φ (h * w)) (H / (w + 1)) := by
  obtain ⟨c, c0, hc⟩ := h1
  refine ⟨w * c, by positivity, fun h hh hH x z => ?_⟩
  have h2 : h * w ≤ H := by
    rw [le_div_iff₀ (by positivity)] at hH; linarith
  have := hc (h * w) (by positivity) h2 x z
  rwa [mul_assoc] at this

/-! ### The first order -/

theorem FirstOrder.id : FirstOrder (fun _ x => x) (fun _ : E => (0 : E)) :=
  ⟨1, one_pos, ⟨0, le_rfl, fun h _ _ x z => by simp⟩, fun _ => ⟨0, le_rfl, fun h _ _ x _ => by simp⟩⟩

theorem FirstOrder.scale {φ : ℝ → E → E} {f : E → E} (h1 : FirstOrder φ f) {w : ℝ} (hw : 0 ≤ w) :
    FirstOrder (fun h => φ (h * w)) (fun x => w • f x) := by
  obtain ⟨H, H0, hs, hc⟩ := h1
  refine ⟨H / (w + 1), by positivity, hs.scale hw, fun B => ?_⟩
  obtain ⟨c, c0, hc⟩ := hc B
  refine ⟨c * w ^ 2, by positivity, fun h hh hH x hx => ?_⟩
  have h2 : h * w ≤ H := by
    rw [le_div_iff₀ (by positivity)] at hH; linarith
  have := hc (h * w) (by positivity) h2 x hx
  rw [smul_smul]
  calc _ ≤ _ := this
    _ = _ := by ring

theorem FirstOrder.comp {φ ψ : ℝ → E → E} {f g : E → E} {L M : ℝ} (h1 : FirstOrder φ f) (hf : Lip f L) (h2 : FirstOrder ψ g)
    (hg : Lip g M) : FirstOrder (fun h x => ψ h (φ h x)) (fun x => f x + g x) := by
  obtain ⟨H1, H10, hs1, hc1⟩ := h1
  obtain ⟨H2, H20, hs2, hc2⟩ := h2
  refine ⟨min H1 H2, lt_min H10 H20, (hs1.mono (min_le_left _ _)).comp (hs2.mono (min_le_right _ _)), fun B => ?_⟩
  obtain ⟨c, c0, hc⟩ := hc1 (max B 0)
  set B0 := max B 0
  have hB0 : 0 ≤ B0 := le_max_right _ _
  set K := L * B0 + ‖f 0‖
  have hL := hf.1
  have hM := hg.1
  have hK : 0 ≤ K := by positivity
  set H := min H1 H2
  have hH0 : 0 < H := lt_min H10 H20
  set B' := B0 + H * K + c * H ^ 2
  obtain ⟨d, d0, hd⟩ := hc2 B'
  refine ⟨d + c + M * (K + c * H), by positivity, fun h hh hH x hx => ?_⟩
  have hxB : ‖x‖ ≤ B0 := hx.trans (le_max_left _ _)
  have e1 := hc h hh (hH.trans (min_le_left _ _)) x hxB
  have e2 := hf.bddOn x hxB
  set z := φ h x
  have n1 : ‖z - x‖ ≤ h * (K + c * H) := by
    have : z - x = (z - (x + h • f x)) + h • f x := by abel
    rw [this]
    refine (norm_add_le _ _).trans ?_
    rw [norm_smul, Real.norm_eq_abs, abs_of_nonneg hh]
    calc _ ≤ c * h ^ 2 + h * K := add_le_add e1 (mul_le_mul_of_nonneg_left e2 hh)
      _ = h * (K + c * h) := by ring
      _ ≤ _ := by gcongr
  have n2 : ‖z‖ ≤ B' := by
    have : ‖z‖ ≤ ‖x‖ + ‖z - x‖ := by simpa using norm_add_le x (z - x)
    have h3 : h * (K + c * H) ≤ H * (K + c * H) := by gcongr
    have h4 : B' = B0 + H * (K + c * H) := by simp only [B']; ring
    linarith
  have e3 := hd h hh (hH.trans (min_le_right _ _)) z n2
  have e4 := hg.2 z x
  have e : ψ h z - (x + h • (f x + g x)) = (ψ h z - (z + h • g z)) + (z - (x + h • f x)) + h • (g z - g x) := by
    module
  rw [e]
  refine (norm_add_le _ _).trans ((add_le_add_left (norm_add_le _ _) _).trans ?_)
  rw [norm_smul, Real.norm_eq_abs, abs_of_nonneg hh]
  calc _ ≤ d * h ^ 2 + c * h ^ 2 + h * (M * (h * (K + c * H))) := by
        refine add_le_add (add_le_add e3 e1) (mul_le_mul_of_nonneg_left (e4.trans ?_) hh)
        exact mul_le_mul_of_nonneg_left n1 hM
    _ = _ := by ring

theorem FirstOrder.list {ι : Type*} {g : ι → ℝ → E → E} {F : ι → E → E} (es : List ι)
    (hg : ∀ i ∈ es, FirstOrder (g i) (F i)) (hF : ∀ i ∈ es, ∃ L, Lip (F i) L) :
    FirstOrder (fun h x => es.foldl (fun y i => g i h y) x) (fun x => (es.map fun i => F i x).sum) := by
  induction es with
  | nil => exact FirstOrder.id
  | cons i es ih =>
    obtain ⟨L, hL⟩ := hF i (by simp)
    obtain ⟨M, hM⟩ := Lip.listSum es fun j hj => hF j (by simp [hj])
    have := (hg i (by simp)).comp hL (ih (fun j hj => hg j (by simp [hj])) fun j hj => hF j (by simp [hj])) hM
    simpa using this

theorem IsSol.norm_bdd {f : E → E} {y : ℝ → E} {T : ℝ} (h : IsSol f y T) : ∃ B, ∀ t ∈ Icc 0 T, ‖y t‖ ≤ B :=
  isCompact_Icc.exists_bound_of_continuousOn h.continuousOn

theorem FirstOrder.converges {φ : ℝ → E → E} {f : E → E} {L : ℝ} (h1 : FirstOrder φ f) (hf : Lip f L) {y : ℝ → E} {T : ℝ}
    (hT : 0 ≤ T) (hy : IsSol f y T) :
    ∃ C h0, 0 < h0 ∧ ∀ h, 0 ≤ h → h ≤ h0 → ∀ N : ℕ, N * h ≤ T → ‖(φ h)^[N] (y 0) - y (N * h)‖ ≤ C * h := by
  obtain ⟨H, H0, ⟨lam, l0, hl⟩, hc⟩ := h1
  obtain ⟨B, hB⟩ := hy.norm_bdd
  obtain ⟨A, hA0, hA⟩ := hy.bounded hf
  obtain ⟨c, c0, hc⟩ := hc B
  have hL := hf.1
  refine ⟨Real.exp (T * lam) * (T * (c + L * A)), H, H0, fun h hh hH N hN => ?_⟩
  have := iterate_error (Φ := φ h) (y := y) (p := 1) (D := c + L * A) l0 (by positivity) hh (hl h hh hH) (fun t ht hth => by
    have e1 := hc h hh hH (y t) (hB t ⟨ht, by linarith⟩)
    have e2 := (hy.taylor1 hf hA ht hh hth).2
    rw [← sub_sub_sub_cancel_right _ _ (y t + h • f (y t)), ← sub_sub (y (t + h))]
    refine (norm_sub_le _ _).trans ?_
    calc _ ≤ c * h ^ 2 + L * A * h ^ 2 := add_le_add e1 e2
      _ = _ := by ring) (y 0) N hN
  rw [sub_self, norm_zero, zero_add, pow_one] at this
  linarith [this, mul_assoc (Real.exp (T * lam)) (T * (c + L * A)) h]

/-! ### The second order -/

/-- A step is `x + h f(x) + h² q(x) + O(h³)`. -/
def Expand2 (φ : ℝ → E → E) (f q : E → E) : Prop :=
  ∃ H, 0 < H ∧ Stable φ H ∧
    ∀ B, ∃ c, 0 ≤ c ∧ ∀ h, 0 ≤ h → h ≤ H → ∀ x, ‖x‖ ≤ B → ‖φ h x - (x + h • f x + h ^ 2 • q x)‖ ≤ c * h ^ 3

/-- Lipschitz continuity on bounded sets. -/
def LocLip (q : E → E) : Prop := ∀ B, ∃ c, 0 ≤ c ∧ ∀ x z, ‖x‖ ≤ B → ‖z‖ ≤ B → ‖q x - q z‖ ≤ c * ‖x - z‖

theorem LocLip.bdd {q : E → E} (hq : LocLip q) (B : ℝ) : ∃ c, 0 ≤ c ∧ ∀ x, ‖x‖ ≤ B → ‖q x‖ ≤ c := by
  obtain ⟨c, c0, hc⟩ := hq (max B 0)
  refine ⟨c * max B 0 + ‖q 0‖, add_nonneg (mul_nonneg c0 (le_max_right _ _)) (norm_nonneg _), fun x hx => ?_⟩
  have hx' : ‖x‖ ≤ max B 0 := hx.trans (le_max_left _ _)
  have h1 := hc x 0 hx' (by simp)
  rw [sub_zero] at h1
  have h2 : ‖q x‖ ≤ ‖q x - q 0‖ + ‖q 0‖ := by simpa using norm_add_le (q x - q 0) (q 0)
  have h3 := mul_le_mul_of_nonneg_left hx' c0
  linarith

theorem LocLip.zero : LocLip (fun _ : E => (0 : E)) := fun _ => ⟨0, le_rfl, fun x z _ _ => by simp⟩

theorem LocLip.add {p q : E → E} (hp : LocLip p) (hq : LocLip q) : LocLip (fun x => p x + q x) := fun B => by
  obtain ⟨c, c0, hc⟩ := hp B
  obtain ⟨d, d0, hd⟩ := hq B
  refine ⟨c + d, by positivity, fun x z hx hz => ?_⟩
  rw [add_sub_add_comm, add_mul]
  exact (norm_add_le _ _).trans (add_le_add (hc x z hx hz) (hd x z hx hz))

theorem LocLip.smul {p : E → E} (hp : LocLip p) (w : ℝ) : LocLip (fun x => w • p x) := fun B => by
  obtain ⟨c, c0, hc⟩ := hp B
  refine ⟨|w| * c, by positivity, fun x z hx hz => ?_⟩
  rw [← smul_sub, norm_smul, Real.norm_eq_abs, mul_assoc]
  exact mul_le_mul_of_nonneg_left (hc x z hx hz) (abs_nonneg _)

theorem LocLip.apply {f g : E → E} {g' : E → E →L[ℝ] E} {L M M2 : ℝ} (hf : Lip f L) (hg : Smooth2 g g' M M2) :
    LocLip (fun x => g' x (f x)) := fun B => by
  have hL := hf.1
  have hM := hg.lip.1
  have hM2 := hg.lip2
  refine ⟨M2 * (L * |B| + ‖f 0‖) + M * L, by positivity, fun x z hx hz => ?_⟩
  have e : g' x (f x) - g' z (f z) = (g' x - g' z) (f x) + g' z (f x - f z) := by simp
  rw [e]
  refine (norm_add_le _ _).trans ?_
  have e1 : ‖(g' x - g' z) (f x)‖ ≤ (M2 * ‖x - z‖) * (L * |B| + ‖f 0‖) :=
    ((g' x - g' z).le_opNorm _).trans (mul_le_mul (hg.dlip x z) (hf.bddOn x (hx.trans (le_abs_self _))) (norm_nonneg _)
      (by positivity))
  have e2 : ‖g' z (f x - f z)‖ ≤ M * (L * ‖x - z‖) :=
    ((g' z).le_opNorm _).trans (mul_le_mul (hg.bound z) (hf.2 x z) (norm_nonneg _) hM)
  calc _ ≤ _ := add_le_add e1 e2
    _ = _ := by ring

theorem Smooth2.add {f g : E → E} {f' g' : E → E →L[ℝ] E} {L L2 M M2 : ℝ} (hf : Smooth2 f f' L L2) (hg : Smooth2 g g' M M2) :
    Smooth2 (fun x => f x + g x) (fun x => f' x + g' x) (L + M) (L2 + M2) :=
  ⟨hf.lip.add hg.lip, fun x => (hf.deriv x).add (hg.deriv x),
    fun x => (norm_add_le _ _).trans (add_le_add (hf.bound x) (hg.bound x)), add_nonneg hf.lip2 hg.lip2, fun x z => by
      rw [add_sub_add_comm, add_mul]
      exact (norm_add_le _ _).trans (add_le_add (hf.dlip x z) (hg.dlip x z))⟩

theorem Smooth2.smul {f : E → E} {f' : E → E →L[ℝ] E} {L L2 : ℝ} (hf : Smooth2 f f' L L2) (w : ℝ) :
    Smooth2 (fun x => w • f x) (fun x => w • f' x) (|w| * L) (|w| * L2) :=
  ⟨hf.lip.smul w, fun x => (hf.deriv x).const_smul w,
    fun x => by rw [norm_smul, Real.norm_eq_abs]; exact mul_le_mul_of_nonneg_left (hf.bound x) (abs_nonneg _),
    mul_nonneg (abs_nonneg _) hf.lip2, fun x z => by
      rw [← smul_sub, norm_smul, Real.norm_eq_abs, mul_assoc]
      exact mul_le_mul_of_nonneg_left (hf.dlip x z) (abs_nonneg _)⟩

theorem Smooth2.zero : Smooth2 (fun _ : E => (0 : E)) (fun _ => 0) 0 0 :=
  ⟨Lip.zero, fun x => hasFDerivAt_const 0 x, fun x => by simp, le_rfl, fun x z => by simp⟩

theorem Smooth2.listSum {ι : Type*} {f : ι → E → E} {f' : ι → E → E →L[ℝ] E} (es : List ι)
    (hf : ∀ i ∈ es, ∃ L L2, Smooth2 (f i) (f' i) L L2) :
    ∃ L L2, Smooth2 (fun x => (es.map fun i => f i x).sum) (fun x => (es.map fun i => f' i x).sum) L L2 := by
  induction es with
  | nil => exact ⟨0, 0, by simpa using Smooth2.zero⟩
  | cons i es ih =>
    obtain ⟨L, L2, hL⟩ := hf i (by simp)
    obtain ⟨M, M2, hM⟩ := ih fun j hj => hf j (by simp [hj])
    exact ⟨L + M, L2 + M2, by simpa using hL.add hM⟩

theorem SecondOrder.expand2 {φ : ℝ → E → E} {f : E → E} {f' : E → E →L[ℝ] E} :
    SecondOrder φ f f' ↔ Expand2 φ f (fun x => (1 / 2 : ℝ) • f' x (f x)) := by
  simp only [SecondOrder, Expand2, smul_smul, mul_one_div]

theorem Expand2.id : Expand2 (fun _ x => x) (fun _ : E => (0 : E)) (fun _ => 0) :=
  ⟨1, one_pos, ⟨0, le_rfl, fun h _ _ x z => by simp⟩, fun _ => ⟨0, le_rfl, fun h _ _ x _ => by simp⟩⟩

theorem Expand2.scale {φ : ℝ → E → E} {f q : E → E} (h1 : Expand2 φ f q) {w : ℝ} (hw : 0 ≤ w) :
    Expand2 (fun h => φ (h * w)) (fun x => w • f x) (fun x => w ^ 2 • q x) := by
  obtain ⟨H, H0, hs, hc⟩ := h1
  refine ⟨H / (w + 1), by positivity, hs.scale hw, fun B => ?_⟩
  obtain ⟨c, c0, hc⟩ := hc B
  refine ⟨c * w ^ 3, by positivity, fun h hh hH x hx => ?_⟩
  have h2 : h * w ≤ H := by
    rw [le_div_iff₀ (by positivity)] at hH; linarith
  have := hc (h * w) (by positivity) h2 x hx
  rw [smul_smul, smul_smul, ← mul_pow]
  calc _ ≤ _ := this
    _ = _ := by ring

theorem SecondOrder.scale {φ : ℝ → E → E} {f : E → E} {f' : E → E →L[ℝ] E} (h1 : SecondOrder φ f f') {w : ℝ} (hw : 0 ≤ w) :
    SecondOrder (fun h => φ (h * w)) (fun x => w • f x) (fun x => w • f' x) := by
  have := (SecondOrder.expand2.1 h1).scale hw
  rw [SecondOrder.expand2]
  convert this using 2 with x
  simp only [ContinuousLinearMap.smul_apply, map_smul, smul_smul]
  congr 1; ring

theorem Expand2.comp {φ ψ : ℝ → E → E} {f g q r : E → E} {g' : E → E →L[ℝ] E} {L M M2 : ℝ} (h1 : Expand2 φ f q) (hf : Lip f L)
    (hq : LocLip q) (h2 : Expand2 ψ g r) (hg : Smooth2 g g' M M2) (hr : LocLip r) :
    Expand2 (fun h x => ψ h (φ h x)) (fun x => f x + g x) (fun x => q x + g' x (f x) + r x) := by
  obtain ⟨H1, H10, hs1, hc1⟩ := h1
  obtain ⟨H2, H20, hs2, hc2⟩ := h2
  refine ⟨min H1 H2, lt_min H10 H20, (hs1.mono (min_le_left _ _)).comp (hs2.mono (min_le_right _ _)), fun B => ?_⟩
  obtain ⟨c, c0, hc⟩ := hc1 (max B 0)
  set B0 := max B 0
  have hB0 : 0 ≤ B0 := le_max_right _ _
  set K := L * B0 + ‖f 0‖
  have hL := hf.1
  have hM := hg.lip.1
  have hM2 := hg.lip2
  have hK : 0 ≤ K := by positivity
  set H := min H1 H2
  have hH0 : 0 < H := lt_min H10 H20
  obtain ⟨Q, Q0, hQ⟩ := hq.bdd B0
  -- the distance of the intermediate state from the first-order step and from the start
  set A := Q + c * H
  have hA : 0 ≤ A := by positivity
  set S := K + A * H
  have hS : 0 ≤ S := by positivity
  set B' := B0 + H * S
  obtain ⟨d, d0, hd⟩ := hc2 B'
  obtain ⟨e, e0, he⟩ := hr B'
  refine ⟨d + c + M2 * S ^ 2 + M * A + e * S, by positivity, fun h hh hH x hx => ?_⟩
  have hxB : ‖x‖ ≤ B0 := hx.trans (le_max_left _ _)
  have e1 := hc h hh (hH.trans (min_le_left _ _)) x hxB
  have e2 := hf.bddOn x hxB
  have eQ := hQ x hxB
  set z := φ h x
  have n0 : ‖z - x - h • f x‖ ≤ A * h ^ 2 := by
    have : z - x - h • f x = (z - (x + h • f x + h ^ 2 • q x)) + h ^ 2 • q x := by abel
    rw [this]
    refine (norm_add_le _ _).trans ?_
    rw [norm_smul, Real.norm_eq_abs, abs_of_nonneg (by positivity : (0 : ℝ) ≤ h ^ 2)]
    calc _ ≤ c * h ^ 3 + h ^ 2 * Q := add_le_add e1 (mul_le_mul_of_nonneg_left eQ (by positivity))
      _ = (Q + c * h) * h ^ 2 := by ring
      _ ≤ _ := by simp only [A]; gcongr
  have n1 : ‖z - x‖ ≤ h * S := by
    have : z - x = (z - x - h • f x) + h • f x := by abel
    rw [this]
    refine (norm_add_le _ _).trans ?_
    rw [norm_smul, Real.norm_eq_abs, abs_of_nonneg hh]
    calc _ ≤ A * h ^ 2 + h * K := add_le_add n0 (mul_le_mul_of_nonneg_left e2 hh)
      _ = h * (K + A * h) := by ring
      _ ≤ _ := by simp only [S]; gcongr
  have n2 : ‖z‖ ≤ B' := by
    have : ‖z‖ ≤ ‖x‖ + ‖z - x‖ := by simpa using norm_add_le x (z - x)
    have h3 : h * S ≤ H * S := by gcongr
    simp only [B']
    linarith
  have n3 : ‖x‖ ≤ B' := by
    have : 0 ≤ H * S := by positivity
    simp only [B']; linarith
  have e3 := hd h hh (hH.trans (min_le_right _ _)) z n2
  have e4 := hg.expand x (z - x)
  rw [add_sub_cancel] at e4
  have e5 := he z x n2 n3
  have em1 : g' x (h • f x) = h • g' x (f x) := map_smul _ _ _
  have em2 : g' x (z - x - h • f x) = g' x (z - x) - h • g' x (f x) := by rw [map_sub, em1]
  have e6 : ‖g' x (z - x - h • f x)‖ ≤ M * (A * h ^ 2) :=
    ((g' x).le_opNorm _).trans (mul_le_mul (hg.bound x) n0 (norm_nonneg _) hM)
  have eq : ψ h z - (x + h • (f x + g x) + h ^ 2 • (q x + g' x (f x) + r x))
      = (ψ h z - (z + h • g z + h ^ 2 • r z)) + (z - (x + h • f x + h ^ 2 • q x))
        + h • (g z - g x - g' x (z - x)) + h • g' x (z - x - h • f x) + h ^ 2 • (r z - r x) := by
    rw [em2]; module
  rw [eq]
  have hsq : ‖z - x‖ ^ 2 ≤ (h * S) ^ 2 := by gcongr
  have t3 : ‖h • (g z - g x - g' x (z - x))‖ ≤ h * (M2 * (h * S) ^ 2) := by
    rw [norm_smul, Real.norm_eq_abs, abs_of_nonneg hh]
    exact mul_le_mul_of_nonneg_left (e4.trans (mul_le_mul_of_nonneg_left hsq hM2)) hh
  have t4 : ‖h • g' x (z - x - h • f x)‖ ≤ h * (M * (A * h ^ 2)) := by
    rw [norm_smul, Real.norm_eq_abs, abs_of_nonneg hh]
    exact mul_le_mul_of_nonneg_left e6 hh
  have t5 : ‖h ^ 2 • (r z - r x)‖ ≤ h ^ 2 * (e * (h * S)) := by
    rw [norm_smul, Real.norm_eq_abs, abs_of_nonneg (by positivity : (0 : ℝ) ≤ h ^ 2)]
    exact mul_le_mul_of_nonneg_left (e5.trans (mul_le_mul_of_nonneg_left n1 e0)) (by positivity)
  have b4 := norm_add_le ((ψ h z - (z + h • g z + h ^ 2 • r z)) + (z - (x + h • f x + h ^ 2 • q x))
        + h • (g z - g x - g' x (z - x)) + h • g' x (z - x - h • f x)) (h ^ 2 • (r z - r x))
  have b3 := norm_add_le ((ψ h z - (z + h • g z + h ^ 2 • r z)) + (z - (x + h • f x + h ^ 2 • q x))
        + h • (g z - g x - g' x (z - x))) (h • g' x (z - x - h • f x))
  have b2 := norm_add_le ((ψ h z - (z + h • g z + h ^ 2 • r z)) + (z - (x + h • f x + h ^ 2 • q x)))
        (h • (g z - g x - g' x (z - x)))
  have b1 := norm_add_le (ψ h z - (z + h • g z + h ^ 2 • r z)) (z - (x + h • f x + h ^ 2 • q x))
  have : (d + c + M2 * S ^ 2 + M * A + e * S) * h ^ 3
      = d * h ^ 3 + c * h ^ 3 + h * (M2 * (h * S) ^ 2) + h * (M * (A * h ^ 2)) + h ^ 2 * (e * (h * S)) := by ring
  linarith

/-- The second-order coefficient of a composition of second-order methods. -/
noncomputable def quad {ι : Type*} (F : ι → E → E) (F' : ι → E → E →L[ℝ] E) (x : E) : List ι → E
  | [] => 0
  | i :: es => (1 / 2 : ℝ) • F' i x (F i x) + (es.map fun j => F' j x).sum (F i x) + quad F F' x es

theorem quad_locLip {ι : Type*} {F : ι → E → E} {F' : ι → E → E →L[ℝ] E} (es : List ι)
    (hF : ∀ i ∈ es, ∃ L L2, Smooth2 (F i) (F' i) L L2) : LocLip (fun x => quad F F' x es) := by
  induction es with
  | nil => exact LocLip.zero
  | cons i es ih =>
    obtain ⟨L, L2, hL⟩ := hF i (by simp)
    obtain ⟨M, M2, hM⟩ := Smooth2.listSum es fun j hj => hF j (by simp [hj])
    exact (((LocLip.apply hL.lip hL).smul _).add (LocLip.apply hL.lip hM)).add (ih fun j hj => hF j (by simp [hj]))

theorem Expand2.list {ι : Type*} {g : ι → ℝ → E → E} {F : ι → E → E} {F' : ι → E → E →L[ℝ] E} (es : List ι)
    (hg : ∀ i ∈ es, SecondOrder (g i) (F i) (F' i)) (hF : ∀ i ∈ es, ∃ L L2, Smooth2 (F i) (F' i) L L2) :
    Expand2 (fun h x => es.foldl (fun y i => g i h y) x) (fun x => (es.map fun i => F i x).sum) (fun x => quad F F' x es) := by
  induction es with
  | nil => exact Expand2.id
  | cons i es ih =>
    obtain ⟨L, L2, hL⟩ := hF i (by simp)
    obtain ⟨M, M2, hM⟩ := Smooth2.listSum es fun j hj => hF j (by simp [hj])
    have := (SecondOrder.expand2.1 (hg i (by simp))).comp hL.lip ((LocLip.apply hL.lip hL).smul _)
      (ih (fun j hj => hg j (by simp [hj])) fun j hj => hF j (by simp [hj])) hM (quad_locLip es fun j hj => hF j (by simp [hj]))
    simpa [quad] using this

theorem quad_append {ι : Type*} (F : ι → E → E) (F' : ι → E → E →L[ℝ] E) (x : E) (es : List ι) (i : ι) :
    quad F F' x (es ++ [i]) = quad F F' x es + (1 / 2 : ℝ) • F' i x (F i x) + F' i x ((es.map fun j => F j x).sum) := by
  induction es with
  | nil => simp [quad]
  | cons j es ih =>
    simp only [List.cons_append, quad, ih, List.map_append, List.sum_append, List.map_cons, List.map_nil, List.sum_cons, List.sum_nil,
      add_zero, ContinuousLinearMap.add_apply, map_add]
    abel

/-- The coefficients of a composition and of the reversed composition add up to the one of the exact solution, twice. -/
theorem quad_reverse {ι : Type*} (F : ι → E → E) (F' : ι → E → E →L[ℝ] E) (x : E) (es : List ι) :
    quad F F' x es + quad F F' x es.reverse = (es.map fun j => F' j x).sum ((es.map fun j => F j x).sum) := by
  induction es with
  | nil => simp [quad]
  | cons i es ih =>
    rw [List.reverse_cons, quad_append]
    have e1 : (es.reverse.map fun j => F j x).sum = (es.map fun j => F j x).sum := by
      rw [List.map_reverse, List.sum_reverse]
    simp only [quad, List.map_cons, List.sum_cons, ContinuousLinearMap.add_apply, map_add, e1, ← ih]
    have e2 : F' i x (F i x) = (1 / 2 : ℝ) • F' i x (F i x) + (1 / 2 : ℝ) • F' i x (F i x) := by module
    nth_rewrite 3 [e2]
    abel

/-- A composition of second-order methods that reads the same in both directions is of the second order. -/
theorem SecondOrder.palindrome {ι : Type*} {g : ι → ℝ → E → E} {F : ι → E → E} {F' : ι → E → E →L[ℝ] E} (es : List ι)
    (hg : ∀ i ∈ es, SecondOrder (g i) (F i) (F' i)) (hF : ∀ i ∈ es, ∃ L L2, Smooth2 (F i) (F' i) L L2) (hp : es.reverse = es) :
    SecondOrder (fun h x => es.foldl (fun y i => g i h y) x) (fun x => (es.map fun i => F i x).sum)
      (fun x => (es.map fun i => F' i x).sum) := by
  have h1 := Expand2.list es hg hF
  rw [SecondOrder.expand2]
  convert h1 using 2 with x
  have h2 := quad_reverse F F' x es
  rw [hp, ← two_smul ℝ] at h2
  rw [← h2, smul_smul]
  norm_num

theorem SecondOrder.converges {φ : ℝ → E → E} {f : E → E} {f' : E → E →L[ℝ] E} {L L2 : ℝ} (h1 : SecondOrder φ f f')
    (hf : Smooth2 f f' L L2) {y : ℝ → E} {T : ℝ} (hT : 0 ≤ T) (hy : IsSol f y T) :
    ∃ C h0, 0 < h0 ∧ ∀ h, 0 ≤ h → h ≤ h0 → ∀ N : ℕ, N * h ≤ T → ‖(φ h)^[N] (y 0) - y (N * h)‖ ≤ C * h ^ 2 := by
  obtain ⟨H, H0, ⟨lam, l0, hl⟩, hc⟩ := h1
  obtain ⟨B, hB⟩ := hy.norm_bdd
  obtain ⟨A, hA0, hA⟩ := hy.bounded hf.lip
  obtain ⟨c, c0, hc⟩ := hc B
  have hL := hf.lip.1
  have hL2 := hf.lip2
  refine ⟨Real.exp (T * lam) * (T * (c + (L2 * A ^ 2 + L * (L * A)))), H, H0, fun h hh hH N hN => ?_⟩
  have := iterate_error (Φ := φ h) (y := y) (p := 2) (D := c + (L2 * A ^ 2 + L * (L * A))) l0 (by positivity) hh (hl h hh hH)
    (fun t ht hth => by
    have e1 := hc h hh hH (y t) (hB t ⟨ht, by linarith⟩)
    have e2 := (hf.taylor2 hy hA ht hh hth).2
    rw [← sub_sub_sub_cancel_right _ _ (y t + h • f (y t) + (h ^ 2 / 2) • f' (y t) (f (y t))), ← sub_sub (y (t + h)), ← sub_sub (y (t + h))]
    refine (norm_sub_le _ _).trans ?_
    calc _ ≤ c * h ^ 3 + (L2 * A ^ 2 + L * (L * A)) * h ^ 3 := add_le_add e1 e2
      _ = _ := by ring) (y 0) N hN
  rw [sub_self, norm_zero, zero_add] at this
  linarith [this, mul_assoc (Real.exp (T * lam)) (T * (c + (L2 * A ^ 2 + L * (L * A)))) (h ^ 2)]

theorem SecondOrder.first {φ : ℝ → E → E} {f : E → E} {f' : E → E →L[ℝ] E} {L L2 : ℝ} (h1 : SecondOrder φ f f')
    (hf : Smooth2 f f' L L2) : FirstOrder φ f := by
  obtain ⟨H, H0, hs, hc⟩ := h1
  refine ⟨H, H0, hs, fun B => ?_⟩
  obtain ⟨c, c0, hc⟩ := hc B
  obtain ⟨d, d0, hd⟩ := (LocLip.apply hf.lip hf).bdd B
  refine ⟨c * H + d, by positivity, fun h hh hH x hx => ?_⟩
  have e1 := hc h hh hH x hx
  have e2 := hd x hx
  have e : φ h x - (x + h • f x) = (φ h x - (x + h • f x + (h ^ 2 / 2) • f' x (f x))) + (h ^ 2 / 2) • f' x (f x) := by abel
  rw [e]
  refine (norm_add_le _ _).trans ?_
  rw [norm_smul, Real.norm_eq_abs, abs_of_nonneg (by positivity : (0 : ℝ) ≤ h ^ 2 / 2)]
  calc _ ≤ c * h ^ 3 + h ^ 2 / 2 * d := add_le_add e1 (mul_le_mul_of_nonneg_left e2 (by positivity))
    _ = (c * h + d / 2) * h ^ 2 := by ring
    _ ≤ (c * H + d) * h ^ 2 := by
      have : c * h ≤ c * H := by gcongr
      have h2 : 0 ≤ h ^ 2 := by positivity
      nlinarith

theorem FirstOrder.congr {φ ψ : ℝ → E → E} {f : E → E} (h1 : FirstOrder φ f) (h : ∀ h, 0 ≤ h → ∀ x, ψ h x = φ h x) : FirstOrder ψ f := by
  obtain ⟨H, H0, ⟨c, c0, hc⟩, hn⟩ := h1
  refine ⟨H, H0, ⟨c, c0, fun k hk hkH x z => by rw [h k hk, h k hk]; exact hc k hk hkH x z⟩, fun B => ?_⟩
  obtain ⟨d, d0, hd⟩ := hn B
  exact ⟨d, d0, fun k hk hkH x hx => by rw [h k hk]; exact hd k hk hkH x hx⟩

theorem SecondOrder.congr {φ ψ : ℝ → E → E} {f : E → E} {f' : E → E →L[ℝ] E} (h1 : SecondOrder φ f f')
    (h : ∀ h, 0 ≤ h → ∀ x, ψ h x = φ h x) : SecondOrder ψ f f' := by
  obtain ⟨H, H0, ⟨c, c0, hc⟩, hn⟩ := h1
  refine ⟨H, H0, ⟨c, c0, fun k hk hkH x z => by rw [h k hk, h k hk]; exact hc k hk hkH x z⟩, fun B => ?_⟩
  obtain ⟨d, d0, hd⟩ := hn B
  exact ⟨d, d0, fun k hk hkH x hx => by rw [h k hk]; exact hd k hk hkH x hx⟩

/-! ### Runge-Kutta and theta methods -/

open Finset in
theorem rk_firstOrder (a : ℕ → ℕ → ℝ) (b : ℕ → ℝ) (s : ℕ) {f : E → E} {L : ℝ} (hf : Lip f L) (h1 : ∑ i ∈ range s, b i = 1) :
    FirstOrder (fun h => Spec.rkStep a b s f h) f := by
  refine ⟨1, one_pos, rkStep_lip a b s hf 1 zero_le_one, fun B => ?_⟩
  obtain ⟨c, c0, hc⟩ := rkStep_near a b s hf 1 zero_le_one
  have hL := hf.1
  refine ⟨c * (L * |B| + ‖f 0‖), by positivity, fun h hh hH x hx => ?_⟩
  have e1 := hc h hh hH x
  rw [h1, one_smul] at e1
  have e2 := hf.bddOn x (hx.trans (le_abs_self B))
  calc _ ≤ _ := e1
    _ ≤ c * h ^ 2 * (L * |B| + ‖f 0‖) := mul_le_mul_of_nonneg_left e2 (by positivity)
    _ = _ := by ring

open Finset in
theorem rk_secondOrder (a : ℕ → ℕ → ℝ) (b : ℕ → ℝ) (s : ℕ) {f : E → E} {f' : E → E →L[ℝ] E} {L L2 : ℝ} (hf : Smooth2 f f' L L2)
    (h1 : ∑ i ∈ range s, b i = 1) (h2 : ∑ i ∈ range s, b i * ∑ j ∈ range i, a i j = 1 / 2) :
    SecondOrder (fun h => Spec.rkStep a b s f h) f f' := by
  refine ⟨1, one_pos, rkStep_lip a b s hf.lip 1 zero_le_one, fun B => ?_⟩
  have hL := hf.lip.1
  choose C hC0 hC using fun i => hf.rkK_expand a 1 zero_le_one (L * |B| + ‖f 0‖) (by positivity) i
  refine ⟨∑ i ∈ range s, |b i| * C i, Finset.sum_nonneg fun j _ => mul_nonneg (abs_nonneg _) (hC0 j), fun h hh hH x hx => ?_⟩
  have e2 : Spec.rkStep a b s f h x - (x + h • f x + (h ^ 2 / 2) • f' x (f x))
      = h • ∑ i ∈ range s, b i • (Spec.rkK a f h x i - f x - (h * ∑ j ∈ range i, a i j) • f' x (f x)) := by
    have s1 : ∑ i ∈ range s, b i • f x = f x := by rw [← Finset.sum_smul, h1, one_smul]
    have s2 : ∑ i ∈ range s, b i • (h * ∑ j ∈ range i, a i j) • f' x (f x) = (h * (1 / 2)) • f' x (f x) := by
      rw [← h2, Finset.mul_sum, Finset.sum_smul]
      refine Finset.sum_congr rfl fun i _ => ?_
      rw [smul_smul]; congr 1; ring
    simp only [smul_sub, Finset.sum_sub_distrib, s1, s2, Spec.rkStep]
    rw [smul_smul h (h * (1 / 2)), show h * (h * (1 / 2)) = h ^ 2 / 2 by ring]
    abel
  rw [e2, norm_smul, Real.norm_eq_abs, abs_of_nonneg hh]
  have : ‖∑ i ∈ range s, b i • (Spec.rkK a f h x i - f x - (h * ∑ j ∈ range i, a i j) • f' x (f x))‖
      ≤ (∑ i ∈ range s, |b i| * C i) * h ^ 2 := by
    rw [Finset.sum_mul]
    refine norm_sum_le_of_le _ fun i _ => ?_
    rw [norm_smul, Real.norm_eq_abs, mul_assoc]
    exact mul_le_mul_of_nonneg_left (hC i h hh hH x (hf.lip.bddOn x (hx.trans (le_abs_self B)))) (abs_nonneg _)
  calc _ ≤ h * ((∑ i ∈ range s, |b i| * C i) * h ^ 2) := by gcongr
    _ = _ := by ring

/-- The steps that a theta method accepts. -/
theorem theta_stable {φ : ℝ → E → E} {f : E → E} {L th H : ℝ} (hf : Lip f L) (h0 : 0 ≤ th) (h1 : th ≤ 1) (hHL : H * L ≤ 1 / 2)
    (hφ : ∀ h, 0 ≤ h → h ≤ H → ∀ x, φ h x = x + (h * th) • f (φ h x) + (h * (1 - th)) • f x) : Stable φ H := by
  have hL := hf.1
  refine ⟨4 * L, by positivity, fun h hh hH x z => ?_⟩
  have hhL : h * L ≤ 1 / 2 := (mul_le_mul_of_nonneg_right hH hL).trans hHL
  have := theta_error hf hh h0 h1 hhL (Y := z) (Y' := φ h z) (hφ h hh hH x)
  have e : φ h z - z - (h * th) • f (φ h z) - (h * (1 - th)) • f z = 0 := by
    nth_rewrite 1 [hφ h hh hH z]; abel
  rw [e, norm_zero, mul_zero, add_zero] at this
  exact this

theorem theta_firstOrder {φ : ℝ → E → E} {f : E → E} {L th H : ℝ} (hf : Lip f L) (h0 : 0 ≤ th) (h1 : th ≤ 1) (hH0 : 0 < H)
    (hHL : H * L ≤ 1 / 2) (hφ : ∀ h, 0 ≤ h → h ≤ H → ∀ x, φ h x = x + (h * th) • f (φ h x) + (h * (1 - th)) • f x) :
    FirstOrder φ f := by
  have hL := hf.1
  refine ⟨H, hH0, theta_stable hf h0 h1 hHL hφ, fun B => ⟨2 * L * (L * |B| + ‖f 0‖), by positivity, fun h hh hH x hx => ?_⟩⟩
  have hhL : h * L ≤ 1 / 2 := (mul_le_mul_of_nonneg_right hH hL).trans hHL
  have := theta_error hf hh h0 h1 hhL (Y := x) (Y' := x + h • f x) (hφ h hh hH x)
  rw [sub_self, norm_zero, mul_zero, zero_add] at this
  refine this.trans ?_
  have e : x + h • f x - x - (h * th) • f (x + h • f x) - (h * (1 - th)) • f x = -((h * th) • (f (x + h • f x) - f x)) := by module
  have e2 := hf.2 (x + h • f x) x
  have e3 := hf.bddOn x (hx.trans (le_abs_self B))
  rw [add_sub_cancel_left, norm_smul, Real.norm_eq_abs, abs_of_nonneg hh] at e2
  rw [e, norm_neg, norm_smul, Real.norm_eq_abs, abs_of_nonneg (by positivity : (0 : ℝ) ≤ h * th)]
  calc _ ≤ 2 * (h * 1 * (L * (h * (L * |B| + ‖f 0‖)))) := by
        refine mul_le_mul_of_nonneg_left (mul_le_mul (by gcongr) (e2.trans (by gcongr)) (norm_nonneg _) (by positivity)) (by norm_num)
    _ = _ := by ring

theorem trapezium_secondOrder {φ : ℝ → E → E} {f : E → E} {f' : E → E →L[ℝ] E} {L L2 H : ℝ} (hf : Smooth2 f f' L L2) (hH0 : 0 < H)
    (hHL : H * L ≤ 1 / 2) (hφ : ∀ h, 0 ≤ h → h ≤ H → ∀ x, φ h x = x + (h * (1 / 2)) • f (φ h x) + (h * (1 - 1 / 2)) • f x) :
    SecondOrder φ f f' := by
  have hL := hf.lip.1
  have hL2 := hf.lip2
  refine ⟨H, hH0, theta_stable hf.lip (by norm_num) (by norm_num) hHL hφ, fun B => ?_⟩
  set A := L * |B| + ‖f 0‖
  have hA : 0 ≤ A := by positivity
  set S := A + L * A * H
  have hS : 0 ≤ S := by positivity
  refine ⟨L2 * S ^ 2 + L * (L * A), by positivity, fun h hh hH x hx => ?_⟩
  have hhL : h * L ≤ 1 / 2 := (mul_le_mul_of_nonneg_right hH hL).trans hHL
  have e3 : ‖f x‖ ≤ A := hf.lip.bddOn x (hx.trans (le_abs_self B))
  have e4 : ‖f' x (f x)‖ ≤ L * A := ((f' x).le_opNorm _).trans (mul_le_mul (hf.bound x) e3 (norm_nonneg _) hL)
  set d : E := h • f x + (h ^ 2 / 2) • f' x (f x) with hd
  have n1 : ‖d‖ ≤ h * S := by
    rw [hd]
    refine (norm_add_le _ _).trans ?_
    rw [norm_smul, norm_smul, Real.norm_eq_abs, Real.norm_eq_abs, abs_of_nonneg hh, abs_of_nonneg (by positivity : (0 : ℝ) ≤ h ^ 2 / 2)]
    calc _ ≤ h * A + h ^ 2 / 2 * (L * A) := by gcongr
      _ ≤ h * A + h ^ 2 * (L * A) := by
        have : 0 ≤ h ^ 2 * (L * A) := by positivity
        linarith
      _ = h * (A + L * A * h) := by ring
      _ ≤ _ := by simp only [S]; gcongr
  have := theta_error hf.lip (th := 1 / 2) hh (by norm_num) (by norm_num) hhL (Y := x) (Y' := x + d) (hφ h hh hH x)
  rw [sub_self, norm_zero, mul_zero, zero_add] at this
  rw [add_assoc, ← hd]
  refine this.trans ?_
  have em : f' x d = h • f' x (f x) + (h ^ 2 / 2) • f' x (f' x (f x)) := by rw [hd, map_add, map_smul, map_smul]
  have e : x + d - x - (h * (1 / 2)) • f (x + d) - (h * (1 - 1 / 2)) • f x
      = -((h / 2) • ((f (x + d) - f x - f' x d) + (h ^ 2 / 2) • f' x (f' x (f x)))) := by
    rw [em, hd]; module
  rw [e, norm_neg, norm_smul, Real.norm_eq_abs, abs_of_nonneg (by positivity : (0 : ℝ) ≤ h / 2)]
  have e5 := hf.expand x d
  have hsq : ‖d‖ ^ 2 ≤ (h * S) ^ 2 := by gcongr
  have e6 : ‖f' x (f' x (f x))‖ ≤ L * (L * A) := ((f' x).le_opNorm _).trans (mul_le_mul (hf.bound x) e4 (norm_nonneg _) hL)
  have e7 : ‖(f (x + d) - f x - f' x d) + (h ^ 2 / 2) • f' x (f' x (f x))‖ ≤ L2 * (h * S) ^ 2 + h ^ 2 * (L * (L * A)) := by
    refine (norm_add_le _ _).trans (add_le_add (e5.trans (mul_le_mul_of_nonneg_left hsq hL2)) ?_)
    rw [norm_smul, Real.norm_eq_abs, abs_of_nonneg (by positivity : (0 : ℝ) ≤ h ^ 2 / 2)]
    calc _ ≤ h ^ 2 / 2 * (L * (L * A)) := by gcongr
      _ ≤ _ := by
        have : 0 ≤ h ^ 2 * (L * (L * A)) := by positivity
        linarith
  calc _ ≤ 2 * (h / 2 * (L2 * (h * S) ^ 2 + h ^ 2 * (L * (L * A)))) := by gcongr
    _ = _ := by ring

end Gusto.Convergence
