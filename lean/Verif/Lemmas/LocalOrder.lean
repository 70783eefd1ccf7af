import Verif.Spec.LocalOrder
import Verif.Lemmas.Convergence
import Mathlib.Analysis.Calculus.MeanValue
import Mathlib.Analysis.Normed.Operator.Bilinear

set_option autoImplicit false
set_option linter.unusedSectionVars false
set_option linter.unusedSimpArgs false

/-! # The calculus of families of maps depending on a timestep -/

namespace Gusto.Convergence
open Topology Filter Set

variable {E F G : Type*} [NormedAddCommGroup E] [NormedSpace ℝ E] [NormedAddCommGroup F] [NormedSpace ℝ F]
  [NormedAddCommGroup G] [NormedSpace ℝ G]

theorem small_nonneg : ∀ᶠ h in 𝓝[≥] (0 : ℝ), 0 ≤ h := self_mem_nhdsWithin

theorem small_le {H : ℝ} (hH : 0 < H) : ∀ᶠ h in 𝓝[≥] (0 : ℝ), h ≤ H :=
  mem_nhdsWithin_of_mem_nhds (Iic_mem_nhds hH)

theorem exists_small {P : ℝ → Prop} (h : ∀ᶠ h in 𝓝[≥] (0 : ℝ), P h) : ∃ H, 0 < H ∧ ∀ h, 0 ≤ h → h ≤ H → P h := by
  obtain ⟨H, hH, hs⟩ := mem_nhdsGE_iff_exists_Icc_subset.1 h
  exact ⟨H, hH, fun h h0 h1 => hs ⟨h0, h1⟩⟩

/-! ### `UL` -/

theorem UL.of_lip {f : E → F} (hf : LocalLip f) : UL (fun _ => f) := fun B => by
  obtain ⟨c, c0, hc⟩ := hf (max B 0)
  refine ⟨c * max B 0 + ‖f 0‖ + c, by positivity, Eventually.of_forall fun h x z hx hz => ?_⟩
  have hx' : ‖x‖ ≤ max B 0 := hx.trans (le_max_left _ _)
  have hz' : ‖z‖ ≤ max B 0 := hz.trans (le_max_left _ _)
  have h1 := hc x 0 hx' (by simp)
  rw [sub_zero] at h1
  have h2 : ‖f x‖ ≤ ‖f x - f 0‖ + ‖f 0‖ := by simpa using norm_add_le (f x - f 0) (f 0)
  have h3 := mul_le_mul_of_nonneg_left hx' c0
  have h5 : 0 ≤ c * max B 0 + ‖f 0‖ := by positivity
  refine ⟨by linarith, (hc x z hx' hz').trans ?_⟩
  have h4 : 0 ≤ ‖x - z‖ := norm_nonneg _
  nlinarith

theorem UL.id : UL (fun (_ : ℝ) (x : E) => x) := UL.of_lip fun _ => ⟨1, zero_le_one, fun x z _ _ => by simp⟩

theorem UL.const (a : F) : UL (fun (_ : ℝ) (_ : E) => a) := UL.of_lip fun _ => ⟨0, le_rfl, fun x z _ _ => by simp⟩

theorem UL.add {q r : ℝ → E → F} (hq : UL q) (hr : UL r) : UL (fun h x => q h x + r h x) := fun B => by
  obtain ⟨c, c0, hc⟩ := hq B
  obtain ⟨d, d0, hd⟩ := hr B
  refine ⟨c + d, by positivity, ?_⟩
  filter_upwards [hc, hd] with h h1 h2 x z hx hz
  refine ⟨(norm_add_le _ _).trans (add_le_add (h1 x z hx hz).1 (h2 x z hx hz).1), ?_⟩
  rw [add_sub_add_comm, add_mul]
  exact (norm_add_le _ _).trans (add_le_add (h1 x z hx hz).2 (h2 x z hx hz).2)

theorem UL.comp {q : ℝ → F → G} {a : ℝ → E → F} (hq : UL q) (ha : UL a) : UL (fun h x => q h (a h x)) := fun B => by
  obtain ⟨c, c0, hc⟩ := ha B
  obtain ⟨d, d0, hd⟩ := hq c
  refine ⟨d + d * c, by positivity, ?_⟩
  filter_upwards [hc, hd] with h h1 h2 x z hx hz
  obtain ⟨e1, e2⟩ := h1 x z hx hz
  obtain ⟨e3, -⟩ := h1 z x hz hx
  obtain ⟨e4, e5⟩ := h2 _ _ e1 e3
  refine ⟨e4.trans (by nlinarith), e5.trans ?_⟩
  have := mul_le_mul_of_nonneg_left e2 d0
  nlinarith [norm_nonneg (x - z)]

theorem UL.clm {q : ℝ → E → F} (hq : UL q) (L : F →L[ℝ] G) : UL (fun h x => L (q h x)) :=
  UL.comp (q := fun _ => L) (UL.of_lip fun _ => ⟨‖L‖, norm_nonneg _, fun x z _ _ => by
    rw [← map_sub]; exact L.le_opNorm _⟩) hq

theorem UL.smul {q : ℝ → E → F} (hq : UL q) (w : ℝ) : UL (fun h x => w • q h x) :=
  hq.clm (w • ContinuousLinearMap.id ℝ F)

theorem UL.neg {q : ℝ → E → F} (hq : UL q) : UL (fun h x => - q h x) := by
  simpa using hq.smul (-1)

theorem UL.sub {q r : ℝ → E → F} (hq : UL q) (hr : UL r) : UL (fun h x => q h x - r h x) := by
  simpa [sub_eq_add_neg] using hq.add hr.neg

theorem UL.smulH {q : ℝ → E → F} (hq : UL q) : UL (fun h x => h • q h x) := fun B => by
  obtain ⟨c, c0, hc⟩ := hq B
  refine ⟨c, c0, ?_⟩
  filter_upwards [hc, small_nonneg, small_le one_pos] with h h1 h0 hl x z hx hz
  obtain ⟨e1, e2⟩ := h1 x z hx hz
  rw [← smul_sub, norm_smul, norm_smul, Real.norm_eq_abs, abs_of_nonneg h0]
  constructor
  · nlinarith [norm_nonneg (q h x)]
  · nlinarith [norm_nonneg (q h x - q h z)]

theorem UL.prod {q : ℝ → E → F} {r : ℝ → E → G} (hq : UL q) (hr : UL r) : UL (fun h x => (q h x, r h x)) := fun B => by
  obtain ⟨c, c0, hc⟩ := hq B
  obtain ⟨d, d0, hd⟩ := hr B
  refine ⟨c + d, by positivity, ?_⟩
  filter_upwards [hc, hd] with h h1 h2 x z hx hz
  obtain ⟨e1, e2⟩ := h1 x z hx hz
  obtain ⟨e3, e4⟩ := h2 x z hx hz
  have h0 := norm_nonneg (x - z)
  refine ⟨?_, ?_⟩
  · rw [Prod.norm_def]; exact max_le (by linarith) (by linarith)
  · rw [Prod.norm_def]; exact max_le (by simp only [Prod.fst_sub]; nlinarith) (by simp only [Prod.snd_sub]; nlinarith)

/-- A family of linear maps applied to a family of vectors. -/
theorem UL.apply {A : ℝ → E → F →L[ℝ] G} {q : ℝ → E → F} (hA : UL A) (hq : UL q) : UL (fun h x => A h x (q h x)) := fun B => by
  obtain ⟨c, c0, hc⟩ := hA B
  obtain ⟨d, d0, hd⟩ := hq B
  refine ⟨c * d + c * d, by positivity, ?_⟩
  filter_upwards [hc, hd] with h h1 h2 x z hx hz
  obtain ⟨e1, e2⟩ := h1 x z hx hz
  obtain ⟨e1', -⟩ := h1 z x hz hx
  obtain ⟨e3, e4⟩ := h2 x z hx hz
  refine ⟨((A h x).le_opNorm _).trans ?_, ?_⟩
  · have := mul_le_mul e1 e3 (norm_nonneg _) c0
    nlinarith [mul_nonneg c0 d0]
  · have e : A h x (q h x) - A h z (q h z) = (A h x - A h z) (q h x) + A h z (q h x - q h z) := by simp
    rw [e]
    have f1 := ((A h x - A h z).le_opNorm (q h x)).trans (mul_le_mul e2 e3 (norm_nonneg _) (by positivity))
    have f2 := ((A h z).le_opNorm (q h x - q h z)).trans (mul_le_mul e1' e4 (norm_nonneg _) c0)
    calc _ ≤ _ := norm_add_le _ _
      _ ≤ c * ‖x - z‖ * d + c * (d * ‖x - z‖) := add_le_add f1 f2
      _ = _ := by ring

section pi
variable {ι : Type*} [Fintype ι] {V : ι → Type*} [∀ i, NormedAddCommGroup (V i)] [∀ i, NormedSpace ℝ (V i)]

theorem UL.coord {q : ℝ → E → ∀ i, V i} (hq : UL q) (i : ι) : UL (fun h x => q h x i) :=
  hq.clm (ContinuousLinearMap.proj i)

theorem UL.pi {q : ℝ → E → ∀ i, V i} (hq : ∀ i, UL (fun h x => q h x i)) : UL q := fun B => by
  choose c c0 hc using fun i => hq i B
  refine ⟨∑ i, c i, Finset.sum_nonneg fun i _ => c0 i, ?_⟩
  filter_upwards [eventually_all.2 hc] with h h1 x z hx hz
  have hle : ∀ i, c i ≤ ∑ i, c i := fun i => Finset.single_le_sum (fun i _ => c0 i) (Finset.mem_univ i)
  have hs : 0 ≤ ∑ i, c i := Finset.sum_nonneg fun i _ => c0 i
  refine ⟨(pi_norm_le_iff_of_nonneg hs).2 fun i => ((h1 i x z hx hz).1).trans (hle i),
    (pi_norm_le_iff_of_nonneg (by positivity)).2 fun i => ((h1 i x z hx hz).2).trans ?_⟩
  exact mul_le_mul_of_nonneg_right (hle i) (norm_nonneg _)

end pi

/-! ### `Near` -/

theorem Near.refl (p : ℕ) (q : ℝ → E → F) : Near p q q := fun _ => ⟨0, le_rfl, Eventually.of_forall fun h x _ => by simp⟩

theorem Near.symm {p : ℕ} {q r : ℝ → E → F} (h1 : Near p q r) : Near p r q := fun B => by
  obtain ⟨c, c0, hc⟩ := h1 B
  exact ⟨c, c0, hc.mono fun h hh x hx => by rw [norm_sub_rev]; exact hh x hx⟩

theorem Near.trans {p : ℕ} {q r s : ℝ → E → F} (h1 : Near p q r) (h2 : Near p r s) : Near p q s := fun B => by
  obtain ⟨c, c0, hc⟩ := h1 B
  obtain ⟨d, d0, hd⟩ := h2 B
  refine ⟨c + d, by positivity, ?_⟩
  filter_upwards [hc, hd] with h e1 e2 x hx
  have := norm_sub_le_norm_sub_add_norm_sub (q h x) (r h x) (s h x)
  rw [add_mul]
  exact this.trans (add_le_add (e1 x hx) (e2 x hx))

theorem Near.mono {p p' : ℕ} {q r : ℝ → E → F} (h1 : Near p q r) (hp : p' ≤ p) : Near p' q r := fun B => by
  obtain ⟨c, c0, hc⟩ := h1 B
  refine ⟨c, c0, ?_⟩
  filter_upwards [hc, small_nonneg, small_le one_pos] with h e1 h0 hl x hx
  exact (e1 x hx).trans (mul_le_mul_of_nonneg_left (pow_le_pow_of_le_one h0 hl hp) c0)

theorem Near.add {p : ℕ} {q r q' r' : ℝ → E → F} (h1 : Near p q q') (h2 : Near p r r') :
    Near p (fun h x => q h x + r h x) (fun h x => q' h x + r' h x) := fun B => by
  obtain ⟨c, c0, hc⟩ := h1 B
  obtain ⟨d, d0, hd⟩ := h2 B
  refine ⟨c + d, by positivity, ?_⟩
  filter_upwards [hc, hd] with h e1 e2 x hx
  rw [add_sub_add_comm, add_mul]
  exact (norm_add_le _ _).trans (add_le_add (e1 x hx) (e2 x hx))

theorem Near.clm {p : ℕ} {q r : ℝ → E → F} (h1 : Near p q r) (L : F →L[ℝ] G) :
    Near p (fun h x => L (q h x)) (fun h x => L (r h x)) := fun B => by
  obtain ⟨c, c0, hc⟩ := h1 B
  refine ⟨‖L‖ * c, by positivity, ?_⟩
  filter_upwards [hc] with h e1 x hx
  rw [← map_sub]
  exact (L.le_opNorm _).trans ((mul_le_mul_of_nonneg_left (e1 x hx) (norm_nonneg _)).trans (by rw [mul_assoc]))

theorem Near.smul {p : ℕ} {q r : ℝ → E → F} (h1 : Near p q r) (w : ℝ) : Near p (fun h x => w • q h x) (fun h x => w • r h x) :=
  h1.clm (w • ContinuousLinearMap.id ℝ F)

theorem Near.neg {p : ℕ} {q r : ℝ → E → F} (h1 : Near p q r) : Near p (fun h x => - q h x) (fun h x => - r h x) := by
  simpa using h1.smul (-1)

theorem Near.sub {p : ℕ} {q r q' r' : ℝ → E → F} (h1 : Near p q q') (h2 : Near p r r') :
    Near p (fun h x => q h x - r h x) (fun h x => q' h x - r' h x) := by
  simpa [sub_eq_add_neg] using h1.add h2.neg

theorem Near.smulH {p : ℕ} {q r : ℝ → E → F} (h1 : Near p q r) : Near (p + 1) (fun h x => h • q h x) (fun h x => h • r h x) :=
  fun B => by
  obtain ⟨c, c0, hc⟩ := h1 B
  refine ⟨c, c0, ?_⟩
  filter_upwards [hc, small_nonneg] with h e1 h0 x hx
  rw [← smul_sub, norm_smul, Real.norm_eq_abs, abs_of_nonneg h0]
  calc _ ≤ h * (c * h ^ p) := mul_le_mul_of_nonneg_left (e1 x hx) h0
    _ = _ := by ring

/-- Two bounded families are close to the order zero. -/
theorem Near.zero {q r : ℝ → E → F} (hq : UL q) (hr : UL r) : Near 0 q r := fun B => by
  obtain ⟨c, c0, hc⟩ := hq B
  obtain ⟨d, d0, hd⟩ := hr B
  refine ⟨c + d, by positivity, ?_⟩
  filter_upwards [hc, hd] with h e1 e2 x hx
  rw [pow_zero, mul_one]
  exact (norm_sub_le _ _).trans (add_le_add (e1 x x hx hx).1 (e2 x x hx hx).1)

/-- `h` times a bounded family is `O(h)`. -/
theorem Near.drop {q r : ℝ → E → F} (hr : UL r) : Near 1 (fun h x => q h x + h • r h x) q := by
  have := (Near.refl 1 q).add (Near.smulH (Near.zero hr (UL.const (0 : F))))
  simpa using this

theorem Near.comp {p : ℕ} {q : ℝ → F → G} {a b : ℝ → E → F} (hq : UL q) (ha : UL a) (hb : UL b) (h1 : Near p a b) :
    Near p (fun h x => q h (a h x)) (fun h x => q h (b h x)) := fun B => by
  obtain ⟨c, c0, hc⟩ := ha B
  obtain ⟨d, d0, hd⟩ := hb B
  obtain ⟨k, k0, hk⟩ := hq (c + d)
  obtain ⟨m, m0, hm⟩ := h1 B
  refine ⟨k * m, by positivity, ?_⟩
  filter_upwards [hc, hd, hk, hm] with h e1 e2 e3 e4 x hx
  have f1 := (e1 x x hx hx).1
  have f2 := (e2 x x hx hx).1
  refine (e3 _ _ (by linarith) (by linarith)).2.trans ?_
  rw [mul_assoc]
  exact mul_le_mul_of_nonneg_left (e4 x hx) k0

theorem Near.comp_left {p : ℕ} {q r : ℝ → F → G} {a : ℝ → E → F} (h1 : Near p q r) (ha : UL a) :
    Near p (fun h x => q h (a h x)) (fun h x => r h (a h x)) := fun B => by
  obtain ⟨c, c0, hc⟩ := ha B
  obtain ⟨m, m0, hm⟩ := h1 c
  refine ⟨m, m0, ?_⟩
  filter_upwards [hc, hm] with h e1 e2 x hx
  exact e2 _ (e1 x x hx hx).1

theorem Near.prod {p : ℕ} {q q' : ℝ → E → F} {r r' : ℝ → E → G} (h1 : Near p q q') (h2 : Near p r r') :
    Near p (fun h x => (q h x, r h x)) (fun h x => (q' h x, r' h x)) := fun B => by
  obtain ⟨c, c0, hc⟩ := h1 B
  obtain ⟨d, d0, hd⟩ := h2 B
  refine ⟨c + d, by positivity, ?_⟩
  filter_upwards [hc, hd, small_nonneg] with h e1 e2 h0 x hx
  have h3 : 0 ≤ h ^ p := pow_nonneg h0 p
  rw [Prod.norm_def]
  exact max_le (by simp only [Prod.fst_sub]; nlinarith [e1 x hx]) (by simp only [Prod.snd_sub]; nlinarith [e2 x hx])

theorem Near.apply {p : ℕ} {A A' : ℝ → E → F →L[ℝ] G} {q q' : ℝ → E → F} (hA : UL A) (hq' : UL q') (h1 : Near p A A')
    (h2 : Near p q q') : Near p (fun h x => A h x (q h x)) (fun h x => A' h x (q' h x)) := fun B => by
  obtain ⟨c, c0, hc⟩ := hA B
  obtain ⟨d, d0, hd⟩ := hq' B
  obtain ⟨k, k0, hk⟩ := h1 B
  obtain ⟨m, m0, hm⟩ := h2 B
  refine ⟨c * m + k * d, by positivity, ?_⟩
  filter_upwards [hc, hd, hk, hm, small_nonneg] with h e1 e2 e3 e4 h0 x hx
  have e : A h x (q h x) - A' h x (q' h x) = A h x (q h x - q' h x) + (A h x - A' h x) (q' h x) := by simp
  rw [e]
  have h3 : 0 ≤ h ^ p := pow_nonneg h0 p
  have f1 := ((A h x).le_opNorm (q h x - q' h x)).trans (mul_le_mul (e1 x x hx hx).1 (e4 x hx) (norm_nonneg _) c0)
  have f2 := ((A h x - A' h x).le_opNorm (q' h x)).trans
    (mul_le_mul (e3 x hx) (e2 x x hx hx).1 (norm_nonneg _) (by positivity))
  calc _ ≤ _ := norm_add_le _ _
    _ ≤ c * (m * h ^ p) + k * h ^ p * d := add_le_add f1 f2
    _ = _ := by ring

section pi
variable {ι : Type*} [Fintype ι] {V : ι → Type*} [∀ i, NormedAddCommGroup (V i)] [∀ i, NormedSpace ℝ (V i)]

theorem Near.coord {p : ℕ} {q r : ℝ → E → ∀ i, V i} (h1 : Near p q r) (i : ι) : Near p (fun h x => q h x i) (fun h x => r h x i) :=
  h1.clm (ContinuousLinearMap.proj i)

theorem Near.pi {p : ℕ} {q r : ℝ → E → ∀ i, V i} (h1 : ∀ i, Near p (fun h x => q h x i) (fun h x => r h x i)) : Near p q r :=
  fun B => by
  choose c c0 hc using fun i => h1 i B
  refine ⟨∑ i, c i, Finset.sum_nonneg fun i _ => c0 i, ?_⟩
  filter_upwards [eventually_all.2 hc, small_nonneg] with h e1 h0 x hx
  have hle : ∀ i, c i ≤ ∑ i, c i := fun i => Finset.single_le_sum (fun i _ => c0 i) (Finset.mem_univ i)
  have hs : 0 ≤ ∑ i, c i := Finset.sum_nonneg fun i _ => c0 i
  refine (pi_norm_le_iff_of_nonneg (by positivity)).2 fun i => (e1 i x hx).trans ?_
  exact mul_le_mul_of_nonneg_right (hle i) (pow_nonneg h0 p)

end pi

/-! ### Taylor expansion -/

theorem LocalSmooth.localLip {f : E → F} {f' : E → E →L[ℝ] F} (hf : LocalSmooth f f') : LocalLip f := fun B => by
  obtain ⟨c, c0, hc⟩ := hf.lip (max B 0)
  refine ⟨c * max B 0 + ‖f' 0‖, by positivity, fun x z hx hz => ?_⟩
  have hb : ∀ w ∈ Metric.closedBall (0 : E) (max B 0), ‖f' w‖ ≤ c * max B 0 + ‖f' 0‖ := by
    intro w hw
    have hw' : ‖w‖ ≤ max B 0 := by simpa using hw
    have h1 := hc w 0 hw' (by simp)
    rw [sub_zero] at h1
    have h2 : ‖f' w‖ ≤ ‖f' w - f' 0‖ + ‖f' 0‖ := by simpa using norm_add_le (f' w - f' 0) (f' 0)
    have h3 := mul_le_mul_of_nonneg_left hw' c0
    linarith
  have hmem : ∀ w : E, ‖w‖ ≤ B → w ∈ Metric.closedBall (0 : E) (max B 0) := fun w hw => by
    simpa using Or.inl hw
  exact (convex_closedBall (0 : E) (max B 0)).norm_image_sub_le_of_norm_hasFDerivWithin_le
    (fun w _ => (hf.deriv w).hasFDerivWithinAt) hb (hmem z hz) (hmem x hx)

theorem LocalSmooth.taylor {f : E → F} {f' : E → E →L[ℝ] F} (hf : LocalSmooth f f') (B : ℝ) :
    ∃ c, 0 ≤ c ∧ ∀ x z, ‖x‖ ≤ B → ‖z‖ ≤ B → ‖f z - f x - f' x (z - x)‖ ≤ c * ‖z - x‖ ^ 2 := by
  obtain ⟨c, c0, hc⟩ := hf.lip (max B 0)
  refine ⟨c, c0, fun x z hx hz => ?_⟩
  have hx' : ‖x‖ ≤ max B 0 := hx.trans (le_max_left _ _)
  have hz' : ‖z‖ ≤ max B 0 := hz.trans (le_max_left _ _)
  have key := (convex_segment x z).norm_image_sub_le_of_norm_hasFDerivWithin_le' (f := f) (f' := f') (φ := f' x)
    (C := c * ‖z - x‖) (fun w _ => (hf.deriv w).hasFDerivWithinAt) (fun w hw => by
      have hwn : ‖w‖ ≤ max B 0 := by
        have := (convex_closedBall (0 : E) (max B 0)).segment_subset (by simpa using hx') (by simpa using hz') hw
        simpa using this
      refine (hc w x hwn hx').trans (mul_le_mul_of_nonneg_left ?_ c0)
      obtain ⟨a, b, ha, hb, hab, rfl⟩ := hw
      have : a • x + b • z - x = b • (z - x) := by
        have : a = 1 - b := by linarith
        subst this; module
      rw [this, norm_smul, Real.norm_eq_abs, abs_of_nonneg hb]
      nlinarith [norm_nonneg (z - x)]) (left_mem_segment ℝ x z) (right_mem_segment ℝ x z)
  calc _ ≤ c * ‖z - x‖ * ‖z - x‖ := key
    _ = _ := by ring

/-- First-order Taylor expansion of a family. -/
theorem Near.taylor {f : F → G} {f' : F → F →L[ℝ] G} (hf : LocalSmooth f f') {a b : ℝ → E → F} (ha : UL a) (hb : UL b) :
    Near 2 (fun h x => f (a h x + h • b h x)) (fun h x => f (a h x) + h • f' (a h x) (b h x)) := fun B => by
  obtain ⟨c, c0, hc⟩ := ha B
  obtain ⟨d, d0, hd⟩ := hb B
  obtain ⟨k, k0, hk⟩ := hf.taylor (c + d)
  refine ⟨k * d ^ 2, by positivity, ?_⟩
  filter_upwards [hc, hd, small_nonneg, small_le one_pos] with h e1 e2 h0 h1 x hx
  have f1 := (e1 x x hx hx).1
  have f2 := (e2 x x hx hx).1
  have f3 : ‖h • b h x‖ ≤ h * d := by
    rw [norm_smul, Real.norm_eq_abs, abs_of_nonneg h0]; exact mul_le_mul_of_nonneg_left f2 h0
  have f4 : h * d ≤ d := by nlinarith
  have := hk (a h x) (a h x + h • b h x) (by linarith) ((norm_add_le _ _).trans (by linarith))
  rw [add_sub_cancel_left, map_smul] at this
  rw [← sub_sub]
  refine this.trans ?_
  have : ‖h • b h x‖ ^ 2 ≤ (h * d) ^ 2 := pow_le_pow_left₀ (norm_nonneg _) f3 2
  nlinarith

/-! ### Steps -/

theorem StepOf.id (p : ℕ) : StepOf p (fun _ (x : E) => x) (fun _ _ => 0) :=
  ⟨fun _ _ => 0, UL.const 0, Near.refl _ _, Eventually.of_forall fun h x => by simp⟩

theorem StepOf.comp {φ ψ : ℝ → E → E} {f g : E → E} (hg : LocalLip g) (h1 : StepOf 1 φ fun _ => f) (h2 : StepOf 1 ψ fun _ => g) :
    StepOf 1 (fun h x => ψ h (φ h x)) (fun _ x => f x + g x) := by
  obtain ⟨q, hq, hqf, hφ⟩ := h1
  obtain ⟨r, hr, hrg, hψ⟩ := h2
  have hb : UL (fun h x => x + h • q h x) := UL.id.add hq.smulH
  refine ⟨fun h x => q h x + r h (x + h • q h x), hq.add (hr.comp hb), ?_, ?_⟩
  · refine hqf.add ((hrg.comp_left hb).trans ?_)
    exact Near.comp (q := fun _ => g) (UL.of_lip hg) hb UL.id (Near.drop hq)
  · filter_upwards [hφ, hψ] with h e1 e2 x
    simp only [e1, e2, smul_add, add_assoc]

theorem LocalLip.add {f g : E → F} (hf : LocalLip f) (hg : LocalLip g) : LocalLip (fun x => f x + g x) := fun B => by
  obtain ⟨c, c0, hc⟩ := hf B
  obtain ⟨d, d0, hd⟩ := hg B
  refine ⟨c + d, by positivity, fun x z hx hz => ?_⟩
  rw [add_sub_add_comm, add_mul]
  exact (norm_add_le _ _).trans (add_le_add (hc x z hx hz) (hd x z hx hz))

theorem LocalLip.zero : LocalLip (fun _ : E => (0 : F)) := fun _ => ⟨0, le_rfl, fun x z _ _ => by simp⟩

theorem LocalLip.smul {f : E → F} (hf : LocalLip f) (w : ℝ) : LocalLip (fun x => w • f x) := fun B => by
  obtain ⟨c, c0, hc⟩ := hf B
  refine ⟨|w| * c, by positivity, fun x z hx hz => ?_⟩
  rw [← smul_sub, norm_smul, Real.norm_eq_abs, mul_assoc]
  exact mul_le_mul_of_nonneg_left (hc x z hx hz) (abs_nonneg _)

theorem LocalLip.listSum {κ : Type*} {f : κ → E → F} (es : List κ) (hf : ∀ i ∈ es, LocalLip (f i)) :
    LocalLip (fun x => (es.map fun i => f i x).sum) := by
  induction es with
  | nil => simpa using LocalLip.zero
  | cons i es ih => simpa using (hf i (by simp)).add (ih fun j hj => hf j (by simp [hj]))

/-- Steps applied one after the other. -/
theorem StepOf.list {κ : Type*} {φ : κ → ℝ → E → E} {f : κ → E → E} (es : List κ) (hφ : ∀ i ∈ es, StepOf 1 (φ i) fun _ => f i)
    (hf : ∀ i ∈ es, LocalLip (f i)) :
    StepOf 1 (fun h x => es.foldl (fun y i => φ i h y) x) (fun _ x => (es.map fun i => f i x).sum) := by
  induction es with
  | nil => exact StepOf.id 1
  | cons i es ih =>
    have h1 := StepOf.comp (LocalLip.listSum es fun j hj => hf j (by simp [hj])) (hφ i (by simp))
      (ih (fun j hj => hφ j (by simp [hj])) fun j hj => hf j (by simp [hj]))
    simpa using h1

/-! ### Convergence -/

/-- Iterating a map that is stable and consistent near the solution. -/
theorem iterate_error_local {Φ : E → E} {y : ℝ → E} {lam D h T : ℝ} {p : ℕ} (hl : 0 ≤ lam) (hD : 0 ≤ D) (hh : 0 ≤ h)
    (hT : 0 ≤ T)
    (hsmall : Real.exp (T * lam) * (T * D * h ^ p) ≤ 1)
    (hstab : ∀ t ∈ Icc 0 T, ∀ x, ‖x - y t‖ ≤ 1 → ‖Φ x - Φ (y t)‖ ≤ (1 + h * lam) * ‖x - y t‖)
    (hcons : ∀ t, 0 ≤ t → t + h ≤ T → ‖Φ (y t) - y (t + h)‖ ≤ D * h ^ (p + 1)) (N : ℕ) (hN : N * h ≤ T) :
    ‖Φ^[N] (y 0) - y (N * h)‖ ≤ Real.exp (T * lam) * (T * D * h ^ p) := by
  induction N using Nat.strong_induction_on with
  | _ N ih =>
    have := global_error (e := fun n => ‖Φ^[n] (y 0) - y (n * h)‖) (N := N) hl hD hh hN (norm_nonneg _) fun n hn => by
      have hn' : (n : ℝ) + 1 ≤ N := by exact_mod_cast hn
      have hnT : (n : ℝ) * h ≤ T := by nlinarith
      have e0 := (ih n hn hnT).trans hsmall
      have e1 := hcons (n * h) (by positivity) (by nlinarith)
      have e2 := hstab (n * h) ⟨by positivity, hnT⟩ (Φ^[n] (y 0)) e0
      have e3 : ((n + 1 : ℕ) : ℝ) * h = n * h + h := by push_cast; ring
      simp only [Function.iterate_succ_apply', e3]
      calc _ ≤ ‖Φ (Φ^[n] (y 0)) - Φ (y (n * h))‖ + ‖Φ (y (n * h)) - y (n * h + h)‖ := norm_sub_le_norm_sub_add_norm_sub _ _ _
        _ ≤ _ := add_le_add e2 e1
    simpa using this

/-- A method whose step expands like the solution converges. -/
theorem StepOf.converges {p : ℕ} (hp : 1 ≤ p) {φ a : ℝ → E → E} (h1 : StepOf p φ a) {y : ℝ → E} {T : ℝ} (hT : 0 ≤ T)
    (hyc : ContinuousOn y (Icc 0 T))
    (hexp : ∃ C, 0 ≤ C ∧ ∀ᶠ h in 𝓝[≥] (0 : ℝ), ∀ t, 0 ≤ t → t + h ≤ T → ‖y (t + h) - (y t + h • a h (y t))‖ ≤ C * h ^ (p + 1)) :
    ∃ C h0 : ℝ, 0 < h0 ∧ ∀ h, 0 ≤ h → h ≤ h0 → ∀ N : ℕ, N * h ≤ T → ‖(φ h)^[N] (y 0) - y (N * h)‖ ≤ C * h ^ p := by
  obtain ⟨q, hq, hqa, hφ⟩ := h1
  obtain ⟨B, hB⟩ := isCompact_Icc.exists_bound_of_continuousOn hyc
  obtain ⟨c, c0, hc⟩ := hq (B + 1)
  obtain ⟨d, d0, hd⟩ := hqa B
  obtain ⟨C, C0, hC⟩ := hexp
  set M := Real.exp (T * c) * (T * (d + C)) with hM
  have hM0 : 0 ≤ M := by positivity
  have hs : ∀ᶠ h in 𝓝[≥] (0 : ℝ), M * h ^ p ≤ 1 := by
    filter_upwards [small_nonneg, small_le (H := 1 / (M + 1)) (by positivity), small_le one_pos] with h h0 hl h1
    have e1 : h ^ p ≤ h := by
      calc h ^ p ≤ h ^ 1 := pow_le_pow_of_le_one h0 h1 hp
        _ = h := pow_one h
    have e2 : h * (M + 1) ≤ 1 := by rwa [le_div_iff₀ (by positivity)] at hl
    nlinarith
  obtain ⟨H, hH, hall⟩ := exists_small (((hc.and hd).and (hC.and hs)).and hφ)
  refine ⟨M, H, hH, fun h h0 hl N hN => ?_⟩
  obtain ⟨⟨⟨f1, f2⟩, f3, f4⟩, hφ⟩ := hall h h0 hl
  have e : Real.exp (T * c) * (T * (d + C) * h ^ p) = M * h ^ p := by rw [hM]; ring
  rw [← e]
  refine iterate_error_local (Φ := φ h) (y := y) (D := d + C) c0 (by positivity) h0 hT (by rw [e]; exact f4) ?_ ?_ N hN
  · intro t ht x hx
    have hy := hB t ht
    have hx' : ‖x‖ ≤ B + 1 := by
      have := norm_add_le (x - y t) (y t)
      rw [sub_add_cancel] at this
      linarith
    have := (f1 x (y t) hx' (by linarith)).2
    rw [hφ, hφ, add_sub_add_comm, ← smul_sub]
    refine (norm_add_le _ _).trans ?_
    rw [norm_smul, Real.norm_eq_abs, abs_of_nonneg h0]
    nlinarith [mul_le_mul_of_nonneg_left this h0]
  · intro t ht hth
    have e1 := f2 (y t) (hB t ⟨ht, by linarith⟩)
    have e2 := f3 t ht hth
    have e3 : φ h (y t) - y (t + h) = h • (q h (y t) - a h (y t)) - (y (t + h) - (y t + h • a h (y t))) := by
      rw [hφ, smul_sub]; abel
    rw [e3]
    refine (norm_sub_le _ _).trans ?_
    rw [norm_smul, Real.norm_eq_abs, abs_of_nonneg h0]
    calc _ ≤ h * (d * h ^ p) + C * h ^ (p + 1) := add_le_add (mul_le_mul_of_nonneg_left e1 h0) e2
      _ = _ := by ring

/-- Expansion of the exact solution, first order. -/
theorem IsSol.expand1 {f : E → E} (hf : LocalLip f) {y : ℝ → E} {T : ℝ} (hy : IsSol f y T) :
    ∃ C, 0 ≤ C ∧ ∀ t k, 0 ≤ t → 0 ≤ k → t + k ≤ T →
      ‖y (t + k) - y t‖ ≤ C * k ∧ ‖f (y (t + k)) - f (y t)‖ ≤ C * k ∧ ‖y (t + k) - (y t + k • f (y t))‖ ≤ C * k ^ 2 := by
  obtain ⟨B, hB⟩ := isCompact_Icc.exists_bound_of_continuousOn hy.continuousOn
  obtain ⟨L, L0, hL⟩ := hf (max B 0)
  have hB' : ∀ t ∈ Icc 0 T, ‖y t‖ ≤ max B 0 := fun t ht => (hB t ht).trans (le_max_left _ _)
  set A := L * max B 0 + ‖f 0‖ with hA
  have hA0 : 0 ≤ A := by positivity
  have hfb : ∀ t ∈ Icc 0 T, ‖f (y t)‖ ≤ A := fun t ht => by
    have h1 := hL (y t) 0 (hB' t ht) (by simp)
    rw [sub_zero] at h1
    have h2 : ‖f (y t)‖ ≤ ‖f (y t) - f 0‖ + ‖f 0‖ := by simpa using norm_add_le (f (y t) - f 0) (f 0)
    have h3 := mul_le_mul_of_nonneg_left (hB' t ht) L0
    linarith
  have g1 : ∀ t k, 0 ≤ t → 0 ≤ k → t + k ≤ T → ‖y (t + k) - y t‖ ≤ A * k := fun t k ht hk hT =>
    mean_value ht hk hT hy fun s hs => hfb s ⟨ht.trans hs.1, hs.2.trans hT⟩
  have g2 : ∀ t k, 0 ≤ t → 0 ≤ k → t + k ≤ T → ‖f (y (t + k)) - f (y t)‖ ≤ L * A * k := fun t k ht hk hT => by
    have := hL (y (t + k)) (y t) (hB' _ ⟨by linarith, hT⟩) (hB' _ ⟨ht, by linarith⟩)
    exact this.trans (by rw [mul_assoc]; exact mul_le_mul_of_nonneg_left (g1 t k ht hk hT) L0)
  refine ⟨A + L * A, by positivity, fun t k ht hk hT => ⟨(g1 t k ht hk hT).trans ?_, (g2 t k ht hk hT).trans ?_, ?_⟩⟩
  · exact mul_le_mul_of_nonneg_right (by nlinarith) hk
  · exact mul_le_mul_of_nonneg_right (by nlinarith) hk
  · have h2 := mean_value (g := fun s => y s - (s - t) • f (y t)) (g' := fun s => f (y s) - f (y t))
      (C := L * A * k) ht hk hT (fun s hs => by
        have e1 : HasDerivWithinAt (fun s => y s - (s - t) • f (y t)) (f (y s) - (1 : ℝ) • f (y t)) (Icc 0 T) s :=
          (hy s hs).sub (((hasDerivWithinAt_id s (Icc 0 T)).sub_const t).smul_const (f (y t)))
        simpa using e1) (fun s hs => by
        have e1 := g2 t (s - t) ht (by linarith [hs.1]) (by linarith [hs.2])
        have e3 : t + (s - t) = s := by ring
        rw [e3] at e1
        exact e1.trans (mul_le_mul_of_nonneg_left (by linarith [hs.2]) (by positivity)))
    have e : y (t + k) - (t + k - t) • f (y t) - (y t - (t - t) • f (y t)) = y (t + k) - (y t + k • f (y t)) := by
      simp only [add_sub_cancel_left, sub_self, zero_smul, sub_zero]; abel
    simp only [e] at h2
    calc _ ≤ L * A * k * k := h2
      _ = L * A * k ^ 2 := by ring
      _ ≤ _ := mul_le_mul_of_nonneg_right (by linarith) (by positivity)

/-- Expansion of the exact solution, second order. -/
theorem IsSol.expand2 {f : E → E} {f' : E → E →L[ℝ] E} (hf : LocalSmooth f f') {y : ℝ → E} {T : ℝ} (hy : IsSol f y T) :
    ∃ C, 0 ≤ C ∧ ∀ t k, 0 ≤ t → 0 ≤ k → t + k ≤ T →
      ‖y (t + k) - (y t + k • (f (y t) + (k / 2) • f' (y t) (f (y t))))‖ ≤ C * k ^ 3 := by
  obtain ⟨C1, C10, h1⟩ := hy.expand1 hf.localLip
  obtain ⟨B, hB⟩ := isCompact_Icc.exists_bound_of_continuousOn hy.continuousOn
  obtain ⟨c, c0, hc⟩ := hf.taylor (max B 0)
  have hB' : ∀ t ∈ Icc 0 T, ‖y t‖ ≤ max B 0 := fun t ht => (hB t ht).trans (le_max_left _ _)
  obtain ⟨d, d0, hd⟩ := hf.lip (max B 0)
  set M := d * max B 0 + ‖f' 0‖ with hM
  have hMb : ∀ t ∈ Icc 0 T, ‖f' (y t)‖ ≤ M := fun t ht => by
    have h1 := hd (y t) 0 (hB' t ht) (by simp)
    rw [sub_zero] at h1
    have h2 : ‖f' (y t)‖ ≤ ‖f' (y t) - f' 0‖ + ‖f' 0‖ := by simpa using norm_add_le (f' (y t) - f' 0) (f' 0)
    have h3 := mul_le_mul_of_nonneg_left (hB' t ht) d0
    linarith
  have hM0 : 0 ≤ M := by positivity
  refine ⟨c * C1 ^ 2 + M * C1, by positivity, fun t k ht hk hT => ?_⟩
  have h2 := mean_value (g := fun s => y s - (s - t) • f (y t) - ((s - t) ^ 2 / 2) • f' (y t) (f (y t)))
    (g' := fun s => f (y s) - f (y t) - (s - t) • f' (y t) (f (y t)))
    (C := (c * C1 ^ 2 + M * C1) * k ^ 2) ht hk hT (fun s hs => by
      have e0 : HasDerivWithinAt (fun s : ℝ => (s - t) ^ 2 / 2) (s - t) (Icc 0 T) s := by
        have := ((((hasDerivAt_id s).sub_const t).pow 2).div_const 2).hasDerivWithinAt (s := Icc 0 T)
        simpa using this
      have e1 : HasDerivWithinAt (fun s => y s - (s - t) • f (y t) - ((s - t) ^ 2 / 2) • f' (y t) (f (y t)))
          (f (y s) - (1 : ℝ) • f (y t) - (s - t) • f' (y t) (f (y t))) (Icc 0 T) s :=
        ((hy s hs).sub (((hasDerivWithinAt_id s (Icc 0 T)).sub_const t).smul_const (f (y t)))).sub
          (e0.smul_const _)
      simpa using e1) (fun s hs => by
      have hs0 : 0 ≤ s - t := by linarith [hs.1]
      have hsk : s - t ≤ k := by linarith [hs.2]
      obtain ⟨a1, -, a3⟩ := h1 t (s - t) ht hs0 (by linarith [hs.2])
      have e3 : t + (s - t) = s := by ring
      rw [e3] at a1 a3
      have b1 := hc (y t) (y s) (hB' t ⟨ht, by linarith⟩) (hB' s ⟨by linarith, by linarith [hs.2]⟩)
      have e4 : f (y s) - f (y t) - (s - t) • f' (y t) (f (y t)) =
          (f (y s) - f (y t) - f' (y t) (y s - y t)) + f' (y t) (y s - (y t + (s - t) • f (y t))) := by
        simp only [map_sub, map_add, map_smul]; abel
      rw [e4]
      refine (norm_add_le _ _).trans ?_
      have b2 : ‖y s - y t‖ ^ 2 ≤ (C1 * (s - t)) ^ 2 := pow_le_pow_left₀ (norm_nonneg _) a1 2
      have b3 := ((f' (y t)).le_opNorm (y s - (y t + (s - t) • f (y t)))).trans
        (mul_le_mul (hMb t ⟨ht, by linarith⟩) a3 (norm_nonneg _) hM0)
      have b4 : (s - t) ^ 2 ≤ k ^ 2 := pow_le_pow_left₀ hs0 hsk 2
      calc _ ≤ c * (C1 * (s - t)) ^ 2 + M * (C1 * (s - t) ^ 2) :=
            add_le_add (b1.trans (mul_le_mul_of_nonneg_left b2 c0)) b3
        _ = (c * C1 ^ 2 + M * C1) * (s - t) ^ 2 := by ring
        _ ≤ _ := mul_le_mul_of_nonneg_left b4 (by positivity))
  have e : y (t + k) - (t + k - t) • f (y t) - ((t + k - t) ^ 2 / 2) • f' (y t) (f (y t))
      - (y t - (t - t) • f (y t) - ((t - t) ^ 2 / 2) • f' (y t) (f (y t)))
      = y (t + k) - (y t + k • (f (y t) + (k / 2) • f' (y t) (f (y t)))) := by
    have : t + k - t = k := by ring
    rw [this]
    simp only [sub_self, zero_smul, sub_zero, smul_add, smul_smul]
    have : k * (k / 2) = k ^ 2 / 2 := by ring
    rw [this]
    norm_num
    abel
  simp only [e] at h2
  calc _ ≤ (c * C1 ^ 2 + M * C1) * k ^ 2 * k := h2
    _ = _ := by ring

/-- **First-order convergence** on bounded sets. -/
theorem StepOf.converges1 {φ : ℝ → E → E} {f : E → E} (hf : LocalLip f) (h1 : StepOf 1 φ fun _ => f) {y : ℝ → E} {T : ℝ}
    (hT : 0 ≤ T) (hy : IsSol f y T) :
    ∃ C h0 : ℝ, 0 < h0 ∧ ∀ h, 0 ≤ h → h ≤ h0 → ∀ N : ℕ, N * h ≤ T → ‖(φ h)^[N] (y 0) - y (N * h)‖ ≤ C * h := by
  obtain ⟨C, C0, hC⟩ := hy.expand1 hf
  have := h1.converges le_rfl hT hy.continuousOn ⟨C, C0, small_nonneg.mono fun h hh t ht hth => (hC t h ht hh hth).2.2⟩
  simpa using this

/-- **Second-order convergence** on bounded sets. -/
theorem StepOf.converges2 {φ : ℝ → E → E} {f : E → E} {f' : E → E →L[ℝ] E} (hf : LocalSmooth f f')
    (h1 : StepOf 2 φ fun h x => f x + (h / 2) • f' x (f x)) {y : ℝ → E} {T : ℝ} (hT : 0 ≤ T) (hy : IsSol f y T) :
    ∃ C h0 : ℝ, 0 < h0 ∧ ∀ h, 0 ≤ h → h ≤ h0 → ∀ N : ℕ, N * h ≤ T → ‖(φ h)^[N] (y 0) - y (N * h)‖ ≤ C * h ^ 2 := by
  obtain ⟨C, C0, hC⟩ := hy.expand2 hf
  exact h1.converges (by norm_num) hT hy.continuousOn ⟨C, C0, small_nonneg.mono fun h hh t ht hth => hC t h ht hh hth⟩

end Gusto.Convergence
