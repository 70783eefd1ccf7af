import Mathlib.Topology.Order.OrderClosed
import Mathlib.Topology.Piecewise
import Mathlib.Topology.Algebra.Order.Field
import Mathlib.Tactic.Ring
import Mathlib.Tactic.Linarith
import Mathlib.Tactic.NormNum
import Mathlib.Tactic.FieldSimp
import Mathlib.Tactic.Positivity
import Mathlib.Tactic.FinCases
import Mathlib.Tactic.Continuity
import Verif.Model.BLMixing

set_option autoImplicit false
set_option linter.unusedSectionVars false
set_option linter.unusedSimpArgs false

/-!
# Boundary layer mixing (C121)
-/

namespace Gusto.Props.BLMixingProps
open Gusto.DG Gusto.BLMixing

/-! ### The diffusivity -/

/-- Specification: what the diffusivity should be at the pressure `p`: the surface value `a` below 850 hPa, above it
damped by the square of the distance to 850 hPa in units of 100 hPa. -/
def IsProfile (a : ℝ) (K : ℝ → ℝ) : Prop :=
  (∀ p, 85000 ≤ p → K p = a) ∧ ∀ p, p ≤ 85000 → K p = a * Real.exp (-((85000 - p) / 10000) ^ 2)

theorem profile_isProfile (P : Params) (c s : ℝ) : IsProfile (c * s * P.height) (profile P c s) := by
  constructor
  · intro p hp
    unfold profile
    split_ifs with h
    · rfl
    · have : p = 85000 := by linarith [not_lt.mp h]
      subst this; norm_num
  · intro p hp
    unfold profile
    rw [if_neg (by linarith)]

theorem dragCoeff_nonneg {P : Params} (h0 : 0 ≤ P.drag0) (h1 : 0 ≤ P.drag1) (h2 : 0 ≤ P.drag2) {s : ℝ} (hs : 0 ≤ s) :
    0 ≤ dragCoeff P s := by
  unfold dragCoeff
  split_ifs
  · positivity
  · linarith

theorem profile_props {a : ℝ} (ha : 0 ≤ a) {K : ℝ → ℝ} (h : IsProfile a K) :
    Continuous K ∧ Monotone K ∧ ∀ p, 0 ≤ K p ∧ K p ≤ a := by
  have hK : K = fun p => a * Real.exp (-((85000 - min p 85000) / 10000) ^ 2) := by
    funext p
    rcases le_total p 85000 with hp | hp
    · rw [h.2 p hp, min_eq_left hp]
    · rw [h.1 p hp, min_eq_right hp]; norm_num
  subst hK
  refine ⟨by fun_prop, ?_, fun p => ⟨by positivity, ?_⟩⟩
  · intro p q hpq
    refine mul_le_mul_of_nonneg_left (Real.exp_le_exp.mpr (neg_le_neg ?_)) ha
    have h1 : min p 85000 ≤ min q 85000 := min_le_min_right _ hpq
    have h2 : min q (85000 : ℝ) ≤ 85000 := min_le_right _ _
    apply pow_le_pow_left₀ <;> [skip; skip] <;> linarith
  · have : Real.exp (-((85000 - min p 85000) / 10000) ^ 2) ≤ 1 := Real.exp_le_one_iff.mpr (by
      have := sq_nonneg ((85000 - min p 85000) / 10000); linarith)
    nlinarith

theorem speed_nonneg {d : ℕ} (k u : Fin d → ℝ) : 0 ≤ speed k u := Real.sqrt_nonneg _

/-- C121 (the diffusivity): with non-negative coefficients it is never negative and never above its surface value
(coefficient times horizontal speed times height of the surface layer), it is continuous in the pressure and it does
not grow with height, for every field, every wind and every pressure. -/
theorem C121_diffusivity (P : Params) (h0 : 0 ≤ P.drag0) (h1 : 0 ≤ P.drag1) (h2 : 0 ≤ P.drag2) (he : 0 ≤ P.evap)
    (hz : 0 ≤ P.height) (name : String) {d : ℕ} (k u : Fin d → ℝ) :
    let c := if name = "u" then dragCoeff P (speed k u) else P.evap
    IsProfile (c * speed k u * P.height) (diffusivity P name (speed k u)) ∧
    Continuous (diffusivity P name (speed k u)) ∧ Monotone (diffusivity P name (speed k u)) ∧
    ∀ p, 0 ≤ diffusivity P name (speed k u) p ∧ diffusivity P name (speed k u) p ≤ c * speed k u * P.height := by
  intro c
  have hs := speed_nonneg k u
  have hc : 0 ≤ c := by
    simp only [c]; split_ifs
    exacts [dragCoeff_nonneg h0 h1 h2 hs, he]
  have hp : IsProfile (c * speed k u * P.height) (diffusivity P name (speed k u)) := by
    have : diffusivity P name (speed k u) = profile P c (speed k u) := by
      funext p; unfold diffusivity; simp only [c]; split_ifs <;> rfl
    rw [this]; exact profile_isProfile P c _
  exact ⟨hp, profile_props (by positivity) hp⟩

/-- Non-vacuity: the default parameters meet the hypotheses. -/
example : 0 ≤ Params.default.drag0 ∧ 0 ≤ Params.default.drag1 ∧ 0 ≤ Params.default.drag2 ∧ 0 ≤ Params.default.evap ∧
    0 ≤ Params.default.height := by
  norm_num [Params.default]

/-- C121 (the diffusivity of the wind at 20 m/s): the drag coefficient is a continuous function of the speed exactly when
the three coefficients match there. -/
theorem C121_drag_continuous_iff (P : Params) : Continuous (dragCoeff P) ↔ P.drag0 + P.drag1 * 20 = P.drag2 := by
  constructor
  · intro h
    have h1 : Filter.Tendsto (dragCoeff P) (nhdsWithin 20 (Set.Iio 20)) (nhds (dragCoeff P 20)) :=
      (h.tendsto 20).mono_left nhdsWithin_le_nhds
    have h2 : Filter.Tendsto (dragCoeff P) (nhdsWithin 20 (Set.Iio 20)) (nhds (P.drag0 + P.drag1 * 20)) := by
      have : Filter.Tendsto (fun s : ℝ => P.drag0 + P.drag1 * s) (nhdsWithin 20 (Set.Iio 20))
          (nhds (P.drag0 + P.drag1 * 20)) :=
        ((by fun_prop : Continuous fun s : ℝ => P.drag0 + P.drag1 * s).tendsto 20).mono_left nhdsWithin_le_nhds
      refine this.congr' ?_
      filter_upwards [self_mem_nhdsWithin] with s hs
      have : s < 20 := hs
      simp [dragCoeff, this]
    have := tendsto_nhds_unique h2 h1
    simpa [dragCoeff] using this
  · intro h
    have : dragCoeff P = fun s => P.drag0 + P.drag1 * min s 20 := by
      funext s
      unfold dragCoeff
      split_ifs with hs
      · rw [min_eq_left hs.le]
      · rw [min_eq_right (not_lt.mp hs), h]; ring
    rw [this]; fun_prop

/-- C121: with the default parameters the drag coefficient is continuous. -/
theorem C121_drag_default : Continuous (dragCoeff Params.default) := by
  rw [C121_drag_continuous_iff]; norm_num [Params.default]

/-! ### Scalars -/

variable {K : Type*} [Field K] [LinearOrder K] [IsStrictOrderedRing K] {d : ℕ} {C F B : Type*}
  [Fintype C] [Fintype F] [Fintype B]

/-- Specification: the facets in `dS_v` are upright, with opposite unit normals on the two sides. -/
structure Upright (M : Mesh K d C F B) (k : Fin d → K) : Prop where
  unit : dot k k = 1
  side : ∀ x, dot (M.nP x) k = 0
  opp : ∀ x i, M.nM x i = -M.nP x i
  nunit : ∀ x, dot (M.nP x) (M.nP x) = 1

/-- Specification: the vertical derivative of a scalar in the cells. -/
def vd (k : Fin d → K) (q : Sc K d C F B) (x : C) : K := dot (q.g x) k

/-- Specification: the difference of a scalar between the two columns that meet in a facet. -/
def jmp (q : Sc K d C F B) (x : F) : K := q.p x - q.m x

theorem dot_smul_left (a : K) (u v : Fin d → K) : dot (fun i => a * u i) v = a * dot u v := by
  simp [dot, Finset.mul_sum, mul_assoc]

theorem dot_comm' (u v : Fin d → K) : dot u v = dot v u := by simp [dot, mul_comm]

theorem dot_smul_right (a : K) (u v : Fin d → K) : dot u (fun i => a * v i) = a * dot u v := by
  rw [dot_comm', dot_smul_left, dot_comm']

theorem dot_ddz (k g h : Fin d → K) : dot (ddz k g) (ddz k h) = dot k k * dot g k * dot h k := by
  have : dot (ddz k g) (ddz k h) = ∑ i, (k i * k i) * (dot g k * dot h k) := by
    exact Finset.sum_congr rfl fun i _ => by simp only [ddz]; ring
  rw [this, ← Finset.sum_mul]
  show dot k k * _ = _
  ring

/-- C121 (the depth of the layers): the quantity meant to be the depth of the layers is always 1, whatever the mesh. -/
theorem C121_layer_depth_refuted (k : Fin d → K) (hk : dot k k = 1) : layerDepth k = 1 := by
  unfold layerDepth ddz
  rw [show (fun i => k i * dot k k) = k from by funext i; rw [hk, mul_one], hk]

/-- Non-vacuity: a vertical direction. -/
example : layerDepth (![0, 1] : Fin 2 → ℚ) = 1 :=
  C121_layer_depth_refuted _ (by simp [dot])

/-- C121 (scalars): what the form is.  Of the surface terms of the interior penalty method only the penalty is left,
between columns and not between layers, and independent of the resolution. -/
theorem C121_scalar_form (M : Mesh K d C F B) (k : Fin d → K) (mu : K) (h : Upright M k)
    (rho kap test f : Sc K d C F B) :
    mixScalar M k mu rho kap test f =
      (∑ x, M.wC x * (rho.c x * kap.c x * (vd k (quot test rho) x * vd k f x)))
      + mu * ∑ x, M.wF x * (jmp (kap.mul f) x * jmp test x) := by
  have hav : ∀ (a b : F → K) (x : F) (i : Fin d), avg (a x * M.nP x i) (b x * M.nM x i)
      = (1 / 2 * (a x - b x)) * M.nP x i := by
    intro a b x i; rw [h.opp]; unfold avg; ring
  have hz : ∀ (g g' : Fin d → K), (fun i => avg (ddz k g i) (ddz k g' i))
      = fun i => (1 / 2 * (dot g k + dot g' k)) * k i := by
    intro g g'; funext i; unfold avg ddz; ring
  unfold mixScalar
  simp only [hav, hz, dot_smul_left, dot_smul_right, h.side, h.nunit, dot_ddz, h.unit,
    C121_layer_depth_refuted k h.unit]
  have h2 : avg (1 : K) 1 = 1 := by norm_num [avg]
  simp only [h2, mul_zero, Finset.sum_const_zero, sub_zero, Finset.mul_sum]
  congr 1
  · exact Finset.sum_congr rfl fun x _ => by unfold vd; ring
  · exact Finset.sum_congr rfl fun x _ => by unfold jmp; ring

/-- Specification: the same values on both sides of every facet between columns. -/
def Agree (q : Sc K d C F B) : Prop := ∀ x, q.p x = q.m x

/-- C121 (vertical diffusion, partial: for test functions with the same values in neighbouring columns, or fields whose
product with the diffusivity has them): the form is the weak form of the vertical diffusion. -/
theorem C121_vertical_diffusion_partial (M : Mesh K d C F B) (k : Fin d → K) (mu : K) (h : Upright M k)
    (rho kap test f : Sc K d C F B) (hq : Agree test ∨ Agree (kap.mul f)) :
    mixScalar M k mu rho kap test f =
      ∑ x, M.wC x * (rho.c x * kap.c x * (vd k (quot test rho) x * vd k f x)) := by
  rw [C121_scalar_form M k mu h]
  have : ∀ x, M.wF x * (jmp (kap.mul f) x * jmp test x) = 0 := by
    intro x
    rcases hq with hq | hq
    · simp [jmp, hq x]
    · have : jmp (kap.mul f) x = 0 := by unfold jmp; rw [hq x, sub_self]
      rw [this]; ring
  simp [this]

theorem vd_quot_self (k : Fin d → K) (r : Sc K d C F B) (x : C) : vd k (quot r r) x = 0 := by
  simp [vd, quot, dot, mul_comm]

theorem vd_zero {k : Fin d → K} {q : Sc K d C F B} (hq : ∀ x i, q.g x i = 0) (x : C) : vd k q x = 0 := by
  simp [vd, dot, hq]

theorem vd_quot (k : Fin d → K) (a r : Sc K d C F B) (x : C) :
    vd k (quot a r) x = (vd k a x * r.c x - a.c x * vd k r x) / r.c x ^ 2 := by
  simp only [vd, dot, quot, Finset.sum_mul, Finset.mul_sum, ← Finset.sum_sub_distrib, div_eq_mul_inv]
  exact Finset.sum_congr rfl fun i _ => by ring

/-- C121 (conservation and constants, partial): a field multiplied by the averaged density keeps its total if the
averaged density, or the flux coefficient times the field, is the same in neighbouring columns; and a uniform field
does not change if the diffusivity is. -/
theorem C121_conserves_partial (M : Mesh K d C F B) (k : Fin d → K) (mu : K) (h : Upright M k)
    (rho kap : Sc K d C F B) :
    (∀ f, Agree rho ∨ Agree (kap.mul f) → mixScalar M k mu rho kap rho f = 0) ∧
    (∀ a test, Agree kap → mixScalar M k mu rho kap test (Sc.const a) = 0) := by
  constructor
  · intro f hq
    rw [C121_vertical_diffusion_partial M k mu h rho kap rho f hq]
    simp [vd_quot_self]
  · intro a test hk
    rw [C121_vertical_diffusion_partial M k mu h rho kap test _ (.inr fun x => by simp [Sc.mul, Sc.const, hk x])]
    simp [vd_zero (q := Sc.const a) (fun _ _ => rfl)]

/-- C121 (mixing decreases the variance, partial: density that does not vary with height and diffusivity that is the same
in neighbouring columns): the rate of decrease of half the square integral is not negative. -/
theorem C121_dissipates_partial (M : Mesh K d C F B) (k : Fin d → K) (mu : K) (h : Upright M k) (hmu : 0 ≤ mu)
    (hC : ∀ x, 0 ≤ M.wC x) (hF : ∀ x, 0 ≤ M.wF x) (rho kap f : Sc K d C F B)
    (hr : ∀ x, rho.c x ≠ 0 ∧ vd k rho x = 0) (hk : Agree kap) (hk0 : ∀ x, 0 ≤ kap.c x) (hk1 : ∀ x, 0 ≤ kap.p x) :
    0 ≤ mixScalar M k mu rho kap f f := by
  rw [C121_scalar_form M k mu h]
  refine add_nonneg (Finset.sum_nonneg fun x _ => ?_) (mul_nonneg hmu (Finset.sum_nonneg fun x _ => ?_))
  · obtain ⟨h0, h1⟩ := hr x
    rw [vd_quot, h1, mul_zero, sub_zero]
    have : rho.c x * kap.c x * (vd k f x * rho.c x / rho.c x ^ 2 * vd k f x) = kap.c x * (vd k f x * vd k f x) := by
      field_simp
    rw [this]
    exact mul_nonneg (hC x) (mul_nonneg (hk0 x) (mul_self_nonneg _))
  · have : jmp (kap.mul f) x = kap.p x * jmp f x := by
      simp only [jmp, Sc.mul]; rw [← hk x]; ring
    rw [this, mul_assoc]
    exact mul_nonneg (hF x) (mul_nonneg (hk1 x) (mul_self_nonneg _))

/-! #### The mesh of the counterexamples: two columns and the facet between them -/

/-- Two cells side by side, one facet between them, with the vertical direction `(0, 1)`. -/
def twoColumns : Mesh ℚ 2 (Fin 2) (Fin 1) (Fin 0) where
  wC _ := 1
  wF _ := 1
  wB _ := 1
  nP _ := ![1, 0]
  nM _ := ![-1, 0]
  nB _ := ![0, 1]

theorem twoColumns_upright : Upright twoColumns ![0, 1] where
  unit := by simp [dot]
  side x := by simp [dot, twoColumns]
  opp x i := by fin_cases i <;> simp [twoColumns]
  nunit x := by simp [dot, twoColumns]

/-- Piecewise constant: `a` in the first column, `b` in the second. -/
def pc (a b : ℚ) : Sc ℚ 2 (Fin 2) (Fin 1) (Fin 0) where
  c := ![a, b]
  g _ _ := 0
  p _ := a
  m _ := b
  b _ := 0
  gp _ _ := 0
  gm _ _ := 0

/-- Non-vacuity of the partial theorems. -/
example : Agree (pc 2 2) ∧ (∀ x, 0 ≤ (pc 2 2).c x) ∧ ∀ x, (pc 1 1).c x ≠ 0 ∧ vd ![0, 1] (pc 1 1) x = 0 :=
  ⟨fun _ => rfl, fun x => by fin_cases x <;> norm_num [pc],
    fun x => ⟨by fin_cases x <;> norm_num [pc], by simp [vd, dot, pc]⟩⟩

/-- C121 is refuted for uniform fields: where the diffusivity differs between neighbouring columns (it depends on the
wind), a uniform field does not stay uniform: it leaves the column with the larger diffusivity. -/
theorem C121_uniform_refuted : ∃ kap : Sc ℚ 2 (Fin 2) (Fin 1) (Fin 0), (∀ x, 0 ≤ kap.c x) ∧
    mixScalar twoColumns ![0, 1] 100 (pc 1 1) kap (pc 1 0) (Sc.const 1) ≠ 0 := by
  refine ⟨pc 2 1, fun x => by fin_cases x <;> norm_num [pc], ?_⟩
  rw [C121_scalar_form _ _ _ twoColumns_upright]
  norm_num [twoColumns, vd, dot, quot, pc, jmp, Sc.mul, Sc.const]

/-- C121 is refuted for columns: a field that does not vary with height is changed by the vertical mixing, which moves
it between columns. -/
theorem C121_columns_refuted : ∃ f : Sc ℚ 2 (Fin 2) (Fin 1) (Fin 0), (∀ x, vd ![0, 1] f x = 0) ∧
    mixScalar twoColumns ![0, 1] 100 (pc 1 1) (pc 1 1) (pc 1 0) f = 100 := by
  refine ⟨pc 1 0, fun x => by simp [vd, dot, pc], ?_⟩
  rw [C121_scalar_form _ _ _ twoColumns_upright]
  norm_num [twoColumns, vd, dot, quot, pc, jmp, Sc.mul, Sc.const]

/-- C121 is refuted for conservation: a field multiplied by the averaged density does not keep its total where the
averaged density differs between neighbouring columns. -/
theorem C121_conserves_refuted : ∃ rho f : Sc ℚ 2 (Fin 2) (Fin 1) (Fin 0), (∀ x, 0 < rho.c x) ∧
    mixScalar twoColumns ![0, 1] 100 rho (pc 1 1) rho f ≠ 0 := by
  refine ⟨pc 2 1, pc 1 0, fun x => by fin_cases x <;> norm_num [pc], ?_⟩
  rw [C121_scalar_form _ _ _ twoColumns_upright]
  norm_num [twoColumns, vd, dot, quot, pc, jmp, Sc.mul, Sc.const]

/-! ### The wind -/

/-- Specification: the vertical derivative of a vector. -/
def vdV (k : Fin d → K) (j : Fin d → Fin d → K) : Fin d → K := fun i => dot (j i) k

/-- Specification: the difference of a vector between the two columns that meet in a facet. -/
def jmpV (v : Vf K d C F) (x : F) : Fin d → K := fun i => v.p x i - v.m x i

theorem inner2_outer (a b k l : Fin d → K) :
    inner2 (fun i j => a i * b j) (fun i j => k i * l j) = dot a k * dot b l := by
  unfold inner2 dot
  rw [Finset.sum_mul_sum]
  exact Finset.sum_congr rfl fun i _ => Finset.sum_congr rfl fun j _ => by ring

theorem hori_dot (k u : Fin d → K) (hk : dot k k = 1) : dot (hori k u) k = 0 := by
  have : dot (hori k u) k = dot u k - dot k k * dot u k := by
    simp only [dot, hori, sub_mul, Finset.sum_sub_distrib, Finset.sum_mul]
    congr 1
    exact Finset.sum_congr rfl fun i _ => by ring
  rw [this, hk]; ring

/-- C121 (the wind): what the form is.  Besides the volume term, which acts on horizontal wind, and the penalty between
columns there is a term that acts on vertical test functions. -/
theorem C121_wind_form (M : Mesh K d C F B) (k : Fin d → K) (mu : K) (h : Upright M k)
    (rho kap : Sc K d C F B) (test u : Vf K d C F) :
    mixWind M k mu rho kap test u =
      (∑ x, M.wC x * (rho.c x * kap.c x * dot (vdV k (quotJ test rho x)) (vdV k ((u.hori k).j x))))
      - (∑ x, M.wF x * (1 / 2 * dot (jmpV test x) k *
          dot (M.nP x) (fun i => vdV k (((u.hori k).smul kap).jp x) i + vdV k (((u.hori k).smul kap).jm x) i)))
      + mu * ∑ x, M.wF x * dot (jmpV ((u.hori k).smul kap) x) (jmpV test x) := by
  have hO : ∀ (v : Vf K d C F) (x : F), avgOuter M v x = fun i l => (1 / 2 * jmpV v x i) * M.nP x l := by
    intro v x; funext i l; simp only [avgOuter, avg, h.opp, jmpV]; ring
  have hD : ∀ (v : Vf K d C F) (x : F), avgDdz k v x
      = fun i l => k i * (1 / 2 * (vdV k (v.jp x) l + vdV k (v.jm x) l)) := by
    intro v x; funext i l; simp only [avgDdz, avg, ddzV, vdV]; ring
  have hV : ∀ a b : Fin d → Fin d → K, inner2 (ddzV k a) (ddzV k b) = dot (vdV k a) (vdV k b) := by
    intro a b
    have := inner2_outer k (vdV k a) k (vdV k b)
    rw [h.unit, one_mul] at this
    exact this
  have hk0 : ∀ x, dot (jmpV ((u.hori k).smul kap) x) k = 0 := by
    intro x
    have e : dot (jmpV ((u.hori k).smul kap) x) k
        = kap.p x * dot (hori k (u.p x)) k - kap.m x * dot (hori k (u.m x)) k := by
      simp only [dot, jmpV, Vf.smul, Vf.hori, Finset.mul_sum, ← Finset.sum_sub_distrib]
      exact Finset.sum_congr rfl fun i _ => by ring
    rw [e, hori_dot _ _ h.unit, hori_dot _ _ h.unit]; ring
  unfold mixWind
  simp only [hO, hD, hV, inner2_outer, C121_layer_depth_refuted k h.unit]
  have h2 : avg (1 : K) 1 = 1 := by norm_num [avg]
  simp only [h2, dot_smul_left, dot_smul_right, hk0, h.nunit, mul_zero, zero_mul, Finset.sum_const_zero, sub_zero,
    Finset.mul_sum]
  congr 1
  · congr 1
    exact Finset.sum_congr rfl fun x _ => by ring
  · exact Finset.sum_congr rfl fun x _ => by ring

/-- C121 (the wind): only the horizontal wind is mixed.  A wind that is vertical everywhere, however it varies (`w` its speed and `g` the
gradient of the speed in the cells and on the facets), does not contribute: adding it to any wind leaves the form unchanged. -/
theorem C121_vertical_wind_unmixed (M : Mesh K d C F B) (k : Fin d → K) (mu : K) (h : Upright M k)
    (rho kap : Sc K d C F B) (test u v : Vf K d C F) (w : C → K) (wp wm : F → K) (g : C → Fin d → K) (gp gm : F → Fin d → K)
    (hc : ∀ x i, v.c x i = u.c x i + w x * k i) (hp : ∀ x i, v.p x i = u.p x i + wp x * k i) (hm : ∀ x i, v.m x i = u.m x i + wm x * k i)
    (hj : ∀ x i l, v.j x i l = u.j x i l + k i * g x l) (hjp : ∀ x i l, v.jp x i l = u.jp x i l + k i * gp x l)
    (hjm : ∀ x i l, v.jm x i l = u.jm x i l + k i * gm x l) :
    mixWind M k mu rho kap test v = mixWind M k mu rho kap test u := by
  have hu : ∑ i, k i * k i = 1 := h.unit
  have hv : ∀ (a b : Fin d → K) (s : K), (∀ i, b i = a i + s * k i) → hori k b = hori k a := by
    intro a b s hab
    funext i
    have e : dot b k = dot a k + s := by
      simp only [dot, hab, add_mul, Finset.sum_add_distrib, mul_assoc, ← Finset.mul_sum, hu, mul_one]
    simp only [hori, e, hab]
    ring
  have hJ : ∀ (a b : Fin d → Fin d → K) (s : Fin d → K), (∀ i l, b i l = a i l + k i * s l) → ∀ i l,
      b i l - k i * ∑ n, b n l * k n = a i l - k i * ∑ n, a n l * k n := by
    intro a b s hab i l
    have e : ∑ n, b n l * k n = (∑ n, a n l * k n) + s l := by
      have : ∀ n, b n l * k n = a n l * k n + s l * (k n * k n) := fun n => by rw [hab]; ring
      simp only [this, Finset.sum_add_distrib, ← Finset.mul_sum, hu, mul_one]
    rw [e, hab]
    ring
  have e : v.hori k = u.hori k := by
    simp only [Vf.hori, Vf.mk.injEq]
    refine ⟨funext fun x => hv _ _ _ (hc x), ?_, funext fun x => hv _ _ _ (hp x), funext fun x => hv _ _ _ (hm x), ?_, ?_⟩
    · funext x i l; exact hJ _ _ _ (hj x) i l
    · funext x i l; exact hJ _ _ _ (hjp x) i l
    · funext x i l; exact hJ _ _ _ (hjm x) i l
  rw [C121_wind_form M k mu h, C121_wind_form M k mu h, e]

/-- C121 is refuted for shear between layers: a wind that is constant with height inside each cell (as in the lowest
order spaces) and the same in neighbouring columns, as is the diffusivity, is not mixed, however large the difference
between the layers: the form vanishes for every test function with that property in the cells, horizontal on the facets. -/
theorem C121_shear_refuted (M : Mesh K d C F B) (k : Fin d → K) (mu : K) (h : Upright M k)
    (rho kap : Sc K d C F B) (test u : Vf K d C F) (hu : ∀ x i l, u.j x i l = 0)
    (hj : ∀ x, u.p x = u.m x) (hk : Agree kap) (ht : ∀ x, dot (jmpV test x) k = 0) :
    mixWind M k mu rho kap test u = 0 := by
  rw [C121_wind_form M k mu h]
  have h1 : ∀ x, vdV k ((u.hori k).j x) = fun _ => 0 := by
    intro x; funext i; simp [vdV, dot, Vf.hori, hu]
  have h3 : ∀ x, jmpV ((u.hori k).smul kap) x = fun _ => 0 := by
    intro x; funext i; simp [jmpV, Vf.smul, Vf.hori, hj x, hk x]
  have hd0 : ∀ v : Fin d → K, dot v (fun _ => 0) = 0 := by intro v; simp [dot]
  have hd1 : ∀ v : Fin d → K, dot (fun _ => 0) v = 0 := by intro v; simp [dot]
  simp only [h1, h3, ht, hd0, hd1, mul_zero, zero_mul, Finset.sum_const_zero, sub_zero, add_zero]

/-- Two cells above each other (the facet between layers is not in `dS_v`) and one facet to the side. -/
def sheared (U : ℚ) : Vf ℚ 2 (Fin 2) (Fin 1) where
  c := ![![0, 0], ![U, 0]]
  j _ _ _ := 0
  p _ := ![0, 0]
  m _ := ![0, 0]
  jp _ _ _ := 0
  jm _ _ _ := 0

/-- Non-vacuity: any difference between the two layers. -/
example (U : ℚ) : mixWind twoColumns ![0, 1] 100 (pc 1 1) (pc 1 1) (sheared 1) (sheared U) = 0 :=
  C121_shear_refuted _ _ _ twoColumns_upright _ _ _ _ (fun _ _ _ => rfl) (fun _ => rfl) (fun _ => rfl)
    (fun x => by simp [jmpV, sheared, dot])

/-- Non-vacuity: an updraught that grows with height in the first column added to the sheared wind. -/
example (U : ℚ) : mixWind twoColumns ![0, 1] 100 (pc 1 1) (pc 1 1) (sheared 1)
    { c := ![![0, 3], ![U, 0]], j := fun x i l => if i = 1 ∧ l = 1 ∧ x = 0 then 5 else 0, p := fun _ => ![0, 3], m := fun _ => ![0, 0],
      jp := fun _ i l => if i = 1 ∧ l = 1 then 5 else 0, jm := fun _ _ _ => 0 }
    = mixWind twoColumns ![0, 1] 100 (pc 1 1) (pc 1 1) (sheared 1) (sheared U) :=
  C121_vertical_wind_unmixed _ _ _ twoColumns_upright _ _ _ _ _ ![3, 0] (fun _ => 3) (fun _ => 0)
    (fun x l => if l = 1 ∧ x = 0 then 5 else 0) (fun _ l => if l = 1 then 5 else 0) (fun _ _ => 0)
    (fun x i => by fin_cases x <;> fin_cases i <;> simp [sheared]) (fun x i => by fin_cases i <;> simp [sheared])
    (fun x i => by fin_cases i <;> simp [sheared]) (fun x i l => by fin_cases x <;> fin_cases i <;> fin_cases l <;> simp [sheared])
    (fun x i l => by fin_cases i <;> fin_cases l <;> simp [sheared]) (fun x i l => by fin_cases i <;> simp [sheared])

/-- A horizontal wind that grows with height on the facet between the columns. -/
def shearAtFacet : Vf ℚ 2 (Fin 2) (Fin 1) where
  c _ := ![1, 0]
  j _ i l := if i = 0 ∧ l = 1 then 1 else 0
  p _ := ![1, 0]
  m _ := ![1, 0]
  jp _ i l := if i = 0 ∧ l = 1 then 1 else 0
  jm _ i l := if i = 0 ∧ l = 1 then 1 else 0

/-- A vertical test function that lives in the first column. -/
def updraught : Vf ℚ 2 (Fin 2) (Fin 1) where
  c := ![![0, 1], ![0, 0]]
  j _ _ _ := 0
  p _ := ![0, 1]
  m _ := ![0, 0]
  jp _ _ _ := 0
  jm _ _ _ := 0

/-- C121 is refuted for the vertical wind: the mixing of a horizontal wind accelerates the vertical wind, since the two
factors of a surface term have their indices in opposite order. -/
theorem C121_vertical_wind_refuted : ∃ u test : Vf ℚ 2 (Fin 2) (Fin 1), (∀ x, dot (u.c x) ![0, 1] = 0) ∧
    (∀ x, hori ![0, 1] (test.c x) = fun _ => 0) ∧
    mixWind twoColumns ![0, 1] 100 (pc 1 1) (pc 1 1) test u = -1 := by
  refine ⟨shearAtFacet, updraught, fun x => by simp [shearAtFacet, dot], fun x => ?_, ?_⟩
  · funext i; fin_cases x <;> fin_cases i <;> simp [hori, updraught, dot]
  rw [C121_wind_form _ _ _ twoColumns_upright]
  simp [twoColumns, vdV, dot, quotJ, pc, jmpV, Vf.hori, Vf.smul, hori, shearAtFacet, updraught, Fin.sum_univ_two]
  norm_num

/-! ### The constructor and `evaluate` -/

/-- C121 (use): the mixing is accepted exactly for a field of a compressible equation, its label names the field, and it
is evaluated exactly when no source is asked for; it then uses the state it was given. -/
theorem C121_use (compressible : Bool) (names : List String) (name : String) {S R : Type*} (recover : S → R) (x : S)
    (xOut : Bool) :
    (construct compressible names name = .ok ("boundary_layer_mixing_" ++ name) ↔
      compressible = true ∧ name ∈ names) ∧
    (¬ (compressible = true ∧ name ∈ names) → construct compressible names name = .error "ValueError") ∧
    (∀ y, evaluate recover x xOut = .ok y ↔ xOut = false ∧ y = (x, recover x)) := by
  refine ⟨?_, ?_, fun y => ?_⟩
  · unfold construct; by_cases h : name ∈ names <;> cases compressible <;> simp [h]
  · unfold construct; by_cases h : name ∈ names <;> cases compressible <;> simp [h]
  · unfold evaluate; cases xOut <;> simp [eq_comm]

end Gusto.Props.BLMixingProps
