import Verif.Spec.Energy
import Verif.Props.OneStep
import Verif.Props.Multilevel
import Verif.Props.ExplicitRK
import Verif.Props.DGForms
import Verif.Model.Tableaux
import Mathlib.Tactic.Linarith
import Mathlib.Tactic.FieldSimp
import Mathlib.Tactic.Module

set_option autoImplicit false
set_option linter.unusedSectionVars false
set_option linter.unusedSimpArgs false

/-!
# C116: energy behaviour of the time discretisations
-/

namespace Gusto.Props.EnergyProps
open Gusto LForm TimeDisc Spec Finset Gusto.Props Gusto.Tableaux
variable {K X D : Type*} [Field K] [LinearOrder K] [IsStrictOrderedRing K] [AddCommGroup X] [Module K X] [AddCommGroup D] [Module K D]

theorem IsLin.sub {M : X → D} (h : IsLin K M) (x y : X) : M (x - y) = M x - M y := by
  have := h.1 x ((-1 : K) • y)
  rw [h.2, neg_one_smul, neg_one_smul, ← sub_eq_add_neg, ← sub_eq_add_neg] at this
  exact this

theorem IsLin.zero {M : X → D} (h : IsLin K M) : M 0 = 0 := by simpa using h.2 0 0

/-- The work done over an increment that is a positive multiple of a tendency. -/
theorem work_nonpos {B : X →ₗ[K] X →ₗ[K] K} {R : LForm X D} (hd : Dissipates B R) (hM : IsLin K (mass R)) {c : K} (hc : 0 < c)
    {z k : X} (h : mass R k = -(c • rest R z)) : B z k ≤ 0 := by
  have : mass R (c⁻¹ • k) = -rest R z := by
    rw [hM.2, h, smul_neg, smul_smul, inv_mul_cancel₀ hc.ne', one_smul]
  have := hd z _ this
  rw [map_smul, smul_eq_mul] at this
  have e : B z k = c * (c⁻¹ * B z k) := by field_simp
  rw [e]
  exact mul_nonpos_of_nonneg_of_nonpos hc.le this

theorem work_zero {B : X →ₗ[K] X →ₗ[K] K} {R : LForm X D} (hd : KeepsEnergy B R) (hM : IsLin K (mass R)) {c : K} (hc : c ≠ 0)
    {z k : X} (h : mass R k = -(c • rest R z)) : B z k = 0 := by
  have : mass R (c⁻¹ • k) = -rest R z := by
    rw [hM.2, h, smul_neg, smul_smul, inv_mul_cancel₀ hc, one_smul]
  have := hd z _ this
  rw [map_smul, smul_eq_mul] at this
  exact (mul_eq_zero.1 this).resolve_left (inv_ne_zero hc)

/-! ## One-step schemes -/

/-- C116: one step of BackwardEuler never increases the energy of an equation that does not, whatever the (positive) timestep; the
energy of the increment is lost in addition. -/
theorem C116_backward_euler (B : X →ₗ[K] X →ₗ[K] K) (hB : IsEnergy B) (R : LForm X D) (hM : IsLin K (mass R))
    (hd : Dissipates B R) (dt : K) (hdt : 0 < dt) (x y : X) (h : (backwardEulerRes R dt y x).eval = 0) :
    B y y + B (y - x) (y - x) ≤ B x x := by
  rw [C07_backward_euler] at h
  have hk : mass R (y - x) = -(dt • rest R y) := by rw [IsLin.sub hM, ← h]; abel
  have := work_nonpos hd hM hdt hk
  simp only [map_sub, LinearMap.sub_apply] at this ⊢
  have := hB.symm x y
  linarith

theorem theta_identity (B : X →ₗ[K] X →ₗ[K] K) (hB : IsEnergy B) (th : K) (x y : X) :
    B y y = B x x + 2 * B (th • y + (1 - th) • x) (y - x) + (1 - 2 * th) * B (y - x) (y - x) := by
  simp only [map_sub, map_add, map_smul, LinearMap.sub_apply, LinearMap.add_apply, LinearMap.smul_apply, smul_eq_mul]
  rw [hB.symm x y]; ring

/-- C116: ThetaMethod and TrapeziumRule on a linear equation.  If the equation keeps the energy, a step changes it by
`(1 - 2 theta)` times the energy of the increment: nothing is lost by TrapeziumRule, the energy falls for `theta > 1/2` and grows for
`theta < 1/2`.  If the equation dissipates energy, `theta ≥ 1/2` never increases it. -/
theorem C116_theta (B : X →ₗ[K] X →ₗ[K] K) (hB : IsEnergy B) (R : LForm X D) (hM : IsLin K (mass R)) (hF : IsLin K (rest R))
    (dt th : K) (hdt : 0 < dt) (x y : X) (h : (thetaRes R dt th y x).eval = 0) :
    (KeepsEnergy B R → B y y = B x x + (1 - 2 * th) * B (y - x) (y - x)) ∧
    (Dissipates B R → 1 / 2 ≤ th → B y y ≤ B x x) := by
  rw [C07_theta] at h
  have hk : mass R (y - x) = -(dt • rest R (th • y + (1 - th) • x)) := by
    rw [IsLin.sub hM, hF.1, hF.2, hF.2, eq_sub_of_add_eq h]
    module
  have hid := theta_identity B hB th x y
  refine ⟨fun hd => ?_, fun hd hth => ?_⟩
  · rw [hid, work_zero hd hM hdt.ne' hk]; ring
  · have h1 := work_nonpos hd hM hdt hk
    have h2 := mul_nonneg (show 0 ≤ 2 * th - 1 by linarith) (hB.nonneg (y - x))
    rw [hid]; linarith

/-- C116: TrapeziumRule keeps the energy of a linear equation that keeps it, and never increases it for a dissipative one. -/
theorem C116_trapezium (B : X →ₗ[K] X →ₗ[K] K) (hB : IsEnergy B) (R : LForm X D) (hM : IsLin K (mass R)) (hF : IsLin K (rest R))
    (dt : K) (hdt : 0 < dt) (x y : X) (h : (trapeziumRes R dt y x).eval = 0) :
    (KeepsEnergy B R → B y y = B x x) ∧ (Dissipates B R → B y y ≤ B x x) := by
  obtain ⟨h1, h2⟩ := C116_theta B hB R hM hF dt (1 / 2) hdt x y h
  exact ⟨fun hd => by rw [h1 hd]; ring, fun hd => h2 hd le_rfl⟩

/-- The algebra behind TR-BDF2: with `l = Lv` and `m = L(Lv)`, a step from `v - (a+c) l + a c m` to `v + s l` where
`s² = a² + c²`. -/
theorem trbdf2_algebra (B : X →ₗ[K] X →ₗ[K] K) (hB : IsEnergy B) (a c s : K) (ha : 0 < a) (hc : 0 ≤ c) (hs : 0 ≤ s)
    (hsq : s ^ 2 = a ^ 2 + c ^ 2) (v l m : X) :
    (B v l = 0 → B l m = 0 → B v m = -B l l →
      B (v + s • l) (v + s • l) + (a * c) ^ 2 * B m m = B (v - (a + c) • l + (a * c) • m) (v - (a + c) • l + (a * c) • m)) ∧
    (B v l ≤ 0 → B l m ≤ 0 → B (v - (a + c) • l) (l - (a + c) • m) ≤ 0 →
      B (v + s • l) (v + s • l) ≤ B (v - (a + c) • l + (a * c) • m) (v - (a + c) • l + (a * c) • m)) := by
  have e : B (v - (a + c) • l + (a * c) • m) (v - (a + c) • l + (a * c) • m) - B (v + s • l) (v + s • l) =
      -2 * (a + c + s) * B v l + 2 * (a * c) * (B l l + B v m) - 2 * (a + c) * (a * c) * B l m + (a * c) ^ 2 * B m m := by
    simp only [map_sub, map_add, map_smul, LinearMap.sub_apply, LinearMap.add_apply, LinearMap.smul_apply, smul_eq_mul]
    rw [hB.symm l v, hB.symm m v, hB.symm m l]
    linear_combination (-B l l) * hsq
  refine ⟨fun h1 h2 h3 => ?_, fun h1 h2 h3 => ?_⟩
  · rw [h1, h2, h3] at e
    linear_combination -e
  · have hp : 0 < a + c := by linarith
    have h3' : B v l - (a + c) * (B v m + B l l) + (a + c) ^ 2 * B l m ≤ 0 := by
      have : B (v - (a + c) • l) (l - (a + c) • m) = B v l - (a + c) * (B v m + B l l) + (a + c) ^ 2 * B l m := by
        simp only [map_sub, map_add, map_smul, LinearMap.sub_apply, LinearMap.add_apply, LinearMap.smul_apply, smul_eq_mul]
        ring
      linarith
    have hq : 0 ≤ a * c := mul_nonneg ha.le hc
    -- (a+c) times the loss
    have key : 0 ≤ (a + c) * (B (v - (a + c) • l + (a * c) • m) (v - (a + c) • l + (a * c) • m) - B (v + s • l) (v + s • l)) := by
      rw [e]
      have t1 : 0 ≤ 2 * (a * c) * ((a + c) * (B v m + B l l) - (B v l + (a + c) ^ 2 * B l m)) :=
        mul_nonneg (by linarith) (by linarith)
      have t2 : 0 ≤ (2 * (a + c) * (a + c + s) - 2 * (a * c)) * (-B v l) := by
        refine mul_nonneg ?_ (by linarith)
        nlinarith [mul_nonneg ha.le hs, mul_nonneg hc hs, sq_nonneg a, sq_nonneg c]
      have t3 : 0 ≤ (a + c) * ((a * c) ^ 2 * B m m) := mul_nonneg hp.le (mul_nonneg (sq_nonneg _) (hB.nonneg m))
      nlinarith
    have := nonneg_of_mul_nonneg_right key hp
    linarith

/-- The two stages of TR-BDF2 with general coefficients. -/
theorem trbdf2_core (B : X →ₗ[K] X →ₗ[K] K) (hB : IsEnergy B) (R : LForm X D) (hM : IsLin K (mass R)) (hF : IsLin K (rest R))
    (hd : Dissipates B R) (a c s α β : K) (ha0 : 0 < a) (hc0 : 0 < c) (hs0 : 0 < s) (hsq : s ^ 2 = a ^ 2 + c ^ 2) (c1 : α - β = 1)
    (c2 : (α + β) * a = s) (x y z : X) (e1 : mass R z = mass R x - a • rest R x - a • rest R z)
    (e2 : mass R y = α • mass R z - β • mass R x - c • rest R y) : B y y ≤ B x x := by
  have hsc : s + c ≠ 0 := by positivity
  obtain ⟨w, hw⟩ : ∃ w : X, w = (1 / 2 : K) • (x + z) := ⟨_, rfl⟩
  obtain ⟨lw, hlw⟩ : ∃ lw : X, lw = (2 * a)⁻¹ • (z - x) := ⟨_, rfl⟩
  obtain ⟨l, hl⟩ : ∃ l : X, l = (s + c)⁻¹ • (y - w) := ⟨_, rfl⟩
  obtain ⟨v, hv⟩ : ∃ v : X, v = (s + c)⁻¹ • (s • w + c • y) := ⟨_, rfl⟩
  obtain ⟨m, hm⟩ : ∃ m : X, m = c⁻¹ • (l - lw) := ⟨_, rfl⟩
  have hz : z = w + a • lw := by
    rw [hlw, hw, smul_smul, show a * (2 * a)⁻¹ = 1 / 2 by field_simp]; module
  have hx : x = w - a • lw := by
    rw [hlw, hw, smul_smul, show a * (2 * a)⁻¹ = 1 / 2 by field_simp]; module
  have mlw : mass R lw = -rest R w := by
    rw [hlw, hw, hM.2, IsLin.sub hM, hF.2, hF.1, e1]
    have : (2 * a)⁻¹ * a = 1 / 2 := by field_simp
    have e : mass R x - a • rest R x - a • rest R z - mass R x = -(a • (rest R x + rest R z)) := by module
    rw [e, smul_neg, smul_smul, this]
  have myw : mass R (y - w) = -(c • rest R y) - s • rest R w := by
    have e3 : α • mass R z - β • mass R x = mass R w + s • mass R lw := by
      rw [hz, hx, hM.1, IsLin.sub hM, hM.2, ← c2]
      have : α = β + 1 := by linarith
      rw [this]; module
    rw [IsLin.sub hM, e2, e3, mlw]; module
  have ml : mass R l = -rest R v := by
    rw [hl, hv, hM.2, myw, hF.2, hF.1, hF.2, hF.2]; module
  have evw : v - w = c • l := by
    have : v - w = (s + c)⁻¹ • (s • w + c • y - (s + c) • w) := by
      rw [smul_sub, smul_smul, inv_mul_cancel₀ hsc, one_smul, hv]
    rw [this, hl]; module
  have mm : mass R m = -rest R l := by
    have : rest R v - rest R w = c • rest R l := by rw [← IsLin.sub hF, evw, hF.2]
    rw [hm, hM.2, IsLin.sub hM, ml, mlw]
    have e : -rest R v - -rest R w = -(c • rest R l) := by rw [← this]; abel
    rw [e, smul_neg, smul_smul, inv_mul_cancel₀ hc0.ne', one_smul]
  have ey : y = v + s • l := by
    have : y = (s + c)⁻¹ • ((s + c) • y) := by rw [smul_smul, inv_mul_cancel₀ hsc, one_smul]
    calc y = (s + c)⁻¹ • ((s + c) • y) := this
      _ = v + s • l := by rw [hl, hv]; module
  have elw : lw = l - c • m := by
    rw [hm, smul_smul, mul_inv_cancel₀ hc0.ne', one_smul]; abel
  have ex : x = v - (a + c) • l + (a * c) • m := by
    have : w = v - c • l := by rw [← evw]; abel
    rw [hx, elw, this]; module
  have hu : mass R (l - (a + c) • m) = -rest R (v - (a + c) • l) := by
    rw [IsLin.sub hM, hM.2, ml, mm, IsLin.sub hF, hF.2]; module
  rw [ey, ex]
  exact (trbdf2_algebra B hB a c s ha0 hc0.le hs0.le hsq v l m).2 (hd _ _ ml) (hd _ _ mm) (hd _ _ hu)

/-- C116: TR_BDF2 on a linear equation, for every admissible `γ` except 0 and every positive timestep: if both solves converge, the
energy of a dissipative (or energy-keeping) equation never increases. -/
theorem C116_tr_bdf2 (B : X →ₗ[K] X →ₗ[K] K) (hB : IsEnergy B) (solve : Solver X D) (R : LForm X D) (hM : IsLin K (mass R))
    (hinj : Function.Injective (mass R)) (hF : IsLin K (rest R)) (hd : Dissipates B R) (dt g : K) (hdt : 0 < dt) (hg0 : 0 < g)
    (hg1 : g ≤ 1) (x : X)
    (h1 : (trRes R dt g (solve (fun y => (trRes R dt g y x).eval) x) x).eval = 0)
    (h2 : ∀ xg, xg = solve (fun y => (trRes R dt g y x).eval) x →
      (bdf2StageRes R dt g (solve (fun y => (bdf2StageRes R dt g y xg x).eval) xg) xg x).eval = 0) :
    B (trBdf2Apply solve R dt g x) (trBdf2Apply solve R dt g x) ≤ B x x := by
  obtain ⟨z, e1, e2⟩ := C07_tr_bdf2 solve R dt g x h1 h2
  generalize trBdf2Apply solve R dt g x = y at e2 ⊢
  have hgne : g ≠ 0 := hg0.ne'
  have h2g : (2 : K) - g ≠ 0 := by linarith
  have h2g' : 0 < (2 : K) - g := by linarith
  rcases eq_or_lt_of_le hg1 with rfl | hg
  · have ez : y = z := by
      apply hinj
      rw [e2]; norm_num
    subst ez
    have hk : mass R (y - x) = -(dt • rest R ((1 / 2 : K) • y + (1 - 1 / 2 : K) • x)) := by
      rw [IsLin.sub hM, hF.1, hF.2, hF.2, e1]
      module
    have w := work_nonpos hd hM hdt hk
    rw [theta_identity B hB (1 / 2) x y]
    linarith
  · refine trbdf2_core B hB R hM hF hd (dt * g / 2) ((1 - g) / (2 - g) * dt) ((1 + (1 - g) ^ 2) / (2 * (2 - g)) * dt) _ _ (by positivity)
      (mul_pos (div_pos (by linarith) h2g') hdt) (mul_pos (div_pos (by positivity) (by linarith)) hdt) ?_ ?_ ?_ x y z e1 e2
    · field_simp; ring
    · field_simp; ring
    · field_simp

/-! ## BDF2 over a whole run -/

/-- One step of BDF2 with a dissipative tendency, nonlinear or not, does not increase `|y₁|² + |2y₁ - y₀|²`. -/
theorem bdf2_step (B : X →ₗ[K] X →ₗ[K] K) (hB : IsEnergy B) (R : LForm X D) (hM : IsLin K (mass R)) (hd : Dissipates B R) (dt : K)
    (hdt : 0 < dt) (y2 y1 y0 : X)
    (h : mass R y2 = (4 / 3 : K) • mass R y1 - (1 / 3 : K) • mass R y0 - (2 / 3 * dt) • rest R y2) :
    B y2 y2 + B ((2 : K) • y2 - y1) ((2 : K) • y2 - y1) ≤ B y1 y1 + B ((2 : K) • y1 - y0) ((2 : K) • y1 - y0) := by
  have hk : mass R (y2 - ((4 / 3 : K) • y1 - (1 / 3 : K) • y0)) = -((2 / 3 * dt) • rest R y2) := by
    rw [IsLin.sub hM, IsLin.sub hM, hM.2, hM.2, h]; abel
  have w := work_nonpos hd hM (by positivity) hk
  have p := hB.nonneg (y2 - (2 : K) • y1 + y0)
  simp only [map_sub, map_add, map_smul, LinearMap.sub_apply, LinearMap.add_apply, LinearMap.smul_apply, smul_eq_mul] at w p ⊢
  rw [hB.symm y1 y2, hB.symm y0 y2, hB.symm y0 y1] at *
  linarith

open Multilevel in
/-- C116: BDF2.  A run of any length with a dissipative equation, nonlinear or not, keeps the energy below twice the initial energy,
whatever the (positive) timestep and whatever was in the older levels. -/
theorem C116_bdf2 [Inhabited X] (B : X →ₗ[K] X →ₗ[K] K) (hB : IsEnergy B) (solve : Solver X D) (hs : ExactSolver solve)
    (R : LForm X D) (hM : IsLin K (mass R)) (hd : Dissipates B R) (dt : K) (hdt : 0 < dt)
    (huniq : ∀ c ∈ [dt, 2 / 3 * dt], ∀ d : D, ∃! y, mass R y + c • rest R y = d)
    (s : RunState X) (h : Fresh (bdf2 R dt) s) (k : ℕ) :
    B (result (bdf2 R dt) solve s k) (result (bdf2 R dt) solve s k) ≤ 2 * B s.levels.np1 s.levels.np1 := by
  set y := result (bdf2 R dt) solve s with hy
  have hy0 : y 0 = s.levels.np1 := rfl
  have run := C10_bdf2_run solve hs R dt huniq s h
  have key : ∀ k, B (y (k + 1)) (y (k + 1)) + B ((2 : K) • y (k + 1) - y k) ((2 : K) • y (k + 1) - y k) ≤ 2 * B (y 0) (y 0) := by
    intro k
    induction k with
    | zero =>
      have h0 := run 0
      simp only [if_pos] at h0
      have hk : mass R (y 1 - y 0) = -(dt • rest R (y 1)) := by rw [IsLin.sub hM, ← h0]; abel
      have w := work_nonpos hd hM hdt hk
      have p := hB.nonneg (y 1 - y 0)
      simp only [map_sub, map_add, map_smul, LinearMap.sub_apply, LinearMap.add_apply, LinearMap.smul_apply, smul_eq_mul,
        zero_add] at w p ⊢
      rw [hB.symm (y 0) (y 1)] at *
      linarith
    | succ k ih =>
      have h1 := run (k + 1)
      simp only [Nat.add_one_ne_zero, if_false, Nat.add_sub_cancel] at h1
      exact (bdf2_step B hB R hM hd dt hdt _ _ _ h1).trans ih
  cases k with
  | zero => rw [hy0]; have := hB.nonneg s.levels.np1; linarith
  | succ k =>
    have := key k
    have p := hB.nonneg ((2 : K) • y (k + 1) - y k)
    rw [hy0] at this
    linarith

/-! ## Forward Euler and what Leapfrog does -/

/-- C116, refutation for Leapfrog: the documented leapfrog scheme keeps `B(xₙ₊₁, xₙ)` for an equation that keeps the energy; what
the class solves is forward Euler, which increases the energy in every step by `dt²` times the energy of the tendency. -/
theorem C116_leapfrog_refuted (B : X →ₗ[K] X →ₗ[K] K) (hB : IsEnergy B) (R : LForm X D) (hM : IsLin K (mass R))
    (hinj : Function.Injective (mass R)) (hd : KeepsEnergy B R) (dt : K) (y xn xnm1 f : X) (hf : mass R f = -rest R xn) :
    ((Multilevel.leapfrogRhs R dt y xn xnm1).eval = 0 → B y xn = B xn xnm1) ∧
    ((Multilevel.leapfrogRes R dt y xn xnm1).eval = 0 → B y y = B xn xn + dt ^ 2 * B f f) := by
  have hw := hd xn f hf
  constructor
  · intro h
    rw [C08_leapfrog_rhs_partial] at h
    have : y = xnm1 + (2 * dt) • f := by
      apply hinj; rw [hM.1, hM.2, hf, h]; module
    rw [this, hB.symm, map_add, map_smul, hw, smul_zero, add_zero]
  · intro h
    rw [C08_leapfrog_solves_forward_euler] at h
    have : y = xn + dt • f := by
      apply hinj; rw [hM.1, hM.2, hf, h]; module
    rw [this]
    simp only [map_add, map_smul, LinearMap.add_apply, LinearMap.smul_apply, smul_eq_mul]
    rw [hB.symm f xn, hw]; ring

/-! ## Explicit Runge-Kutta -/

theorem skew {B : X →ₗ[K] X →ₗ[K] K} (hB : IsEnergy B) {L : X →ₗ[K] X} (h : ∀ x, B x (L x) = 0) (x y : X) :
    B x (L y) = -B (L x) y := by
  have := h (x + y)
  simp only [map_add, LinearMap.add_apply] at this
  rw [h x, h y] at this
  rw [hB.symm (L x) y]
  linarith

theorem rkK_eq' (a : ℕ → ℕ → K) (f : X → X) (dt : K) (x : X) (i : ℕ) :
    rkK a f dt x i = f (x + dt • ∑ j ∈ range i, a i j • rkK a f dt x j) := by
  rw [rkK, sum_range]

/-- C116: the explicit schemes on a linear equation that keeps the energy (`x' = Lx` with `B(x, Lx) = 0`).  A step of ForwardEuler
and of Heun increases the energy by `dt² |Lx|²` and `dt⁴/4 |L²x|²`; SSPRK3 changes it by `-dt⁴/12 |L²x|² + dt⁶/36 |L³x|²` and RK4 by
`-dt⁶/72 |L³x|² + dt⁸/576 |L⁴x|²`. -/
theorem C116_explicit (B : X →ₗ[K] X →ₗ[K] K) (hB : IsEnergy B) (S : RKScheme K X D) (M : X ≃ₗ[K] D) (hM : ∀ x, mass S.R x = M x)
    (hsolve : ExactSolver S.solve) (hns : ∀ u ∈ S.R, Label.source ∉ u.labels) (hl : S.limiter = none)
    (L : X →ₗ[K] X) (hL : ∀ x, M (L x) = -rest S.R x) (hE : ∀ x, B x (L x) = 0) (st : RKState X) (x : X) :
    let q := fun z => B z z
    let y := RK.apply .increment S 1 st x
    ((∀ i j, S.A i j = ((forwardEuler.A i j : ℚ) : K)) → S.nStages = 1 → q y = q x + S.dt ^ 2 * q (L x)) ∧
    ((∀ t, heun = some t → ∀ i j, S.A i j = ((t.A i j : ℚ) : K)) → S.nStages = 2 →
      q y = q x + S.dt ^ 4 / 4 * q (L (L x))) ∧
    ((∀ t, ssprk3 3 = some t → ∀ i j, S.A i j = ((t.A i j : ℚ) : K)) → S.nStages = 3 →
      q y = q x - S.dt ^ 4 / 12 * q (L (L x)) + S.dt ^ 6 / 36 * q (L (L (L x)))) ∧
    ((∀ i j, S.A i j = ((rk4.A i j : ℚ) : K)) → S.nStages = 4 →
      q y = q x - S.dt ^ 6 / 72 * q (L (L (L x))) + S.dt ^ 8 / 576 * q (L (L (L (L x))))) := by
  intro q y
  have ht : tendency S.R M = L := by
    funext z
    rw [tendency, ← hL z, LinearEquiv.symm_apply_apply]
  have hy : 0 < S.nStages → y = textbook S L x := by
    intro hn
    simp only [y]
    rw [C02_increment S M ⟨hM, hsolve, hn⟩ hl hns 1 one_pos, ht]; rfl
  have s01 : B x (L x) = 0 := hE x
  have s12 : B (L x) (L (L x)) = 0 := hE _
  have s23 : B (L (L x)) (L (L (L x))) = 0 := hE _
  have s34 : B (L (L (L x))) (L (L (L (L x)))) = 0 := hE _
  have s02 : B x (L (L x)) = -B (L x) (L x) := skew hB hE _ _
  have s13 : B (L x) (L (L (L x))) = -B (L (L x)) (L (L x)) := skew hB hE _ _
  have s24 : B (L (L x)) (L (L (L (L x)))) = -B (L (L (L x))) (L (L (L x))) := skew hB hE _ _
  have s03 : B x (L (L (L x))) = 0 := by rw [skew hB hE, s12, neg_zero]
  have s14 : B (L x) (L (L (L (L x)))) = 0 := by rw [skew hB hE, s23, neg_zero]
  have s04 : B x (L (L (L (L x)))) = B (L (L x)) (L (L x)) := by rw [skew hB hE, s13, neg_neg]
  refine ⟨fun hA hn => ?_, fun hA hn => ?_, fun hA hn => ?_, fun hA hn => ?_⟩
  · have e : y = x + S.dt • L x := by
      rw [hy (by omega)]
      simp only [textbook, rkStep, hn, sum_range_succ, sum_range_zero, rkK_eq' _ _ _ _ 0, weights, hA, forwardEuler, Table.A]
      simp
    simp only [q, e, map_add, map_smul, LinearMap.add_apply, LinearMap.smul_apply, smul_eq_mul]
    rw [hB.symm (L x) x, s01]; ring
  · have e : y = x + S.dt • L x + (S.dt ^ 2 / 2) • L (L x) := by
      rw [hy (by omega)]
      simp only [textbook, rkStep, hn, sum_range_succ, sum_range_zero, rkK_eq' _ _ _ _ 0, rkK_eq' _ _ _ _ 1, weights, stageCoeffs,
        hA _ rfl, Table.A]
      simp
      module
    simp only [q, e, map_add, map_smul, LinearMap.add_apply, LinearMap.smul_apply, smul_eq_mul]
    rw [hB.symm (L x) x, hB.symm (L (L x)) x, hB.symm (L (L x)) (L x), s01, s12, s02]; ring
  · have e : y = x + S.dt • L x + (S.dt ^ 2 / 2) • L (L x) + (S.dt ^ 3 / 6) • L (L (L x)) := by
      rw [hy (by omega)]
      simp only [textbook, rkStep, hn, sum_range_succ, sum_range_zero, rkK_eq' _ _ _ _ 0, rkK_eq' _ _ _ _ 1, rkK_eq' _ _ _ _ 2,
        weights, stageCoeffs, hA _ rfl, Table.A]
      simp
      module
    simp only [q, e, map_add, map_smul, LinearMap.add_apply, LinearMap.smul_apply, smul_eq_mul]
    rw [hB.symm (L x) x, hB.symm (L (L x)) x, hB.symm (L (L x)) (L x), hB.symm (L (L (L x))) x, hB.symm (L (L (L x))) (L x),
      hB.symm (L (L (L x))) (L (L x)), s01, s12, s23, s02, s13, s03]
    ring
  · have e : y = x + S.dt • L x + (S.dt ^ 2 / 2) • L (L x) + (S.dt ^ 3 / 6) • L (L (L x)) + (S.dt ^ 4 / 24) • L (L (L (L x))) := by
      rw [hy (by omega)]
      simp only [textbook, rkStep, hn, sum_range_succ, sum_range_zero, rkK_eq' _ _ _ _ 0, rkK_eq' _ _ _ _ 1, rkK_eq' _ _ _ _ 2,
        rkK_eq' _ _ _ _ 3, weights, stageCoeffs, hA, rk4, Table.A]
      simp
      module
    simp only [q, e, map_add, map_smul, LinearMap.add_apply, LinearMap.smul_apply, smul_eq_mul]
    rw [hB.symm (L x) x, hB.symm (L (L x)) x, hB.symm (L (L x)) (L x), hB.symm (L (L (L x))) x, hB.symm (L (L (L x))) (L x),
      hB.symm (L (L (L x))) (L (L x)), hB.symm (L (L (L (L x)))) x, hB.symm (L (L (L (L x)))) (L x),
      hB.symm (L (L (L (L x)))) (L (L x)), hB.symm (L (L (L (L x)))) (L (L (L x))),
      s01, s12, s23, s34, s02, s13, s24, s03, s14, s04]
    ring


/-! ## Whole runs of the one-step schemes -/

theorem iterate_le {q : X → K} {Φ : X → X} (h : ∀ x, q (Φ x) ≤ q x) (n : ℕ) (x : X) : q (Φ^[n] x) ≤ q x := by
  induction n with
  | zero => exact le_rfl
  | succ n ih => rw [Function.iterate_succ_apply']; exact (h _).trans ih

/-- C116: a run of any number of steps.  BackwardEuler never increases the energy of a dissipative equation, nonlinear or not;
ThetaMethod with `theta ≥ 1/2` does not for a linear one, and TrapeziumRule keeps the energy of a linear equation that keeps it. -/
theorem C116_one_step_runs (B : X →ₗ[K] X →ₗ[K] K) (hB : IsEnergy B) (solve : Solver X D) (hs : ExactSolver solve) (R : LForm X D)
    (hM : IsLin K (mass R)) (dt : K) (hdt : 0 < dt) (huniq : ∀ c : K, 0 < c → ∀ d : D, ∃! y, mass R y + c • rest R y = d)
    (n : ℕ) (x : X) :
    (Dissipates B R →
      let y := (implicitCycle solve (backwardEulerRes R dt))^[n] x
      B y y ≤ B x x) ∧
    (Dissipates B R → IsLin K (rest R) → ∀ th, 1 / 2 ≤ th →
      let y := (implicitCycle solve (thetaRes R dt th))^[n] x
      B y y ≤ B x x) ∧
    (KeepsEnergy B R → IsLin K (rest R) →
      let y := (implicitCycle solve (trapeziumRes R dt))^[n] x
      B y y = B x x) := by
  have hth : ∀ th : K, 1 / 2 ≤ th → ∀ x, (thetaRes R dt th (implicitCycle solve (thetaRes R dt th) x) x).eval = 0 := by
    intro th h x
    refine hs (fun y => (thetaRes R dt th y x).eval) x ?_
    have hp : 0 < dt * th := mul_pos hdt (by linarith)
    obtain ⟨y, hy, hu⟩ := huniq (dt * th) hp (mass R x - (dt * (1 - th)) • rest R x)
    refine ⟨y, ?_, fun z hz => hu z ?_⟩
    · show (thetaRes R dt th y x).eval = 0
      rw [C07_theta]; exact hy
    · have hz : (thetaRes R dt th z x).eval = 0 := hz
      rw [C07_theta] at hz
      exact hz
  refine ⟨fun hd => ?_, fun hd hF th h => ?_, fun hd hF => ?_⟩
  · refine iterate_le (q := fun z => B z z) (fun x => ?_) n x
    have h0 : (backwardEulerRes R dt (implicitCycle solve (backwardEulerRes R dt) x) x).eval = 0 := by
      refine hs (fun y => (backwardEulerRes R dt y x).eval) x ?_
      obtain ⟨y, hy, hu⟩ := huniq dt hdt (mass R x)
      refine ⟨y, ?_, fun z hz => hu z ?_⟩
      · show (backwardEulerRes R dt y x).eval = 0
        rw [C07_backward_euler]; exact hy
      · have hz : (backwardEulerRes R dt z x).eval = 0 := hz
        rw [C07_backward_euler] at hz
        exact hz
    have := C116_backward_euler B hB R hM hd dt hdt x _ h0
    have p := hB.nonneg (implicitCycle solve (backwardEulerRes R dt) x - x)
    linarith
  · exact iterate_le (q := fun z => B z z) (fun x => (C116_theta B hB R hM hF dt th hdt x _ (hth th h x)).2 hd h) n x
  · have step : ∀ x, B (implicitCycle solve (trapeziumRes R dt) x) (implicitCycle solve (trapeziumRes R dt) x) = B x x :=
      fun x => (C116_trapezium B hB R hM hF dt hdt x _ (hth (1 / 2) le_rfl x)).1 hd
    show B ((implicitCycle solve (trapeziumRes R dt))^[n] x) ((implicitCycle solve (trapeziumRes R dt))^[n] x) = B x x
    induction n with
    | zero => rfl
    | succ n ih => rw [Function.iterate_succ_apply', step, ih]

/-- C116: the energy criterion for the explicit schemes on waves.  If `|Lz|² ≤ λ |z|²` for all `z` then a step of SSPRK3 with
`dt² λ ≤ 3`, and a step of RK4 with `dt² λ ≤ 8`, does not increase the energy of an equation that keeps it. -/
theorem C116_explicit_stable (B : X →ₗ[K] X →ₗ[K] K) (hB : IsEnergy B) (S : RKScheme K X D) (M : X ≃ₗ[K] D)
    (hM : ∀ x, mass S.R x = M x) (hsolve : ExactSolver S.solve) (hns : ∀ u ∈ S.R, Label.source ∉ u.labels) (hl : S.limiter = none)
    (L : X →ₗ[K] X) (hL : ∀ x, M (L x) = -rest S.R x) (hE : ∀ x, B x (L x) = 0) (lam : K)
    (hlam : ∀ z, B (L z) (L z) ≤ lam * B z z) (st : RKState X) (x : X) :
    let q := fun z => B z z
    let y := RK.apply .increment S 1 st x
    ((∀ t, ssprk3 3 = some t → ∀ i j, S.A i j = ((t.A i j : ℚ) : K)) → S.nStages = 3 → S.dt ^ 2 * lam ≤ 3 → q y ≤ q x) ∧
    ((∀ i j, S.A i j = ((rk4.A i j : ℚ) : K)) → S.nStages = 4 → S.dt ^ 2 * lam ≤ 8 → q y ≤ q x) := by
  intro q y
  obtain ⟨-, -, h3, h4⟩ := C116_explicit B hB S M hM hsolve hns hl L hL hE st x
  refine ⟨fun hA hn hdt => ?_, fun hA hn hdt => ?_⟩
  · have e := h3 hA hn
    simp only [q, y] at e ⊢; rw [e]
    have p := hB.nonneg (L (L x))
    have k := mul_le_mul_of_nonneg_left (hlam (L (L x))) (show (0 : K) ≤ S.dt ^ 6 / 36 by positivity)
    have k2 := mul_le_mul_of_nonneg_right hdt (mul_nonneg (show (0 : K) ≤ S.dt ^ 4 / 36 by positivity) p)
    nlinarith
  · have e := h4 hA hn
    simp only [q, y] at e ⊢; rw [e]
    have p := hB.nonneg (L (L (L x)))
    have k := mul_le_mul_of_nonneg_left (hlam (L (L (L x)))) (show (0 : K) ≤ S.dt ^ 8 / 576 by positivity)
    have k2 := mul_le_mul_of_nonneg_right hdt (mul_nonneg (show (0 : K) ≤ S.dt ^ 6 / 576 by positivity) p)
    nlinarith

/-! ## The transport and diffusion equations of the package -/

section Galerkin
variable {d : ℕ} {C F Bd : Type*} [Fintype C] [Fintype F] [Fintype Bd]

/-- `inner(p, q)*dx`. -/
def l2 (M : DG.Mesh K d C F Bd) (c : X →ₗ[K] (C → K)) : X →ₗ[K] X →ₗ[K] K :=
  LinearMap.mk₂ K (fun x y => ∑ i, M.wC i * (c x i * c y i))
    (by intro a b y; simp only [map_add, Pi.add_apply, ← Finset.sum_add_distrib]; exact Finset.sum_congr rfl fun i _ => by ring)
    (by intro k a y; simp only [map_smul, Pi.smul_apply, smul_eq_mul, Finset.mul_sum]; exact Finset.sum_congr rfl fun i _ => by ring)
    (by intro a b y; simp only [map_add, Pi.add_apply, ← Finset.sum_add_distrib]; exact Finset.sum_congr rfl fun i _ => by ring)
    (by intro k a y; simp only [map_smul, Pi.smul_apply, smul_eq_mul, Finset.mul_sum]; exact Finset.sum_congr rfl fun i _ => by ring)

theorem l2_energy (M : DG.Mesh K d C F Bd) (hw : ∀ x, 0 ≤ M.wC x) (c : X →ₗ[K] (C → K)) : IsEnergy (l2 M c) where
  symm x y := by simp only [l2, LinearMap.mk₂_apply]; exact Finset.sum_congr rfl fun i _ => by ring
  nonneg x := by
    simp only [l2, LinearMap.mk₂_apply]
    exact Finset.sum_nonneg fun i _ => mul_nonneg (hw i) (mul_self_nonneg _)

/-- C116: what the theorems above need is met by the equations of the package.  `X` is the space of fields, tested with itself, `fn`
reads a field at the quadrature points.  Upwind advection by a divergence-free wind without flow through the boundary (`ibp = once`),
with outflow by any divergence-free wind, and interior penalty diffusion under the trace inequality all dissipate the L² norm. -/
theorem C116_equations (M : DG.Mesh K d C F Bd) (hwF : ∀ x, 0 ≤ M.wF x) (hwB : ∀ x, 0 ≤ M.wB x) (fn : X → DG.Sc K d C F Bd)
    (c : X →ₗ[K] (C → K)) (hc : ∀ x, (fn x).c = c x) (R : LForm X (X → K))
    (hmass : ∀ k φ, mass R k φ = ∑ i, M.wC i * ((fn φ).c i * (fn k).c i)) :
    (∀ u : DG.Ve K d C F Bd, (∀ q, DGProps.DivThm M (fn q) (fn q) u) → DGProps.FluxCont M u → (∀ x, u.div x = 0) →
      (DGProps.NoFlow M u → (∀ q φ, .ok (rest R q φ) = DG.upwindAdvection M (fn φ) (fn q) u .once false) → Dissipates (l2 M c) R) ∧
      ((∀ q φ, .ok (rest R q φ) = DG.upwindAdvection M (fn φ) (fn q) u .once true) → Dissipates (l2 M c) R)) ∧
    (∀ kappa mu : K, 0 ≤ kappa → 0 < mu →
      (∀ q, (∑ x, M.wF x * DG.dot (fun i => ((fn q).gp x i + (fn q).gm x i) / 2) (fun i => ((fn q).gp x i + (fn q).gm x i) / 2)) ≤
        mu * ∑ x, M.wC x * DG.dot ((fn q).g x) ((fn q).g x)) →
      (∀ q φ, rest R q φ = DG.interiorPenalty M kappa mu (fn φ) (fn q)) → Dissipates (l2 M c) R) := by
  have key : (∀ q, 0 ≤ rest R q q) → Dissipates (l2 M c) R := by
    intro h x x' hx
    have e := congrFun hx x
    rw [hmass, Pi.neg_apply] at e
    simp only [l2, LinearMap.mk₂_apply, ← hc]
    rw [e]
    have := h x
    linarith
  refine ⟨fun u hdiv hflux hfree => ⟨fun hno hR => key fun q => ?_, fun hR => key fun q => ?_⟩, fun kappa mu hk hmu htr hR => key fun q => ?_⟩
  · obtain ⟨L, hL, h0⟩ := DGProps.C89_dissipative M hwF (fn q) u (hdiv q) hflux hno hfree
    rw [← hR, Except.ok.injEq] at hL
    rwa [hL]
  · obtain ⟨L, hL, h0⟩ := DGProps.C89_outflow M hwF hwB (fn q) u (hdiv q) hflux hfree
    rw [← hR, Except.ok.injEq] at hL
    rwa [hL]
  · rw [hR]
    exact DGProps.C86_coercive M hwF kappa mu hk hmu (fn q) (htr q)

end Galerkin

/-! ## Examples -/

/-- Inertial oscillation `x₀' = x₁`, `x₁' = -x₀`. -/
def rotation : LForm (Fin 2 → ℚ) (Fin 2 → ℚ) :=
  [ { labels := [.timeDerivative], op := id, subj := 0 }, { labels := [.transport], op := fun x => ![-x 1, x 0], subj := 0 } ]

/-- The sum of squares. -/
def sumSq : (Fin 2 → ℚ) →ₗ[ℚ] (Fin 2 → ℚ) →ₗ[ℚ] ℚ :=
  LinearMap.mk₂ ℚ (fun x y => x 0 * y 0 + x 1 * y 1) (by intros; simp; ring) (by intros; simp; ring) (by intros; simp; ring)
    (by intros; simp; ring)

theorem sumSq_energy : IsEnergy sumSq where
  symm x y := by simp [sumSq, mul_comm]
  nonneg x := by simp [sumSq]; nlinarith [mul_self_nonneg (x 0), mul_self_nonneg (x 1)]

theorem rotation_mass (x : Fin 2 → ℚ) : mass rotation x = x := by simp [mass, part, rotation]
theorem rotation_rest (x : Fin 2 → ℚ) : rest rotation x = ![-x 1, x 0] := by simp [rest, part, rotation]
theorem rotation_lin : IsLin ℚ (mass rotation) ∧ IsLin ℚ (rest rotation) := by
  refine ⟨⟨?_, ?_⟩, ?_, ?_⟩
  · intros; simp [rotation_mass]
  · intros; simp [rotation_mass]
  · intro x y; simp only [rotation_rest]; funext i; fin_cases i <;> simp; ring
  · intro c y; simp only [rotation_rest]; funext i; fin_cases i <;> simp

theorem rotation_keeps : KeepsEnergy sumSq rotation := by
  intro x x' h
  rw [rotation_mass, rotation_rest] at h
  subst h
  simp [sumSq]; ring

theorem rotation_dissipates : Dissipates sumSq rotation := fun x x' h => (rotation_keeps x x' h).le

theorem rotation_unique (c : ℚ) (d : Fin 2 → ℚ) : ∃! y, mass rotation y + c • rest rotation y = d := by
  have hp : 1 + c ^ 2 ≠ 0 := by positivity
  refine ⟨![(d 0 + c * d 1) / (1 + c ^ 2), (d 1 - c * d 0) / (1 + c ^ 2)], ?_, ?_⟩
  · simp only [rotation_mass, rotation_rest]
    funext i; fin_cases i <;> simp <;> field_simp <;> ring
  · intro y hy
    simp only [rotation_mass, rotation_rest] at hy
    have h0 := congrFun hy 0
    have h1 := congrFun hy 1
    simp at h0 h1
    funext i; fin_cases i <;> simp <;> field_simp <;> rw [← h0, ← h1] <;> ring

/-- non-vacuity: a million steps of TrapeziumRule from `(3, 4)` end on the circle of radius 5; BackwardEuler ends inside it. -/
example : let y := (implicitCycle choiceSolve (trapeziumRes rotation (1 / 10 : ℚ)))^[1000000] ![3, 4]
    let z := (implicitCycle choiceSolve (backwardEulerRes rotation (1 / 10 : ℚ)))^[1000000] ![3, 4]
    sumSq y y = 25 ∧ sumSq z z ≤ 25 := by
  obtain ⟨h1, -, h3⟩ := C116_one_step_runs sumSq sumSq_energy choiceSolve choiceSolve_exact rotation rotation_lin.1 (1 / 10)
    (by norm_num) (fun c _ d => rotation_unique c d) 1000000 ![3, 4]
  have e : sumSq ![3, 4] ![3, 4] = 25 := by norm_num [sumSq]
  exact ⟨by rw [← e]; exact h3 rotation_keeps rotation_lin.2, by rw [← e]; exact h1 rotation_dissipates⟩

/-- The energy does fall: one step of BackwardEuler from `(3, 4)` with `dt = 1` halves it. -/
example : (backwardEulerRes rotation (1 : ℚ) ![7 / 2, 1 / 2] ![3, 4]).eval = 0 ∧ sumSq ![7 / 2, 1 / 2] ![7 / 2, 1 / 2] = 25 / 2 := by
  refine ⟨?_, by norm_num [sumSq]⟩
  rw [C07_backward_euler, rotation_mass, rotation_mass, rotation_rest]
  funext i; fin_cases i <;> norm_num

/-- non-vacuity of the hypotheses of `C116_explicit` and `C116_explicit_stable`. -/
example : let L : (Fin 2 → ℚ) →ₗ[ℚ] (Fin 2 → ℚ) := { toFun := fun x => ![x 1, -x 0], map_add' := fun x y => by funext i; fin_cases i <;> simp; ring, map_smul' := fun c x => by funext i; fin_cases i <;> simp }
    (∀ x, (LinearEquiv.refl ℚ (Fin 2 → ℚ)) (L x) = -rest rotation x) ∧ (∀ x, sumSq x (L x) = 0) ∧ ∀ z, sumSq (L z) (L z) ≤ 1 * sumSq z z := by
  refine ⟨fun x => ?_, fun x => ?_, fun x => ?_⟩
  · rw [rotation_rest]; funext i; fin_cases i <;> simp
  · simp [sumSq]; ring
  · simp [sumSq]; linarith

end Gusto.Props.EnergyProps
