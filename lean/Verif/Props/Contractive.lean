import Verif.Spec.Energy
import Verif.Props.Energy
import Verif.Props.ImplicitRK
import Mathlib.Analysis.Real.Sqrt
import Mathlib.Algebra.QuadraticDiscriminant

set_option autoImplicit false
set_option linter.unusedSectionVars false
set_option linter.unusedSimpArgs false

/-!
# C146: two runs of the implicit schemes do not drift apart
-/

namespace Gusto.Props.ContractiveProps
open Gusto LForm TimeDisc Spec Finset Gusto.Props Gusto.Props.EnergyProps

section general
variable {K X D : Type*} [Field K] [LinearOrder K] [IsStrictOrderedRing K] [AddCommGroup X] [Module K X] [AddCommGroup D] [Module K D]

/-- Two solutions of `M(x') = -F(x)` never move apart: the rate of change `2 B(x₁ - x₂, x₁' - x₂')` of the squared distance is never
positive (spec). -/
def Contracts (B : X →ₗ[K] X →ₗ[K] K) (R : LForm X D) : Prop :=
  ∀ x₁ x₂ k₁ k₂, mass R k₁ = -rest R x₁ → mass R k₂ = -rest R x₂ → B (x₁ - x₂) (k₁ - k₂) ≤ 0

/-- The squared distance (spec). -/
def dist2 (B : X →ₗ[K] X →ₗ[K] K) (x y : X) : K := B (x - y) (x - y)

/-- C146: a linear equation that does not increase the energy contracts; C116 shows that upwind transport by a divergence-free wind
and interior penalty diffusion are such equations. -/
theorem C146_linear {B : X →ₗ[K] X →ₗ[K] K} {R : LForm X D} (hM : IsLin K (mass R)) (hF : IsLin K (rest R)) (hd : Dissipates B R) :
    Contracts B R := by
  intro x₁ x₂ k₁ k₂ h₁ h₂
  refine hd _ _ ?_
  rw [IsLin.sub hM, IsLin.sub hF, h₁, h₂]
  abel

theorem work_diff {B : X →ₗ[K] X →ₗ[K] K} {R : LForm X D} (hd : Contracts B R) (hM : IsLin K (mass R)) {c : K} (hc : 0 < c)
    {z₁ z₂ k₁ k₂ : X} (h₁ : mass R k₁ = -(c • rest R z₁)) (h₂ : mass R k₂ = -(c • rest R z₂)) : B (z₁ - z₂) (k₁ - k₂) ≤ 0 := by
  have e : ∀ k z, mass R k = -(c • rest R z) → mass R (c⁻¹ • k) = -rest R z := fun k z h => by
    rw [hM.2, h, smul_neg, smul_smul, inv_mul_cancel₀ hc.ne', one_smul]
  have := hd z₁ z₂ _ _ (e _ _ h₁) (e _ _ h₂)
  rw [← smul_sub, map_smul, smul_eq_mul] at this
  have e : B (z₁ - z₂) (k₁ - k₂) = c * (c⁻¹ * B (z₁ - z₂) (k₁ - k₂)) := by field_simp
  rw [e]
  exact mul_nonpos_of_nonneg_of_nonpos hc.le this

/-- C146: a step of `BackwardEuler` from two states: the results are at most as far apart as the states, whatever the timestep, for
nonlinear equations too. -/
theorem C146_backward_euler (B : X →ₗ[K] X →ₗ[K] K) (hB : IsEnergy B) (R : LForm X D) (hM : IsLin K (mass R))
    (hd : Contracts B R) (dt : K) (hdt : 0 < dt) (x₁ x₂ y₁ y₂ : X) (h₁ : (backwardEulerRes R dt y₁ x₁).eval = 0)
    (h₂ : (backwardEulerRes R dt y₂ x₂).eval = 0) : dist2 B y₁ y₂ ≤ dist2 B x₁ x₂ := by
  rw [C07_backward_euler] at h₁ h₂
  have k₁ : mass R (y₁ - x₁) = -(dt • rest R y₁) := by rw [IsLin.sub hM, ← h₁]; abel
  have k₂ : mass R (y₂ - x₂) = -(dt • rest R y₂) := by rw [IsLin.sub hM, ← h₂]; abel
  have w := work_diff hd hM hdt k₁ k₂
  rw [show y₁ - x₁ - (y₂ - x₂) = (y₁ - y₂) - (x₁ - x₂) by abel] at w
  unfold dist2
  generalize y₁ - y₂ = y at *
  generalize x₁ - x₂ = x at *
  have p := hB.nonneg (y - x)
  simp only [map_sub, LinearMap.sub_apply] at w p
  have := hB.symm x y
  linarith

/-- C146: the equation of a `BackwardEuler` step has at most one solution if the distance is definite, whatever the timestep: an exact
solver only needs that there is one. -/
theorem C146_unique (B : X →ₗ[K] X →ₗ[K] K) (hB : IsEnergy B) (hdef : ∀ x, B x x = 0 → x = 0) (R : LForm X D)
    (hM : IsLin K (mass R)) (hd : Contracts B R) (dt : K) (hdt : 0 < dt) (x y₁ y₂ : X)
    (h₁ : (backwardEulerRes R dt y₁ x).eval = 0) (h₂ : (backwardEulerRes R dt y₂ x).eval = 0) : y₁ = y₂ := by
  have := C146_backward_euler B hB R hM hd dt hdt x x y₁ y₂ h₁ h₂
  unfold dist2 at this
  rw [sub_self, map_zero] at this
  exact sub_eq_zero.1 (hdef _ (le_antisymm this (hB.nonneg _)))

/-- Where the result of a `BackwardEuler` step comes from. -/
theorem be_root (solve : Solver X D) (hs : ExactSolver solve) (R : LForm X D) (dt : K)
    (huniq : ∀ d : D, ∃! y, mass R y + dt • rest R y = d) (x : X) :
    (backwardEulerRes R dt (implicitCycle solve (backwardEulerRes R dt) x) x).eval = 0 := by
  refine hs (fun y => (backwardEulerRes R dt y x).eval) x ?_
  obtain ⟨y, hy, hu⟩ := huniq (mass R x)
  refine ⟨y, ?_, fun z hz => hu z ?_⟩
  · show (backwardEulerRes R dt y x).eval = 0
    rw [C07_backward_euler]; exact hy
  · have hz : (backwardEulerRes R dt z x).eval = 0 := hz
    rw [C07_backward_euler] at hz
    exact hz

/-- C146, histories: two runs of `BackwardEuler` with the same timesteps, any number and any lengths of them, are never further apart
than their initial states. -/
theorem C146_backward_euler_runs (B : X →ₗ[K] X →ₗ[K] K) (hB : IsEnergy B) (solve : Solver X D) (hs : ExactSolver solve)
    (R : LForm X D) (hM : IsLin K (mass R)) (hd : Contracts B R)
    (huniq : ∀ c : K, 0 < c → ∀ d : D, ∃! y, mass R y + c • rest R y = d) (dts : List K) (hdt : ∀ dt ∈ dts, 0 < dt) (x y : X) :
    let run := fun z => dts.foldl (fun z dt => implicitCycle solve (backwardEulerRes R dt) z) z
    dist2 B (run x) (run y) ≤ dist2 B x y := by
  induction dts generalizing x y with
  | nil => exact le_rfl
  | cons dt l ih =>
    have h0 := hdt dt List.mem_cons_self
    exact (ih (fun t ht => hdt t (List.mem_cons_of_mem _ ht)) _ _).trans
      (C146_backward_euler B hB R hM hd dt h0 x y _ _ (be_root solve hs R dt (huniq dt h0) x) (be_root solve hs R dt (huniq dt h0) y))

/-! ## BDF2 -/

theorem bdf2_diff (B : X →ₗ[K] X →ₗ[K] K) (hB : IsEnergy B) (R : LForm X D) (hM : IsLin K (mass R)) (hd : Contracts B R) (dt : K)
    (hdt : 0 < dt) (y2 y1 y0 z2 z1 z0 : X)
    (h : mass R y2 = (4 / 3 : K) • mass R y1 - (1 / 3 : K) • mass R y0 - (2 / 3 * dt) • rest R y2)
    (h' : mass R z2 = (4 / 3 : K) • mass R z1 - (1 / 3 : K) • mass R z0 - (2 / 3 * dt) • rest R z2) :
    B (y2 - z2) (y2 - z2) + B ((2 : K) • (y2 - z2) - (y1 - z1)) ((2 : K) • (y2 - z2) - (y1 - z1)) ≤
      B (y1 - z1) (y1 - z1) + B ((2 : K) • (y1 - z1) - (y0 - z0)) ((2 : K) • (y1 - z1) - (y0 - z0)) := by
  have hk : mass R (y2 - ((4 / 3 : K) • y1 - (1 / 3 : K) • y0)) = -((2 / 3 * dt) • rest R y2) := by
    rw [IsLin.sub hM, IsLin.sub hM, hM.2, hM.2, h]; abel
  have hk' : mass R (z2 - ((4 / 3 : K) • z1 - (1 / 3 : K) • z0)) = -((2 / 3 * dt) • rest R z2) := by
    rw [IsLin.sub hM, IsLin.sub hM, hM.2, hM.2, h']; abel
  have w := work_diff hd hM (by positivity) hk hk'
  rw [show y2 - ((4 / 3 : K) • y1 - (1 / 3 : K) • y0) - (z2 - ((4 / 3 : K) • z1 - (1 / 3 : K) • z0)) =
    (y2 - z2) - ((4 / 3 : K) • (y1 - z1) - (1 / 3 : K) • (y0 - z0)) by module] at w
  generalize y2 - z2 = e2 at *
  generalize y1 - z1 = e1 at *
  generalize y0 - z0 = e0 at *
  have p := hB.nonneg (e2 - (2 : K) • e1 + e0)
  simp only [map_sub, map_add, map_smul, LinearMap.sub_apply, LinearMap.add_apply, LinearMap.smul_apply, smul_eq_mul] at w p ⊢
  rw [hB.symm e1 e2, hB.symm e0 e2, hB.symm e0 e1] at *
  linarith

open Multilevel in
/-- C146: two runs of `BDF2` of any length: the squared distance stays below twice the initial one, whatever the timestep and whatever
was in the older levels. -/
theorem C146_bdf2 [Inhabited X] (B : X →ₗ[K] X →ₗ[K] K) (hB : IsEnergy B) (solve : Solver X D) (hs : ExactSolver solve)
    (R : LForm X D) (hM : IsLin K (mass R)) (hd : Contracts B R) (dt : K) (hdt : 0 < dt)
    (huniq : ∀ c ∈ [dt, 2 / 3 * dt], ∀ d : D, ∃! y, mass R y + c • rest R y = d)
    (s t : RunState X) (h : Fresh (bdf2 R dt) s) (h' : Fresh (bdf2 R dt) t) (k : ℕ) :
    dist2 B (result (bdf2 R dt) solve s k) (result (bdf2 R dt) solve t k) ≤ 2 * dist2 B s.levels.np1 t.levels.np1 := by
  set y := result (bdf2 R dt) solve s with hy
  set z := result (bdf2 R dt) solve t with hz
  have hy0 : y 0 = s.levels.np1 := rfl
  have hz0 : z 0 = t.levels.np1 := rfl
  have run := C10_bdf2_run solve hs R dt huniq s h
  have run' := C10_bdf2_run solve hs R dt huniq t h'
  have key : ∀ k, B (y (k + 1) - z (k + 1)) (y (k + 1) - z (k + 1)) +
      B ((2 : K) • (y (k + 1) - z (k + 1)) - (y k - z k)) ((2 : K) • (y (k + 1) - z (k + 1)) - (y k - z k)) ≤
      2 * B (y 0 - z 0) (y 0 - z 0) := by
    intro k
    induction k with
    | zero =>
      have h0 := run 0
      have h0' := run' 0
      simp only [if_pos] at h0 h0'
      have hk : mass R (y 1 - y 0) = -(dt • rest R (y 1)) := by rw [IsLin.sub hM, ← h0]; abel
      have hk' : mass R (z 1 - z 0) = -(dt • rest R (z 1)) := by rw [IsLin.sub hM, ← h0']; abel
      have w := work_diff hd hM hdt hk hk'
      rw [show y 1 - y 0 - (z 1 - z 0) = (y 1 - z 1) - (y 0 - z 0) by abel] at w
      simp only [zero_add]
      generalize y 1 - z 1 = e1 at *
      generalize y 0 - z 0 = e0 at *
      have p := hB.nonneg (e1 - e0)
      simp only [map_sub, map_add, map_smul, LinearMap.sub_apply, LinearMap.add_apply, LinearMap.smul_apply, smul_eq_mul] at w p ⊢
      rw [hB.symm e0 e1] at *
      linarith
    | succ k ih =>
      have h1 := run (k + 1)
      have h1' := run' (k + 1)
      simp only [Nat.add_one_ne_zero, if_false, Nat.add_sub_cancel] at h1 h1'
      exact (bdf2_diff B hB R hM hd dt hdt _ _ _ _ _ _ h1 h1').trans ih
  unfold dist2
  cases k with
  | zero => rw [hy0, hz0]; have := hB.nonneg (s.levels.np1 - t.levels.np1); linarith
  | succ k =>
    have := key k
    have p := hB.nonneg ((2 : K) • (y (k + 1) - z (k + 1)) - (y k - z k))
    rw [hy0, hz0] at this
    linarith

end general

/-! ## Implicit Runge-Kutta -/

section irk
open Gusto.IRK Gusto.Props.IRKProps
variable {K X D : Type*} [Field K] [LinearOrder K] [IsStrictOrderedRing K] [AddCommGroup X] [Module K X] [AddCommGroup D] [Module K D]

/-- C146: one step of a symplectic diagonally implicit scheme with non-negative weights, from two states. -/
theorem C146_dirk (a : ℕ → ℕ → K) (b : ℕ → K) (s : ℕ) (hsym : SymplecticTable a b s)
    (hlow : ∀ i < s, ∀ j < s, i < j → a i j = 0) (hb : ∀ i < s, 0 ≤ b i) (R : LForm X D) (dt : K) (hdt : 0 ≤ dt)
    (x x' y y' : X) (h : IsDIRKStepK a b s (mass R) (rest R) dt x y) (h' : IsDIRKStepK a b s (mass R) (rest R) dt x' y')
    (B : X →ₗ[K] X →ₗ[K] K) (hB : IsEnergy B) (hd : Contracts B R) : dist2 B y y' ≤ dist2 B x x' := by
  obtain ⟨k, hk, rfl⟩ := h
  obtain ⟨k', hk', rfl⟩ := h'
  set e := x - x' with he
  set q := fun i => k i - k' i with hq
  have hfull : ∀ (k : ℕ → X), ∀ i < s, ∑ j ∈ range (i + 1), a i j • k j = ∑ j ∈ range s, a i j • k j := by
    intro k i hi
    refine sum_subset (fun j hj => mem_range.2 (by have := mem_range.1 hj; omega)) ?_
    intro j hj hj'
    rw [hlow i hi j (mem_range.1 hj) (by have := mt mem_range.2 hj'; omega), zero_smul]
  have h0 : ∀ i ∈ range s, B e (q i) ≤ - (dt * ∑ j ∈ range s, a i j * B (q i) (q j)) := by
    intro i hi
    have hi := mem_range.1 hi
    have := hd _ _ _ _ (hk i hi) (hk' i hi)
    rw [hfull k i hi, hfull k' i hi] at this
    rw [show x + dt • ∑ j ∈ range s, a i j • k j - (x' + dt • ∑ j ∈ range s, a i j • k' j) =
      e + dt • ∑ j ∈ range s, a i j • q j by
        simp only [hq, smul_sub, sum_sub_distrib, he]; abel] at this
    simp only [map_add, map_smul, map_sum, LinearMap.add_apply, LinearMap.smul_apply,
      LinearMap.sum_apply, smul_eq_mul] at this
    have e' : ∑ j ∈ range s, a i j * B (q j) (q i) = ∑ j ∈ range s, a i j * B (q i) (q j) :=
      sum_congr rfl fun j _ => by rw [hB.symm]
    change B e (q i) + dt * ∑ j ∈ range s, a i j * B (q j) (q i) ≤ 0 at this
    rw [e'] at this
    linarith
  have h1 : ∑ i ∈ range s, b i * B e (q i)
      ≤ - (dt * ∑ i ∈ range s, ∑ j ∈ range s, b i * a i j * B (q i) (q j)) := by
    rw [mul_sum, ← sum_neg_distrib]
    refine sum_le_sum fun i hi => ?_
    refine (mul_le_mul_of_nonneg_left (h0 i hi) (hb i (mem_range.1 hi))).trans (le_of_eq ?_)
    rw [mul_neg, mul_sum, mul_sum, mul_sum]
    congr 1
    refine sum_congr rfl fun j _ => ?_
    ring
  have h2 : ∑ i ∈ range s, ∑ j ∈ range s, b i * a i j * B (q i) (q j)
      = ∑ i ∈ range s, ∑ j ∈ range s, b j * a j i * B (q i) (q j) := by
    rw [sum_comm]
    refine sum_congr rfl fun i _ => sum_congr rfl fun j _ => ?_
    rw [hB.symm]
  have h3 : ∑ i ∈ range s, b i * ∑ j ∈ range s, b j * B (q i) (q j)
      = (∑ i ∈ range s, ∑ j ∈ range s, b i * a i j * B (q i) (q j))
        + ∑ i ∈ range s, ∑ j ∈ range s, b j * a j i * B (q i) (q j) := by
    rw [← sum_add_distrib]
    refine sum_congr rfl fun i hi => ?_
    rw [← sum_add_distrib, mul_sum]
    refine sum_congr rfl fun j hj => ?_
    rw [← add_mul, hsym i (mem_range.1 hi) j (mem_range.1 hj)]; ring
  set w := ∑ j ∈ range s, b j • q j with hw
  have e1 : B e w = ∑ i ∈ range s, b i * B e (q i) := by simp [hw]
  have e2 : B w w = ∑ i ∈ range s, b i * ∑ j ∈ range s, b j * B (q i) (q j) := by
    have g : ∀ v, B w v = ∑ i ∈ range s, b i * B (q i) v := fun v => by
      simp [hw, LinearMap.sum_apply]
    rw [g]
    refine sum_congr rfl fun i _ => ?_
    rw [hB.symm, g]
    congr 1
    exact sum_congr rfl fun j _ => by rw [hB.symm]
  have e0 : x + dt • ∑ j ∈ range s, b j • k j - (x' + dt • ∑ j ∈ range s, b j • k' j) = e + dt • w := by
    simp only [hw, hq, smul_sub, sum_sub_distrib, he]; abel
  have e3 : B (e + dt • w) (e + dt • w) = B e e + 2 * dt * B e w + dt ^ 2 * B w w := by
    simp only [map_add, map_smul, LinearMap.add_apply, LinearMap.smul_apply, smul_eq_mul, hB.symm w e]
    ring
  unfold dist2
  rw [e0, e3, e1, e2, h3, ← h2]
  have := mul_le_mul_of_nonneg_left h1 (mul_nonneg zero_le_two hdt)
  nlinarith

/-- C146: every call of `ImplicitMidpoint` and `QinZhang` on two inputs, whatever the earlier calls on the two objects were. -/
theorem C146_irk (t : List (List ℚ)) (s : ℕ)
    (ht : (t = implicitMidpoint ∧ s = 1) ∨ (t = qinZhang ∧ s = 2)) (R : LForm X D) (dt : K) (hdt : 0 ≤ dt)
    (solve : Solver X D) (hs : ExactSolver solve) (st st' : State K X) (hst : st.cachedDiag = none) (hst' : st'.cachedDiag = none)
    (hu : ∀ x1 : X, ∃! y, mass R y + rest R (x1 + (((tab t 0 0 : ℚ) : K) * dt) • y) = 0)
    (B : X →ₗ[K] X →ₗ[K] K) (hB : IsEnergy B) (hd : Contracts B R) (xin xin' : ℕ → X) (n m : ℕ) :
    let S : Scheme K X D := ofTable t s R dt solve
    dist2 B (applyInc S (stateAfter S xin st n) (xin n)).1 (applyInc S (stateAfter S xin' st' m) (xin' m)).1 ≤
      dist2 B (xin n) (xin' m) := by
  intro S
  have hg : GoodDIRK t s 2 := by
    rcases ht with ⟨rfl, rfl⟩ | ⟨rfl, rfl⟩
    · exact C11_builtin_tables.1
    · exact C11_builtin_tables.2.1
  have hsy : SymplecticTable (tab t) (tab t s) s := by
    rcases ht with ⟨rfl, rfl⟩ | ⟨rfl, rfl⟩
    · exact C62_builtin_symplectic.1
    · exact C62_builtin_symplectic.2
  have hb : ∀ i < s, 0 ≤ tab t s i := by
    rcases ht with ⟨rfl, rfl⟩ | ⟨rfl, rfl⟩ <;> decide +kernel
  have hl : ∀ i < s, ∀ j < s, i < j → tab t i j = 0 := by
    rcases ht with ⟨rfl, rfl⟩ | ⟨rfl, rfl⟩ <;> decide +kernel
  have h := C11_increment_partial S hs st hst xin n
    (fun i hi => congrArg (Rat.cast (K := K)) (hg.2.2.2.1 i hi)) hu
  have h' := C11_increment_partial S hs st' hst' xin' m
    (fun i hi => congrArg (Rat.cast (K := K)) (hg.2.2.2.1 i hi)) hu
  refine C146_dirk S.A (S.A S.nStages) S.nStages ?_ ?_ ?_ R dt hdt _ _ _ _ h h' B hB hd
  · intro i hi j hj
    have := congrArg (Rat.cast (K := K)) (hsy i hi j hj)
    push_cast at this
    exact this
  · intro i hi j hj hij
    change ((tab t i j : ℚ) : K) = 0
    rw [hl i hi j hj hij, Rat.cast_zero]
  · intro i hi
    change (0 : K) ≤ ((tab t s i : ℚ) : K)
    exact_mod_cast hb i hi

end irk

/-! ## Solver tolerances -/

section tolerance
variable {X D : Type*} [AddCommGroup X] [Module ℝ X] [AddCommGroup D] [Module ℝ D]

/-- The distance that belongs to the energy (spec). -/
noncomputable def gap (B : X →ₗ[ℝ] X →ₗ[ℝ] ℝ) (x y : X) : ℝ := Real.sqrt (dist2 B x y)

theorem cauchy (B : X →ₗ[ℝ] X →ₗ[ℝ] ℝ) (hB : IsEnergy B) (x y : X) : B x y * B x y ≤ B x x * B y y := by
  have h : ∀ t : ℝ, 0 ≤ B y y * (t * t) + 2 * B x y * t + B x x := fun t => by
    have := hB.nonneg (x + t • y)
    simp only [map_add, map_smul, LinearMap.add_apply, LinearMap.smul_apply, smul_eq_mul, hB.symm y x] at this
    linarith
  have := discrim_le_zero h
  unfold discrim at this
  nlinarith

theorem gap_triangle (B : X →ₗ[ℝ] X →ₗ[ℝ] ℝ) (hB : IsEnergy B) (x y z : X) : gap B x z ≤ gap B x y + gap B y z := by
  unfold gap
  apply Real.sqrt_le_iff.2
  refine ⟨by positivity, ?_⟩
  unfold dist2
  rw [add_sq, Real.sq_sqrt (hB.nonneg _), Real.sq_sqrt (hB.nonneg _)]
  rw [show x - z = (x - y) + (y - z) by abel]
  generalize x - y = p
  generalize y - z = q
  simp only [map_add, LinearMap.add_apply, hB.symm q p]
  have hc : B p q ≤ Real.sqrt (B p p) * Real.sqrt (B q q) := by
    rw [← Real.sqrt_mul (hB.nonneg _)]
    exact Real.le_sqrt_of_sq_le (by rw [sq]; exact cauchy B hB p q)
  linarith

/-- C146: errors of the solver do not grow.  If a run of `BackwardEuler` uses a solver that is off by at most `ε` from an exact one in
every solve, then after any number of steps, of any lengths, its result is off by at most `ε` for every step. -/
theorem C146_tolerance (B : X →ₗ[ℝ] X →ₗ[ℝ] ℝ) (hB : IsEnergy B) (solve exact : Solver X D) (hs : ExactSolver exact)
    (ε : ℝ) (hε : ∀ r g, gap B (solve r g) (exact r g) ≤ ε) (R : LForm X D) (hM : IsLin ℝ (mass R)) (hd : Contracts B R)
    (huniq : ∀ c : ℝ, 0 < c → ∀ d : D, ∃! y, mass R y + c • rest R y = d) (dts : List ℝ) (hdt : ∀ dt ∈ dts, 0 < dt) (x y : X) :
    gap B (dts.foldl (fun z dt => implicitCycle solve (backwardEulerRes R dt) z) x)
      (dts.foldl (fun z dt => implicitCycle exact (backwardEulerRes R dt) z) y) ≤ gap B x y + dts.length * ε := by
  induction dts generalizing x y with
  | nil => simp
  | cons dt l ih =>
    have h0 := hdt dt List.mem_cons_self
    refine (ih (fun t ht => hdt t (List.mem_cons_of_mem _ ht)) _ _).trans ?_
    have h1 : gap B (implicitCycle solve (backwardEulerRes R dt) x) (implicitCycle exact (backwardEulerRes R dt) x) ≤ ε := hε _ _
    have h2 : gap B (implicitCycle exact (backwardEulerRes R dt) x) (implicitCycle exact (backwardEulerRes R dt) y) ≤ gap B x y :=
      Real.sqrt_le_sqrt (C146_backward_euler B hB R hM hd dt h0 x y _ _ (be_root exact hs R dt (huniq dt h0) x)
        (be_root exact hs R dt (huniq dt h0) y))
    have h3 := gap_triangle B hB (implicitCycle solve (backwardEulerRes R dt) x) (implicitCycle exact (backwardEulerRes R dt) x)
      (implicitCycle exact (backwardEulerRes R dt) y)
    rw [List.length_cons]
    push_cast
    linarith

end tolerance

/-! ## What fails -/

section ramp
variable {K : Type*} [Field K] [LinearOrder K] [IsStrictOrderedRing K]

/-- Friction that acts on positive values only: `x' = -max(Lx, 0)`. -/
def rampR (L : K) : LForm K K :=
  [ { labels := [.timeDerivative], op := id, subj := 0 },
    { labels := [.transport], op := fun x => max (L * x) 0, subj := 0 } ]

theorem ramp_mass (L x : K) : mass (rampR L) x = x := by simp [mass, part, rampR]
theorem ramp_rest (L x : K) : rest (rampR L) x = max (L * x) 0 := by simp [rest, part, rampR]

theorem ramp_lin (L : K) : IsLin K (mass (rampR L)) :=
  ⟨fun x y => by simp only [ramp_mass], fun c x => by simp only [ramp_mass]⟩

theorem mul_energy : IsEnergy (LinearMap.mul K K) :=
  ⟨fun x y => by simp [mul_comm], fun x => by simpa using mul_self_nonneg x⟩

theorem ramp_contracts (L : K) (hL : 0 ≤ L) : Contracts (LinearMap.mul K K) (rampR L) := by
  intro x y k l hk hl
  rw [ramp_mass, ramp_rest] at hk hl
  rw [LinearMap.mul_apply', hk, hl]
  rcases le_total x y with h | h
  · have := max_le_max (mul_le_mul_of_nonneg_left h hL) (le_refl (0 : K))
    exact mul_nonpos_of_nonpos_of_nonneg (by linarith) (by linarith)
  · have := max_le_max (mul_le_mul_of_nonneg_left h hL) (le_refl (0 : K))
    exact mul_nonpos_of_nonneg_of_nonpos (by linarith) (by linarith)

theorem ramp_unique (L : K) (hL : 0 ≤ L) (c : K) (hc : 0 < c) (d : K) :
    ∃! y, mass (rampR L) y + c • rest (rampR L) y = d := by
  simp only [ramp_mass, ramp_rest, smul_eq_mul]
  have hp : 0 < 1 + c * L := by positivity
  have mono : ∀ y z : K, y < z → y + c * max (L * y) 0 < z + c * max (L * z) 0 := fun y z h => by
    have := max_le_max (mul_le_mul_of_nonneg_left h.le hL) (le_refl (0 : K))
    have := mul_le_mul_of_nonneg_left this hc.le
    linarith
  have inj : ∀ y z : K, y + c * max (L * y) 0 = z + c * max (L * z) 0 → y = z := fun y z h => by
    rcases lt_trichotomy y z with g | g | g
    · exact absurd h (mono y z g).ne
    · exact g
    · exact absurd h (mono z y g).ne'
  rcases le_total d 0 with h | h
  · have e : d + c * max (L * d) 0 = d := by
      rw [max_eq_right (mul_nonpos_of_nonneg_of_nonpos hL h)]; ring
    exact ⟨d, e, fun z hz => inj z d (hz.trans e.symm)⟩
  · have e : d / (1 + c * L) + c * max (L * (d / (1 + c * L))) 0 = d := by
      rw [max_eq_left (by positivity)]
      field_simp
    exact ⟨_, e, fun z hz => inj z _ (hz.trans e.symm)⟩

/-- Not vacuous: nonlinear friction, any number of steps of length 100. -/
example (solve : Solver ℚ ℚ) (hs : ExactSolver solve) (n : ℕ) (x y : ℚ) :
    dist2 (LinearMap.mul ℚ ℚ)
      ((List.replicate n (100 : ℚ)).foldl (fun z dt => implicitCycle solve (backwardEulerRes (rampR 6) dt) z) x)
      ((List.replicate n (100 : ℚ)).foldl (fun z dt => implicitCycle solve (backwardEulerRes (rampR 6) dt) z) y) ≤ (x - y) * (x - y) :=
  C146_backward_euler_runs _ mul_energy solve hs _ (ramp_lin 6) (ramp_contracts 6 (by norm_num))
    (ramp_unique 6 (by norm_num)) (List.replicate n (100 : ℚ)) (fun t ht => by rw [List.eq_of_mem_replicate ht]; norm_num) x y

/-- Not vacuous: a solver tolerance of a millionth over a thousand steps. -/
example (solve exact : Solver ℝ ℝ) (hs : ExactSolver exact)
    (h : ∀ r g, gap (LinearMap.mul ℝ ℝ) (solve r g) (exact r g) ≤ 1 / 1000000) (x : ℝ) :
    gap (LinearMap.mul ℝ ℝ)
      ((List.replicate 1000 (5 : ℝ)).foldl (fun z dt => implicitCycle solve (backwardEulerRes (rampR 6) dt) z) x)
      ((List.replicate 1000 (5 : ℝ)).foldl (fun z dt => implicitCycle exact (backwardEulerRes (rampR 6) dt) z) x) ≤ 1 / 1000 := by
  refine (C146_tolerance _ mul_energy solve exact hs _ h _ (ramp_lin 6) (ramp_contracts 6 (by norm_num))
    (ramp_unique 6 (by norm_num)) _ (fun t ht => by rw [List.eq_of_mem_replicate ht]; norm_num) x x).trans ?_
  have : gap (LinearMap.mul ℝ ℝ) x x = 0 := by simp [gap, dist2]
  rw [this, List.length_replicate]
  norm_num

theorem ramp_stage (L : K) (hL : 0 ≤ L) (c : K) (hc : 0 < c) (x : K) :
    ∃! y, mass (rampR L) y + rest (rampR L) (x + c • y) = 0 := by
  obtain ⟨p, hp, hu⟩ := ramp_unique L hL c hc x
  simp only [ramp_mass, ramp_rest, smul_eq_mul] at hp hu ⊢
  have e : x + c * ((p - x) / c) = p := by field_simp; ring
  refine ⟨(p - x) / c, ?_, fun z hz => ?_⟩
  · simp only [e]
    have : max (L * p) 0 = (x - p) / c := by rw [eq_div_iff hc.ne']; linarith
    rw [this, ← add_div]
    simp
  · have := hu (x + c * z) (by linear_combination c * hz)
    rw [← this]
    field_simp
    ring

/-- Not vacuous: the implicit midpoint rule with nonlinear friction, third call of one object and first call of another. -/
example (st st' : IRK.State ℚ ℚ) (hst : st.cachedDiag = none) (hst' : st'.cachedDiag = none) (xin xin' : ℕ → ℚ) :
    let S : IRK.Scheme ℚ ℚ ℚ := IRKProps.ofTable IRK.implicitMidpoint 1 (rampR 6) 100 choiceSolve
    dist2 (LinearMap.mul ℚ ℚ) (IRK.applyInc S (IRKProps.stateAfter S xin st 2) (xin 2)).1
      (IRK.applyInc S (IRKProps.stateAfter S xin' st' 0) (xin' 0)).1 ≤ dist2 (LinearMap.mul ℚ ℚ) (xin 2) (xin' 0) :=
  C146_irk IRK.implicitMidpoint 1 (Or.inl ⟨rfl, rfl⟩) (rampR 6) 100 (by norm_num) choiceSolve choiceSolve_exact st st' hst hst'
    (fun x => ramp_stage 6 (by norm_num) _ (by
      have : IRKProps.tab IRK.implicitMidpoint 0 0 = 1 / 2 := by decide +kernel
      rw [this]; norm_num) x) _ mul_energy (ramp_contracts 6 (by norm_num)) xin xin' 2 0

open Multilevel in
/-- Not vacuous: BDF2. -/
example (s t : RunState ℚ) (h : Fresh (bdf2 (rampR (6 : ℚ)) (100 : ℚ)) s) (h' : Fresh (bdf2 (rampR (6 : ℚ)) (100 : ℚ)) t) (k : ℕ) :
    dist2 (LinearMap.mul ℚ ℚ) (result (bdf2 (rampR (6 : ℚ)) (100 : ℚ)) choiceSolve s k)
      (result (bdf2 (rampR (6 : ℚ)) (100 : ℚ)) choiceSolve t k) ≤ 2 * dist2 (LinearMap.mul ℚ ℚ) s.levels.np1 t.levels.np1 :=
  C146_bdf2 _ mul_energy choiceSolve choiceSolve_exact _ (ramp_lin 6) (ramp_contracts 6 (by norm_num)) 100 (by norm_num)
    (fun c hc => ramp_unique 6 (by norm_num) c (by
      simp only [List.mem_cons, List.not_mem_nil, or_false] at hc
      rcases hc with rfl | rfl <;> norm_num)) s t h h' k

/-- C146, refuted for `TrapeziumRule`: with friction that acts on positive values only, the steady state 0 and the state 1 move apart
in one step of length 1, to 0 and -2. -/
theorem C146_trapezium_refuted : Contracts (LinearMap.mul ℚ ℚ) (rampR 6) ∧
    (∀ y, (trapeziumRes (rampR (6 : ℚ)) (1 : ℚ) y 0).eval = 0 ↔ y = 0) ∧
    (∀ y, (trapeziumRes (rampR (6 : ℚ)) (1 : ℚ) y 1).eval = 0 ↔ y = -2) ∧
    dist2 (LinearMap.mul ℚ ℚ) 0 1 < dist2 (LinearMap.mul ℚ ℚ) 0 (-2) := by
  refine ⟨ramp_contracts 6 (by norm_num), fun y => ?_, fun y => ?_, ?_⟩
  · rw [C07_trapezium _ _ (by norm_num)]
    simp only [ramp_mass, ramp_rest, smul_eq_mul]
    constructor
    · intro h
      rcases le_total 0 y with g | g
      · rw [max_eq_left (by linarith)] at h; norm_num at h; linarith
      · rw [max_eq_right (by linarith)] at h; norm_num at h; linarith
    · rintro rfl; norm_num
  · rw [C07_trapezium _ _ (by norm_num)]
    simp only [ramp_mass, ramp_rest, smul_eq_mul]
    constructor
    · intro h
      rcases le_total 0 y with g | g
      · rw [max_eq_left (by linarith)] at h; norm_num at h; linarith
      · rw [max_eq_right (by linarith)] at h; norm_num at h; linarith
    · rintro rfl; norm_num
  · simp [dist2]; norm_num

end ramp
end Gusto.Props.ContractiveProps
