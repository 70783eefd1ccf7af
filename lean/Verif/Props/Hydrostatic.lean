import Verif.Model.Hydrostatic
import Mathlib.Algebra.Module.Rat
import Mathlib.Tactic.Ring
import Mathlib.Tactic.NormNum
import Mathlib.Tactic.LinearCombination
import Mathlib.Algebra.Algebra.Bilinear

set_option autoImplicit false
set_option linter.unusedSectionVars false
set_option linter.unusedSimpArgs false

/-! # C72: hydrostatic initialisation -/

namespace Gusto.Props.HydroProps
open Gusto.Hydro

variable {T R M : Type*} [AddCommGroup T] [Module ℚ T] [AddCommGroup R] [Module ℚ R] [AddCommGroup M] [Module ℚ M]

theorem damp_one {V : Type*} [AddCommGroup V] [Module ℚ V] (a b : V) : damp deltaU a b = b := by
  simp [damp, deltaU]

deriving instance DecidableEq for St
deriving instance DecidableEq for SatSt
deriving instance DecidableEq for Except

/-! ### Unsaturated -/

theorem unsatInner_virtual (o : Unsat T R M) (n : ℕ) (s : St T R M) :
    (0 < n ∨ s.theta = o.virtual s.mv) → (unsatInner o n s).theta = o.virtual (unsatInner o n s).mv := by
  induction n generalizing s with
  | zero => intro h; exact h.resolve_left (lt_irrefl 0)
  | succ n ih =>
    intro _
    simp only [unsatInner]
    split
    · rfl
    · exact ih _ (Or.inr rfl)

/-- The outer loop never raises, and if it was left by `break` the test holds for the fields and the average of the
density. -/
theorem unsatOuter_spec (o : Unsat T R M) (maxOuter nInner : ℕ) (hn : 0 < nInner) (left i : ℕ)
    (h : i + left ≤ maxOuter) (s : St T R M) (hs : (s.theta = o.guess ∧ s.mv = o.guessM) ∨ s.theta = o.virtual s.mv) :
    ∃ s' b, unsatOuter o maxOuter nInner i left s = .ok (s', b) ∧
      ((s'.theta = o.guess ∧ s'.mv = o.guessM) ∨ s'.theta = o.virtual s'.mv) ∧
      (b = true → o.close (o.average s'.rho) s'.theta s'.mv = true ∧ s'.rho = o.balance s'.theta s'.mv) := by
  induction left generalizing i s with
  | zero => exact ⟨s, false, rfl, hs, fun h => by simp at h⟩
  | succ left ih =>
    rw [unsatOuter]
    simp only [damp_one]
    split
    · rename_i hc
      exact ⟨_, true, rfl, hs, fun _ => ⟨hc, rfl⟩⟩
    · rw [if_neg (by omega)]
      exact ih (i + 1) (by omega) _ (Or.inr (unsatInner_virtual o nInner _ (Or.inl hn)))

/-- **C72** (unsaturated, partial).  For all profiles and iteration limits, the returned density is the hydrostatic
density of the returned temperature and vapour, and the returned temperature is the virtual temperature of the given dry
temperature and the returned vapour (or the first guess, if the first guess passed).  If the iteration was left because
the test was passed, the returned fields pass it: the relative humidity computed from them is within the tolerance.
Missing: the error if the iteration does not converge, see the refutation. -/
theorem C72_unsaturated_partial {E : Type*} (o : Unsat T R M) (exner : R → T → E) (ex : Bool)
    (maxOuter maxInner : ℕ) (hn : 0 < maxInner) (rho0 : R) (avg0 : T) :
    ∃ s e b, unsaturated o exner ex maxOuter maxInner rho0 avg0 = .ok (s, e, b) ∧
      s.rho = o.balance s.theta s.mv ∧
      ((s.theta = o.guess ∧ s.mv = o.guessM) ∨ s.theta = o.virtual s.mv) ∧
      (b = true → o.close (o.average s.rho) s.theta s.mv = true ∧
        (ex = true → e = some (exner s.rho s.theta))) := by
  obtain ⟨s', b, h1, h2, h3⟩ := unsatOuter_spec o maxOuter maxInner hn maxOuter 0 (by omega)
    { theta := o.guess, rho := rho0, mv := o.guessM, avg := avg0 } (Or.inl ⟨rfl, rfl⟩)
  refine ⟨{ s' with rho := o.balance s'.theta s'.mv }, _, b, by rw [unsaturated]; simp only [h1]; rfl, rfl, h2, fun hb => ?_⟩
  obtain ⟨h4, h5⟩ := h3 hb
  refine ⟨?_, fun he => ?_⟩
  · simp only; rw [← h5]; exact h4
  · simp only [he, if_true]; rw [h5]

/-- **C72** (non-convergence, refuted).  The documented RuntimeError is never raised: with profiles for which the test
is never passed, both routines return normally after the maximum number of iterations, whatever it is. -/
theorem C72_nonconvergence_refuted {E : Type*} :
    (∀ (o : Unsat T R M) (exner : R → T → E) (ex : Bool) (maxOuter maxInner : ℕ) (rho0 : R) (avg0 : T),
      (∀ a t m, o.close a t m = false) →
      ∃ s e, unsaturated o exner ex maxOuter maxInner rho0 avg0 = .ok (s, e, false)) ∧
    (∀ (o : Sat T R M E) (maxOuter maxTheta maxInner : ℕ) (rho0 : R) (avg0 : T) (test0 : E),
      (∀ t, o.close8 t = false) →
      ∃ s, saturated o false maxOuter maxTheta maxInner rho0 avg0 test0 = .ok (s, false)) := by
  constructor
  · intro o exner ex maxOuter maxInner rho0 avg0 hc
    have key : ∀ left i (s : St T R M), i + left ≤ maxOuter →
        ∃ s', unsatOuter o maxOuter maxInner i left s = .ok (s', false) := by
      intro left
      induction left with
      | zero => intro i s _; exact ⟨s, rfl⟩
      | succ left ih =>
        intro i s h
        rw [unsatOuter]
        simp only [hc, Bool.false_eq_true, if_false]
        rw [if_neg (by omega)]
        exact ih _ _ (by omega)
    obtain ⟨s', h⟩ := key maxOuter 0 { theta := o.guess, rho := rho0, mv := o.guessM, avg := avg0 } (by omega)
    exact ⟨_, _, by rw [unsaturated]; simp only [h]; rfl⟩
  · intro o maxOuter maxTheta maxInner rho0 avg0 test0 hc
    have key : ∀ left i (s : SatSt T R M E), i + left ≤ maxOuter →
        ∃ s', satOuter o maxOuter maxTheta maxInner i left s = .ok (s', false) := by
      intro left
      induction left with
      | zero => intro i s _; exact ⟨s, rfl⟩
      | succ left ih =>
        intro i s h
        rw [satOuter]
        simp only [hc, Bool.false_eq_true, if_false]
        rw [if_neg (by omega)]
        exact ih _ _ (by omega)
    obtain ⟨s', h⟩ := key maxOuter 0
      { theta := o.guess, rho := rho0, mv := o.total, avg := avg0, test := test0 } (by omega)
    exact ⟨_, by rw [saturated]; simp only [h]; rfl⟩

/-- An instance in which the iteration converges to a fixed point at the second outer iteration. -/
def exUnsat : Unsat ℚ ℚ ℚ where
  balance t m := 2 * t - m
  average r := r
  rv _ _ _ := 3
  close _ t m := decide (t = 8 ∧ m = 3)
  virtual m := 5 + m
  guess := 6
  guessM := 1

example : unsaturated exUnsat (fun r t => r + t) true 40 20 0 0 =
    .ok ({ theta := 8, rho := 13, mv := 3, avg := 13 }, some 21, true) := by decide +kernel

/-- **C72** (Exner pressure after an iteration that did not converge, refuted).  The Exner pressure is computed before
the final density, so without convergence it does not belong to the returned density. -/
theorem C72_exner_refuted :
    ∃ (o : Unsat ℚ ℚ ℚ) (s : St ℚ ℚ ℚ) (e : ℚ),
      unsaturated o (fun r t => r + t) true 1 1 0 0 = .ok (s, some e, false) ∧ e ≠ s.rho + s.theta :=
  ⟨{ exUnsat with close := fun _ _ _ => false }, { theta := 8, rho := 13, mv := 3, avg := 11 }, 19,
    by decide +kernel, by decide +kernel⟩

/-! ### Saturated -/

variable {E : Type*}

/-- **C72** (saturated, with Exner pressure, refuted).  With `exner0` the routine raises AttributeError for every
profile, after all the iterations. -/
theorem C72_saturated_exner_refuted (o : Sat T R M E) (maxOuter maxTheta maxInner : ℕ) (rho0 : R) (avg0 : T)
    (test0 : E) : ∃ e, saturated o true maxOuter maxTheta maxInner rho0 avg0 test0 = .error e := by
  rw [saturated]
  simp only
  split
  · exact ⟨_, rfl⟩
  · exact ⟨_, rfl⟩

theorem satOuter_spec (o : Sat T R M E) (maxOuter nTheta nInner : ℕ) (left i : ℕ) (h : i + left ≤ maxOuter)
    (s : SatSt T R M E) :
    ∃ s' b, satOuter o maxOuter nTheta nInner i left s = .ok (s', b) ∧
      (b = true → o.close8 (o.thetaE s'.avg s'.theta s'.mv) = true) := by
  induction left generalizing i s with
  | zero => exact ⟨s, false, rfl, fun h => by simp at h⟩
  | succ left ih =>
    rw [satOuter]
    simp only
    split
    · rename_i hc
      exact ⟨_, true, rfl, fun _ => hc⟩
    · rw [if_neg (by omega)]
      exact ih (i + 1) (by omega) _

/-- **C72** (saturated, partial).  Without `exner0`, for all profiles and iteration limits the returned density is the
hydrostatic density of the returned temperature and the given total water.  If the iteration was left by the test, the
wet-equivalent temperature of the returned temperature and vapour with the average density *of the iteration before*
is within the tolerance.  Missing: the same for the returned density, see the refutation, and the error without
convergence. -/
theorem C72_saturated_partial (o : Sat T R M E) (maxOuter maxTheta maxInner : ℕ) (rho0 : R) (avg0 : T) (test0 : E) :
    ∃ s b, saturated o false maxOuter maxTheta maxInner rho0 avg0 test0 = .ok (s, b) ∧
      s.rho = o.balance s.theta o.total ∧
      (b = true → o.close8 (o.thetaE s.avg s.theta s.mv) = true) := by
  obtain ⟨s', b, h1, h2⟩ := satOuter_spec o maxOuter maxTheta maxInner maxOuter 0 (by omega)
    { theta := o.guess, rho := rho0, mv := o.total, avg := avg0, test := test0 }
  exact ⟨{ s' with rho := o.balance s'.theta o.total }, b, by rw [saturated]; simp only [h1]; rfl, rfl, h2⟩

theorem damp_self {V : Type*} [AddCommGroup V] [Module ℚ V] (d : ℚ) (a : V) : damp d a a = a := by
  rw [damp, ← add_smul]
  have : 1 - d + d = 1 := by ring
  rw [this, one_smul]

/-- **C72** (saturated, the exact solution is a fixed point).  Fields that are a saturated balanced state with the given
wet-equivalent potential temperature and total water - the vapour is saturated, the temperature solves the equation for
`theta_e`, the density is the hydrostatic density for this temperature and the total water, and the average is that of
the density - are not changed by the iteration, whatever the tests say and however many passes remain. -/
theorem C72_saturated_fixed (o : Sat T R M E) (maxOuter nTheta nInner : ℕ) (left i : ℕ) (h : i + left ≤ maxOuter)
    (s : SatSt T R M E) (hrho : s.rho = o.balance s.theta o.total) (havg : s.avg = o.average s.rho)
    (hmv : o.rsat s.avg s.theta s.mv = s.mv) (hth : o.newTheta s.avg s.theta s.mv = s.theta) :
    ∃ test b, satOuter o maxOuter nTheta nInner i left s = .ok ({ s with test := test }, b) := by
  have hin : ∀ n e, ∃ e', satInner o n { s with test := e } = { s with test := e' } := by
    intro n
    induction n with
    | zero => exact fun e => ⟨e, rfl⟩
    | succ n ih =>
      intro e
      simp only [satInner, hmv, damp_self]
      split
      · exact ⟨_, rfl⟩
      · exact ih _
  have hj : ∀ n e, ∃ e', satTheta o nInner n { s with test := e } = { s with test := e' } := by
    intro n
    induction n with
    | zero => exact fun e => ⟨e, rfl⟩
    | succ n ih =>
      intro e
      simp only [satTheta, hth, damp_self]
      split
      · exact ⟨_, rfl⟩
      · obtain ⟨e', he⟩ := hin nInner e
        have he2 := he
        rw [he2]
        exact ih _
  have main : ∀ left i e, i + left ≤ maxOuter →
      ∃ test b, satOuter o maxOuter nTheta nInner i left { s with test := e } = .ok ({ s with test := test }, b) := by
    intro left
    induction left with
    | zero => exact fun i e _ => ⟨e, false, rfl⟩
    | succ left ih =>
      intro i e hi
      simp only [satOuter, ← hrho, damp_self, ← havg]
      split
      · exact ⟨_, _, rfl⟩
      · rw [if_neg (by omega)]
        obtain ⟨e', he⟩ := hj nTheta (o.thetaE s.avg s.theta s.mv)
        rw [he]
        exact ih _ _ (by omega)
  exact main left i s.test h

/-- A state that meets the hypotheses and whose vapour is not the total water. -/
example : ∃ (o : Sat ℚ ℚ ℚ ℚ) (s : SatSt ℚ ℚ ℚ ℚ), s.mv ≠ o.total ∧ s.rho = o.balance s.theta o.total ∧
    s.avg = o.average s.rho ∧ o.rsat s.avg s.theta s.mv = s.mv ∧ o.newTheta s.avg s.theta s.mv = s.theta :=
  ⟨{ balance := fun t m => t + m, average := fun r => r, rsat := fun _ _ _ => 1, thetaE := fun a t _ => a + t,
     close8 := fun _ => false, close6 := fun _ => false, newTheta := fun a _ _ => a - 2, guess := 1, total := 2 },
   { theta := 3, rho := 5, mv := 1, avg := 5, test := 0 }, by norm_num, by norm_num, rfl, rfl, by norm_num⟩

/-- An instance for the refutation: the fixed point of the temperature depends on the average density, which still
changes when the test is passed. -/
def exSat : Sat ℚ ℚ ℚ ℚ where
  balance t _ := t
  average r := r
  rsat _ _ _ := 1
  thetaE a t _ := a + t
  close8 e := decide (e = 10)
  close6 e := decide (e = 10)
  newTheta a t _ := t + (10 - a - t) * (5 / 4)
  guess := 10
  total := 1

/-- **C72** (saturated, refuted).  The test that ends the iteration uses the average of the density of the iteration
before: here the routine ends by its test, and the fields it returns do not pass this test with their own density. -/
theorem C72_saturated_stale_refuted :
    ∃ s : SatSt ℚ ℚ ℚ ℚ, saturated exSat false 40 5 3 0 (-4) 0 = .ok (s, true) ∧
      exSat.close8 (exSat.thetaE (exSat.average s.rho) s.theta s.mv) = false :=
  ⟨{ theta := 2, rho := 2, mv := 1, avg := 8, test := 10 }, by decide +kernel, by decide +kernel⟩

/-! ### The variational problem -/

/-- **C72** (discrete hydrostatic balance).  A solution of the problem of `compressible_hydrostatic_balance` has zero
vertical velocity (if the divergence of temperature times velocity determines the velocity, as it does with zero flow at
one end of each column), and then the pressure gradient balances gravity: for every vertical test function,
`cp * int div(dv * theta) * exner = cp * int_boundary dv.n * theta * exner_boundary + g * int dv.k`.
This holds for the linear problem and for the problem for the density. -/
theorem C72_balance {K W V Q : Type*} [Field K] [AddCommGroup V] [Module K V] [AddCommGroup Q] [Module K Q]
    [AddCommGroup W] [Module K W] (cp g : K) (m : V →ₗ[K] V →ₗ[K] K) (d : W →ₗ[K] Q →ₗ[K] K) (th th0 : V →ₗ[K] W)
    (bnd grav : V →ₗ[K] K) (exnerOf : Q → Q)
    (h1 : ∀ v, (∀ q, d (th v) q = 0) → v = 0) (h0 : ∀ v, (∀ q, d (th0 v) q = 0) → v = 0) (v : V) (q : Q) :
    ((∀ dv de, exnerResidual cp g m d th bnd grav v q dv de = 0) →
      v = 0 ∧ ∀ dv, cp * d (th dv) q = cp * bnd dv + g * grav dv) ∧
    ((∀ dv de, rhoResidual cp g m d th th0 bnd grav exnerOf v q dv de = 0) →
      v = 0 ∧ ∀ dv, cp * d (th dv) (exnerOf q) = cp * bnd dv + g * grav dv) := by
  constructor
  · intro h
    have hv : v = 0 := h1 v fun e => by
      have := h 0 e
      simpa [exnerResidual] using this
    refine ⟨hv, fun dv => ?_⟩
    have := h dv 0
    simp only [exnerResidual, hv, map_zero, LinearMap.zero_apply, mul_zero] at this
    linear_combination -this
  · intro h
    have hv : v = 0 := h0 v fun e => by
      have := h 0 e
      simpa [rhoResidual] using this
    refine ⟨hv, fun dv => ?_⟩
    have := h dv 0
    simp only [rhoResidual, hv, map_zero, LinearMap.zero_apply, mul_zero] at this
    linear_combination -this

/-- One velocity and one pressure degree of freedom: `exner = 1 - g / (cp * theta)` for a layer of thickness one. -/
example : ∀ dv de : ℚ, exnerResidual (K := ℚ) (W := ℚ) 2 3 (LinearMap.mul ℚ ℚ) (LinearMap.mul ℚ ℚ)
    (4 • LinearMap.id) (4 • LinearMap.id) (-LinearMap.id) 0 (1 - 3 / 8) dv de = 0 := by
  intro dv de
  simp [exnerResidual]
  ring

end Gusto.Props.HydroProps
