import Verif.Lemmas.TimeDisc
import Mathlib.Tactic.FieldSimp
import Mathlib.Tactic.Ring
import Mathlib.Tactic.LinearCombination
import Mathlib.Tactic.Linarith
import Mathlib.Tactic.Positivity
import Mathlib.Algebra.Order.Archimedean.Basic
import Mathlib.Data.Rat.Floor
import Mathlib.Tactic.NormNum.Basic

set_option autoImplicit false

/-!
# C01, C04, C05, C07, C59: one-step schemes, subcycling, labelled forms
-/

set_option linter.unusedSectionVars false

namespace Gusto.Props
open Gusto LForm TimeDisc Spec
variable {K X D : Type*} [Field K] [AddCommGroup D] [Module K D]

/-- A concrete non-trivial residual over ℚ used in the examples:
`d/dt (2 x) + x^2 - 3 = 0`, in three terms. -/
def exR : LForm ℚ ℚ :=
  [ { labels := [.timeDerivative, .prognostic "q"], op := fun x => 2 * x, subj := 0 },
    { labels := [.transport, .prognostic "q"], op := fun x => x ^ 2, subj := 0 },
    { labels := [.named "forcing"], op := fun _ => -3, subj := 0 } ]

theorem exR_mass (x : ℚ) : mass exR x = 2 * x := by
  simp [mass, part, exR]
theorem exR_rest (x : ℚ) : rest exR x = x ^ 2 - 3 := by
  simp [rest, part, exR]; ring

/-! ## C01 -/

/-- C01: the state zeroing the default residual is the forward-Euler update. -/
theorem C01_default_residual_is_forward_euler (R : LForm X D) (dt : K) (xIn xOut : X) :
    (baseRes R dt xOut xIn).eval = 0 ↔ mass R xOut = mass R xIn - dt • rest R xIn := by
  rw [eval_baseRes, sub_eq_zero]

/-- C01 for the exact solver and an invertible (linear or not) mass operator: the returned state
is the unique forward-Euler update. -/
theorem C01_solve_is_forward_euler (solve : Solver X D) (hs : ExactSolver solve)
    (R : LForm X D) (dt : K) (hm : Function.Bijective (mass R)) (xIn guess : X) :
    mass R (solve (fun y => (baseRes R dt y xIn).eval) guess) = mass R xIn - dt • rest R xIn := by
  rw [← C01_default_residual_is_forward_euler]
  refine hs (fun y => (baseRes R dt y xIn).eval) guess ?_
  obtain ⟨y, hy⟩ := hm.2 (mass R xIn - dt • rest R xIn)
  refine ⟨y, ?_, ?_⟩
  · exact (C01_default_residual_is_forward_euler ..).2 hy
  · intro z hz
    exact hm.1 (((C01_default_residual_is_forward_euler ..).1 hz).trans hy.symm)

/-- non-vacuity: for `2 x' + x^2 - 3 = 0`, dt = 1/2, x = 1 the update is 3/2. -/
example : (baseRes exR (1 / 2 : ℚ) (3 / 2) 1).eval = 0 := by
  rw [C01_default_residual_is_forward_euler, exR_mass, exR_mass, exR_rest]; norm_num
example : Function.Bijective (mass exR) := by
  have : mass exR = fun x => 2 * x := funext exR_mass
  rw [this]
  exact ⟨fun a b h => by simpa using h, fun b => ⟨b / 2, by ring⟩⟩

/-! ## C07 -/

/-- C07 backward Euler: `M(x+) + dt F(x+) = M(x)`. -/
theorem C07_backward_euler (R : LForm X D) (dt : K) (x x' : X) :
    (backwardEulerRes R dt x' x).eval = 0 ↔ mass R x' + dt • rest R x' = mass R x := by
  rw [eval_backwardEulerRes, sub_eq_zero]

/-- C07 theta method: `M(x+) + dt θ F(x+) = M(x) - dt (1-θ) F(x)`. -/
theorem C07_theta (R : LForm X D) (dt th : K) (x x' : X) :
    (thetaRes R dt th x' x).eval = 0 ↔
      mass R x' + (dt * th) • rest R x' = mass R x - (dt * (1 - th)) • rest R x := by
  rw [eval_thetaRes, sub_eq_zero, mul_comm th dt, mul_comm (1 - th) dt]

/-- C07 trapezium rule: both tendencies with weight one half. -/
theorem C07_trapezium (R : LForm X D) (dt : K) (h2 : (2 : K) ≠ 0) (x x' : X) :
    (trapeziumRes R dt x' x).eval = 0 ↔
      mass R x' + (dt / 2) • rest R x' = mass R x - (dt / 2) • rest R x := by
  have h : (1 : K) - 1 / 2 = 1 / 2 := by field_simp; ring
  rw [trapeziumRes, C07_theta, h, mul_one_div]

/-- C07: theta = 1 is backward Euler, theta = 0 is forward Euler (same residual values). -/
theorem C07_theta_one (R : LForm X D) (dt : K) (x x' : X) :
    (thetaRes R dt 1 x' x).eval = (backwardEulerRes R dt x' x).eval := by
  rw [eval_thetaRes, eval_backwardEulerRes]; module
theorem C07_theta_zero (R : LForm X D) (dt : K) (x x' : X) :
    (thetaRes R dt 0 x' x).eval = (baseRes R dt x' x).eval := by
  rw [eval_thetaRes, eval_baseRes]; module

/-- Which parameters ThetaMethod and TR_BDF2 accept: exactly those in [0,1]. -/
theorem C07_parameter_guard [LinearOrder K] (th : K) :
    offCentringAccepted th = true ↔ 0 ≤ th ∧ th ≤ 1 := by
  simp [offCentringAccepted]

/-- C07 TR-BDF2: if both solves find roots, the result satisfies the documented pair of
equations through an intermediate state. -/
theorem C07_tr_bdf2 (solve : Solver X D) (R : LForm X D) (dt g : K) (x : X)
    (h1 : (trRes R dt g (solve (fun y => (trRes R dt g y x).eval) x) x).eval = 0)
    (h2 : ∀ xg, xg = solve (fun y => (trRes R dt g y x).eval) x →
      (bdf2StageRes R dt g (solve (fun y => (bdf2StageRes R dt g y xg x).eval) xg) xg x).eval = 0) :
    ∃ xg, mass R xg = mass R x - (dt * g / 2) • rest R x - (dt * g / 2) • rest R xg ∧
      mass R (trBdf2Apply solve R dt g x) =
        (1 / (g * (2 - g))) • mass R xg - ((1 - g) ^ 2 / (g * (2 - g))) • mass R x
        - ((1 - g) / (2 - g) * dt) • rest R (trBdf2Apply solve R dt g x) := by
  refine ⟨solve (fun y => (trRes R dt g y x).eval) x, ?_, ?_⟩
  · rw [eval_trRes, sub_eq_zero] at h1
    have e : (1 / 2 * g * dt) = dt * g / 2 := by ring
    rw [e] at h1
    rw [← h1]; abel
  · have := h2 _ rfl
    rw [eval_bdf2StageRes, sub_eq_zero] at this
    unfold trBdf2Apply
    simp only
    rw [← this]; abel

/-- The two TR-BDF2 solves for the linear problem `x' + a x = 0` over a field, when the
denominators do not vanish, with an exact solver: the amplification factor is rational in
`z = a dt` and agrees with `1 - z + z²/2` up to `O(z³)` for every `γ`: the scheme is second
order.  (The remainder is given exactly.) -/
theorem C07_tr_bdf2_second_order (g z y yg y0 : K) (hg : g ≠ 0) (h2g : 2 - g ≠ 0)
    (h2 : (2 : K) ≠ 0)
    (htr : yg = y0 - z * g / 2 * y0 - z * g / 2 * yg)
    (hbdf : y = 1 / (g * (2 - g)) * yg - (1 - g) ^ 2 / (g * (2 - g)) * y0
      - (1 - g) / (2 - g) * z * y) :
    (1 + z * g / 2) * (1 + (1 - g) / (2 - g) * z) * (y - (1 - z + z ^ 2 / 2) * y0)
      = - z ^ 3 / 4 * (g * (1 - g) / (2 - g) * z + (g ^ 2 - 2 * g + 2) / (2 - g)) * y0 := by
  have e1 : (1 + z * g / 2) * yg = (1 - z * g / 2) * y0 := by linear_combination htr
  have e2 : (1 + (1 - g) / (2 - g) * z) * y = 1 / (g * (2 - g)) * yg
      - (1 - g) ^ 2 / (g * (2 - g)) * y0 := by linear_combination hbdf
  have e3 : (1 + z * g / 2) * (1 + (1 - g) / (2 - g) * z) * y =
      1 / (g * (2 - g)) * ((1 - z * g / 2) * y0)
        - (1 - g) ^ 2 / (g * (2 - g)) * (1 + z * g / 2) * y0 := by
    rw [← e1, mul_assoc, e2]; ring
  have h4 : (4 : K) ≠ 0 := by
    have : (4 : K) = 2 * 2 := by norm_num
    rw [this]; exact mul_ne_zero h2 h2
  rw [mul_sub, e3]
  field_simp
  ring

example : (thetaRes exR (2 : ℚ) (1 / 2) 1 0).eval ≠ 0 ∧
    (thetaRes exR (2 : ℚ) (1 / 2) 1 (-1)).eval = 0 ∧
    (backwardEulerRes exR (2 : ℚ) 1 (-1)).eval = 0 := by
  refine ⟨?_, ?_, ?_⟩
  · rw [Ne, C07_theta]; simp only [exR_mass, exR_rest, smul_eq_mul]; norm_num
  · rw [C07_theta]; simp only [exR_mass, exR_rest, smul_eq_mul]; norm_num
  · rw [C07_backward_euler]; simp only [exR_mass, exR_rest, smul_eq_mul]; norm_num

/-! ## C04, C05: subcycling -/

/-- C04: the loop of `apply` with an index-independent cycle is iteration. -/
theorem C04_loop_is_iteration (cycle : X → X) (n : ℕ) (hn : 0 < n) (x x1 : X) :
    applyLoop (fun _ => cycle) n x x1 = cycle^[n] x := by
  have key : ∀ n (x x1 : X), ((List.range (n + 1)).foldl (fun (s : X × X) _ =>
      (cycle s.1, cycle s.1)) (x, x1)) = (cycle^[n + 1] x, cycle^[n + 1] x) := by
    intro n
    induction n with
    | zero => intro x x1; simp
    | succ n ih =>
      intro x x1
      rw [List.range_succ, List.foldl_append, ih]
      simp only [List.foldl_cons, List.foldl_nil, Function.iterate_succ', Function.comp]
  obtain ⟨m, rfl⟩ : ∃ m, n = m + 1 := ⟨n - 1, by omega⟩
  simp only [applyLoop]
  rw [key]

/-- C04: `SubcyclingOptions(fixed_subcycles=n)`: `apply` is `n` successive single-cycle
applications with timestep `dt/n`, and these timesteps add up to `dt`. -/
theorem C04_fixed_subcycles [LinearOrder K] [FloorSemiring K] [IsStrictOrderedRing K]
    (n : ℕ) (hn : 0 < n) (dt courant : K) (cycle : K → X → X) (x x1 : X) :
    apply (some { fixedSubcycles := some n }) dt courant (fun d _ => cycle d) x x1
        = (cycle (dt / n))^[n] x
      ∧ (List.replicate n (dt / n)).sum = dt := by
  constructor
  · simp only [apply, setupSubcycling, updateSubcycling, Option.bind_some]
    exact C04_loop_is_iteration _ n hn x x1
  · have : (n : K) ≠ 0 := by exact_mod_cast hn.ne'
    rw [List.sum_replicate, nsmul_eq_mul]; field_simp

/-- C04: without subcycling options one cycle of length `dt` is taken. -/
theorem C04_no_subcycling [LinearOrder K] [FloorSemiring K] [IsStrictOrderedRing K]
    (dt courant : K) (cycle : K → X → X) (x x1 : X) :
    apply none dt courant (fun d _ => cycle d) x x1 = cycle dt x := by
  simp [apply, setupSubcycling, updateSubcycling, applyLoop]

/-- C04 (refuted for the implicit schemes): BackwardEuler and ThetaMethod cannot be set up with
a fixed number of subcycles at all (the code reads an attribute that does not exist). -/
theorem C04_implicit_fixed_subcycles_fails (o : SubcyclingOptions K) (n : ℕ) (dt : K) :
    setupSubcyclingImplicit (some { o with fixedSubcycles := some n }) dt = none := rfl
/-- ... all other settings are accepted. -/
theorem C04_implicit_other_ok (o : SubcyclingOptions K) (dt : K) (h : o.fixedSubcycles = none) :
    setupSubcyclingImplicit (some o) dt = some { ncycles := 1, dt := dt } := by
  simp [setupSubcyclingImplicit, h]

section
variable [LinearOrder K] [FloorSemiring K] [IsStrictOrderedRing K]

/-- C05: the number of cycles is between 1 and the cap, the sub-steps cover the timestep, and
unless the cap is hit the Courant number of a sub-step (the maximal Courant number scaled by
`dt_sub/dt`) is at most the requested limit. -/
theorem C05_adaptive_subcycling (c courant dt : K) (m : ℕ) (hc : 0 < c) (hdt : 0 < dt)
    (hm : 0 < m) (s : CycleState K) :
    let r := updateSubcycling (some { subcycleByCourant := some c, maxSubcycles := some m })
      courant dt s
    1 ≤ r.ncycles ∧ r.ncycles ≤ m ∧ r.ncycles * r.dt = dt ∧
      (courant * (r.dt / dt) ≤ c ∨ r.ncycles = m) := by
  simp only [updateSubcycling]
  set n := max 1 ⌈courant / c⌉₊ with hn
  have h1 : 1 ≤ n := le_max_left _ _
  have key : ∀ k : ℕ, 1 ≤ k → (k : K) * (dt / k) = dt := by
    intro k hk
    have : (k : K) ≠ 0 := by exact_mod_cast (by omega : k ≠ 0)
    field_simp
  by_cases h : n > m
  · simp only [h, if_true]
    exact ⟨hm, le_rfl, key m hm, Or.inr trivial⟩
  · simp only [h, if_false]
    refine ⟨h1, by omega, key n h1, Or.inl ?_⟩
    have hnpos : (0 : K) < n := by exact_mod_cast (by omega : 0 < n)
    have hle : courant / c ≤ n := (Nat.le_ceil _).trans (by exact_mod_cast le_max_right _ _)
    have : courant * (dt / n / dt) = courant / n := by field_simp
    rw [this, div_le_iff₀ hnpos]
    rw [div_le_iff₀ hc] at hle
    linarith [mul_comm c (n : K)]

/-- C05: it is the least number of cycles that achieves this. -/
theorem C05_least (c courant dt : K) (cap : Option ℕ) (hc : 0 < c) (s : CycleState K) (k : ℕ)
    (hk : 1 ≤ k) (hgood : courant / k ≤ c) :
    (updateSubcycling (some { subcycleByCourant := some c, maxSubcycles := cap })
      courant dt s).ncycles ≤ k := by
  have hkpos : (0 : K) < k := by exact_mod_cast hk
  have hceil : ⌈courant / c⌉₊ ≤ k := by
    rw [Nat.ceil_le, div_le_iff₀ hc]
    rw [div_le_iff₀ hkpos] at hgood
    linarith [mul_comm c (k : K)]
  have h1 : max 1 ⌈courant / c⌉₊ ≤ k := max_le hk hceil
  simp only [updateSubcycling]
  cases cap with
  | none => exact h1
  | some m => simp only; split <;> omega

/-- C05: without a cap the limit is always met. -/
theorem C05_uncapped (c courant dt : K) (hc : 0 < c) (hdt : 0 < dt) (s : CycleState K) :
    let r := updateSubcycling (some { subcycleByCourant := some c, maxSubcycles := none })
      courant dt s
    1 ≤ r.ncycles ∧ r.ncycles * r.dt = dt ∧ courant * (r.dt / dt) ≤ c := by
  simp only [updateSubcycling]
  set n := max 1 ⌈courant / c⌉₊ with hn
  have h1 : 1 ≤ n := le_max_left _ _
  have hnpos : (0 : K) < n := by exact_mod_cast (by omega : 0 < n)
  refine ⟨h1, by field_simp, ?_⟩
  have hle : courant / c ≤ n := (Nat.le_ceil _).trans (by exact_mod_cast le_max_right _ _)
  have : courant * (dt / n / dt) = courant / n := by field_simp
  rw [this, div_le_iff₀ hnpos]
  rw [div_le_iff₀ hc] at hle
  linarith [mul_comm c (n : K)]

/-- C05: with adaptive subcycling, `apply` is that many successive sub-steps, and the number and
length of the sub-steps are recomputed from the current Courant number at every call: they do not
depend on what the scheme held before. -/
theorem C05_apply (c courant dt : K) (m : ℕ) (hm : 0 < m) (cycle : K → X → X) (x x1 : X)
    (hdt : 0 < dt) (hc : 0 < c) :
    ∃ n : ℕ, 1 ≤ n ∧ n ≤ m ∧
      (courant * ((dt / n) / dt) ≤ c ∨ n = m) ∧
      apply (some { subcycleByCourant := some c, maxSubcycles := some m }) dt courant
        (fun d _ => cycle d) x x1 = (cycle (dt / n))^[n] x := by
  have h := C05_adaptive_subcycling c courant dt m hc hdt hm
    (setupSubcycling (some { subcycleByCourant := some c, maxSubcycles := some m }) dt)
  simp only [apply]
  set r := updateSubcycling (some { subcycleByCourant := some c, maxSubcycles := some m }) courant
    dt (setupSubcycling (some { subcycleByCourant := some c, maxSubcycles := some m }) dt) with hr
  obtain ⟨h1, h2, h3, h4⟩ := h
  have hpos : (r.ncycles : K) ≠ 0 := by exact_mod_cast (by omega : r.ncycles ≠ 0)
  have hd : r.dt = dt / r.ncycles := by rw [← h3]; field_simp
  refine ⟨r.ncycles, h1, h2, hd ▸ h4, ?_⟩
  rw [hd]
  exact C04_loop_is_iteration _ _ (by omega) x x1

end

example : (updateSubcycling (some { subcycleByCourant := some (1 / 4 : ℚ), maxSubcycles := some 10 })
    (9 / 10) 60 { ncycles := 1, dt := 60 }).ncycles = 4 := by
  simp only [updateSubcycling]
  have : ⌈(9 / 10 / (1 / 4) : ℚ)⌉₊ = 4 := by
    rw [Nat.ceil_eq_iff (by norm_num)]; constructor <;> norm_num
  rw [this]; rfl

/-! ## C59 -/

/-- C59: keeping the terms with a property and dropping them partition the residual. -/
theorem C59_partition (R : LForm X D) (p : Term X D → Bool) :
    (R.labelMap p keep drop).eval + (R.labelMap p drop keep).eval = R.eval := by
  induction R with
  | nil => simp [labelMap_nil]
  | cons t R ih =>
    simp only [labelMap_cons, eval_append, eval_cons]
    rw [← ih]
    by_cases h : p t <;> simp [h, keep, drop] <;> abel

/-- C59: the kept terms are exactly the terms with the property, in order, unchanged. -/
theorem C59_keep_is_filter (R : LForm X D) (p : Term X D → Bool) :
    R.labelMap p keep drop = R.filter p := by
  induction R with
  | nil => rfl
  | cons t R ih => rw [labelMap_cons, ih, List.filter_cons]; split <;> simp [keep, drop]

/-- C59: relabelling does not change the residual. -/
theorem C59_relabel (R : LForm X D) (p : Term X D → Bool) (newLabels : Term X D → List Label) :
    (R.labelMap p (fun t => [{ t with labels := newLabels t }]) keep).eval = R.eval := by
  induction R with
  | nil => rfl
  | cons t R ih =>
    simp only [labelMap_cons, eval_append, eval_cons, ih]
    by_cases h : p t <;> simp [h, keep, Term.eval]

/-- C59: replacing the subject everywhere evaluates every term at the new state. -/
theorem C59_replace_subject (R : LForm X D) (x : X) :
    (R.labelMap allTerms (replaceSubject x) keep).eval = mass R x + rest R x := by
  induction R with
  | nil => simp [labelMap_nil, mass_nil, rest_nil]
  | cons t R ih =>
    rw [labelMap_cons, eval_append, ih]
    fml_step
    by_cases h : Label.timeDerivative ∈ t.labels <;> simp [h, Term.eval] <;> abel

end Gusto.Props
