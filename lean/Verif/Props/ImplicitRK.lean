import Verif.Lemmas.ImplicitRK
import Verif.Spec.OrderConditions
import Verif.Props.ExplicitRK
import Mathlib.Algebra.Order.Ring.Rat
import Mathlib.Algebra.Order.Group.Unbundled.Abs
import Mathlib.LinearAlgebra.BilinearMap
import Mathlib.Tactic.LinearCombination
import Mathlib.Tactic.NormNum
import Mathlib.Tactic.FieldSimp

set_option autoImplicit false

/-!
# C11, C62: diagonally implicit Runge-Kutta schemes
-/

set_option linter.unusedSectionVars false
set_option linter.unusedSimpArgs false

namespace Gusto.Props
open Gusto LForm TimeDisc Spec Finset
variable {K X D : Type*} [Field K] [AddCommGroup X] [Module K X] [AddCommGroup D] [Module K D]

namespace IRKProps
open IRK

/-- the tableau with its diagonal replaced by `d` -/
def withDiag (A : ℕ → ℕ → K) (d : K) : ℕ → ℕ → K := fun i j => if j = i then d else A i j

theorem inc_inv (S : Scheme K X D) (hs : ExactSolver S.solve) (st : State K X) (x : X)
    (hu : ∀ x1 : X, ∃! y, mass S.R y
      + rest S.R (x1 + (st.cachedDiag.getD (S.A 0 0) * S.dt) • y) = 0) (m : ℕ) :
    let d := st.cachedDiag.getD (S.A 0 0)
    let r := (List.range m).foldl (incStage S x) { st with xOut := x }
    (∀ i < m, mass S.R (r.k i) = - rest S.R (x + S.dt •
        ∑ j ∈ range (i + 1), withDiag S.A d i j • r.k j)) ∧
    (r.cachedDiag = some d ∨ (m = 0 ∧ r.cachedDiag = st.cachedDiag)) := by
  intro d r
  induction m with
  | zero => exact ⟨fun i hi => absurd hi (by omega), Or.inr ⟨rfl, rfl⟩⟩
  | succ m ih =>
    obtain ⟨ih1, ih2⟩ := ih
    set q := (List.range m).foldl (incStage S x) { st with xOut := x } with hq
    have hr : r = incStage S x q m := by
      simp [r, hq, List.range_succ]
    have hd : q.cachedDiag.getD (S.A m m) = d := by
      rcases ih2 with h | ⟨rfl, h⟩
      · rw [h]; rfl
      · rw [h]
    have hk : ∀ i < m, r.k i = q.k i := fun i hi => by
      rw [hr]; simp [incStage, Function.update_of_ne (by omega : i ≠ m)]
    have hx1 : (List.range m).foldl (fun x1 i => x1 + (S.A m i * S.dt) • q.k i) x
        = x + S.dt • ∑ i ∈ range m, S.A m i • q.k i := foldl_add_sum _ _ _ _ _
    have hkm : mass S.R (r.k m) + rest S.R ((x + S.dt • ∑ i ∈ range m, S.A m i • q.k i)
        + (d * S.dt) • r.k m) = 0 := by
      have hs' := hs (fun y => (incRes S.R ((x + S.dt • ∑ i ∈ range m, S.A m i • q.k i)
          + (d * S.dt) • y) y).eval) (if m > 0 then q.k (m - 1) else q.xOut)
        (by simpa only [eval_incRes, add_comm] using
          hu (x + S.dt • ∑ i ∈ range m, S.A m i • q.k i))
      have e : r.k m = S.solve (fun y => (incRes S.R ((x + S.dt • ∑ i ∈ range m, S.A m i • q.k i)
          + (d * S.dt) • y) y).eval) (if m > 0 then q.k (m - 1) else q.xOut) := by
        rw [hr]; simp only [incStage, hx1, hd, Function.update_self]
      rw [e]
      simpa only [eval_incRes, add_comm] using hs'
    refine ⟨fun i hi => ?_, Or.inl ?_⟩
    · rcases Nat.lt_succ_iff_lt_or_eq.1 hi with h | rfl
      · rw [hk i h, ih1 i h]
        congr 4
        refine sum_congr rfl fun j hj => ?_
        rw [hk j (by have := mem_range.1 hj; omega)]
      · rw [eq_neg_of_add_eq_zero_left hkm]
        congr 2
        rw [sum_range_succ, smul_add, add_assoc]
        congr 2
        · congr 1
          refine sum_congr rfl fun j hj => ?_
          have hj := mem_range.1 hj
          rw [hk j hj, withDiag, if_neg (by omega)]
        · simp [withDiag, smul_smul, mul_comm]
    · rw [hr]; simp [incStage, hd]

/-- What the increment formulation solves, for any tableau: the DIRK equations with *every*
diagonal entry replaced by the one captured when the solvers were first built (`a₀₀` for a fresh
object). -/
theorem inc_apply (S : Scheme K X D) (hs : ExactSolver S.solve) (st : State K X) (x : X)
    (hu : ∀ x1 : X, ∃! y, mass S.R y
      + rest S.R (x1 + (st.cachedDiag.getD (S.A 0 0) * S.dt) • y) = 0) :
    IsDIRKStepK (withDiag S.A (st.cachedDiag.getD (S.A 0 0))) (S.A S.nStages) S.nStages
      (mass S.R) (rest S.R) S.dt x (applyInc S st x).1 := by
  obtain ⟨h1, -⟩ := inc_inv S hs st x hu S.nStages
  exact ⟨_, h1, foldl_add_sum _ _ _ _ _⟩

theorem inc_cached (S : Scheme K X D) (hs : ExactSolver S.solve) (st : State K X) (x : X)
    (hu : ∀ x1 : X, ∃! y, mass S.R y
      + rest S.R (x1 + (st.cachedDiag.getD (S.A 0 0) * S.dt) • y) = 0) :
    ((applyInc S st x).2.cachedDiag.getD (S.A 0 0)) = st.cachedDiag.getD (S.A 0 0) := by
  obtain ⟨-, h1⟩ := inc_inv S hs st x hu S.nStages
  have e : (applyInc S st x).2 = (List.range S.nStages).foldl (incStage S x)
      { st with xOut := x } := rfl
  rw [e]
  rcases h1 with h | ⟨-, h⟩ <;> (rw [h]; try rfl)

/-- The scheme object's state after `n` calls of `apply` with inputs `xin 0, …, xin (n-1)`. -/
def stateAfter (S : Scheme K X D) (xin : ℕ → X) (st : State K X) : ℕ → State K X
  | 0 => st
  | n + 1 => (applyInc S (stateAfter S xin st n) (xin n)).2

/-- C11 increment formulation, in every call `n = 0, 1, 2, …` of `apply` on a fresh object: what
is solved is the tableau with its diagonal overwritten by `a₀₀`. -/
theorem C11_increment_solves (S : Scheme K X D) (hs : ExactSolver S.solve) (st : State K X)
    (hfresh : st.cachedDiag = none) (xin : ℕ → X) (n : ℕ)
    (hu : ∀ x1 : X, ∃! y, mass S.R y + rest S.R (x1 + (S.A 0 0 * S.dt) • y) = 0) :
    let stn := stateAfter S xin st n
    IsDIRKStepK (withDiag S.A (S.A 0 0)) (S.A S.nStages) S.nStages
      (mass S.R) (rest S.R) S.dt (xin n) (applyInc S stn (xin n)).1 := by
  intro stn
  have hc : stn.cachedDiag.getD (S.A 0 0) = S.A 0 0 := by
    change (stateAfter S xin st n).cachedDiag.getD (S.A 0 0) = _
    induction n with
    | zero => simp [stateAfter, hfresh]
    | succ n ih =>
      rw [stateAfter, inc_cached S hs _ _ (by rw [ih]; exact hu), ih]
  have := inc_apply S hs stn (xin n) (by rw [hc]; exact hu)
  rwa [hc] at this

/-- C11 increment formulation: for a tableau with constant diagonal (SDIRK, which includes both
built-in schemes) the result satisfies the documented DIRK equations. -/
theorem C11_increment_partial (S : Scheme K X D) (hs : ExactSolver S.solve) (st : State K X)
    (hfresh : st.cachedDiag = none) (xin : ℕ → X) (n : ℕ)
    (hdiag : ∀ i < S.nStages, S.A i i = S.A 0 0)
    (hu : ∀ x1 : X, ∃! y, mass S.R y + rest S.R (x1 + (S.A 0 0 * S.dt) • y) = 0) :
    let stn := stateAfter S xin st n
    IsDIRKStepK S.A (S.A S.nStages) S.nStages
      (mass S.R) (rest S.R) S.dt (xin n) (applyInc S stn (xin n)).1 := by
  obtain ⟨k, h1, h2⟩ := C11_increment_solves S hs st hfresh xin n hu
  refine ⟨k, fun i hi => ?_, h2⟩
  rw [h1 i hi]
  congr 4
  refine sum_congr rfl fun j _ => ?_
  by_cases hj : j = i
  · subst hj; simp [withDiag, hdiag j hi]
  · simp [withDiag, hj]

theorem pred_inv (S : Scheme K X D) (hs : ExactSolver S.solve) (st : State K X) (x : X)
    (m : ℕ)
    (hu : ∀ i < m, ∀ d : D, ∃! y, mass S.R y + (S.dt * S.A i i) • rest S.R y = d) :
    let r := (List.range m).foldl (predStage S x) { st with xOut := x }
    ∀ i < m, mass S.R (r.xs i) = mass S.R x
      - S.dt • ∑ j ∈ range (i + 1), S.A i j • rest S.R (r.xs j) := by
  intro r
  induction m with
  | zero => exact fun i hi => absurd hi (by omega)
  | succ m ih =>
    have ih := ih (fun i hi => hu i (by omega))
    set q := (List.range m).foldl (predStage S x) { st with xOut := x } with hq
    have hr : r = predStage S x q m := by simp [r, hq, List.range_succ]
    have hk : ∀ i < m, r.xs i = q.xs i := fun i hi => by
      rw [hr]; simp [predStage, Function.update_of_ne (by omega : i ≠ m)]
    have key : (predRes S q.xs x m (r.xs m)).eval = 0 := by
      have e : r.xs m = S.solve (fun y => (predRes S q.xs x m y).eval)
          (if m > 0 then q.xs (m - 1) else q.xOut) := by
        rw [hr]; simp [predStage]
      rw [e]
      refine hs (fun y => (predRes S q.xs x m y).eval) _ ?_
      obtain ⟨y, hy, hy'⟩ := hu m (by omega)
        (mass S.R x - S.dt • (∑ i ∈ range m, S.A m i • rest S.R (q.xs i)))
      refine ⟨y, ?_, fun z hz => hy' z ?_⟩
      · dsimp only at hy ⊢
        rw [eval_predRes]
        linear_combination (norm := module) hy
      · dsimp only at hz ⊢
        rw [eval_predRes] at hz
        linear_combination (norm := module) hz
    intro i hi
    rcases Nat.lt_succ_iff_lt_or_eq.1 hi with h | rfl
    · rw [hk i h, ih i h]
      congr 2
      refine sum_congr rfl fun j hj => ?_
      rw [hk j (by have := mem_range.1 hj; omega)]
    · rw [eval_predRes] at key
      rw [sum_range_succ]
      have e : ∑ j ∈ range i, S.A i j • rest S.R (r.xs j)
          = ∑ j ∈ range i, S.A i j • rest S.R (q.xs j) :=
        sum_congr rfl fun j hj => by rw [hk j (mem_range.1 hj)]
      rw [e]
      linear_combination (norm := module) key

/-- C11 predictor formulation: for every lower-triangular tableau (any diagonal) the result
satisfies the documented DIRK equations. -/
theorem C11_predictor (S : Scheme K X D) (hs : ExactSolver S.solve) (st : State K X) (x : X)
    (hm : Function.Bijective (mass S.R))
    (hu : ∀ i < S.nStages, ∀ d : D, ∃! y, mass S.R y + (S.dt * S.A i i) • rest S.R y = d) :
    IsDIRKStepY S.A (S.A S.nStages) S.nStages (mass S.R) (rest S.R) S.dt x
      (applyPred S st x).1 := by
  set r := (List.range S.nStages).foldl (predStage S x) { st with xOut := x } with hr
  refine ⟨r.xs, pred_inv S hs st x S.nStages hu, ?_⟩
  have key : (finalRes S r.xs x (applyPred S st x).1).eval = 0 := by
    have e : (applyPred S st x).1 = S.solve (fun y => (finalRes S r.xs x y).eval) r.xOut := rfl
    rw [e]
    refine hs (fun y => (finalRes S r.xs x y).eval) _ ?_
    obtain ⟨y, hy⟩ := hm.2 (mass S.R x
      - S.dt • ∑ i ∈ range S.nStages, S.A S.nStages i • rest S.R (r.xs i))
    refine ⟨y, ?_, fun z hz => hm.1 ?_⟩
    · dsimp only; rw [eval_finalRes, hy]; abel
    · dsimp only at hz
      rw [eval_finalRes] at hz
      rw [hy]
      linear_combination (norm := module) hz
  rw [eval_finalRes] at key
  linear_combination (norm := module) key

/-! ### refutation for non-constant diagonals -/

/-- `x' = -x` -/
def decayR : LForm ℚ ℚ :=
  [ { labels := [.timeDerivative], op := id, subj := 0 },
    { labels := [.transport], op := id, subj := 0 } ]

theorem decay_mass (x : ℚ) : mass decayR x = x := by simp [mass, part, decayR]
theorem decay_rest (x : ℚ) : rest decayR x = x := by simp [rest, part, decayR]

/-- Backward Euler written as a two-stage DIRK with diagonal (0, 1): rows [0,0], [0,1],
weights [0,1]; dt = 1. -/
noncomputable def beTwoStage : Scheme ℚ ℚ ℚ where
  R := decayR
  A := fun i j => if i = 0 then 0 else if j = 1 then 1 else 0
  nStages := 2
  dt := 1
  solve := choiceSolve

/-- C11 is refuted for the increment formulation with a non-constant diagonal: on a fresh object,
for `x' = -x`, x = 1, dt = 1 the result is not a DIRK step of the tableau given (backward Euler
would give 1/2; the code returns 0). -/
theorem C11_increment_refuted (st : State ℚ ℚ) (hst : st.cachedDiag = none) :
    ExactSolver beTwoStage.solve ∧
    (∀ x1 : ℚ, ∃! y, mass beTwoStage.R y
      + rest beTwoStage.R (x1 + (beTwoStage.A 0 0 * beTwoStage.dt) • y) = 0) ∧
    ¬ IsDIRKStepK beTwoStage.A (beTwoStage.A 2) 2 (mass beTwoStage.R) (rest beTwoStage.R)
      beTwoStage.dt 1 (applyInc beTwoStage st 1).1 := by
  have hu : ∀ x1 : ℚ, ∃! y, mass beTwoStage.R y
      + rest beTwoStage.R (x1 + (beTwoStage.A 0 0 * beTwoStage.dt) • y) = 0 := by
    intro x1
    refine ⟨-x1, ?_, fun y hy => ?_⟩
    · simp [beTwoStage, decay_mass, decay_rest]
    · simp [beTwoStage, decay_mass, decay_rest] at hy; linarith
  refine ⟨choiceSolve_exact, hu, ?_⟩
  intro h
  have h' := inc_apply beTwoStage choiceSolve_exact st 1 (by rw [hst]; exact hu)
  rw [hst] at h'
  obtain ⟨k, hk, e⟩ := h
  obtain ⟨k', hk', e'⟩ := h'
  have h1 := hk 1 (by omega)
  have h1' := hk' 1 (by simp [beTwoStage])
  simp [sum_range_succ, withDiag, beTwoStage, decay_mass, decay_rest] at h1 h1' e e'
  rw [e] at e'
  linarith

/-! ### built-in tableaux -/

/-- entries of a tableau given by rows -/
def tab (t : List (List ℚ)) (i j : ℕ) : ℚ := (t.getD i []).getD j 0

/-- A built-in DIRK table with `s` stages: `s+1` rows, lower triangular, constant diagonal, and
all order conditions up to order `p`. -/
def GoodDIRK (t : List (List ℚ)) (s p : ℕ) : Prop :=
  t.length = s + 1 ∧ (∀ r ∈ t, r.length = s) ∧ LowerTriangular (tab t) s ∧
    (∀ i < s, tab t i i = tab t 0 0) ∧ HasOrder (tab t) (tab t s) s p 0

instance (t : List (List ℚ)) (s p : ℕ) : Decidable (GoodDIRK t s p) := by
  unfold GoodDIRK HasOrder LowerTriangular; infer_instance

/-- C11: ImplicitMidpoint and QinZhang are lower triangular with constant diagonal (so the
increment formulation is right for them) and of order 2 (exactly). -/
theorem C11_builtin_tables : GoodDIRK implicitMidpoint 1 2 ∧ GoodDIRK qinZhang 2 2 ∧
    ¬ GoodDIRK implicitMidpoint 1 3 ∧ ¬ GoodDIRK qinZhang 2 3 := by
  decide +kernel

/-- The scheme object for a built-in table with `s` stages. -/
def ofTable (t : List (List ℚ)) (s : ℕ) (R : LForm X D) (dt : K) (solve : Solver X D) :
    Scheme K X D :=
  ⟨R, fun i j => Rat.cast (tab t i j), s, dt, solve⟩

/-- C11 for ImplicitMidpoint: one application returns `y = x + dt k` with
`M k = -F(x + dt/2 k)`. -/
theorem C11_implicit_midpoint [CharZero K] (R : LForm X D) (dt : K) (solve : Solver X D)
    (hs : ExactSolver solve) (st : State K X) (hst : st.cachedDiag = none) (x : X)
    (hu : ∀ x1 : X, ∃! y, mass R y + rest R (x1 + ((1 / 2 : K) * dt) • y) = 0) :
    let S : Scheme K X D := ofTable implicitMidpoint 1 R dt solve
    ∃ k, mass R k = - rest R (x + (dt / 2) • k) ∧ (applyInc S st x).1 = x + dt • k := by
  intro S
  have h00 : S.A 0 0 = 1 / 2 := by
    change ((tab implicitMidpoint 0 0 : ℚ) : K) = _
    have : tab implicitMidpoint 0 0 = 1 / 2 := by decide +kernel
    rw [this]; norm_num
  have h10 : S.A 1 0 = 1 := by
    change ((tab implicitMidpoint 1 0 : ℚ) : K) = _
    have : tab implicitMidpoint 1 0 = 1 := by decide +kernel
    rw [this]; norm_num
  obtain ⟨k, h1, h2⟩ := C11_increment_partial S hs st hst (fun _ => x) 0
    (fun i hi => by
      have : i = 0 := by simp only [S, ofTable] at hi; omega
      rw [this]) (by rw [h00]; exact hu)
  refine ⟨k 0, ?_, ?_⟩
  · have := h1 0 (by simp [S, ofTable])
    simp only [zero_add, sum_range_one, h00] at this
    refine this.trans ?_
    congr 2
    change x + dt • _ = _
    rw [smul_smul, mul_one_div]
  · have h2' : (applyInc S st x).1 = _ := h2
    rw [h2']
    change x + dt • ∑ j ∈ range 1, S.A 1 j • k j = _
    rw [sum_range_one, h10, one_smul]

/-- C11 for QinZhang: `M k₀ = -F(x + dt/4 k₀)`, `M k₁ = -F(x + dt/2 k₀ + dt/4 k₁)`,
`y = x + dt/2 (k₀ + k₁)`. -/
theorem C11_qin_zhang [CharZero K] (R : LForm X D) (dt : K) (solve : Solver X D)
    (hs : ExactSolver solve) (st : State K X) (hst : st.cachedDiag = none) (x : X)
    (hu : ∀ x1 : X, ∃! y, mass R y + rest R (x1 + ((1 / 4 : K) * dt) • y) = 0) :
    let S : Scheme K X D := ofTable qinZhang 2 R dt solve
    ∃ k0 k1, mass R k0 = - rest R (x + (dt / 4) • k0) ∧
      mass R k1 = - rest R (x + (dt / 2) • k0 + (dt / 4) • k1) ∧
      (applyInc S st x).1 = x + (dt / 2) • (k0 + k1) := by
  intro S
  have q : ∀ i j (v : ℚ), tab qinZhang i j = v → S.A i j = (v : K) := fun i j v h => by
    change ((tab qinZhang i j : ℚ) : K) = _
    rw [h]
  have h00 := q 0 0 (1 / 4) (by decide +kernel)
  have h10 := q 1 0 (1 / 2) (by decide +kernel)
  have h11 := q 1 1 (1 / 4) (by decide +kernel)
  have h20 := q 2 0 (1 / 2) (by decide +kernel)
  have h21 := q 2 1 (1 / 2) (by decide +kernel)
  push_cast at h00 h10 h11 h20 h21
  obtain ⟨k, h1, h2⟩ := C11_increment_partial S hs st hst (fun _ => x) 0
    (fun i hi => by
      have : i < 2 := hi
      rcases (by omega : i = 0 ∨ i = 1) with rfl | rfl
      · rfl
      · rw [h11, h00]) (by rw [h00]; exact hu)
  refine ⟨k 0, k 1, ?_, ?_, ?_⟩
  · have := h1 0 (by simp [S, ofTable])
    simp only [zero_add, sum_range_one, h00] at this
    refine this.trans ?_
    congr 2
    change x + dt • _ = _
    module
  · have := h1 1 (by simp [S, ofTable])
    simp only [sum_range_succ, sum_range_zero, zero_add, h10, h11] at this
    refine this.trans ?_
    congr 2
    change x + dt • _ = _
    module
  · have h2' : (applyInc S st x).1 = _ := h2
    rw [h2']
    change x + dt • ∑ j ∈ range 2, S.A 2 j • k j = _
    simp only [sum_range_succ, sum_range_zero, zero_add, h20, h21]
    module

/-- non-vacuity of the solvability hypothesis (`x' = -x`, dt = 1). -/
example : ∀ x1 : ℚ, ∃! y, mass decayR y + rest decayR (x1 + ((1 / 4 : ℚ) * 1) • y) = 0 := by
  intro x1
  refine ⟨-(4 / 5) * x1, ?_, fun y hy => ?_⟩
  · simp [decay_mass, decay_rest]; ring
  · simp [decay_mass, decay_rest] at hy; linarith

/-! ### C62: quadratic invariants -/

/-- The symplecticity condition `b_i a_ij + b_j a_ji = b_i b_j`, for a lower-triangular table. -/
def SymplecticTable (a : ℕ → ℕ → K) (b : ℕ → K) (s : ℕ) : Prop :=
  ∀ i < s, ∀ j < s, b i * a i j + b j * a j i = b i * b j

/-- A DIRK step with a symplectic table keeps every quadratic quantity `B(x,x)` that the
equation itself conserves (`B(z, f(z)) = 0` for every state `z`). -/
theorem C62_quadratic_invariants (a : ℕ → ℕ → K) (b : ℕ → K) (s : ℕ)
    (hsym : SymplecticTable a b s) (hlow : ∀ i < s, ∀ j < s, i < j → a i j = 0)
    (M F : X → D) (dt : K) (x y : X) (h : IsDIRKStepK a b s M F dt x y)
    (B : X →ₗ[K] X →ₗ[K] K) (hB : ∀ u v, B u v = B v u)
    (hcons : ∀ z k, M k = - F z → B z k = 0) : B y y = B x x := by
  obtain ⟨k, hk, rfl⟩ := h
  have hfull : ∀ i < s, ∑ j ∈ range (i + 1), a i j • k j = ∑ j ∈ range s, a i j • k j := by
    intro i hi
    refine sum_subset (fun j hj => mem_range.2 (by have := mem_range.1 hj; omega)) ?_
    intro j hj hj'
    rw [hlow i hi j (mem_range.1 hj) (by have := mt mem_range.2 hj'; omega), zero_smul]
  have h0 : ∀ i ∈ range s, B x (k i) = - (dt * ∑ j ∈ range s, a i j * B (k i) (k j)) := by
    intro i hi
    have hi := mem_range.1 hi
    have := hcons _ _ (hk i hi)
    rw [hfull i hi] at this
    simp only [map_add, map_smul, map_sum, LinearMap.add_apply, LinearMap.smul_apply,
      LinearMap.sum_apply, smul_eq_mul] at this
    have e : ∑ j ∈ range s, a i j * B (k j) (k i) = ∑ j ∈ range s, a i j * B (k i) (k j) :=
      sum_congr rfl fun j _ => by rw [hB]
    rw [e] at this
    exact eq_neg_of_add_eq_zero_left this
  have h1 : ∑ i ∈ range s, b i * B x (k i)
      = - (dt * ∑ i ∈ range s, ∑ j ∈ range s, b i * a i j * B (k i) (k j)) := by
    rw [mul_sum, ← sum_neg_distrib]
    refine sum_congr rfl fun i hi => ?_
    rw [h0 i hi, mul_neg, mul_sum, mul_sum, mul_sum]
    congr 1
    refine sum_congr rfl fun j _ => ?_
    ring
  have h2 : ∑ i ∈ range s, ∑ j ∈ range s, b i * a i j * B (k i) (k j)
      = ∑ i ∈ range s, ∑ j ∈ range s, b j * a j i * B (k i) (k j) := by
    rw [sum_comm]
    refine sum_congr rfl fun i _ => sum_congr rfl fun j _ => ?_
    rw [hB]
  have h3 : ∑ i ∈ range s, b i * ∑ j ∈ range s, b j * B (k i) (k j)
      = (∑ i ∈ range s, ∑ j ∈ range s, b i * a i j * B (k i) (k j))
        + ∑ i ∈ range s, ∑ j ∈ range s, b j * a j i * B (k i) (k j) := by
    rw [← sum_add_distrib]
    refine sum_congr rfl fun i hi => ?_
    rw [← sum_add_distrib, mul_sum]
    refine sum_congr rfl fun j hj => ?_
    rw [← add_mul, hsym i (mem_range.1 hi) j (mem_range.1 hj)]; ring
  set w := ∑ j ∈ range s, b j • k j with hw
  have e1 : B x w = ∑ i ∈ range s, b i * B x (k i) := by simp [hw]
  have e2 : B w w = ∑ i ∈ range s, b i * ∑ j ∈ range s, b j * B (k i) (k j) := by
    have g : ∀ v, B w v = ∑ i ∈ range s, b i * B (k i) v := fun v => by
      simp [hw, LinearMap.sum_apply]
    rw [g]
    refine sum_congr rfl fun i _ => ?_
    rw [hB, g]
    congr 1
    exact sum_congr rfl fun j _ => by rw [hB]
  have e3 : B (x + dt • w) (x + dt • w) = B x x + 2 * dt * B x w + dt ^ 2 * B w w := by
    simp only [map_add, map_smul, LinearMap.add_apply, LinearMap.smul_apply, smul_eq_mul, hB w x]
    ring
  rw [e3, e1, e2, h1, h3, ← h2]
  ring

/-- C62: ImplicitMidpoint and QinZhang are symplectic. -/
theorem C62_builtin_symplectic :
    SymplecticTable (tab implicitMidpoint) (tab implicitMidpoint 1) 1 ∧
    SymplecticTable (tab qinZhang) (tab qinZhang 2) 2 := by
  unfold SymplecticTable
  decide +kernel

/-- C62: for ImplicitMidpoint and QinZhang on an equation `x' = f(x)` with `B(x, f x) = 0`, every
application of `apply` in a run keeps `B(x,x)`. -/
theorem C62_builtin_conserve [CharZero K] (t : List (List ℚ)) (s : ℕ)
    (ht : (t = implicitMidpoint ∧ s = 1) ∨ (t = qinZhang ∧ s = 2)) (R : LForm X D) (dt : K)
    (solve : Solver X D) (hs : ExactSolver solve) (st : State K X) (hst : st.cachedDiag = none)
    (hu : ∀ x1 : X, ∃! y, mass R y + rest R (x1 + (((tab t 0 0 : ℚ) : K) * dt) • y) = 0)
    (B : X →ₗ[K] X →ₗ[K] K) (hB : ∀ u v, B u v = B v u)
    (hcons : ∀ z k, mass R k = - rest R z → B z k = 0) (xin : ℕ → X) (n : ℕ) :
    let S : Scheme K X D := ofTable t s R dt solve
    let y := (applyInc S (stateAfter S xin st n) (xin n)).1
    B y y = B (xin n) (xin n) := by
  intro S y
  have hg : GoodDIRK t s 2 := by
    rcases ht with ⟨rfl, rfl⟩ | ⟨rfl, rfl⟩
    · exact C11_builtin_tables.1
    · exact C11_builtin_tables.2.1
  have hsy : SymplecticTable (tab t) (tab t s) s := by
    rcases ht with ⟨rfl, rfl⟩ | ⟨rfl, rfl⟩
    · exact C62_builtin_symplectic.1
    · exact C62_builtin_symplectic.2
  have h := C11_increment_partial S hs st hst xin n
    (fun i hi => congrArg (Rat.cast (K := K)) (hg.2.2.2.1 i hi)) hu
  refine C62_quadratic_invariants S.A (S.A S.nStages) S.nStages ?_ ?_ _ _ _ _ _ h B hB hcons
  · intro i hi j hj
    have := congrArg (Rat.cast (K := K)) (hsy i hi j hj)
    push_cast at this; exact this
  · intro i hi j hj hij
    have := congrArg (Rat.cast (K := K)) (hg.2.2.1 i hi j hj hij)
    push_cast at this; exact this

end IRKProps

end Gusto.Props
