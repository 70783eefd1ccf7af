import Verif.Model.Tableaux
import Verif.Spec.OrderConditions
import Verif.Spec.RK
import Mathlib.Algebra.Order.Ring.Rat
import Mathlib.Algebra.Order.Group.Unbundled.Abs
import Mathlib.Algebra.Module.LinearMap.Basic
import Mathlib.Algebra.Module.LinearMap.End
import Mathlib.Tactic.NormNum
import Mathlib.Tactic.Module
import Mathlib.Tactic.FieldSimp
import Mathlib.Tactic.Ring
import Mathlib.Algebra.CharZero.Defs
import Mathlib.Data.Rat.Cast.CharZero
import Mathlib.Algebra.BigOperators.Fin

set_option autoImplicit false

/-!
# C03: the built-in explicit tableaux
-/

set_option linter.unusedSectionVars false

namespace Gusto.Props
open Gusto.Tableaux Gusto.Spec Finset

/-- The textbook strictly-lower-triangular matrix of a tableau stored the gusto way. -/
def strictA (t : Table) (i j : ℕ) : ℚ := if j < i then t.A (i - 1) j else 0
/-- The weights: the last row. -/
def lastRow (t : Table) (j : ℕ) : ℚ := t.A (t.nStages - 1) j

/-- The table is explicit (nothing right of the diagonal), square, has the advertised number of
stages, and satisfies all order conditions up to order `p` with error at most `tol`. -/
def Good (t : Table) (stages p : ℕ) (tol : ℚ) : Prop :=
  t.nStages = stages ∧ (∀ r ∈ t, r.length = stages) ∧ LowerTriangular t.A stages ∧
    HasOrder (strictA t) (lastRow t) stages p tol

instance (t : Table) (stages p : ℕ) (tol : ℚ) : Decidable (Good t stages p tol) := by
  unfold Good HasOrder LowerTriangular; infer_instance

/-- C03: ForwardEuler has order exactly 1, RK4 order 4, Heun order 2. -/
theorem C03_forward_euler : Good forwardEuler 1 1 0 ∧ ¬ Good forwardEuler 1 2 0 := by
  decide +kernel
theorem C03_rk4 : Good rk4 4 4 0 := by decide +kernel
theorem C03_heun : heun = ssprk2 2 ∧ ∃ t, heun = some t ∧ Good t 2 2 0 :=
  ⟨rfl, _, rfl, by decide +kernel⟩

/-- C03: SSPRK2 with every accepted number of stages has order 2, and exactly 2, 3, 4 stages are
accepted. -/
theorem C03_ssprk2 (n : ℕ) :
    (∀ t, ssprk2 n = some t → Good t n 2 0) ∧ ((ssprk2 n).isSome ↔ n = 2 ∨ n = 3 ∨ n = 4) := by
  rcases n with _ | _ | _ | _ | _ | n
  · simp [ssprk2]
  · simp [ssprk2]
  · refine ⟨fun t h => ?_, by simp [ssprk2]⟩
    obtain rfl : _ = t := Option.some.inj h
    decide +kernel
  · refine ⟨fun t h => ?_, by simp [ssprk2]⟩
    obtain rfl : _ = t := Option.some.inj h
    decide +kernel
  · refine ⟨fun t h => ?_, by simp [ssprk2]⟩
    obtain rfl : _ = t := Option.some.inj h
    decide +kernel
  · simp [ssprk2]

/-- C03: SSPRK3 with 3 and 4 stages has order 3 exactly; with 5 stages (decimal coefficients) the
order conditions hold to within `4·10⁻¹⁰`; exactly 3, 4, 5 stages are accepted. -/
theorem C03_ssprk3 (n : ℕ) :
    (∀ t, ssprk3 n = some t → Good t n 3 (if n = 5 then 4 / 10 ^ 10 else 0)) ∧
      ((ssprk3 n).isSome ↔ n = 3 ∨ n = 4 ∨ n = 5) := by
  rcases n with _ | _ | _ | _ | _ | _ | n
  · simp [ssprk3]
  · simp [ssprk3]
  · simp [ssprk3]
  · refine ⟨fun t h => ?_, by simp [ssprk3]⟩
    obtain rfl : _ = t := Option.some.inj h
    decide +kernel
  · refine ⟨fun t h => ?_, by simp [ssprk3]⟩
    obtain rfl : _ = t := Option.some.inj h
    decide +kernel
  · refine ⟨fun t h => ?_, by simp [ssprk3]⟩
    obtain rfl : _ = t := Option.some.inj h
    decide +kernel
  · simp [ssprk3]

/-- The decimal weights of SSPRK3 with 5 stages do not sum to exactly one. -/
theorem C03_ssprk3_5_not_exact :
    ∃ t, ssprk3 5 = some t ∧ ∑ j ∈ range 5, lastRow t j = 1 + 32373 / 10 ^ 14 :=
  ⟨_, rfl, by decide +kernel⟩

/-- C03: SSPRK4 (5 stages) satisfies the order-4 conditions to within `10⁻¹⁰`; no other number of
stages is accepted. -/
theorem C03_ssprk4 (n : ℕ) :
    (∀ t, ssprk4 n = some t → Good t n 4 (1 / 10 ^ 10)) ∧ ((ssprk4 n).isSome ↔ n = 5) := by
  rcases n with _ | _ | _ | _ | _ | _ | n
  · simp [ssprk4]
  · simp [ssprk4]
  · simp [ssprk4]
  · simp [ssprk4]
  · simp [ssprk4]
  · refine ⟨fun t h => ?_, by simp [ssprk4]⟩
    obtain rfl : _ = t := Option.some.inj h
    decide +kernel
  · simp [ssprk4]

/-! ### One step on a linear problem agrees with the Taylor expansion -/

section Taylor
variable {K X : Type*} [Field K] [CharZero K] [AddCommGroup X] [Module K X]

/-- The step of a rational tableau over any field of characteristic zero. -/
def tableStep (t : Table) (f : X → X) (dt : K) (x : X) : X :=
  rkStep (fun i j => ((t.A (i - 1) j : ℚ) : K)) (fun j => ((lastRow t j : ℚ) : K)) t.nStages f dt x

theorem rkK_zero (a : ℕ → ℕ → K) (f : X → X) (dt : K) (x : X) : rkK a f dt x 0 = f x := by
  rw [rkK]; simp
theorem rkK_one (a : ℕ → ℕ → K) (f : X → X) (dt : K) (x : X) :
    rkK a f dt x 1 = f (x + dt • (a 1 0 • rkK a f dt x 0)) := by
  rw [rkK]; simp only [Fin.sum_univ_one, Fin.val_zero]
theorem rkK_two (a : ℕ → ℕ → K) (f : X → X) (dt : K) (x : X) :
    rkK a f dt x 2 = f (x + dt • (a 2 0 • rkK a f dt x 0 + a 2 1 • rkK a f dt x 1)) := by
  rw [rkK]; simp only [Fin.sum_univ_two, Fin.val_zero, Fin.val_one]
theorem rkK_three (a : ℕ → ℕ → K) (f : X → X) (dt : K) (x : X) :
    rkK a f dt x 3 = f (x + dt • (a 3 0 • rkK a f dt x 0 + a 3 1 • rkK a f dt x 1
      + a 3 2 • rkK a f dt x 2)) := by
  rw [rkK]; simp only [Fin.sum_univ_three, Fin.val_zero, Fin.val_one, Fin.val_two]

/-- one step of a 1,2,3,4-stage table on a linear problem, written out -/
theorem tableStep1 (t : Table) (ht : t.nStages = 1) (L : X →ₗ[K] X) (dt : K) (x : X) :
    tableStep t L dt x = x + dt • ((lastRow t 0 : ℚ) : K) • L x := by
  simp only [tableStep, rkStep, ht, sum_range_succ, sum_range_zero, zero_add, rkK_zero]

theorem C03_taylor_forward_euler (L : X →ₗ[K] X) (dt : K) (x : X) :
    tableStep forwardEuler L dt x = x + dt • L x := by
  rw [tableStep1 _ rfl]
  have : (lastRow forwardEuler 0) = 1 := by decide +kernel
  rw [this]; simp

/-- closes a Taylor goal once the table entries are literals -/
macro "taylor" t:term:max n:num : tactic => `(tactic| (
  have hn : Table.nStages $t = $n := rfl
  simp only [tableStep, rkStep, hn, sum_range_succ, sum_range_zero, zero_add,
    rkK_zero, rkK_one, rkK_two, rkK_three, map_add, map_smul]
  simp only [lastRow, Table.A, Table.nStages, Nat.add_one_sub_one, Nat.reduceSub,
    List.getD_cons_zero, List.getD_cons_succ, List.length_cons, List.length_nil,
    Nat.reduceAdd, pow_succ, pow_zero, one_mul, Module.End.mul_apply]
  push_cast
  module))

/-- C03: RK4 on `x' = L x` gives the Taylor polynomial of degree 4 of `exp(dt L) x`. -/
theorem C03_taylor_rk4 (L : X →ₗ[K] X) (dt : K) (x : X) :
    tableStep rk4 L dt x = x + dt • L x + (dt ^ 2 / 2) • (L ^ 2) x + (dt ^ 3 / 6) • (L ^ 3) x
      + (dt ^ 4 / 24) • (L ^ 4) x := by
  unfold rk4
  taylor [[1/2, 0, 0, 0], [0, 1/2, 0, 0], [0, 0, 1, 0], [1/6, 1/3, 1/3, 1/6]] 4

/-- C03: SSPRK2/Heun with 2 stages: the Taylor polynomial of degree 2. -/
theorem C03_taylor_heun (L : X →ₗ[K] X) (dt : K) (x : X) :
    ∃ t, heun = some t ∧
      tableStep t L dt x = x + dt • L x + (dt ^ 2 / 2) • (L ^ 2) x := by
  refine ⟨_, rfl, ?_⟩
  taylor [[1, 0], [1/2, 1/2]] 2

/-- C03: SSPRK3 with 3 stages: the Taylor polynomial of degree 3. -/
theorem C03_taylor_ssprk3 (L : X →ₗ[K] X) (dt : K) (x : X) :
    ∃ t, ssprk3 3 = some t ∧
      tableStep t L dt x = x + dt • L x + (dt ^ 2 / 2) • (L ^ 2) x + (dt ^ 3 / 6) • (L ^ 3) x := by
  refine ⟨_, rfl, ?_⟩
  taylor [[1, 0, 0], [1/4, 1/4, 0], [1/6, 1/6, 2/3]] 3

/-- C03: SSPRK3 with 4 stages: the Taylor polynomial of degree 3 plus `dt⁴/48 L⁴`. -/
theorem C03_taylor_ssprk3_4 (L : X →ₗ[K] X) (dt : K) (x : X) :
    ∃ t, ssprk3 4 = some t ∧
      tableStep t L dt x = x + dt • L x + (dt ^ 2 / 2) • (L ^ 2) x + (dt ^ 3 / 6) • (L ^ 3) x
        + (dt ^ 4 / 48) • (L ^ 4) x := by
  refine ⟨_, rfl, ?_⟩
  taylor [[1/2, 0, 0, 0], [1/2, 1/2, 0, 0], [1/6, 1/6, 1/6, 0], [1/6, 1/6, 1/6, 1/2]] 4

end Taylor

end Gusto.Props
