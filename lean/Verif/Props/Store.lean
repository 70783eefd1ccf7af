import Verif.Lemmas.Store
import Verif.Props.ExplicitRK
import Mathlib.Tactic.NormNum

set_option autoImplicit false
set_option linter.unusedSectionVars false
set_option linter.unusedSimpArgs false

/-!
# C13, C63: in-place application, and absence of memory

`Heap` gives the contents of every Function; `.user n` are the user's, the others are owned by the
scheme object.
-/

namespace Gusto.Props
open Gusto LForm TimeDisc
variable {K X D : Type*} [Field K] [AddCommGroup X] [Module K X] [AddCommGroup D] [Module K D]

namespace StoreProps
open Store

/-- C13: `apply(x_out, x_in)` writes no Function of the user other than `x_out`; in particular
`x_in` keeps its value when the two are distinct.  For every tableau, formulation, limiter,
physics, number of subcycles and previous history of the scheme object. -/
theorem C13_input_unchanged (f : RK.Formulation) (S : RKScheme K X D) (ncycles o i : ℕ)
    (h : Heap X) (n : ℕ) (hn : n ≠ o) :
    Store.apply f S ncycles (.user o) (.user i) h (.user n) = h (.user n) :=
  (apply_ok f S ncycles o i h).2 n hn

/-- C13: calling with the same Function for input and output leaves in it exactly what the call
with a separate output Function would have put there. -/
theorem C13_in_place (f : RK.Formulation) (S : RKScheme K X D) (ncycles o i : ℕ) (h : Heap X) :
    Store.apply f S ncycles (.user i) (.user i) h (.user i)
      = Store.apply f S ncycles (.user o) (.user i) h (.user o) := by
  rw [(apply_ok f S ncycles i i h).1, (apply_ok f S ncycles o i h).1]

/-- C13: the value written is that of the functional model of the scheme (about which C02, C04,
C06 and C61 are proved), so those theorems hold for calls on the store. -/
theorem C13_value (f : RK.Formulation) (S : RKScheme K X D) (ncycles o i : ℕ) (h : Heap X) :
    Store.apply f S ncycles (.user o) (.user i) h (.user o)
      = RK.apply f S ncycles (own h) (h (.user i)) :=
  (apply_ok f S ncycles o i h).1

/-- By contrast `apply_cycle` itself is not safe for its input: with a limiter it changes it (so
the copy into the scheme's own field in `apply` is necessary). -/
theorem C13_cycle_needs_copy : ∃ (S : RKScheme ℚ ℚ ℚ) (h : Heap ℚ),
    applyCycle .increment S 1 0 (.user 0) (.user 1) h (.user 1) ≠ h (.user 1) := by
  refine ⟨{ R := [], A := fun _ _ => 0, nStages := 0, dt := 1, originalDt := 1,
            limiter := some fun x => max x 0, nphys := 0, evals := fun _ x _ => x,
            solve := fun _ x => x }, fun _ => -1, ?_⟩
  simp [applyCycle, limitAt, set_apply]

/-- C13: calls have no memory: two calls on the same input value give the same result, whatever
the scheme object was used for in between (exact solver, linear mass term, no physics sources). -/
theorem C13_no_memory (S : RKScheme K X D) (M : X ≃ₗ[K] D) (hS : Setting S M)
    (hns : ∀ t ∈ S.R, Label.source ∉ t.labels)
    (n : ℕ) (hn : 0 < n) (h h' : Heap X) (o i o' i' : ℕ) (hv : h (.user i) = h' (.user i')) :
    Store.apply .increment S n (.user o) (.user i) h (.user o)
      = Store.apply .increment S n (.user o') (.user i') h' (.user o') := by
  rw [C13_value, C13_value, C02_increment_limited S M hS hns n hn,
    C02_increment_limited S M hS hns n hn, hv]

/-- The same for the predictor formulation, with an idempotent limiter. -/
theorem C13_no_memory_predictor (S : RKScheme K X D) (M : X ≃ₗ[K] D) (hS : Setting S M)
    (hns : ∀ t ∈ S.R, Label.source ∉ t.labels)
    (hid : ∀ x, RK.limit S (RK.limit S x) = RK.limit S x)
    (n : ℕ) (hn : 0 < n) (h h' : Heap X) (o i o' i' : ℕ) (hv : h (.user i) = h' (.user i')) :
    Store.apply .predictor S n (.user o) (.user i) h (.user o)
      = Store.apply .predictor S n (.user o') (.user i') h' (.user o') := by
  rw [C13_value, C13_value, C02_predictor_limited S M hS hns hid n hn,
    C02_predictor_limited S M hS hns hid n hn, hv]

/-- forward Euler for `d/dt x + x = 0` -/
def decay : RKScheme ℚ ℚ ℚ where
  R := [{ labels := [.timeDerivative], op := id, subj := 0 }, { labels := [], op := id, subj := 0 }]
  A := fun _ _ => 1
  nStages := 1
  dt := 1 / 2
  originalDt := 1 / 2
  limiter := none
  nphys := 0
  evals := fun _ x _ => x
  solve := fun r g => g - r g

/-- Non-vacuity: forward Euler, in place. -/
example (h : Heap ℚ) :
    Store.apply .increment decay 1 (.user 3) (.user 3) h (.user 3) = h (.user 3) / 2 := by
  rw [C13_value]
  simp [RK.apply, RK.applyCycle, RK.solveStage, RK.incStage, RK.incRes, RK.withSources, RK.limit,
    RK.isSource, Term.has, isTD, labelMap, replaceSubject, drop, keep, LForm.eval, Term.eval,
    LForm.add, own, decay]
  ring

end StoreProps
end Gusto.Props
