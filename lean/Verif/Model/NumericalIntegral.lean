import Mathlib.Algebra.Order.Field.Basic
import Mathlib.Data.Rat.Defs

set_option autoImplicit false

/-!
# Tabulated integrals

Model of `gusto/initialisation/numerical_integrator.py`, with the parts of NumPy it uses (`linspace`, `interp`).

Simplifications: exact arithmetic; the integrand acts on each entry of the array it is given; `evaluate_at` is given one
point.
-/

namespace Gusto.NumInt

variable {K : Type*} [Field K] [LinearOrder K] [IsStrictOrderedRing K]

/-- The exceptions of numerical_integrator.py 13-63. -/
inductive Err where
  | valueError | runtimeError
  deriving DecidableEq, Repr

/-- Entry `i` of `np.linspace(a, b, n)` (numpy; numerical_integrator.py 24-46). -/
def linspace (a b : K) (n i : ℕ) : K := a + i * ((b - a) / (n - 1 : ℕ))

/-- The object: the bounds, the number of points, and the tabulated values if there are any
(numerical_integrator.py 13-22). -/
structure Integral (K : Type*) where
  lower : K
  upper : K
  num : ℕ
  cumulative : Option (ℕ → K)

/-- `NumericalIntegral.__init__`, numerical_integrator.py:13-22: `linspace` rejects `2*num_points - 1 = -1` points; no
other check is made. -/
def init (lower upper : K) (num : ℕ) : Except Err (Integral K) :=
  if num = 0 then .error .valueError else .ok ⟨lower, upper, num, none⟩

/-- `interval_areas[i]`, numerical_integrator.py:39-41: entries `2i`, `2i+1`, `2i+2` of `f` at `x_double`. -/
def area (I : Integral K) (f : K → K) (i : ℕ) : K :=
  (linspace I.lower I.upper I.num (i + 1) - linspace I.lower I.upper I.num i) / 6 *
    (f (linspace I.lower I.upper (2 * I.num - 1) (2 * i + 2)) + 4 * f (linspace I.lower I.upper (2 * I.num - 1) (2 * i + 1))
      + f (linspace I.lower I.upper (2 * I.num - 1) (2 * i)))

/-- `cumulative[i]`, numerical_integrator.py:32, 43-45. -/
def cumul (I : Integral K) (f : K → K) : ℕ → K
  | 0 => 0
  | i + 1 => cumul I f i + area I f i

/-- `tabulate`, numerical_integrator.py:24-47. -/
def tabulate (I : Integral K) (f : K → K) : Integral K := { I with cumulative := some (cumul I f) }

/-- The search of `np.interp` from the index `i` on, with `k` entries left (numpy; numerical_integrator.py 48-63). -/
def scan (x : ℕ → K) (p : K) : ℕ → ℕ → ℕ
  | 0, i => i
  | k + 1, i => if x (i + 1) ≤ p then scan x p k (i + 1) else i

/-- `np.interp(p, x, y)` for `n` entries: the point is compared with the last and then with the first abscissa
(numpy; numerical_integrator.py 48-63). -/
def interp (x y : ℕ → K) (n : ℕ) (p : K) : K :=
  if x (n - 1) < p then y (n - 1)
  else if p < x 0 then y 0
  else
    let j := scan x p (n - 1) 0
    if j = n - 1 then y j else (y (j + 1) - y j) / (x (j + 1) - x j) * (p - x j) + y j

/-- `evaluate_at`, numerical_integrator.py:49-64. -/
def evaluateAt (I : Integral K) (p : K) : Except Err K :=
  match I.cumulative with
  | none => .error .runtimeError
  | some c => .ok (interp (linspace I.lower I.upper I.num) c I.num p)

end Gusto.NumInt
