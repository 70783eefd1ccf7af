import Mathlib.Algebra.Field.Rat
import Mathlib.Data.Rat.Defs

set_option autoImplicit false

/-!
# Butcher matrices of the built-in explicit schemes

`gusto/time_discretisation/explicit_runge_kutta.py`.  Decimal literals are read as exact decimal
fractions (the code holds their nearest double).  `none` is `ValueError`.
-/

namespace Gusto.Tableaux

/-- A square matrix given by rows; entries outside are 0 (numpy; explicit_runge_kutta.py 89-127). -/
abbrev Table := List (List ℚ)

/-- `butcher_matrix[i, j]` (explicit_runge_kutta.py 202-318). -/
def Table.A (t : Table) (i j : ℕ) : ℚ := (t.getD i []).getD j 0

/-- `nStages = np.shape(butcher_matrix)[0]`, explicit_runge_kutta.py:126 -/
def Table.nStages (t : Table) : ℕ := t.length

/-- ForwardEuler, explicit_runge_kutta.py:497 -/
def forwardEuler : Table := [[1]]

/-- SSPRK2, explicit_runge_kutta.py:569-592 -/
def ssprk2 : ℕ → Option Table
  | 2 => some [[1, 0], [1/2, 1/2]]
  | 3 => some [[1/2, 0, 0], [1/2, 1/2, 0], [1/3, 1/3, 1/3]]
  | 4 => some [[1/3, 0, 0, 0], [1/3, 1/3, 0, 0], [1/3, 1/3, 1/3, 0], [1/4, 1/4, 1/4, 1/4]]
  | _ => none

/-- SSPRK3, explicit_runge_kutta.py:660-685 -/
def ssprk3 : ℕ → Option Table
  | 3 => some [[1, 0, 0], [1/4, 1/4, 0], [1/6, 1/6, 2/3]]
  | 4 => some [[1/2, 0, 0, 0], [1/2, 1/2, 0, 0], [1/6, 1/6, 1/6, 0], [1/6, 1/6, 1/6, 1/2]]
  | 5 => some
      [[0.37726891511710, 0, 0, 0, 0],
       [0.37726891511710, 0.37726891511710, 0, 0, 0],
       [0.16352294089771, 0.16352294089771, 0.16352294089771, 0, 0],
       [0.14904059394856, 0.14831273384724, 0.14831273384724, 0.34217696850008, 0],
       [0.19707596384481, 0.11780316509765, 0.11709725193772, 0.27015874934251,
        0.29786487010104]]
  | _ => none

/-- SSPRK4, explicit_runge_kutta.py:738-748 -/
def ssprk4 : ℕ → Option Table
  | 5 => some
      [[0.39175222700392, 0, 0, 0, 0],
       [0.21766909633821, 0.36841059262959, 0, 0, 0],
       [0.08269208670950, 0.13995850206999, 0.25189177424738, 0, 0],
       [0.06796628370320, 0.11503469844438, 0.20703489864929, 0.54497475021237, 0],
       [0.14681187618661, 0.24848290924556, 0.10425883036650, 0.27443890091960,
        0.22600748319395]]
  | _ => none

/-- RK4, explicit_runge_kutta.py:803-808 -/
def rk4 : Table := [[1/2, 0, 0, 0], [0, 1/2, 0, 0], [0, 0, 1, 0], [1/6, 1/3, 1/3, 1/6]]

/-- Heun, explicit_runge_kutta.py:817-835: `SSPRK2(..., stages=2)` -/
def heun : Option Table := ssprk2 2

end Gusto.Tableaux
