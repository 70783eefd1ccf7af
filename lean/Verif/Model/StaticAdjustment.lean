import Verif.Model.Columns

set_option autoImplicit false

/-!
# Static adjustment

Model of `StaticAdjustment` (gusto/physics/boundary_and_turbulence.py:353-457).  Fields are the lists of their
values at the degrees of freedom of the theta space (water vapour lives in the same space); interpolating an
expression is evaluating it at the degrees of freedom.
-/

namespace Gusto.StaticAdjustment
open Gusto.Columns
variable {K H : Type*}

/-- boundary_and_turbulence.py:374-382: the checks of the constructor (`compressible` says whether the
equation is a `CompressibleEulerEquations`). -/
def construct (compressible : Bool) (thetaVariable : String) : Except String Unit :=
  if ¬ compressible then .error "ValueError"
  else if thetaVariable ≠ "theta" ∧ thetaVariable ≠ "theta_vd" then .error "ValueError"
  else .ok ()

/-- boundary_and_turbulence.py:397-406: the factor between theta and the variable that is sorted.  `mv` is the
water vapour if the equations have it. -/
def factor [Field K] (Rd Rv : K) (thetaVariable : String) (mv : Option (List K)) (p : ℕ) : K :=
  match thetaVariable, mv with
  | "theta", some v => 1 + v.getD p 0 * Rv / Rd
  | _, _ => 1

/-- boundary_and_turbulence.py:402 and 405: the variable to sort. -/
def thetaToSort [Field K] (fac : ℕ → K) (theta : List K) : List K :=
  theta.mapIdx fun p t => t / fac p

/-- boundary_and_turbulence.py:449-450: each row of the column data is sorted (`numpy.ndarray.sort`). -/
def sortedColumns [Zero K] [LinearOrder K] (cd : ColumnData K) : ℕ → ℕ → K :=
  fun col lev => (((List.range cd.numLevels).map (cd.field col)).mergeSort fun a b => decide (a ≤ b)).getD lev 0

/-- `evaluate`, boundary_and_turbulence.py:444-457: the new `sorted_theta`.  With `x_out` it raises at the
end. -/
def evaluate [Field K] [LinearOrder K] [LinearOrder H] (round : H → H) (close : H → H → Bool) (others : Bool)
    (coords : List (H × K)) (fac : ℕ → K) (theta : List K) (xOut : Bool) : Except String (List K) :=
  match getColumnData round close others (thetaToSort fac theta) coords with
  | .error e => .error e
  | .ok cd =>
    let new := setField cd.numHori cd.numLevels (sortedColumns cd) cd.index
      (fun p => (thetaToSort fac theta).getD p 0)
    if xOut then .error "NotImplementedError"
    else .ok ((List.range theta.length).map fun p => new p * fac p)

/-- boundary_and_turbulence.py:425-427: the source subtracted from the residual, at each degree of
freedom. -/
def residual [Field K] (dt : K) (sorted theta : List K) : List K :=
  List.zipWith (fun s t => -((s - t) / dt)) sorted theta

/-- A forward-Euler step with this physics scheme: `theta - dt * residual`
(boundary_and_turbulence.py 353-457, explicit_runge_kutta.py 457-504). -/
def step [Field K] [LinearOrder K] [LinearOrder H] (round : H → H) (close : H → H → Bool) (others : Bool)
    (coords : List (H × K)) (fac : ℕ → K) (dt : K) (theta : List K) : Except String (List K) :=
  match evaluate round close others coords fac theta false with
  | .error e => .error e
  | .ok s => .ok (List.zipWith (fun t r => t - dt * r) theta (residual dt s theta))

end Gusto.StaticAdjustment
