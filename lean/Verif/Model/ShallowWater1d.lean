import Mathlib.MeasureTheory.Integral.IntervalIntegral.FundThmCalculus
import Mathlib.Analysis.Calculus.Deriv.Polynomial
import Verif.Model.EquationSet
import Verif.Model.ShallowWater

set_option autoImplicit false

/-!
# The one-dimensional shallow-water equation sets

Model of `gusto/equations/shallow_water_equations.py:664-828`, of the one-dimensional forms of
`gusto/equations/common_forms.py`, and of the one-dimensional spatial methods that replace their terms.

The mesh is an interval or a circle cut into cells, a function is a polynomial with real coefficients on each cell, and
`dx` is the integral (Mathlib's interval integral, not a quadrature).  Simplifications: `fexpr` is the constant `f0`
(the interpolation into `coriolis` is only for output); a diffusivity is a function of the same kind; the integrals over
`dx(degree=quad)` and `dS(degree=quad)` are exact; `div` of a scalar in one dimension (common_forms.py:146-147) is its
derivative; the side `'+'` of a facet is the cell on its left (all forms are symmetric in the sides).
-/

namespace Gusto.SW1
open Gusto.EqSet Polynomial

/-- `n + 1` cells, cell `i` being `[x i, x (i + 1)]`; `per` says that the ends are identified
(Firedrake `PeriodicIntervalMesh`, `IntervalMesh`; shallow_water_equations.py 664-827). -/
structure Mesh1 where
  n : ℕ
  x : ℕ → ℝ
  per : Bool

/-- A function: a polynomial on each cell (Firedrake Functions; shallow_water_equations.py 664-827). -/
abbrev Fn := ℕ → ℝ[X]

/-- `q.dx(0)` (UFL; common_forms.py 44-62). -/
noncomputable def dx0 (q : Fn) : Fn := fun i => derivative (q i)

/-- `q*dx`: the sum over the cells of the integrals (UFL; common_forms.py 44-62). -/
noncomputable def integ (M : Mesh1) (q : Fn) : ℝ :=
  ∑ i ∈ Finset.range (M.n + 1), ∫ t in (M.x i)..(M.x (i + 1)), (q i).eval t

/-- The value of a function in cell `i` at its right and left end (UFL traces; transport_methods.py 505-550). -/
noncomputable def Mesh1.atR (M : Mesh1) (q : Fn) (i : ℕ) : ℝ := (q i).eval (M.x (i + 1))
/-- UFL traces; transport_methods.py 505-550. -/
noncomputable def Mesh1.atL (M : Mesh1) (q : Fn) (i : ℕ) : ℝ := (q i).eval (M.x i)

/-- `J*dS`: the sum over the interior facets, `J i j` being the integrand between the cell `i` on the left (`'+'`, normal
`1`) and the cell `j` on the right (`'-'`, normal `-1`) (UFL; transport_methods.py 505-550). -/
noncomputable def facetSum (M : Mesh1) (J : ℕ → ℕ → ℝ) : ℝ :=
  ∑ i ∈ Finset.range M.n, J i (i + 1) + if M.per then J M.n 0 else 0

/-! ### The forms -/

/-- `advection_form_1d`, common_forms.py:44-62. -/
noncomputable def adv1 (M : Mesh1) (test q u : Fn) : ℝ := integ M fun i => test i * u i * dx0 q i
/-- `continuity_form_1d`, common_forms.py:109-127. -/
noncomputable def cont1 (M : Mesh1) (test q u : Fn) : ℝ := integ M fun i => test i * derivative (q i * u i)
/-- `diffusion_form_1d`, common_forms.py:307-319. -/
noncomputable def diff1 (M : Mesh1) (test q kappa : Fn) : ℝ :=
  integ M fun i => -test i * derivative (kappa i * dx0 q i)
/-- `linear_continuity_form`, common_forms.py:130-150, with scalars. -/
noncomputable def linCont (M : Mesh1) (test q u qbar ubar : Fn) : ℝ :=
  integ M (fun i => test i * derivative (q i * ubar i)) + integ M fun i => test i * derivative (qbar i * u i)
/-- `-g*D*w1.dx(0)*dx`, shallow_water_equations.py:748-749. -/
noncomputable def press1 (M : Mesh1) (g : ℝ) (w D : Fn) : ℝ := integ M fun i => -C g * D i * dx0 w i
/-- `a*q*w*dx` for a constant `a`: mass terms and shallow_water_equations.py:763-764. -/
noncomputable def mass1 (M : Mesh1) (a : ℝ) (q w : Fn) : ℝ := integ M fun i => C a * q i * w i

/-- `un('+')` and `un('-')`, transport_methods.py:524, 624. -/
noncomputable def unP (a : ℝ) : ℝ := 1 / 2 * (a * 1 + |a * 1|)
/-- The upwind switch on the right of a facet, transport_methods.py 505-550. -/
noncomputable def unM (a : ℝ) : ℝ := 1 / 2 * (a * -1 + |a * -1|)
/-- `jump(test)*(un('+')*q('+') - un('-')*q('-'))*dS_`, transport_methods.py:530, 630. -/
noncomputable def upFacets (M : Mesh1) (test q u : Fn) : ℝ :=
  facetSum M fun i j =>
    (M.atR test i - M.atL test j) * (unP (M.atR u i) * M.atR q i - unM (M.atL u j) * M.atL q j)
/-- `upwind_advection_form_1d` with `ibp=ONCE`, transport_methods.py:491-536. -/
noncomputable def upAdv1 (M : Mesh1) (test q u : Fn) : ℝ :=
  integ M (fun i => -derivative (test i * u i) * q i) + upFacets M test q u
/-- `upwind_continuity_form_1d` with `ibp=ONCE`, transport_methods.py:590-635. -/
noncomputable def upCont1 (M : Mesh1) (test q u : Fn) : ℝ :=
  integ M (fun i => -dx0 test i * q i * u i) + upFacets M test q u
/-- `CGDiffusion` in one dimension, diffusion_methods.py:161-163. -/
noncomputable def cgDiff (M : Mesh1) (test q kappa : Fn) : ℝ := integ M fun i => kappa i * dx0 test i * dx0 q i
/-- `interior_penalty_diffusion_form_1d`, diffusion_methods.py:81-125. -/
noncomputable def ipDiff (M : Mesh1) (mu : ℝ) (test q kappa : Fn) : ℝ :=
  integ M (fun i => dx0 test i * dx0 q i * kappa i) + facetSum M fun i j =>
    -2 * ((M.atR q i * 1 + M.atL q j * -1) / 2)
        * ((M.atR (dx0 test) i * M.atR kappa i + M.atL (dx0 test) j * M.atL kappa j) / 2)
      - (M.atR (dx0 q) i * M.atR kappa i + M.atL (dx0 q) j * M.atL kappa j) / 2
        * 2 * ((M.atR test i * 1 + M.atL test j * -1) / 2)
      + mu * 2 * ((M.atR q i * 1 + M.atL q j * -1) / 2) * 2 * ((M.atR test i * 1 + M.atL test j * -1) / 2) * M.atR kappa i

/-! ### The equation sets -/

/-- The prognostics `u`, `v`, `D`, or the test functions `w1`, `w2`, `phi` (shallow_water_equations.py 695-723). -/
structure St1 where
  u : Fn
  v : Fn
  D : Fn

/-- A term of the residual: form in the state and in the test functions
(fml `Term`; shallow_water_equations.py 664-827). -/
abbrev T1 := LTerm St1 (St1 → ℝ)

/-- The exceptions of shallow_water_equations.py 664-827. -/
inductive Err1 where
  | notImplemented | valueError
  deriving DecidableEq

/-- What the equations are given: `tracers` is whether `active_tracers` is not `None`
(shallow_water_equations.py 695-723). -/
structure Cfg1 where
  M : Mesh1
  g : ℝ
  H : ℝ
  f0 : ℝ
  rot : SW.Rot
  tracers : Bool
  spaceNames : Option (List (String × String))
  diffusion : Option (List (String × Fn))

/-- `space_names`, shallow_water_equations.py:705: the argument is overwritten. -/
def spaceNames1 (_c : Cfg1) : List (String × String) := [("u", "HDiv"), ("v", "L2"), ("D", "L2")]

/-- `generate_mass_terms` (prognostic_equations.py 135-176). -/
noncomputable def massTerms1 (M : Mesh1) : List T1 :=
  [{ form := fun X v => mass1 M 1 X.u v.u, dform := fun _ h v => mass1 M 1 h.u v.u, empty := false, lin := none,
     labels := ["time_derivative", "u"] },
   { form := fun X v => mass1 M 1 X.v v.v, dform := fun _ h v => mass1 M 1 h.v v.v, empty := false, lin := none,
     labels := ["time_derivative", "v"] },
   { form := fun X v => mass1 M 1 X.D v.D, dform := fun _ h v => mass1 M 1 h.D v.D, empty := false, lin := none,
     labels := ["time_derivative", "D"] }]

/-- The transport terms with the hand-coded linearisation of that of the depth, shallow_water_equations.py:732-746. -/
noncomputable def uAdv (M : Mesh1) : T1 where
  form X v := adv1 M v.u X.u X.u
  dform X h v := adv1 M v.u h.u X.u + adv1 M v.u X.u h.u
  empty := false
  lin := none
  labels := ["transport", "u"]
/-- The advection of `v`, shallow_water_equations.py 729. -/
noncomputable def vAdv (M : Mesh1) : T1 where
  form X v := adv1 M v.v X.v X.u
  dform X h v := adv1 M v.v h.v X.u + adv1 M v.v X.v h.u
  empty := false
  lin := none
  labels := ["transport", "v"]
/-- The transport of the depth before its linearisation is attached, shallow_water_equations.py 732. -/
noncomputable def dAdv0 (M : Mesh1) : T1 where
  form X v := cont1 M v.D X.D X.u
  dform X h v := cont1 M v.D h.D X.u + cont1 M v.D X.D h.u
  empty := false
  lin := none
  labels := ["transport", "D"]
/-- The transport of the depth, shallow_water_equations.py 732-739. -/
noncomputable def dAdv (M : Mesh1) (p : T1 → Bool) (Xref : St1) : T1 :=
  if p (dAdv0 M) then { dAdv0 M with lin := some fun h v => linCont M v.D h.D h.u Xref.D Xref.u } else dAdv0 M

/-- The pressure gradient, shallow_water_equations.py:748-749. -/
noncomputable def pgTerm1 (c : Cfg1) : T1 where
  form X v := press1 c.M c.g v.u X.D
  dform _ h v := press1 c.M c.g v.u h.D
  empty := false
  lin := none
  labels := ["pressure_gradient", "u"]

/-- The Coriolis terms, shallow_water_equations.py:754-766. -/
noncomputable def corTerms (c : Cfg1) : Except Err1 (List T1) :=
  match c.rot with
  | .nonrotating => .ok []
  | .fplane => .ok
    [{ form := fun X v => mass1 c.M (-c.f0) X.v v.u, dform := fun _ h v => mass1 c.M (-c.f0) h.v v.u, empty := false,
       lin := none, labels := ["coriolis", "u"] },
     { form := fun X v => mass1 c.M c.f0 X.u v.v, dform := fun _ h v => mass1 c.M c.f0 h.u v.v, empty := false,
       lin := none, labels := ["coriolis", "v"] }]
  | _ => .error .notImplemented

/-- `split(self.X)[self.field_names.index(field)]`, shallow_water_equations.py:769-771; `diffTerms` rejects other names. -/
def compD (field : String) (X : St1) : Fn :=
  if field = "u" then X.u else if field = "v" then X.v else X.D

/-- A diffusion term, shallow_water_equations.py:772-776. -/
noncomputable def diffTerm (M : Mesh1) (field : String) (kappa : Fn) : T1 where
  form X v := diff1 M (compD field v) (compD field X) kappa
  dform _ h v := diff1 M (compD field v) (compD field h) kappa
  empty := false
  lin := none
  labels := ["diffusion", field]

/-- The loop over the diffusion options, shallow_water_equations.py:768-776. -/
noncomputable def diffTerms (M : Mesh1) : List (String × Fn) → Except Err1 (List T1)
  | [] => .ok []
  | (field, kappa) :: l =>
    if field = "u" ∨ field = "v" ∨ field = "D" then
      match diffTerms M l with
      | .ok r => .ok (diffTerm M field kappa :: r)
      | .error e => .error e
    else .error .valueError

/-- The terms before the linearisation, shallow_water_equations.py:724-776. -/
noncomputable def terms1 (c : Cfg1) (p : T1 → Bool) (Xref : St1) : Except Err1 (List T1) :=
  if c.tracers then .error .notImplemented
  else match corTerms c with
    | .error e => .error e
    | .ok cor =>
      match diffTerms c.M (c.diffusion.getD []) with
      | .error e => .error e
      | .ok df => .ok (massTerms1 c.M ++ [uAdv c.M, vAdv c.M, dAdv c.M p Xref, pgTerm1 c] ++ cor ++ df)

/-- `ShallowWaterEquations_1d.__init__`, shallow_water_equations.py:698-782. -/
noncomputable def shallowWater1d (c : Cfg1) (p : T1 → Bool) (Xref : St1) : Except Err1 (List T1) :=
  (terms1 c p Xref).map (generateLinear Xref p)

/-- `LinearShallowWaterEquations_1d.__init__`, shallow_water_equations.py:798-828: it has no diffusion options. -/
noncomputable def linearShallowWater1d (c : Cfg1) (p : T1 → Bool) (Xref : St1) : Except Err1 (List T1) :=
  (shallowWater1d { c with diffusion := none } p Xref).map lineariseSet

/-! ### Spatial methods -/

/-- The diffusion method of a field (diffusion_methods.py 130-165). -/
inductive DMeth where
  | none | cg | ip (mu : ℝ)

/-- The diffusion form of a method (diffusion_methods.py 80-165). -/
noncomputable def diffForm (M : Mesh1) (m : DMeth) (test q kappa : Fn) : ℝ :=
  match m with
  | .none => diff1 M test q kappa
  | .cg => cgDiff M test q kappa
  | .ip mu => ipDiff M mu test q kappa

/-- The terms with `DGUpwind` for the three fields and a diffusion method for each, spatial_methods.py:53-80 (see C83):
each term with the label and the variable gets the form of the method. -/
noncomputable def withMethods (c : Cfg1) (dm : String → DMeth) (cor : List T1) : List T1 :=
  massTerms1 c.M ++
  [{ uAdv c.M with form := fun X v => upAdv1 c.M v.u X.u X.u },
   { vAdv c.M with form := fun X v => upAdv1 c.M v.v X.v X.u },
   { dAdv0 c.M with form := fun X v => upCont1 c.M v.D X.D X.u }, pgTerm1 c] ++ cor ++
  (c.diffusion.getD []).map fun fk =>
    { diffTerm c.M fk.1 fk.2 with form := fun X v => diffForm c.M (dm fk.1) (compD fk.1 v) (compD fk.1 X) fk.2 }

end Gusto.SW1
