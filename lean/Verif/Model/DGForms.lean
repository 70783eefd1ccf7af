import Mathlib.Algebra.BigOperators.Fin
import Mathlib.Algebra.Order.Field.Basic
import Mathlib.Data.Fintype.BigOperators
import Verif.Model.CommonForms

set_option autoImplicit false

/-!
# The discontinuous Galerkin forms

Model of the forms of `gusto/spatial_methods/transport_methods.py` and `gusto/spatial_methods/diffusion_methods.py`.

A form is what its assembly by quadrature gives: a sum over quadrature points of the cells (`dx`), of the interior
facets (`dS`, on which every function has the two values `'+'` and `'-'`) and of the exterior facets (`ds`).  A function
is the data that are read at those points: values and derivatives in the cells, values (and, for diffusion, gradients)
on the two sides of the facets.  Derivatives of products are expanded by the product rule, as UFL does.
Simplifications: transported fields are scalar except in the circulation forms, which are those of the plane and of
three dimensions; `dx` and `dS` each have one quadrature rule; `ds_v + ds_t + ds_b` is one measure.
-/

namespace Gusto.DG
open Gusto.Forms (TType)

/-- The quadrature rules and facet normals `n('+')`, `n('-')` and, on the exterior, `n`
(`dx`, `dS`, `ds` and `FacetNormal` of transport_methods.py 373-918). -/
structure Mesh (K : Type*) (d : ℕ) (C F B : Type*) where
  wC : C → K
  wF : F → K
  wB : B → K
  nP : F → Fin d → K
  nM : F → Fin d → K
  nB : B → Fin d → K

/-- A scalar function (UFL scalar; transport_methods.py 373-918). -/
structure Sc (K : Type*) (d : ℕ) (C F B : Type*) where
  c : C → K
  g : C → Fin d → K
  p : F → K
  m : F → K
  b : B → K
  gp : F → Fin d → K
  gm : F → Fin d → K

/-- A vector function; `j x i k` is the derivative of component `i` in direction `k`
(UFL vector; transport_methods.py 373-918). -/
structure Ve (K : Type*) (d : ℕ) (C F B : Type*) where
  c : C → Fin d → K
  j : C → Fin d → Fin d → K
  p : F → Fin d → K
  m : F → Fin d → K
  b : B → Fin d → K

variable {K : Type*} [Field K] [LinearOrder K] [IsStrictOrderedRing K] {d : ℕ} {C F B : Type*}

/-- `dot`/`inner` of vectors (UFL, not gusto code; transport_methods.py 373-918). -/
def dot (a b : Fin d → K) : K := ∑ i, a i * b i

/-- Multiplication of scalar functions, with the product rule (UFL, not gusto code; transport_methods.py 373-918). -/
def Sc.mul (a b : Sc K d C F B) : Sc K d C F B where
  c x := a.c x * b.c x
  g x i := a.g x i * b.c x + a.c x * b.g x i
  p x := a.p x * b.p x
  m x := a.m x * b.m x
  b x := a.b x * b.b x
  gp x i := a.gp x i * b.p x + a.p x * b.gp x i
  gm x i := a.gm x i * b.m x + a.m x * b.gm x i

/-- The constant function (UFL, not gusto code; transport_methods.py 373-918). -/
def Sc.const (k : K) : Sc K d C F B where
  c _ := k
  g _ _ := 0
  p _ := k
  m _ := k
  b _ := k
  gp _ _ := 0
  gm _ _ := 0

/-- `div` of a vector function (UFL, not gusto code; transport_methods.py 373-918). -/
def Ve.div (u : Ve K d C F B) (x : C) : K := ∑ i, u.j x i i

/-- The normal velocities `dot(ubar('+'), n('+'))` and so on (transport_methods.py 446-502). -/
def Mesh.aP (M : Mesh K d C F B) (u : Ve K d C F B) (x : F) : K := dot (u.p x) (M.nP x)
/-- The normal velocity on the other side, transport_methods.py 446-502. -/
def Mesh.aM (M : Mesh K d C F B) (u : Ve K d C F B) (x : F) : K := dot (u.m x) (M.nM x)
/-- The normal velocity on the exterior facets, transport_methods.py 446-502. -/
def Mesh.aB (M : Mesh K d C F B) (u : Ve K d C F B) (x : B) : K := dot (u.b x) (M.nB x)

/-- `un = 0.5*(dot(ubar, n) + abs(dot(ubar, n)))`, transport_methods.py:470 and elsewhere. -/
def un (a : K) : K := 1 / 2 * (a + |a|)

/-- `IntegrateByParts`, configuration.py:17-22. -/
inductive Ibp where
  | never | once | twice
  deriving DecidableEq

variable [Fintype C] [Fintype F] [Fintype B]

/-- `dot(jump(test), un('+')*q('+') - un('-')*q('-'))*dS_`, transport_methods.py:472. -/
def upwindFacets (M : Mesh K d C F B) (test q : Sc K d C F B) (u : Ve K d C F B) : K :=
  ∑ x, M.wF x * ((test.p x - test.m x) * (un (M.aP u x) * q.p x - un (M.aM u x) * q.m x))

/-- The facet term of the second integration by parts, transport_methods.py:475-476. -/
def bothFacets (M : Mesh K d C F B) (test q : Sc K d C F B) (u : Ve K d C F B) : K :=
  ∑ x, M.wF x * (test.p x * (M.aP u x * q.p x) + test.m x * (M.aM u x * q.m x))

/-- `test*un*q*(ds_v + ds_t + ds_b)`, transport_methods.py:481. -/
def outflowFacets (M : Mesh K d C F B) (test q : Sc K d C F B) (u : Ve K d C F B) : K :=
  ∑ x, M.wB x * (test.b x * un (M.aB u x) * q.b x)

/-- `-inner(div(outer(test, ubar)), q)*dx` (transport_methods.py 446-502). -/
def advCellsOnce (M : Mesh K d C F B) (test q : Sc K d C F B) (u : Ve K d C F B) : K :=
  -∑ x, M.wC x * ((dot (test.g x) (u.c x) + test.c x * u.div x) * q.c x)
/-- `inner(outer(test, ubar), grad(q))*dx` (transport_methods.py 446-502). -/
def advCells (M : Mesh K d C F B) (test q : Sc K d C F B) (u : Ve K d C F B) : K :=
  ∑ x, M.wC x * (test.c x * dot (u.c x) (q.g x))
/-- `-inner(grad(test), outer(q, ubar))*dx` (transport_methods.py 553-609). -/
def contCellsOnce (M : Mesh K d C F B) (test q : Sc K d C F B) (u : Ve K d C F B) : K :=
  -∑ x, M.wC x * dot (test.g x) (fun i => q.c x * u.c x i)
/-- `inner(test, div(outer(q, ubar)))*dx` (transport_methods.py 553-609). -/
def contCells (M : Mesh K d C F B) (test q : Sc K d C F B) (u : Ve K d C F B) : K :=
  ∑ x, M.wC x * (test.c x * (dot (q.g x) (u.c x) + q.c x * u.div x))

/-- The exceptions of transport_methods.py 194-918 and diffusion_methods.py 11-165. -/
inductive Err where
  | valueError | notImplemented | unboundLocal | assertionError
  deriving DecidableEq

/-- The facet terms common to the forms, transport_methods.py:468-481. -/
def facets (M : Mesh K d C F B) (test q : Sc K d C F B) (u : Ve K d C F B) (ibp : Ibp) (outflow : Bool) : K :=
  (if ibp = .never then 0
   else upwindFacets M test q u - (if ibp = .twice then bothFacets M test q u else 0))
  + (if outflow then outflowFacets M test q u else 0)

/-- `upwind_advection_form`, transport_methods.py:439-488. -/
def upwindAdvection (M : Mesh K d C F B) (test q : Sc K d C F B) (u : Ve K d C F B) (ibp : Ibp) (outflow : Bool) :
    Except Err K :=
  if outflow ∧ ibp = .never then .error .valueError
  else .ok ((if ibp = .once then advCellsOnce M test q u else advCells M test q u) + facets M test q u ibp outflow)

/-- `upwind_continuity_form`, transport_methods.py:539-587. -/
def upwindContinuity (M : Mesh K d C F B) (test q : Sc K d C F B) (u : Ve K d C F B) (ibp : Ibp) (outflow : Bool) :
    Except Err K :=
  if outflow ∧ ibp = .never then .error .valueError
  else .ok ((if ibp = .once then contCellsOnce M test q u else contCells M test q u) + facets M test q u ibp outflow)

/-- `upwind_advection_form_1d`, transport_methods.py:491-536: `outflow` is read only by the check. -/
def upwindAdvection1d (M : Mesh K 1 C F B) (test q : Sc K 1 C F B) (u : Ve K 1 C F B) (ibp : Ibp) (outflow : Bool) :
    Except Err K :=
  if outflow ∧ ibp = .never then .error .valueError
  else if ibp = .once then
    .ok (-∑ x, M.wC x * ((test.g x 0 * u.c x 0 + test.c x * u.j x 0 0) * q.c x) +
      ∑ x, M.wF x * ((test.p x - test.m x) *
        (un (u.p x 0 * M.nP x 0) * q.p x - un (u.m x 0 * M.nM x 0) * q.m x)))
  else .error .notImplemented

/-- `upwind_continuity_form_1d`, transport_methods.py:590-635: `outflow` is read only by the check. -/
def upwindContinuity1d (M : Mesh K 1 C F B) (test q : Sc K 1 C F B) (u : Ve K 1 C F B) (ibp : Ibp) (outflow : Bool) :
    Except Err K :=
  if outflow ∧ ibp = .never then .error .valueError
  else if ibp = .once then
    .ok (-∑ x, M.wC x * (test.g x 0 * q.c x * u.c x 0) +
      ∑ x, M.wF x * ((test.p x - test.m x) *
        (un (u.p x 0 * M.nP x 0) * q.p x - un (u.m x 0 * M.nM x 0) * q.m x)))
  else .error .notImplemented

/-- `upwind_tracer_conservative_form`, transport_methods.py:638-708. -/
def upwindTracerConservative (M : Mesh K d C F B) (test q rho : Sc K d C F B) (u : Ve K d C F B) (ibp : Ibp)
    (outflow : Bool) : Except Err K :=
  if outflow ∧ ibp = .never then .error .valueError
  else .ok (
    (if ibp = .once then -∑ x, M.wC x * dot (test.g x) (fun i => q.c x * rho.c x * u.c x i)
     else ∑ x, M.wC x * (test.c x * (dot (fun i => q.g x i * rho.c x + q.c x * rho.g x i) (u.c x)
        + q.c x * rho.c x * u.div x)))
    + ((if ibp = .never then 0
        else (∑ x, M.wF x * ((test.p x - test.m x) *
            (un (M.aP u x) * q.p x * rho.p x - un (M.aM u x) * q.m x * rho.m x)))
          - (if ibp = .twice then
              ∑ x, M.wF x * (test.p x * (M.aP u x * q.p x * rho.p x) + test.m x * (M.aM u x * q.m x * rho.m x))
             else 0))
      + (if outflow then ∑ x, M.wB x * (test.b x * un (M.aB u x) * q.b x * rho.b x) else 0)))

/-! ### Horizontal and vertical splitting -/

/-- `ubar_v = k*inner(ubar, k)` with the constant vertical unit vector `k`, transport_methods.py:404. -/
def vert (k : Fin d → K) (u : Ve K d C F B) : Ve K d C F B where
  c x i := k i * dot (u.c x) k
  j x i l := k i * ∑ n, u.j x n l * k n
  p x i := k i * dot (u.p x) k
  m x i := k i * dot (u.m x) k
  b x i := k i * dot (u.b x) k

/-- `ubar_h = ubar - ubar_v`, transport_methods.py:405. -/
def horiz (k : Fin d → K) (u : Ve K d C F B) : Ve K d C F B where
  c x i := u.c x i - (vert k u).c x i
  j x i l := u.j x i l - (vert k u).j x i l
  p x i := u.p x i - (vert k u).p x i
  m x i := u.m x i - (vert k u).m x i
  b x i := u.b x i - (vert k u).b x i

/-- `split_upwind_advection_form`, transport_methods.py:372-437: the forms `L_h` and `L_v`. -/
def splitUpwindAdvection (M : Mesh K d C F B) (k : Fin d → K) (test q : Sc K d C F B) (u : Ve K d C F B) (ibp : Ibp)
    (outflow : Bool) : Except Err (K × K) :=
  if outflow ∧ ibp = .never then .error .valueError
  else
    let L := fun w : Ve K d C F B =>
      (if ibp = .once then advCellsOnce M test q w else advCells M test q w) + facets M test q w ibp outflow
    .ok (L (horiz k u), L (vert k u))

/-! ### The constructor of `DGUpwind` -/

/-- What `DGUpwind` ends up with: the operator in `self.form`, the one in its label `mass_weighted`, and
`self.all_but_last_form` (transport_methods.py 201-319). -/
structure Built (K : Type*) where
  form : K
  weighted : Option K := none
  allButLast : Option K := none

/-- `DGUpwind.__init__` on a one-dimensional mesh with a scalar velocity, transport_methods.py:231-255: the options
`outflow` and `advective_then_flux` do not enter the forms. -/
def dgUpwind1d (ty : TType) (M : Mesh K 1 C F B) (test q : Sc K 1 C F B) (u : Ve K 1 C F B)
    (ibp : Ibp) (outflow advThenFlux : Bool) : Except Err (Built K) :=
  if advThenFlux ∧ ty ≠ .conservative then .error .valueError
  else match ty with
    | .advective => (upwindAdvection1d M test q u ibp outflow).map fun f => { form := f }
    | .conservative => (upwindContinuity1d M test q u ibp outflow).map fun f => { form := f }
    | _ => .error .unboundLocal

/-- `DGUpwind.__init__` on other meshes, transport_methods.py:231-313, for scalar fields and without the vector manifold
correction; `rho` is the reference density.  The circulation types are for vector fields and are not built here. -/
def dgUpwind (ty : TType) (M : Mesh K d C F B) (test q rho : Sc K d C F B) (u : Ve K d C F B)
    (ibp : Ibp) (outflow advThenFlux : Bool) : Except Err (Built K) :=
  if advThenFlux ∧ ty ≠ .conservative then .error .valueError
  else match ty with
    | .advective => (upwindAdvection M test q u ibp outflow).map fun f => { form := f }
    | .conservative =>
      (upwindContinuity M test q u ibp outflow).bind fun f =>
        if advThenFlux then (upwindAdvection M test q u ibp outflow).map fun g => { form := f, allButLast := some g }
        else .ok { form := f }
    | .tracerConservative =>
      (upwindTracerConservative M test q rho u ibp false).bind fun w =>
        (upwindAdvection M test q u ibp false).map fun f => { form := f, weighted := some w }
    | _ => .error .notImplemented

/-! ### Diffusion -/

/-- `2*avg(outer(q, n))` (diffusion_methods.py 56-73). -/
def jumpN (M : Mesh K d C F B) (q : Sc K d C F B) (x : F) (i : Fin d) : K :=
  q.p x * M.nP x i + q.m x * M.nM x i
/-- `avg(grad(q)*M)` for a constant `M` (diffusion_methods.py 56-73). -/
def avgGrad (kappa : K) (q : Sc K d C F B) (x : F) (i : Fin d) : K :=
  1 / 2 * (q.gp x i * kappa + q.gm x i * kappa)

/-- `interior_penalty_diffusion_form`, diffusion_methods.py:29-78, for a constant `kappa`. -/
def interiorPenalty (M : Mesh K d C F B) (kappa mu : K) (test q : Sc K d C F B) : K :=
  (∑ x, M.wC x * dot (test.g x) (fun i => q.g x i * kappa)) +
  ∑ x, M.wF x * (-dot (jumpN M q x) (avgGrad kappa test x) - dot (avgGrad kappa q x) (jumpN M test x)
    + mu * dot (jumpN M q x) (fun i => jumpN M test x i * kappa))

/-- `interior_penalty_diffusion_form_1d`, diffusion_methods.py:81-125. -/
def interiorPenalty1d (M : Mesh K 1 C F B) (kappa mu : K) (test q : Sc K 1 C F B) : K :=
  (∑ x, M.wC x * (test.g x 0 * q.g x 0 * kappa)) +
  ∑ x, M.wF x * (-(2 * (1 / 2 * (q.p x * M.nP x 0 + q.m x * M.nM x 0))
        * (1 / 2 * (test.gp x 0 * kappa + test.gm x 0 * kappa)))
    - 1 / 2 * (q.gp x 0 * kappa + q.gm x 0 * kappa) * 2 * (1 / 2 * (test.p x * M.nP x 0 + test.m x * M.nM x 0))
    + mu * 2 * (1 / 2 * (q.p x * M.nP x 0 + q.m x * M.nM x 0)) * 2
        * (1 / 2 * (test.p x * M.nP x 0 + test.m x * M.nM x 0)) * kappa)

/-- `CGDiffusion`, diffusion_methods.py:156-168. -/
def cgDiffusion (M : Mesh K d C F B) (kappa : K) (test q : Sc K d C F B) : K :=
  ∑ x, M.wC x * (kappa * dot (test.g x) (q.g x))

/-! ### Circulation and vector-invariant forms -/

/-- `perp` of the plane (UFL; transport_methods.py 800-878). -/
def perp (v : Fin 2 → K) : Fin 2 → K := ![-v 1, v 0]
/-- `cross` (UFL; transport_methods.py 721-878). -/
def cross (a b : Fin 3 → K) : Fin 3 → K := ![a 1 * b 2 - a 2 * b 1, a 2 * b 0 - a 0 * b 2, a 0 * b 1 - a 1 * b 0]
/-- `curl` from the Jacobian (UFL; transport_methods.py 800-878). -/
def curlJ (j : Fin 3 → Fin 3 → K) : Fin 3 → K := ![j 2 1 - j 1 2, j 0 2 - j 2 0, j 1 0 - j 0 1]
/-- The Jacobian of `cross(a, b)` (UFL; transport_methods.py 800-878). -/
def crossJ (a b : Fin 3 → K) (ja jb : Fin 3 → Fin 3 → K) (i l : Fin 3) : K :=
  cross (fun n => ja n l) b i + cross a (fun n => jb n l) i

/-- `Upwind = 0.5*(sign(dot(ubar, n))+1)`, transport_methods.py:836. -/
def upw (a : K) : K := 1 / 2 * ((if 0 < a then 1 else if a < 0 then -1 else 0) + 1)

/-- The scalar `inner(test, perp(ubar))` of the plane as a function: value, gradient and traces
(transport_methods.py 858-878). -/
def psi (test u : Ve K 2 C F B) : Sc K 2 C F B where
  c x := dot (test.c x) (perp (u.c x))
  g x l := dot (fun n => test.j x n l) (perp (u.c x)) + dot (test.c x) (perp fun n => u.j x n l)
  p x := dot (test.p x) (perp (u.p x))
  m x := dot (test.m x) (perp (u.m x))
  b x := dot (test.b x) (perp (u.b x))
  gp _ _ := 0
  gm _ _ := 0

/-- `jump(v, n)` of a scalar, contracted with `perp_u_upwind(q)`, transport_methods.py:868,874. -/
def circFacets2 (M : Mesh K 2 C F B) (test q u : Ve K 2 C F B) : K :=
  ∑ x, M.wF x * dot (fun i => (psi test u).p x * M.nP x i + (psi test u).m x * M.nM x i)
    (fun i => upw (M.aP u x) * perp (q.p x) i + upw (M.aM u x) * perp (q.m x) i)

/-- `upwind_circulation_form` of the plane (not on the sphere), transport_methods.py:857-882; `twice` stands for any
choice but `ONCE`. -/
def upwindCirculation2 (M : Mesh K 2 C F B) (test q u : Ve K 2 C F B) (ibp : Ibp) : K :=
  if ibp = .once then
    -(∑ x, M.wC x * dot (perp ((psi test u).g x)) (q.c x)) - circFacets2 M test q u
  else
    (-∑ x, M.wC x * dot (test.c x) (fun i => (-q.j x 1 0 + q.j x 0 1) * perp (u.c x) i)) - circFacets2 M test q u
    + ∑ x, M.wF x * (dot (fun i => (psi test u).p x * perp (q.p x) i) (M.nP x)
        + dot (fun i => (psi test u).m x * perp (q.m x) i) (M.nM x))

/-- `upwind_circulation_form` in three dimensions, transport_methods.py:838-855. -/
def upwindCirculation3 (M : Mesh K 3 C F B) (test q u : Ve K 3 C F B) (ibp : Ibp) : Except Err K :=
  if ibp ≠ .once then .error .notImplemented
  else .ok ((∑ x, M.wC x * dot (q.c x) (curlJ (crossJ (u.c x) (test.c x) (u.j x) (test.j x)))) -
    ∑ x, M.wF x * dot (fun i => upw (M.aP u x) * q.p x i + upw (M.aM u x) * q.m x i)
      (fun i => cross (M.nP x) (cross (u.p x) (test.p x)) i + cross (M.nM x) (cross (u.m x) (test.m x)) i))

/-- The kinetic energy part, `- 0.5*div(test)*inner(q, ubar)*dx`, transport_methods.py:931. -/
def kineticCells (M : Mesh K d C F B) (test q u : Ve K d C F B) : K :=
  ∑ x, M.wC x * (1 / 2 * test.div x * dot (q.c x) (u.c x))

/-- `upwind_vector_invariant_form`, transport_methods.py:889-934, of the plane. -/
def upwindVectorInvariant2 (M : Mesh K 2 C F B) (test q u : Ve K 2 C F B) (ibp : Ibp) : K :=
  upwindCirculation2 M test q u ibp - kineticCells M test q u
/-- `upwind_vector_invariant_form`, three dimensions (transport_methods.py 881-918). -/
def upwindVectorInvariant3 (M : Mesh K 3 C F B) (test q u : Ve K 3 C F B) (ibp : Ibp) : Except Err K :=
  (upwindCirculation3 M test q u ibp).map fun L => L - kineticCells M test q u

end Gusto.DG
