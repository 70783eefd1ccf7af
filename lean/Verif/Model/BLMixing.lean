import Mathlib.Analysis.SpecialFunctions.Exp
import Mathlib.Analysis.Real.Sqrt
import Verif.Model.DGForms

set_option autoImplicit false

/-!
# Boundary layer mixing

Model of `BoundaryLayerMixing` (gusto/physics/boundary_and_turbulence.py:541-692) at quadrature level, as in the model
of the discontinuous Galerkin forms.  The facets of the mesh are those of `dS_v`: the interior facets between
columns.  The facets between the layers of one column (`dS_h`) do not occur in the form.
Simplifications: the vertical unit vector `k` is constant (Cartesian domains); the reduced quadrature degree only means
that the weights are those of a rule of degree 4; the value of the diffusivity, its derivatives and the recovered
density are functions given by their data.
-/

namespace Gusto.BLMixing
open Gusto.DG

/-! ### The constructor and `evaluate` -/

/-- boundary_and_turbulence.py:563-567: the checks of the constructor (`compressible` says whether the equation is a
`CompressibleEulerEquations`). -/
def construct (compressible : Bool) (fieldNames : List String) (fieldName : String) : Except String String :=
  if ¬ compressible then .error "ValueError"
  else if fieldName ∉ fieldNames then .error "ValueError"
  else .ok ("boundary_layer_mixing_" ++ fieldName)

/-- `evaluate`, boundary_and_turbulence.py:668-692: `self.X` takes the state and the density is recovered; with `x_out`
it then raises.  `recover` is the recovery of the density. -/
def evaluate {S R : Type*} (recover : S → R) (xIn : S) (xOut : Bool) : Except String (S × R) :=
  if xOut then .error "NotImplementedError" else .ok (xIn, recover xIn)

/-! ### The diffusivity -/

/-- The fields of `BoundaryLayerParameters` read here, equation_configuration.py:142-154. -/
structure Params where
  drag0 : ℝ
  drag1 : ℝ
  drag2 : ℝ
  evap : ℝ
  height : ℝ
  mu : ℝ

/-- The default values, equation_configuration.py:148-154. -/
noncomputable def Params.default : Params where
  drag0 := 7 / 10000
  drag1 := 65 / 1000000
  drag2 := 2 / 1000
  evap := 11 / 10000
  height := 75
  mu := 100

/-- `u_hori = u - domain.k*dot(u, domain.k)`, boundary_and_turbulence.py:604 and 651. -/
def hori {K : Type*} [Field K] {d : ℕ} (k u : Fin d → K) : Fin d → K := fun i => u i - k i * dot u k

/-- `u_hori_mag`, boundary_and_turbulence.py:605. -/
noncomputable def speed {d : ℕ} (k u : Fin d → ℝ) : ℝ := Real.sqrt (dot (hori k u) (hori k u))

/-- `C_D`, boundary_and_turbulence.py:614-618, with `C_D3 = 0`. -/
noncomputable def dragCoeff (P : Params) (s : ℝ) : ℝ :=
  if s < 20 then P.drag0 + P.drag1 * s else P.drag2 + 0 * s

/-- `K`, boundary_and_turbulence.py:619-621 and 625-627, for the coefficient `c` (`C_D` or `C_E`), the horizontal speed
`s` and the pressure `p`; `p_top` and `p_strato` of lines 594-595. -/
noncomputable def profile (P : Params) (c s p : ℝ) : ℝ :=
  if p > 85000 then c * s * P.height
  else c * s * P.height * Real.exp (-((85000 - p) / 10000) ^ 2)

/-- `K`, boundary_and_turbulence.py:607-627: the drag coefficient for the wind, the evaporation coefficient for every
other field. -/
noncomputable def diffusivity (P : Params) (fieldName : String) (s p : ℝ) : ℝ :=
  if fieldName = "u" then profile P (dragCoeff P s) s p else profile P P.evap s p

/-! ### The form -/

variable {K : Type*} [Field K] [LinearOrder K] [IsStrictOrderedRing K] {d : ℕ} {C F B : Type*}

/-- `d_dz` of a scalar from its gradient, `outer(domain.k, dot(grad(q), domain.k))`,
boundary_and_turbulence.py:637. -/
def ddz (k g : Fin d → K) : Fin d → K := fun i => k i * dot g k

/-- `d_dz` of a vector from its Jacobian, `outer(domain.k, dot(grad(q), domain.k))`, boundary_and_turbulence.py:637:
the vertical unit vector has the first index. -/
def ddzV (k : Fin d → K) (j : Fin d → Fin d → K) : Fin d → Fin d → K := fun i l => k i * dot (j l) k

/-- `avg` (UFL, not gusto code; boundary_and_turbulence.py 655-662). -/
def avg (a b : K) : K := 1 / 2 * (a + b)

/-- `dz`, boundary_and_turbulence.py:640-643: `dot(k, d_dz(dot(k, xyz)))`, where the gradient of `dot(k, xyz)` is `k`
since `k` is constant. -/
def layerDepth (k : Fin d → K) : K := dot k (ddz k k)

/-- `test/rho_averaged` with the quotient rule (UFL, not gusto code; boundary_and_turbulence.py 656). -/
def quot (a r : Sc K d C F B) : Sc K d C F B where
  c x := a.c x / r.c x
  g x i := (a.g x i * r.c x - a.c x * r.g x i) / r.c x ^ 2
  p x := a.p x / r.p x
  m x := a.m x / r.m x
  b x := a.b x / r.b x
  gp x i := (a.gp x i * r.p x - a.p x * r.gp x i) / r.p x ^ 2
  gm x i := (a.gm x i * r.m x - a.m x * r.gm x i) / r.m x ^ 2

variable [Fintype C] [Fintype F] [Fintype B]

/-- `source_expr` of a scalar field, boundary_and_turbulence.py:653-663: `rho` is the averaged density, `kap` the
diffusivity. -/
def mixScalar (M : Mesh K d C F B) (k : Fin d → K) (mu : K) (rho kap test f : Sc K d C F B) : K :=
  (∑ x, M.wC x * (rho.c x * kap.c x * dot (ddz k ((quot test rho).g x)) (ddz k (f.g x))))
  - (∑ x, M.wF x * (2 * dot (fun i => avg ((kap.mul f).p x * M.nP x i) ((kap.mul f).m x * M.nM x i))
      (fun i => avg (ddz k (test.gp x) i) (ddz k (test.gm x) i))))
  - (∑ x, M.wF x * (2 * dot (fun i => avg (test.p x * M.nP x i) (test.m x * M.nM x i))
      (fun i => avg (ddz k ((kap.mul f).gp x) i) (ddz k ((kap.mul f).gm x) i))))
  + ∑ x, M.wF x * (4 * mu * avg (layerDepth k) (layerDepth k)
      * dot (fun i => avg ((kap.mul f).p x * M.nP x i) ((kap.mul f).m x * M.nM x i))
        (fun i => avg (test.p x * M.nP x i) (test.m x * M.nM x i)))

/-- A vector function with its Jacobian in the cells and on both sides of the facets; `j x i l` is the derivative of
component `i` in direction `l` (UFL vector; boundary_and_turbulence.py 645-663). -/
structure Vf (K : Type*) (d : ℕ) (C F : Type*) where
  c : C → Fin d → K
  j : C → Fin d → Fin d → K
  p : F → Fin d → K
  m : F → Fin d → K
  jp : F → Fin d → Fin d → K
  jm : F → Fin d → Fin d → K

/-- `field - domain.k*dot(field, domain.k)`, boundary_and_turbulence.py:651. -/
def Vf.hori (k : Fin d → K) (v : Vf K d C F) : Vf K d C F where
  c x := BLMixing.hori k (v.c x)
  j x i l := v.j x i l - k i * ∑ n, v.j x n l * k n
  p x := BLMixing.hori k (v.p x)
  m x := BLMixing.hori k (v.m x)
  jp x i l := v.jp x i l - k i * ∑ n, v.jp x n l * k n
  jm x i l := v.jm x i l - k i * ∑ n, v.jm x n l * k n

/-- The product of a scalar and a vector function with the product rule
(UFL, not gusto code; boundary_and_turbulence.py 658-662). -/
def Vf.smul (v : Vf K d C F) (a : Sc K d C F B) : Vf K d C F where
  c x i := a.c x * v.c x i
  j x i l := a.g x l * v.c x i + a.c x * v.j x i l
  p x i := a.p x * v.p x i
  m x i := a.m x * v.m x i
  jp x i l := a.gp x l * v.p x i + a.p x * v.jp x i l
  jm x i l := a.gm x l * v.m x i + a.m x * v.jm x i l

/-- The Jacobian of `test/rho_averaged` in the cells (UFL, not gusto code; boundary_and_turbulence.py 656). -/
def quotJ (v : Vf K d C F) (r : Sc K d C F B) (x : C) : Fin d → Fin d → K :=
  fun i l => (v.j x i l * r.c x - v.c x i * r.g x l) / r.c x ^ 2

/-- `inner` of tensors (UFL, not gusto code; boundary_and_turbulence.py 656-662). -/
def inner2 (a b : Fin d → Fin d → K) : K := ∑ i, ∑ l, a i l * b i l

/-- `avg(outer(v, n))`, boundary_and_turbulence.py:658-662. -/
def avgOuter (M : Mesh K d C F B) (v : Vf K d C F) (x : F) : Fin d → Fin d → K :=
  fun i l => avg (v.p x i * M.nP x l) (v.m x i * M.nM x l)

/-- `avg(d_dz(v))`, boundary_and_turbulence.py:658-660. -/
def avgDdz (k : Fin d → K) (v : Vf K d C F) (x : F) : Fin d → Fin d → K :=
  fun i l => avg (ddzV k (v.jp x) i l) (ddzV k (v.jm x) i l)

/-- `source_expr` of the wind, boundary_and_turbulence.py:649-663. -/
def mixWind (M : Mesh K d C F B) (k : Fin d → K) (mu : K) (rho kap : Sc K d C F B) (test u : Vf K d C F) : K :=
  let f := u.hori k
  (∑ x, M.wC x * (rho.c x * kap.c x * inner2 (ddzV k (quotJ test rho x)) (ddzV k (f.j x))))
  - (∑ x, M.wF x * (2 * inner2 (avgOuter M (f.smul kap) x) (avgDdz k test x)))
  - (∑ x, M.wF x * (2 * inner2 (avgOuter M test x) (avgDdz k (f.smul kap) x)))
  + ∑ x, M.wF x * (4 * mu * avg (layerDepth k) (layerDepth k)
      * inner2 (avgOuter M (f.smul kap) x) (avgOuter M test x))

end Gusto.BLMixing
