import Verif.Model.Euler
import Verif.Model.Solvers

set_option autoImplicit false

/-!
# The hybridised preconditioner of the compressible Euler equations

Model of `CompressibleHybridisedSCPC`, preconditioners.py:421-789, with the conventions of `Model/Euler.lean`.
Simplifications: one quadrature rule for all cell integrals and one for all facet integrals; the solvers are exact, so what
one application returns is stated by the equations it solves (`Applied`).
-/

noncomputable section

namespace Gusto.SCPC
open Gusto.DG Gusto.EqSet Gusto.SW Gusto.Thermo Gusto.Euler
open Gusto.EqnDiag (MTracer)

variable {d : ℕ} {C F B : Type*}

/-- A function of the trace space: values on the interior and on the boundary facets (preconditioners.py 463-717). -/
structure Trace (F B : Type*) where
  f : F → ℝ
  b : B → ℝ

/-- What the preconditioner reads apart from the equation set: `k` is the function `domain.k`, `tb` says which boundary
facets are at the top or the bottom, `dz` is the function `dot(k, grad(thetabar))`, `rhoAvg` and `exnerAvg` are the
projected averages, `beta_u`, `beta_t`, `beta_r` the relaxation parameters times `dt` (preconditioners.py 463-717). -/
structure PCfg (d : ℕ) (C F B : Type*) where
  k : Ve ℝ d C F B
  tb : B → Bool
  dz : Sc ℝ d C F B
  rhoAvg : Trace F B
  exnerAvg : Trace F B
  dt : ℝ
  betaU : ℝ
  betaT : ℝ
  betaR : ℝ

/-- `beta_u`, `beta_t`, `beta_r`, preconditioners.py:500-502. -/
def beta (dt alpha : ℝ) (tau : String → Option ℝ) (n : String) : ℝ := dt * (tau n).getD alpha

/-- `dot` of two vector functions, with the product rule (UFL; preconditioners.py 463-717). -/
def dotVe (a b : Ve ℝ d C F B) : Sc ℝ d C F B where
  c x := dot (a.c x) (b.c x)
  g x l := ∑ i, (a.j x i l * b.c x i + a.c x i * b.j x i l)
  p x := dot (a.p x) (b.p x)
  m x := dot (a.m x) (b.m x)
  b x := dot (a.b x) (b.b x)
  gp _ _ := 0
  gm _ _ := 0

/-- `V(u) = k*inner(u, k)`, preconditioners.py:568-569. -/
def vproj (k w : Ve ℝ d C F B) : Ve ℝ d C F B where
  c x i := k.c x i * dot (w.c x) (k.c x)
  j x i l := k.j x i l * dot (w.c x) (k.c x) + k.c x i * (dotVe w k).g x l
  p x i := k.p x i * dot (w.p x) (k.p x)
  m x i := k.m x i * dot (w.m x) (k.m x)
  b x i := k.b x i * dot (w.b x) (k.b x)

/-- `theta`, preconditioners.py:557: `-dot(k, u)*dot(k, grad(thetabar))*beta_t + theta_in`. -/
def thetaElim (p : PCfg d C F B) (thIn : Sc ℝ d C F B) (u : Ve ℝ d C F B) : Sc ℝ d C F B :=
  Sc.add (Sc.smul (-p.betaT) (Sc.mul (dotVe p.k u) p.dz)) thIn

/-- `mr_t`, preconditioners.py:584-595: only water counts; water that is not a mixing ratio is an error. -/
def mrWater (tracers : List MTracer) (X : EuSt d C F B) : Except String (Sc ℝ d C F B) :=
  tracers.foldlM (fun a t =>
    if t.isWater then
      if t.mixingRatio then .ok (Sc.add a (X.tr t.name)) else .error "NotImplementedError"
    else .ok a) (Sc.const 0)

/-- `div(q*w)` at a quadrature point (UFL; preconditioners.py 463-717). -/
def divMul (q : Sc ℝ d C F B) (w : Ve ℝ d C F B) (x : C) : ℝ := dot (q.g x) (w.c x) + q.c x * w.div x

/-- `jump(q*w, n=n)` at a quadrature point (UFL; preconditioners.py 463-717). -/
def jumpMul (M : Mesh ℝ d C F B) (q : Sc ℝ d C F B) (w : Ve ℝ d C F B) (x : F) : ℝ :=
  q.p x * dot (w.p x) (M.nP x) + q.m x * dot (w.m x) (M.nM x)

/-- `jump(u, n=n)` at a quadrature point (UFL; preconditioners.py 463-717). -/
def jumpVe (M : Mesh ℝ d C F B) (w : Ve ℝ d C F B) (x : F) : ℝ := dot (w.p x) (M.nP x) + dot (w.m x) (M.nM x)

/-- `exner`, preconditioners.py:565, the perturbation: `exnerbar_theta*theta + exnerbar_rho*rho`. -/
def exnerPert (P : Parameters) (Xref : EuSt d C F B) (rho th : Sc ℝ d C F B) (x : C) : ℝ :=
  dexnerDtheta P (Xref.rho.c x) (Xref.th.c x) * th.c x + dexnerDrho P (Xref.rho.c x) (Xref.th.c x) * rho.c x

variable [Fintype C] [Fintype F] [Fintype B]

/-- The projection of averages on the trace space, `a_tr` and `L_tr`, preconditioners.py:603-624: `T` is the trace space,
`q` the field. -/
def IsTraceAvg (M : Mesh ℝ d C F B) (T : Set (Trace F B)) (q : Sc ℝ d C F B) (r : Trace F B) : Prop :=
  r ∈ T ∧ ∀ dl ∈ T, (∑ x, M.wF x * (dl.f x * r.f x)) + ∑ x, M.wB x * (dl.b x * r.b x) =
    (∑ x, M.wF x * (dl.f x * (1 / 2 * (q.p x + q.m x)))) + ∑ x, M.wB x * (dl.b x * q.b x)

/-- `u_mass`, preconditioners.py:629-632: `hyd` says whether a term of the residual has the label `hydrostatic`. -/
def uMass (M : Mesh ℝ d C F B) (hyd : Bool) (k w u uIn : Ve ℝ d C F B) : ℝ :=
  cells M fun x => dot (w.c x) (fun i => (if hyd then u.c x i - k.c x i * dot (u.c x) (k.c x) else u.c x i) - uIn.c x i)

/-- The Coriolis term, preconditioners.py:668-670; `op` is `cross(2*Omega, .)`, an error when it cannot be built. -/
def corPC (M : Mesh ℝ d C F B) (betaU : ℝ) (op : Option ((Fin d → ℝ) → Fin d → ℝ)) (w u : Ve ℝ d C F B) : ℝ :=
  match op with
  | none => 0
  | some f => betaU * cells M fun x => dot (w.c x) (f (u.c x))

/-- The contribution of the sponge, preconditioners.py:664-666. -/
def spongePC (c : ECfg d C F B) (p : PCfg d C F B) (w u : Ve ℝ d C F B) : ℝ :=
  match c.sponge with
  | none => 0
  | some s => p.dt * spongeForm c.base.M p.k.c s.mu w u

/-- The momentum part of `eqn`, preconditioners.py:634-646 and 664-670: `th` is the perturbation of potential temperature
with `theta_in`, `mr` is `1 + mr_t`. -/
def hybU (c : ECfg d C F B) (p : PCfg d C F B) (hyd : Bool) (op : Option ((Fin d → ℝ) → Fin d → ℝ)) (mr : Sc ℝ d C F B)
    (Xref : EuSt d C F B) (uIn : Ve ℝ d C F B) (u : Ve ℝ d C F B) (rho th : Sc ℝ d C F B) (l : Trace F B)
    (w : Ve ℝ d C F B) : ℝ :=
  let M := c.base.M
  let thW := quot th mr
  let thbarW := quot Xref.th mr
  uMass M hyd p.k w u uIn
    - p.betaU * c.P.cp * (cells M fun x => divMul thW (vproj p.k w) x * exnerPressure c.P (Xref.rho.c x) (Xref.th.c x))
    + p.betaU * c.P.cp * (∑ x, if c.vert x then 0 else M.wF x * (jumpMul M thW (vproj p.k w) x * p.exnerAvg.f x))
    + p.betaU * c.P.cp * (∑ x, if p.tb x then M.wB x * (thW.b x * dot ((vproj p.k w).b x) (M.nB x) * p.exnerAvg.b x) else 0)
    - p.betaU * c.P.cp * (cells M fun x => divMul thbarW w x * exnerPert c.P Xref rho th x)
    + p.betaU * c.P.cp * (∑ x, M.wF x * (jumpMul M thbarW w x * l.f x))
    + p.betaU * c.P.cp * (∑ x, M.wB x * (thbarW.b x * dot (w.b x) (M.nB x) * l.b x))
    + spongePC c p w u
    + corPC M p.betaU op w u

/-- The continuity part of `eqn`, preconditioners.py:648-651. -/
def hybRho (c : ECfg d C F B) (p : PCfg d C F B) (Xref : EuSt d C F B) (rhoIn : Sc ℝ d C F B) (u : Ve ℝ d C F B)
    (rho phi : Sc ℝ d C F B) : ℝ :=
  let M := c.base.M
  cells M (fun x => phi.c x * (rho.c x - rhoIn.c x) - p.betaR * dot (phi.g x) (u.c x) * Xref.rho.c x)
    + p.betaR * (∑ x, M.wF x * (jumpMul M phi u x * p.rhoAvg.f x))
    + p.betaR * ∑ x, M.wB x * (phi.b x * dot (u.b x) (M.nB x) * p.rhoAvg.b x)

/-- The constraint part of `eqn`, preconditioners.py:655-656. -/
def hybL (M : Mesh ℝ d C F B) (u : Ve ℝ d C F B) (dl : Trace F B) : ℝ :=
  (∑ x, M.wF x * (dl.f x * jumpVe M u x)) + ∑ x, M.wB x * (dl.b x * dot (u.b x) (M.nB x))

/-- `theta_eqn`, preconditioners.py:705-706. -/
def thetaEqn (M : Mesh ℝ d C F B) (p : PCfg d C F B) (thIn : Sc ℝ d C F B) (u : Ve ℝ d C F B) (Xref : EuSt d C F B)
    (th gam : Sc ℝ d C F B) : ℝ :=
  cells M fun x => gam.c x * (th.c x - thIn.c x + dot (p.k.c x) (u.c x) * dot (p.k.c x) (Xref.th.g x) * p.betaT)

/-- The spaces: broken velocities, densities, traces, potential temperatures; `avg` is the averaging of broken velocities to
the space with continuous normal component and the zeroing of the boundary values, preconditioners.py:741-744. -/
structure Spaces (d : ℕ) (C F B : Type*) where
  U : Set (Ve ℝ d C F B)
  P : Set (Sc ℝ d C F B)
  T : Set (Trace F B)
  Th : Set (Sc ℝ d C F B)
  avg : Ve ℝ d C F B → Ve ℝ d C F B

/-- `apply`, preconditioners.py:725-756: `y` is what one application returns for the right-hand side whose Riesz
representative is `xin`.  The rows of the tracers of `self.y` are never written. -/
def Applied (c : ECfg d C F B) (p : PCfg d C F B) (hyd : Bool) (op : Option ((Fin d → ℝ) → Fin d → ℝ)) (S : Spaces d C F B)
    (Xref xin y : EuSt d C F B) : Prop :=
  ∃ mr u l, mrWater c.tracers Xref = .ok mr ∧ u ∈ S.U ∧ y.rho ∈ S.P ∧ l ∈ S.T ∧
    (∀ w ∈ S.U, ∀ phi ∈ S.P, ∀ dl ∈ S.T,
      hybU c p hyd op (Sc.add (Sc.const 1) mr) Xref xin.u u y.rho (thetaElim p xin.th u) l w
        + hybRho c p Xref xin.rho u y.rho phi + hybL c.base.M u dl = 0) ∧
    y.u = S.avg u ∧ y.th ∈ S.Th ∧ (∀ gam ∈ S.Th, thetaEqn c.base.M p xin.th y.u Xref y.th gam = 0) ∧
    y.tr = fun _ => Sc.const 0

end Gusto.SCPC
