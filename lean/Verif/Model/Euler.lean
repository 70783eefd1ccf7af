import Mathlib.Analysis.SpecialFunctions.Trigonometric.Basic
import Verif.Model.Boussinesq
import Verif.Model.Thermodynamics

set_option autoImplicit false

/-!
# The compressible Euler equation set

Model of `gusto/equations/compressible_euler_equations.py`, with the conventions of `Model/ShallowWater.lean` and
`Model/Boussinesq.lean`, over the real numbers because of the Exner pressure.  Simplifications: one quadrature rule for
all cell integrals (`dx` and `dx_qp`); the mass and transport terms of the active tracers (those of
`Model/EquationSet.lean`), diffusion and the extra terms given by the user are left out.
-/

noncomputable section

namespace Gusto.Euler
open Gusto.DG Gusto.EqSet Gusto.SW Gusto.Bou Gusto.Thermo
open Gusto.EqnDiag (pgf MTracer Phase)

variable {d : ℕ} {C F B : Type*}

/-! ### States -/

/-- The prognostics `u`, `rho`, `theta` and the active tracers (or the test functions)
(compressible_euler_equations.py 110-125). -/
structure EuSt (d : ℕ) (C F B : Type*) where
  u : Ve ℝ d C F B
  rho : Sc ℝ d C F B
  th : Sc ℝ d C F B
  tr : String → Sc ℝ d C F B

/-- `X + e h` (specification of directional derivatives; prognostic_equations.py 217-226). -/
def EuSt.axpy (X : EuSt d C F B) (e : ℝ) (h : EuSt d C F B) : EuSt d C F B :=
  ⟨Ve.add X.u (Ve.smul e h.u), Sc.add X.rho (Sc.smul e h.rho), Sc.add X.th (Sc.smul e h.th),
    fun n => Sc.add (X.tr n) (Sc.smul e (h.tr n))⟩

/-- A term of the residual (fml `Term`; compressible_euler_equations.py 110-289). -/
abbrev ET (d : ℕ) (C F B : Type*) := LTerm (EuSt d C F B) (EuSt d C F B → ℝ)

/-- The quotient of scalar functions, with the quotient rule (UFL; compressible_euler_equations.py 209-241). -/
def quot (a m : Sc ℝ d C F B) : Sc ℝ d C F B where
  c x := a.c x / m.c x
  g x i := (a.g x i * m.c x - a.c x * m.g x i) / (m.c x) ^ 2
  p x := a.p x / m.p x
  m x := a.m x / m.m x
  b x := a.b x / m.b x
  gp x i := (a.gp x i * m.p x - a.p x * m.gp x i) / (m.p x) ^ 2
  gm x i := (a.gm x i * m.m x - a.m x * m.gm x i) / (m.m x) ^ 2

/-! ### The configuration -/

/-- `SpongeLayerParameters` and the interpolation of the sponge profile: `nodes x i` are the coordinates of the node `i` of
the cell of the quadrature point `x`, `basis x i` is the value there of the basis function of that node of DG2
(compressible_euler_equations.py 252-267, equation_configuration.py 127-132). -/
structure Sponge (d : ℕ) (C : Type*) where
  H : ℝ
  zc : ℝ
  mubar : ℝ
  n : ℕ
  nodes : C → Fin n → Fin d → ℝ
  basis : C → Fin n → ℝ

/-- What the equations read of the domain, of the parameters and of the options.  Of `base` the mesh, the circulation, `k`,
`Omega` and `u_transport_option` are used; `vert` says which interior facets are vertical
(compressible_euler_equations.py 41-110). -/
structure ECfg (d : ℕ) (C F B : Type*) where
  base : BCfg ℝ d C F B
  vert : F → Bool
  P : Parameters
  g : ℝ
  tracers : List MTracer
  sponge : Option (Sponge d C)

/-- The exceptions and UFL errors of compressible_euler_equations.py 41-408. -/
inductive EErr where
  | attributeError | shapeError | assertionError
  deriving DecidableEq

variable [Fintype C] [Fintype F] [Fintype B]

/-! ### Thermodynamic functions of the state -/

/-- `tracer_mr_total`, compressible_euler_equations.py:179-189: the mixing ratios, whatever the chemical; other tracers are
only warned about.  The sum starts from `Constant(0.0)*theta`. -/
def mrTotal (tracers : List MTracer) (X : EuSt d C F B) : Sc ℝ d C F B :=
  (tracers.filter (·.mixingRatio)).foldl (fun a t => Sc.add a (X.tr t.name)) (Sc.const 0)

/-- `Constant(1.0) + tracer_mr_total` (compressible_euler_equations.py 180-198). -/
def mrOne (tracers : List MTracer) (X : EuSt d C F B) : Sc ℝ d C F B := Sc.add (Sc.const 1) (mrTotal tracers X)

/-- `theta_v`, compressible_euler_equations.py:191. -/
def thetaV (tracers : List MTracer) (X : EuSt d C F B) : Sc ℝ d C F B := quot X.th (mrOne tracers X)

/-- Its derivative in the direction `h`: `h/m - (theta/m) (s/m)`, with `s` the derivative of `m`
(UFL derivative of compressible_euler_equations.py 180-198). -/
def dThetaV (tracers : List MTracer) (X h : EuSt d C F B) : Sc ℝ d C F B :=
  EqnDiag.Sc.sub (quot h.th (mrOne tracers X)) (Sc.mul (thetaV tracers X) (quot (mrTotal tracers h) (mrOne tracers X)))

/-- `exner`, compressible_euler_equations.py:108, with the chain rule. -/
def exnerF (P : Parameters) (X : EuSt d C F B) : Sc ℝ d C F B where
  c x := exnerPressure P (X.rho.c x) (X.th.c x)
  g x i := dexnerDrho P (X.rho.c x) (X.th.c x) * X.rho.g x i + dexnerDtheta P (X.rho.c x) (X.th.c x) * X.th.g x i
  p x := exnerPressure P (X.rho.p x) (X.th.p x)
  m x := exnerPressure P (X.rho.m x) (X.th.m x)
  b x := exnerPressure P (X.rho.b x) (X.th.b x)
  gp x i := dexnerDrho P (X.rho.p x) (X.th.p x) * X.rho.gp x i + dexnerDtheta P (X.rho.p x) (X.th.p x) * X.th.gp x i
  gm x i := dexnerDrho P (X.rho.m x) (X.th.m x) * X.rho.gm x i + dexnerDtheta P (X.rho.m x) (X.th.m x) * X.th.gm x i

/-- The derivative of `exner` in the direction `h`; the gradient, which the forms do not read, is left zero
(UFL derivative of thermodynamics.py 27-43). -/
def dExner (P : Parameters) (X h : EuSt d C F B) : Sc ℝ d C F B where
  c x := dexnerDrho P (X.rho.c x) (X.th.c x) * h.rho.c x + dexnerDtheta P (X.rho.c x) (X.th.c x) * h.th.c x
  g _ _ := 0
  p x := dexnerDrho P (X.rho.p x) (X.th.p x) * h.rho.p x + dexnerDtheta P (X.rho.p x) (X.th.p x) * h.th.p x
  m x := dexnerDrho P (X.rho.m x) (X.th.m x) * h.rho.m x + dexnerDtheta P (X.rho.m x) (X.th.m x) * h.th.m x
  b x := dexnerDrho P (X.rho.b x) (X.th.b x) * h.rho.b x + dexnerDtheta P (X.rho.b x) (X.th.b x) * h.th.b x
  gp _ _ := 0
  gm _ _ := 0

/-- `mr_v` and `mr_l` at a quadrature point, compressible_euler_equations.py:217-233. -/
def mrPhase (ph : Phase) (tracers : List MTracer) (X : EuSt d C F B) (x : C) : ℝ :=
  ((tracers.filter fun t => t.isWater && t.mixingRatio && decide (t.phase = ph)).map fun t => (X.tr t.name).c x).sum

/-- `c_vml`, `c_pml`, `R_m`, compressible_euler_equations.py:235-237. -/
def cvml (P : Parameters) (rv rl : ℝ) : ℝ := P.cv + rv * P.cvv + rl * P.cpl
/-- The specific heat `c_pml`, compressible_euler_equations.py 209-241. -/
def cpml (P : Parameters) (rv rl : ℝ) : ℝ := P.cp + rv * P.cpv + rl * P.cpl
/-- The gas constant `R_m`, compressible_euler_equations.py 237. -/
def Rm (P : Parameters) (rv : ℝ) : ℝ := P.Rd + rv * P.Rv

/-- `R_m / c_vml - (R_d * c_pml) / (cp * c_vml)`, compressible_euler_equations.py:241. -/
def moistFactor (P : Parameters) (rv rl : ℝ) : ℝ :=
  Rm P rv / cvml P rv rl - (P.Rd * cpml P rv rl) / (P.cp * cvml P rv rl)

/-- Its derivative in the direction `(sv, sl)`, by the quotient rule
(UFL derivative of compressible_euler_equations.py 237-241). -/
def dMoistFactor (P : Parameters) (rv rl sv sl : ℝ) : ℝ :=
  (sv * P.Rv * cvml P rv rl - Rm P rv * (sv * P.cvv + sl * P.cpl)) / cvml P rv rl ^ 2 -
    (P.Rd * (sv * P.cpv + sl * P.cpl) * (P.cp * cvml P rv rl) -
      P.Rd * cpml P rv rl * (P.cp * (sv * P.cvv + sl * P.cpl))) / (P.cp * cvml P rv rl) ^ 2

/-- `gamma * theta * div(u) * (...) * dx_qp`, compressible_euler_equations.py:239-241; `f` are the values of the last
factor. -/
def moistForm (M : Mesh ℝ d C F B) (γ θ : Sc ℝ d C F B) (u : Ve ℝ d C F B) (f : C → ℝ) : ℝ :=
  cells M fun x => γ.c x * θ.c x * u.div x * f x

/-! ### The sponge -/

/-- `x[len(x)-1]`, compressible_euler_equations.py:255: the last Cartesian coordinate. -/
def lastCoord : {d : ℕ} → (Fin d → ℝ) → ℝ
  | 0, _ => 0
  | _ + 1, v => v (Fin.last _)

/-- `muexpr` at a point of height `z`, compressible_euler_equations.py:261-263. -/
def muExpr (H zc mubar z : ℝ) : ℝ :=
  if z ≤ zc then 0 else mubar * Real.sin (Real.pi / 2 * (z - zc) / (H - zc)) ^ 2

/-- `self.mu` at the quadrature points: the interpolant of `muexpr` in DG2, compressible_euler_equations.py:264. -/
def Sponge.mu (s : Sponge d C) (x : C) : ℝ :=
  ∑ i, s.basis x i * muExpr s.H s.zc s.mubar (lastCoord (s.nodes x i))

/-- `self.mu*inner(w, domain.k)*inner(u, domain.k)*dx_qp`, compressible_euler_equations.py:266-267. -/
def spongeForm (M : Mesh ℝ d C F B) (k : C → Fin d → ℝ) (mu : C → ℝ) (w u : Ve ℝ d C F B) : ℝ :=
  cells M fun x => mu x * dot (w.c x) (k x) * dot (u.c x) (k x)

/-! ### The terms -/

/-- The mass terms of `u`, `rho` and `theta`, from `generate_mass_terms`, compressible_euler_equations.py:118. -/
def massU (M : Mesh ℝ d C F B) : ET d C F B where
  form X v := cells M fun x => dot (X.u.c x) (v.u.c x)
  dform _ h v := cells M fun x => dot (h.u.c x) (v.u.c x)
  empty := false
  lin := none
  labels := ["time_derivative", "u"]
/-- The mass term of the density, prognostic_equations.py 135-176. -/
def massRho (M : Mesh ℝ d C F B) : ET d C F B where
  form X v := cells M fun x => X.rho.c x * v.rho.c x
  dform _ h v := cells M fun x => h.rho.c x * v.rho.c x
  empty := false
  lin := none
  labels := ["time_derivative", "rho"]
/-- The mass term of the potential temperature, prognostic_equations.py 135-176. -/
def massTh (M : Mesh ℝ d C F B) : ET d C F B where
  form X v := cells M fun x => X.th.c x * v.th.c x
  dform _ h v := cells M fun x => h.th.c x * v.th.c x
  empty := false
  lin := none
  labels := ["time_derivative", "theta"]

/-- The velocity of a state as a state of the Boussinesq equations (compressible_euler_equations.py 243-250). -/
def toSt (X : EuSt d C F B) : St ℝ d C F B := ⟨X.u, Sc.const 0, Sc.const 0, Sc.const 0⟩
/-- A term in the velocity only, as a term of the present equations (compressible_euler_equations.py 243-250). -/
def lift (t : T ℝ d C F B) : ET d C F B where
  form X v := t.form (toSt X) (toSt v)
  dform X h v := t.dform (toSt X) (toSt h) (toSt v)
  empty := t.empty
  lin := t.lin.map fun l h v => l (toSt h) (toSt v)
  labels := t.labels

/-- The transport of velocity, compressible_euler_equations.py:124-148, which is, word for word, that of
boussinesq_equations.py:113-139. -/
def uTransport (c : ECfg d C F B) (p : ET d C F B → Bool) (Xref : EuSt d C F B) : Except EErr (List (ET d C F B)) :=
  match Bou.uTransport c.base (fun t => p (lift t)) (toSt Xref) with
  | .error _ => .error .attributeError
  | .ok ts => .ok (ts.map lift)

/-- `linearisation(...)` if the linearisation map accepts the term (compressible_euler_equations.py 125-185). -/
def attachE (p : ET d C F B → Bool) (t : ET d C F B) (l : EuSt d C F B → EuSt d C F B → ℝ) : ET d C F B :=
  if p t then { t with lin := some l } else t

/-- The transport of density with its linearisation, compressible_euler_equations.py:150-158. -/
def rhoAdv (c : ECfg d C F B) (p : ET d C F B → Bool) (Xref : EuSt d C F B) : ET d C F B :=
  attachE p { form := fun X v => contCells c.base.M v.rho X.rho X.u
              dform := fun X h v => contCells c.base.M v.rho h.rho X.u + contCells c.base.M v.rho X.rho h.u
              empty := false, lin := none, labels := ["transport", "rho"] }
    fun h v => contCells c.base.M v.rho h.rho Xref.u + contCells c.base.M v.rho Xref.rho h.u

/-- The transport of potential temperature with its linearisation, compressible_euler_equations.py:160-168. -/
def thAdv (c : ECfg d C F B) (p : ET d C F B → Bool) (Xref : EuSt d C F B) : ET d C F B :=
  attachE p { form := fun X v => advCells c.base.M v.th X.th X.u
              dform := fun X h v => advCells c.base.M v.th h.th X.u + advCells c.base.M v.th X.th h.u
              empty := false, lin := none, labels := ["transport", "theta"] }
    fun h v => advCells c.base.M v.th h.th Xref.u + advCells c.base.M v.th Xref.th h.u

/-- The pressure gradient, compressible_euler_equations.py:193-195. -/
def pg (c : ECfg d C F B) : ET d C F B where
  form X v := pgf c.base.M c.vert c.P.cp v.u (thetaV c.tracers X) (exnerF c.P X)
  dform X h v := pgf c.base.M c.vert c.P.cp v.u (dThetaV c.tracers X h) (exnerF c.P X)
    + pgf c.base.M c.vert c.P.cp v.u (thetaV c.tracers X) (dExner c.P X h)
  empty := false
  lin := none
  labels := ["pressure_gradient", "u"]

/-- `g*inner(domain.k, w)*dx`, compressible_euler_equations.py:200-201: it does not contain the state. -/
def gravForm (c : ECfg d C F B) (w : Ve ℝ d C F B) : ℝ := c.g * cells c.base.M fun x => dot (c.base.k x) (w.c x)
/-- The gravity term, compressible_euler_equations.py 200-201. -/
def grav (c : ECfg d C F B) : ET d C F B where
  form _ v := gravForm c v.u
  dform _ _ _ := 0
  empty := true
  lin := none
  labels := ["gravity", "u"]

/-- The values of the moist factor (compressible_euler_equations.py 209-241). -/
def moistAt (c : ECfg d C F B) (X : EuSt d C F B) (x : C) : ℝ :=
  moistFactor c.P (mrPhase .gas c.tracers X x) (mrPhase .liquid c.tracers X x)
/-- Its derivative, compressible_euler_equations.py 209-241. -/
def dMoistAt (c : ECfg d C F B) (X h : EuSt d C F B) (x : C) : ℝ :=
  dMoistFactor c.P (mrPhase .gas c.tracers X x) (mrPhase .liquid c.tracers X x)
    (mrPhase .gas c.tracers h x) (mrPhase .liquid c.tracers h x)

/-- The moist thermodynamic divergence term, compressible_euler_equations.py:209-241. -/
def moist (c : ECfg d C F B) : ET d C F B where
  form X v := moistForm c.base.M v.th X.th X.u (moistAt c X)
  dform X h v := moistForm c.base.M v.th h.th X.u (moistAt c X) + moistForm c.base.M v.th X.th h.u (moistAt c X)
    + moistForm c.base.M v.th X.th X.u (dMoistAt c X h)
  empty := false
  lin := none
  labels := ["theta"]
/-- The moist terms, compressible_euler_equations.py 205-241. -/
def moistTerms (c : ECfg d C F B) : List (ET d C F B) := if c.tracers.isEmpty then [] else [moist c]

/-- The Coriolis term, compressible_euler_equations.py:246-250. -/
def corTerms (c : ECfg d C F B) : Option ((Fin d → ℝ) → Fin d → ℝ) → List (ET d C F B)
  | none => []
  | some f => [{ form := fun X v => bcor c.base f X.u v.u, dform := fun _ h v => bcor c.base f h.u v.u
                 empty := false, lin := none, labels := ["coriolis", "u"] }]

/-- The sponge term, compressible_euler_equations.py:252-267. -/
def spongeTerms (c : ECfg d C F B) : Except EErr (List (ET d C F B)) :=
  match c.sponge with
  | none => .ok []
  | some s =>
    if s.zc < s.H then
      .ok [{ form := fun X v => spongeForm c.base.M c.base.k s.mu v.u X.u
             dform := fun _ h v => spongeForm c.base.M c.base.k s.mu v.u h.u
             empty := false, lin := none, labels := ["sponge", "u"] }]
    else .error .assertionError

/-- The residual before `generate_linear_terms`, compressible_euler_equations.py:86-283. -/
def setup (c : ECfg d C F B) (p : ET d C F B → Bool) (Xref : EuSt d C F B) : Except EErr (List (ET d C F B)) :=
  match Euler.uTransport c p Xref with
  | .error e => .error e
  | .ok ut =>
    match corOp c.base with
    | .error _ => .error .shapeError
    | .ok op =>
      match spongeTerms c with
      | .error e => .error e
      | .ok sp =>
        .ok ([massU c.base.M, massRho c.base.M, massTh c.base.M] ++ ut ++
          [rhoAdv c p Xref, thAdv c p Xref, pg c, grav c] ++ moistTerms c ++ Euler.corTerms c op ++ sp)

/-- `CompressibleEulerEquations.__init__`, compressible_euler_equations.py:41-289. -/
def euler (c : ECfg d C F B) (p : ET d C F B → Bool) (Xref : EuSt d C F B) : Except EErr (List (ET d C F B)) :=
  (setup c p Xref).map (generateLinear Xref p)

/-! ### The hydrostatic equations -/

/-- `field - inner(field, k) * k`, compressible_euler_equations.py:402, at the quadrature points of the cells; the mass
terms read nothing else, so the other components are left as they are. -/
def hproj (k : C → Fin d → ℝ) (u : Ve ℝ d C F B) : Ve ℝ d C F B :=
  { u with c := fun x i => u.c x i - dot (u.c x) (k x) * k x i }

/-- `hydrostatic_projection(t, 'u')`, compressible_euler_equations.py:381-408: `replace_subject` changes the form and keeps
all labels, the linearisation included; no `hydrostatic` label is added. -/
def project (k : C → Fin d → ℝ) (t : ET d C F B) : ET d C F B :=
  { t with form := fun X v => t.form { X with u := hproj k X.u } v }

/-- The extra hydrostatic term, compressible_euler_equations.py:369-379; it has no linearisation. -/
def hydT (c : ECfg d C F B) : ET d C F B where
  form X v := -cells c.base.M fun x => dot (c.base.k x) (v.u.c x) * dot (c.base.k x) (X.u.c x)
  dform _ h v := -cells c.base.M fun x => dot (c.base.k x) (v.u.c x) * dot (c.base.k x) (h.u.c x)
  empty := false
  lin := none
  labels := ["hydrostatic", "u"]

/-- `HydrostaticCompressibleEulerEquations.__init__`, compressible_euler_equations.py:310-379. -/
def hydrostatic (c : ECfg d C F B) (p : ET d C F B → Bool) (Xref : EuSt d C F B) :
    Except EErr (List (ET d C F B)) :=
  (euler c p Xref).map fun res =>
    (res.map fun t => if "time_derivative" ∈ t.labels then project c.base.k t else t) ++ [hydT c]

/-! ### The forcing of the semi-implicit quasi-Newton scheme -/

/-- Whether a term has one of the labels (fml; semi_implicit_quasi_newton.py 722-824). -/
def hasAny (ls : List String) (t : ET d C F B) : Bool := ls.any fun l => decide (l ∈ t.labels)

/-- The residual without transport, diffusion and physics, semi_implicit_quasi_newton.py:748-751. -/
def forcingTerms (res : List (ET d C F B)) : List (ET d C F B) :=
  res.filter fun t => !hasAny ["transport", "diffusion", "physics"] t

/-- The left-hand side `a` of both solvers, semi_implicit_quasi_newton.py:755-758. -/
def forcingA (res : List (ET d C F B)) (xF v : EuSt d C F B) : ℝ :=
  value ((forcingTerms res).filter (hasAny ["time_derivative"])) xF v

/-- The forcing terms that are neither fully implicit nor hydrostatic (semi_implicit_quasi_newton.py 722-824). -/
def forcingN (implicitTerms : List String) (res : List (ET d C F B)) (x0 v : EuSt d C F B) : ℝ :=
  value ((forcingTerms res).filter fun t => !hasAny (["time_derivative", "hydrostatic"] ++ implicitTerms) t) x0 v

/-- The terms with the label `hydrostatic` (semi_implicit_quasi_newton.py 722-824). -/
def forcingH (res : List (ET d C F B)) (x0 v : EuSt d C F B) : ℝ :=
  value ((forcingTerms res).filter (hasAny ["hydrostatic"])) x0 v

/-- `L_explicit`, semi_implicit_quasi_newton.py:760-766 and 783-787; when no term has the label the added form is zero. -/
def forcingExplicit (implicitTerms : List String) (alpha dt : ℝ) (res : List (ET d C F B)) (x0 v : EuSt d C F B) : ℝ :=
  -(1 - alpha) * dt * forcingN implicitTerms res x0 v + forcingH res x0 v

/-- `L_implicit`, semi_implicit_quasi_newton.py:768-780 and 789-792. -/
def forcingImplicit (implicitTerms : List String) (alpha dt : ℝ) (res : List (ET d C F B)) (x0 v : EuSt d C F B) : ℝ :=
  -alpha * dt * forcingN implicitTerms res x0 v
    - dt * value ((forcingTerms res).filter (hasAny implicitTerms)) x0 v - forcingH res x0 v

end Gusto.Euler
