import Mathlib.Analysis.SpecialFunctions.Exp
import Verif.Model.DGForms
import Verif.Model.EquationSet
import Verif.Model.EquationDiagnostics

set_option autoImplicit false

/-!
# The shallow-water equation sets

Model of `gusto/equations/shallow_water_equations.py`.

A form is what its assembly by quadrature gives (see `Model/DGForms.lean`).  Simplifications: one quadrature rule for all
cell integrals (`dx` and `dx(degree=quad)`), which is why exactness of the rule is a hypothesis where it matters; active
tracers, whose terms are those of `Model/EquationSet.lean`, are left out; `perp` and `div(perp(.))` are those of a
`Geom`, with the plane and the sphere as instances.
-/

namespace Gusto.SW
open Gusto.DG Gusto.EqSet
open Gusto.EqnDiag (pgf)

variable {K : Type*} [Field K] [LinearOrder K] [IsStrictOrderedRing K] {d : ℕ} {C F B : Type*}

/-! ### Functions -/

/-- The sum of scalar functions (UFL; shallow_water_equations.py 95-226). -/
def Sc.add (a b : Sc K d C F B) : Sc K d C F B where
  c x := a.c x + b.c x
  g x i := a.g x i + b.g x i
  p x := a.p x + b.p x
  m x := a.m x + b.m x
  b x := a.b x + b.b x
  gp x i := a.gp x i + b.gp x i
  gm x i := a.gm x i + b.gm x i
/-- A multiple of a scalar function (UFL; shallow_water_equations.py 95-226). -/
def Sc.smul (k : K) (a : Sc K d C F B) : Sc K d C F B where
  c x := k * a.c x
  g x i := k * a.g x i
  p x := k * a.p x
  m x := k * a.m x
  b x := k * a.b x
  gp x i := k * a.gp x i
  gm x i := k * a.gm x i
/-- The sum of vector functions (UFL; shallow_water_equations.py 95-226). -/
def Ve.add (a b : Ve K d C F B) : Ve K d C F B where
  c x i := a.c x i + b.c x i
  j x i k := a.j x i k + b.j x i k
  p x i := a.p x i + b.p x i
  m x i := a.m x i + b.m x i
  b x i := a.b x i + b.b x i
/-- A multiple of a vector function (UFL; shallow_water_equations.py 95-226). -/
def Ve.smul (k : K) (a : Ve K d C F B) : Ve K d C F B where
  c x i := k * a.c x i
  j x i l := k * a.j x i l
  p x i := k * a.p x i
  m x i := k * a.m x i
  b x i := k * a.b x i
/-- The vector function zero (UFL; shallow_water_equations.py 95-226). -/
def Ve.zero : Ve K d C F B where
  c _ _ := 0
  j _ _ _ := 0
  p _ _ := 0
  m _ _ := 0
  b _ _ := 0

/-- The prognostics `u`, `D`, `b` (or `b_e`) and `q_t` (or the test functions `w`, `phi`, `gamma`, `gamma_qt`)
(shallow_water_equations.py 39-93, 302-372). -/
structure St (K : Type*) (d : ℕ) (C F B : Type*) where
  u : Ve K d C F B
  D : Sc K d C F B
  b : Sc K d C F B
  qt : Sc K d C F B

/-- The sum of states (specification of linearity; shallow_water_equations.py 95-226). -/
def St.add (X Y : St K d C F B) : St K d C F B := ⟨Ve.add X.u Y.u, Sc.add X.D Y.D, Sc.add X.b Y.b, Sc.add X.qt Y.qt⟩
/-- A multiple of a state (specification of linearity; shallow_water_equations.py 95-226). -/
def St.smul (k : K) (X : St K d C F B) : St K d C F B := ⟨Ve.smul k X.u, Sc.smul k X.D, Sc.smul k X.b, Sc.smul k X.qt⟩

/-- `domain.perp` and `div(domain.perp(.))` at the quadrature points (core/domain.py 120-167). -/
structure Geom (K : Type*) (d : ℕ) (C F B : Type*) where
  perp : C → (Fin d → K) → Fin d → K
  divPerp : Ve K d C F B → C → K

/-- The plane: `perp` of UFL, domain.py:131. -/
def plane : Geom K 2 C F B where
  perp _ v := DG.perp v
  divPerp q x := q.j x 0 1 - q.j x 1 0

/-- The sphere: `cross(outward_normals, u)`, domain.py:124; the normals are a function with Jacobian `jk`. -/
def sphere (k : C → Fin 3 → K) (jk : C → Fin 3 → Fin 3 → K) : Geom K 3 C F B where
  perp x v := cross (k x) v
  divPerp q x := dot (curlJ (jk x)) (q.c x) - dot (k x) (curlJ (q.j x))

variable [Fintype C] [Fintype F] [Fintype B]

/-! ### The forms -/

/-- A cell integral (UFL `dx`; shallow_water_equations.py 95-226). -/
def cells (M : Mesh K d C F B) (f : C → K) : K := ∑ x, M.wC x * f x

/-- `advection_form` of a vector, `inner(test, dot(ubar, grad(q)))*dx`, common_forms.py:38: in UFL
`grad(q)[i, j]` is the derivative of component `i` in direction `j`, and `dot` contracts `i`. -/
def advVec (M : Mesh K d C F B) (w q u : Ve K d C F B) : K :=
  cells M fun x => dot (w.c x) fun j => ∑ i, u.c x i * q.j x i j
/-- `advection_equation_circulation_form`, common_forms.py:259-261. -/
def circ (G : Geom K d C F B) (M : Mesh K d C F B) (w q u : Ve K d C F B) : K :=
  cells M fun x => dot (w.c x) fun i => G.divPerp q x * G.perp x (u.c x) i
/-- `kinetic_energy_form`, common_forms.py:210-229. -/
def kinE (M : Mesh K d C F B) (w q u : Ve K d C F B) : K := -kineticCells M w q u
/-- `-g*(div(w)*D*dx)`, shallow_water_equations.py:175-176. -/
def pressGrad (M : Mesh K d C F B) (g : K) (w : Ve K d C F B) (D : C → K) : K := -g * cells M fun x => w.div x * D x
/-- `fexpr*inner(perp(u), w)*dx`, shallow_water_equations.py:208-209. -/
def corForm (G : Geom K d C F B) (M : Mesh K d C F B) (f : C → K) (u w : Ve K d C F B) : K :=
  cells M fun x => f x * dot (G.perp x (u.c x)) (w.c x)

/-- The options of `CoriolisOptions`, equation_configuration.py; `other` is any other member
(equation_configuration.py 14-19). -/
inductive Rot where
  | nonrotating | sphere | fplane | betaplane | other
  deriving DecidableEq

/-- The values of `u_transport_option` (shallow_water_equations.py 127-153). -/
inductive UOpt where
  | vectorInvariant | circulation | vectorAdvection | invalid
  deriving DecidableEq

/-- The exceptions of shallow_water_equations.py 39-661. -/
inductive SErr where
  | assertionError | notImplemented | attributeError
  deriving DecidableEq

/-- What the equations read of the domain and of the parameters; `xyz` are the coordinates at the quadrature points,
`radius` is the minimum of the radius over the nodes, `topog` is `topog_expr` and `topogDG` its projection into the DG
space (shallow_water_equations.py 39-226, 302-372). -/
structure Cfg (K : Type*) (d : ℕ) (C F B : Type*) where
  M : Mesh K d C F B
  G : Geom K d C F B
  onSphere : Bool
  g : K
  f0 : K
  beta : K
  Omega : K
  xyz : C → ℕ → K
  radius : K
  rot : Rot
  uopt : UOpt
  topog : Option (C → K)
  topogDG : Sc K d C F B

/-- `fexpr`, shallow_water_equations.py:185-206. -/
def fexpr (c : Cfg K d C F B) : Except SErr (C → K) :=
  match c.rot with
  | .sphere => if c.onSphere then .ok fun x => 2 * c.Omega * c.xyz x 2 / c.radius else .error .assertionError
  | .fplane => .ok fun _ => c.f0
  | .betaplane => .ok fun x => c.f0 + c.beta * c.xyz x 1
  | _ => .error .notImplemented

/-- A term of the residual: form from the state, giving a form in the test functions
(fml `Term`; shallow_water_equations.py 95-226). -/
abbrev T (K : Type*) (d : ℕ) (C F B : Type*) := LTerm (St K d C F B) (St K d C F B → K)

/-- `linearisation(term, lin)` if the linearisation map holds of the term (shallow_water_equations.py 127-165). -/
def attach (p : T K d C F B → Bool) (t : T K d C F B) (lin : St K d C F B → St K d C F B → K) : T K d C F B :=
  if p t then { t with lin := some lin } else t

/-- `generate_mass_terms`, one term per prognostic (see C78) (prognostic_equations.py 135-176). -/
def massU (M : Mesh K d C F B) : T K d C F B where
  form X v := cells M fun x => dot (X.u.c x) (v.u.c x)
  dform _ h v := cells M fun x => dot (h.u.c x) (v.u.c x)
  empty := false
  lin := none
  labels := ["time_derivative", "u"]
/-- The mass term of the depth, prognostic_equations.py 135-176. -/
def massD (M : Mesh K d C F B) : T K d C F B where
  form X v := cells M fun x => X.D.c x * v.D.c x
  dform _ h v := cells M fun x => h.D.c x * v.D.c x
  empty := false
  lin := none
  labels := ["time_derivative", "D"]
/-- The mass term of the buoyancy, prognostic_equations.py 135-176. -/
def massB (M : Mesh K d C F B) : T K d C F B where
  form X v := cells M fun x => X.b.c x * v.b.c x
  dform _ h v := cells M fun x => h.b.c x * v.b.c x
  empty := false
  lin := none
  labels := ["time_derivative", "b"]
/-- The mass term of the total moisture, prognostic_equations.py 135-176. -/
def massQ (M : Mesh K d C F B) : T K d C F B where
  form X v := cells M fun x => X.qt.c x * v.qt.c x
  dform _ h v := cells M fun x => h.qt.c x * v.qt.c x
  empty := false
  lin := none
  labels := ["time_derivative", "q_t"]

/-- The transport of velocity, shallow_water_equations.py:125-151.  The symbolic derivatives are UFL's. -/
def uTransport (c : Cfg K d C F B) (p : T K d C F B → Bool) (Xref : St K d C F B) : Except SErr (List (T K d C F B)) :=
  match c.uopt with
  | .vectorInvariant =>
    .ok [attach p { form := fun X v => circ c.G c.M v.u X.u X.u + kinE c.M v.u X.u X.u
                    dform := fun X h v => circ c.G c.M v.u h.u X.u + circ c.G c.M v.u X.u h.u
                      + (kinE c.M v.u h.u X.u + kinE c.M v.u X.u h.u)
                    empty := false, lin := none, labels := ["transport", "u"] }
      -- `linear_vector_invariant_form`, common_forms.py:184-207
      fun h v => circ c.G c.M v.u h.u Xref.u + circ c.G c.M v.u Xref.u h.u
        - cells c.M fun x => v.u.div x * dot (h.u.c x) (Xref.u.c x)]
  | .circulation =>
    .ok [attach p { form := fun X v => circ c.G c.M v.u X.u X.u
                    dform := fun X h v => circ c.G c.M v.u h.u X.u + circ c.G c.M v.u X.u h.u
                    empty := false, lin := none, labels := ["transport", "u"] }
      -- `linear_circulation_form`, common_forms.py:270-287
      fun h v => circ c.G c.M v.u h.u Xref.u + circ c.G c.M v.u Xref.u h.u,
      { form := fun X v => kinE c.M v.u X.u X.u
        dform := fun X h v => kinE c.M v.u h.u X.u + kinE c.M v.u X.u h.u
        empty := false, lin := none, labels := ["u"] }]
  | .vectorAdvection =>
    .ok [{ form := fun X v => advVec c.M v.u X.u X.u
           dform := fun X h v => advVec c.M v.u h.u X.u + advVec c.M v.u X.u h.u
           empty := false, lin := none, labels := ["transport", "u"] }]
  | .invalid => .error .attributeError   -- the message reads `self.u_transport_option`, which is never set

/-- The transport of depth with its linearisation, shallow_water_equations.py:153-162. -/
def dTransport (c : Cfg K d C F B) (p : T K d C F B → Bool) (Xref : St K d C F B) : T K d C F B :=
  attach p { form := fun X v => contCells c.M v.D X.D X.u
             dform := fun X h v => contCells c.M v.D h.D X.u + contCells c.M v.D X.D h.u
             empty := false, lin := none, labels := ["transport", "D"] }
    fun h v => contCells c.M v.D h.D Xref.u + contCells c.M v.D Xref.D h.u

/-- The pressure gradient term, shallow_water_equations.py:175-176. -/
def pgTerm (c : Cfg K d C F B) : T K d C F B where
  form X v := pressGrad c.M c.g v.u X.D.c
  dform _ h v := pressGrad c.M c.g v.u h.D.c
  empty := false
  lin := none
  labels := ["pressure_gradient", "u"]

/-- The Coriolis term, shallow_water_equations.py:208-216. -/
def corTerm (c : Cfg K d C F B) (p : T K d C F B → Bool) (f : C → K) : T K d C F B :=
  attach p { form := fun X v => corForm c.G c.M f X.u v.u
             dform := fun _ h v => corForm c.G c.M f h.u v.u
             empty := false, lin := none, labels := ["coriolis", "u"] }
    fun h v => corForm c.G c.M f h.u v.u

/-- The topography term, shallow_water_equations.py:218-224: it does not contain the state. -/
def topogTerm (c : Cfg K d C F B) (B' : C → K) : T K d C F B where
  form _ v := pressGrad c.M c.g v.u B'
  dform _ _ _ := 0
  empty := true
  lin := none
  labels := ["u"]

/-- The terms added at shallow_water_equations.py:218-224. -/
def topogTerms (c : Cfg K d C F B) : List (T K d C F B) :=
  match c.topog with
  | none => []
  | some B' => [topogTerm c B']

/-- `ShallowWaterEquations._setup_residual`, shallow_water_equations.py:95-226; `masses` are the mass terms of the
prognostics of the set. -/
def setupResidual (c : Cfg K d C F B) (p : T K d C F B → Bool) (Xref : St K d C F B) (masses : List (T K d C F B)) :
    Except SErr (List (T K d C F B)) :=
  match uTransport c p Xref with
  | .error e => .error e
  | .ok ut =>
    let base := masses ++ ut ++ [dTransport c p Xref, pgTerm c]
    if c.rot = .nonrotating then .ok (base ++ topogTerms c)
    else match fexpr c with
      | .error e => .error e
      | .ok f => .ok (base ++ [corTerm c p f] ++ topogTerms c)

/-- `ShallowWaterEquations.__init__`, shallow_water_equations.py:39-93. -/
def shallowWater (c : Cfg K d C F B) (p : T K d C F B → Bool) (Xref : St K d C F B) : Except SErr (List (T K d C F B)) :=
  (setupResidual c p Xref [massU c.M, massD c.M]).map (generateLinear Xref p)

/-- `LinearShallowWaterEquations`, shallow_water_equations.py:229-281. -/
def linearShallowWater (c : Cfg K d C F B) (p : T K d C F B → Bool) (Xref : St K d C F B) :
    Except SErr (List (T K d C F B)) :=
  (shallowWater c p Xref).map lineariseSet

/-! ### Thermal shallow water -/

/-- `- D*div(b*w)*dx + jump(b*w, n)*avg(D)*dS` (shallow_water_equations.py 419-469). -/
def grad1 (M : Mesh K d C F B) (w : Ve K d C F B) (b D : Sc K d C F B) : K := pgf M (fun _ => true) 1 w b D

/-- The source of the thermal equations, shallow_water_equations.py:450-455:
`- D*div(b*w)*dx + jump(b*w, n)*avg(D)*dS - 0.5*b*div(D*w)*dx + 0.5*jump(D*w, n)*avg(b)*dS`. -/
def thermalSource (M : Mesh K d C F B) (w : Ve K d C F B) (D b : Sc K d C F B) : K :=
  grad1 M w b D + 1 / 2 * grad1 M w D b

/-- Its hand-coded linearisation, shallow_water_equations.py:459-467. -/
def thermalLinear (M : Mesh K d C F B) (w : Ve K d C F B) (Dbar bbar D b : Sc K d C F B) : K :=
  grad1 M w bbar D + 1 / 2 * grad1 M w Dbar b + 1 / 2 * grad1 M w D bbar

/-- The terms the thermal equations (without equivalent buoyancy) add, shallow_water_equations.py:449-512: the source,
whose linearisation is attached whatever the map says, the transport of buoyancy and the topography term with the
projected topography. -/
def thermalSourceTerm (c : Cfg K d C F B) (Xref : St K d C F B) : T K d C F B where
  form X v := thermalSource c.M v.u X.D X.b
  dform X h v := thermalSource c.M v.u h.D X.b + thermalSource c.M v.u X.D h.b
  empty := false
  lin := some fun h v => thermalLinear c.M v.u Xref.D Xref.b h.D h.b
  labels := ["pressure_gradient", "u"]
/-- The transport of the buoyancy, shallow_water_equations.py 471-481. -/
def bTransport (c : Cfg K d C F B) (p : T K d C F B → Bool) (Xref : St K d C F B) : T K d C F B :=
  attach p { form := fun X v => advCells c.M v.b X.b X.u
             dform := fun X h v => advCells c.M v.b h.b X.u + advCells c.M v.b X.b h.u
             empty := false, lin := none, labels := ["transport", "b"] }
    fun h v => advCells c.M v.b h.b Xref.u + advCells c.M v.b Xref.b h.u
/-- The topography term of the thermal equations, shallow_water_equations.py 495-514. -/
def thermalTopogTerm (c : Cfg K d C F B) : T K d C F B where
  form X v := grad1 c.M v.u X.b c.topogDG
  dform _ h v := grad1 c.M v.u h.b c.topogDG
  empty := false
  lin := none
  labels := ["u"]

/-- `ThermalShallowWaterEquations.__init__` and `_setup_residual`, shallow_water_equations.py:302-514: the terms of the
super class, topography included, without those labelled `pressure_gradient`, and the new ones. -/
def thermalShallowWater (c : Cfg K d C F B) (p : T K d C F B → Bool) (Xref : St K d C F B) :
    Except SErr (List (T K d C F B)) :=
  match setupResidual c p Xref [massU c.M, massD c.M, massB c.M] with
  | .error e => .error e
  | .ok res =>
    .ok (generateLinear Xref p ((res.filter fun t => !decide ("pressure_gradient" ∈ t.labels)) ++
      [thermalSourceTerm c Xref, bTransport c p Xref] ++ (if c.topog.isSome then [thermalTopogTerm c] else [])))

/-- `LinearThermalShallowWaterEquations`, shallow_water_equations.py:603-661. -/
def linearThermalShallowWater (c : Cfg K d C F B) (p : T K d C F B → Bool) (Xref : St K d C F B) :
    Except SErr (List (T K d C F B)) :=
  (thermalShallowWater c p Xref).map lineariseSet

/-! ### Equivalent buoyancy -/

/-- `conditional(qt < qsat, qt, qsat)`, shallow_water_equations.py:419, with the derivative UFL gives it. -/
def satCond (qt sat : Sc K d C F B) : Sc K d C F B where
  c x := if qt.c x < sat.c x then qt.c x else sat.c x
  g x i := if qt.c x < sat.c x then qt.g x i else sat.g x i
  p x := if qt.p x < sat.p x then qt.p x else sat.p x
  m x := if qt.m x < sat.m x then qt.m x else sat.m x
  b x := if qt.b x < sat.b x then qt.b x else sat.b x
  gp x i := if qt.p x < sat.p x then qt.gp x i else sat.gp x i
  gm x i := if qt.m x < sat.m x then qt.gm x i else sat.gm x i

/-- The source with equivalent buoyancy, shallow_water_equations.py:421-428; `sat X` is `compute_saturation(X)`. -/
def equivSource (M : Mesh K d C F B) (beta2 : K) (sat : St K d C F B → Sc K d C F B) (w : Ve K d C F B)
    (X : St K d C F B) : K :=
  thermalSource M w X.D X.b + beta2 * thermalSource M w X.D (satCond X.qt (sat X))

/-- Its hand-coded linearisation, shallow_water_equations.py:433-447; `qvbar` (line 420) compares the reference `q_t`
with the saturation of the *state*. -/
def equivLinear (M : Mesh K d C F B) (beta2 : K) (sat : St K d C F B → Sc K d C F B) (w : Ve K d C F B)
    (Xref X h : St K d C F B) : K :=
  thermalLinear M w Xref.D Xref.b h.D h.b +
    beta2 * (grad1 M w (satCond Xref.qt (sat X)) h.D + 1 / 2 * grad1 M w h.D (satCond Xref.qt (sat X))
      + 1 / 2 * grad1 M w Xref.D h.qt)

end Gusto.SW
