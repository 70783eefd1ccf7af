import Verif.Model.ShallowWater

set_option autoImplicit false

/-!
# The Boussinesq equation sets

Model of `gusto/equations/boussinesq_equations.py`, with the conventions of `Model/ShallowWater.lean`.  The prognostics
`u`, `p`, `b` are the components `u`, `D`, `b` of a state `St`; `qt` is not used.  Simplification: one quadrature rule for
all cell integrals.
-/

namespace Gusto.Bou
open Gusto.DG Gusto.EqSet Gusto.SW

variable {K : Type*} [Field K] [LinearOrder K] [IsStrictOrderedRing K] {d : ℕ} {C F B : Type*}

/-- The circulation `(curl q) x u` at a quadrature point: `cross(curl(q), u)` in three dimensions,
`div(perp(q))*perp(u)` otherwise, common_forms.py:255-261. -/
structure Circ (K : Type*) (d : ℕ) (C F B : Type*) where
  at' : Ve K d C F B → C → (Fin d → K) → Fin d → K

/-- Three dimensions (boussinesq_equations.py 129-145, common_forms.py 272-289 and 235-269). -/
def circ3 : Circ K 3 C F B where
  at' q x v := cross (curlJ (q.j x)) v
/-- A vertical slice: the mesh is plane (common_forms.py 255-269, 283-289). -/
def circ2 : Circ K 2 C F B where
  at' q x v i := (q.j x 0 1 - q.j x 1 0) * DG.perp v i

/-- `cross(2*Omega, u)` with `Omega = as_vector((0, 0, Omega))`, boussinesq_equations.py:208-210: UFL refuses the cross
product unless `u` has three components. -/
def crossOmega : (d : ℕ) → Option (K → (Fin d → K) → Fin d → K)
  | 3 => some fun Om v => cross (fun i => if i = 2 then 2 * Om else 0) v
  | _ => none

/-- The exceptions and UFL errors of boussinesq_equations.py 43-219. -/
inductive BErr where
  | notImplemented | attributeError | shapeError
  deriving DecidableEq

/-- What the equations read of the domain and of the parameters (boussinesq_equations.py 43-108). -/
structure BCfg (K : Type*) (d : ℕ) (C F B : Type*) where
  M : Mesh K d C F B
  R : Circ K d C F B
  /-- `domain.k` at the quadrature points. -/
  k : C → Fin d → K
  cs : K
  Omega : Option K
  compressible : Bool
  uopt : UOpt
  /-- `active_tracers is not None`. -/
  tracersGiven : Bool

variable [Fintype C] [Fintype F] [Fintype B]

/-- `advection_equation_circulation_form`, common_forms.py:232-267. -/
def bcirc (c : BCfg K d C F B) (w q u : Ve K d C F B) : K :=
  cells c.M fun x => dot (w.c x) (c.R.at' q x (u.c x))

/-- The transport of velocity, boussinesq_equations.py:113-139.  The symbolic derivatives are UFL's. -/
def uTransport (c : BCfg K d C F B) (p : T K d C F B → Bool) (Xref : St K d C F B) : Except BErr (List (T K d C F B)) :=
  match c.uopt with
  | .vectorInvariant =>
    .ok [attach p { form := fun X v => bcirc c v.u X.u X.u + kinE c.M v.u X.u X.u
                    dform := fun X h v => bcirc c v.u h.u X.u + bcirc c v.u X.u h.u
                      + (kinE c.M v.u h.u X.u + kinE c.M v.u X.u h.u)
                    empty := false, lin := none, labels := ["transport", "u"] }
      fun h v => bcirc c v.u h.u Xref.u + bcirc c v.u Xref.u h.u
        - cells c.M fun x => v.u.div x * dot (h.u.c x) (Xref.u.c x)]
  | .circulation =>
    .ok [attach p { form := fun X v => bcirc c v.u X.u X.u
                    dform := fun X h v => bcirc c v.u h.u X.u + bcirc c v.u X.u h.u
                    empty := false, lin := none, labels := ["transport", "u"] }
      fun h v => bcirc c v.u h.u Xref.u + bcirc c v.u Xref.u h.u,
      { form := fun X v => kinE c.M v.u X.u X.u
        dform := fun X h v => kinE c.M v.u h.u X.u + kinE c.M v.u X.u h.u
        empty := false, lin := none, labels := ["u"] }]
  | .vectorAdvection =>
    .ok [{ form := fun X v => advVec c.M v.u X.u X.u
           dform := fun X h v => advVec c.M v.u h.u X.u + advVec c.M v.u X.u h.u
           empty := false, lin := none, labels := ["transport", "u"] }]
  | .invalid => .error .attributeError   -- the message reads `self.u_transport_option`, which is never set

/-- The mass term of the pressure; `generate_mass_terms` makes it in the incompressible equations too
(boussinesq_equations.py 109, prognostic_equations.py 135-176). -/
def massP (M : Mesh K d C F B) : T K d C F B where
  form X v := cells M fun x => X.D.c x * v.D.c x
  dform _ h v := cells M fun x => h.D.c x * v.D.c x
  empty := false
  lin := none
  labels := ["time_derivative", "p"]

/-- The transport of buoyancy with its linearisation, boussinesq_equations.py:141-148. -/
def bAdv (c : BCfg K d C F B) (p : T K d C F B → Bool) (Xref : St K d C F B) : T K d C F B :=
  attach p { form := fun X v => advCells c.M v.b X.b X.u
             dform := fun X h v => advCells c.M v.b h.b X.u + advCells c.M v.b X.b h.u
             empty := false, lin := none, labels := ["transport", "b"] }
    fun h v => advCells c.M v.b h.b Xref.u + advCells c.M v.b Xref.b h.u

/-- The transport of pressure with its linearisation, boussinesq_equations.py:150-158. -/
def pAdv (c : BCfg K d C F B) (p : T K d C F B → Bool) (Xref : St K d C F B) : T K d C F B :=
  attach p { form := fun X v => advCells c.M v.D X.D X.u
             dform := fun X h v => advCells c.M v.D h.D X.u + advCells c.M v.D X.D h.u
             empty := false, lin := none, labels := ["transport", "p"] }
    fun h v => advCells c.M v.D h.D Xref.u + advCells c.M v.D Xref.D h.u

/-- `-div(w)*p*dx`, boussinesq_equations.py:170-171. -/
def bpg (M : Mesh K d C F B) (w : Ve K d C F B) (p : Sc K d C F B) : K := -cells M fun x => w.div x * p.c x
/-- The pressure gradient term (boussinesq_equations.py 171-174). -/
def pgT (c : BCfg K d C F B) : T K d C F B where
  form X v := bpg c.M v.u X.D
  dform _ h v := bpg c.M v.u h.D
  empty := false
  lin := none
  labels := ["pressure_gradient", "u"]

/-- `-b*inner(w, domain.k)*dx`, boussinesq_equations.py:176-177. -/
def grav (c : BCfg K d C F B) (w : Ve K d C F B) (b : Sc K d C F B) : K :=
  -cells c.M fun x => b.c x * dot (w.c x) (c.k x)
/-- The gravity term (boussinesq_equations.py 177-179). -/
def gravT (c : BCfg K d C F B) : T K d C F B where
  form X v := grav c v.u X.b
  dform _ h v := grav c v.u h.b
  empty := false
  lin := none
  labels := ["gravity", "u"]

/-- `cs**2 * (phi * div(u) * dx)`, boussinesq_equations.py:186-190. -/
def divForm (c : BCfg K d C F B) (φ : Sc K d C F B) (u : Ve K d C F B) : K :=
  c.cs ^ 2 * cells c.M fun x => φ.c x * u.div x
/-- `phi*(p-div(u))*dx`, boussinesq_equations.py:196-200. -/
def incForm (c : BCfg K d C F B) (φ p : Sc K d C F B) (u : Ve K d C F B) : K :=
  cells c.M fun x => φ.c x * (p.c x - u.div x)
/-- The divergence term; its linearisation is attached whatever the linearisation map says,
boussinesq_equations.py:182-200. -/
def divT (c : BCfg K d C F B) : T K d C F B :=
  if c.compressible then
    { form := fun X v => divForm c v.D X.u, dform := fun _ h v => divForm c v.D h.u
      empty := false, lin := some fun h v => divForm c v.D h.u, labels := ["divergence", "p"] }
  else
    { form := fun X v => incForm c v.D X.D X.u, dform := fun _ h v => incForm c v.D h.D h.u
      empty := false, lin := some fun h v => incForm c v.D h.D h.u, labels := ["incompressible", "p"] }

/-- `inner(w, cross(2*Omega, u))*dx`, boussinesq_equations.py:208-212. -/
def bcor (c : BCfg K d C F B) (op : (Fin d → K) → Fin d → K) (u w : Ve K d C F B) : K :=
  cells c.M fun x => dot (w.c x) (op (u.c x))
/-- The Coriolis term (boussinesq_equations.py 209-213). -/
def corT (c : BCfg K d C F B) (op : (Fin d → K) → Fin d → K) : T K d C F B where
  form X v := bcor c op X.u v.u
  dform _ h v := bcor c op h.u v.u
  empty := false
  lin := none
  labels := ["coriolis", "u"]

/-- The Coriolis operator of the equations, if any (boussinesq_equations.py 209-213). -/
def corOp (c : BCfg K d C F B) : Except BErr (Option ((Fin d → K) → Fin d → K)) :=
  match c.Omega with
  | none => .ok none
  | some Om => match crossOmega (K := K) d with
    | none => .error .shapeError
    | some f => .ok (some (f Om))

/-- `if self.parameters.Omega is not None: ...`, boussinesq_equations.py:207-213. -/
def corTerms (c : BCfg K d C F B) : Option ((Fin d → K) → Fin d → K) → List (T K d C F B)
  | none => []
  | some f => [corT c f]

/-- The residual before `generate_linear_terms`, boussinesq_equations.py:107-213. -/
def setupResidual (c : BCfg K d C F B) (p : T K d C F B → Bool) (Xref : St K d C F B) : Except BErr (List (T K d C F B)) :=
  match uTransport c p Xref with
  | .error e => .error e
  | .ok ut =>
    match corOp c with
    | .error e => .error e
    | .ok op =>
      .ok ([massU c.M, massP c.M, massB c.M] ++ ut ++ (if c.compressible then [pAdv c p Xref] else []) ++
        [bAdv c p Xref, divT c, pgT c, gravT c] ++ corTerms c op)

/-- `BoussinesqEquations.__init__`, boussinesq_equations.py:42-219. -/
def boussinesq (c : BCfg K d C F B) (p : T K d C F B → Bool) (Xref : St K d C F B) : Except BErr (List (T K d C F B)) :=
  if c.tracersGiven then .error .notImplemented
  else (setupResidual c p Xref).map (generateLinear Xref p)

/-- `LinearBoussinesqEquations`, boussinesq_equations.py:268-348. -/
def linearBoussinesq (c : BCfg K d C F B) (p : T K d C F B → Bool) (Xref : St K d C F B) :
    Except BErr (List (T K d C F B)) :=
  (boussinesq c p Xref).map lineariseSet

end Gusto.Bou
