import Mathlib.Algebra.Module.LinearMap.Basic
import Mathlib.Algebra.Module.Prod
import Verif.Model.ShallowWater
import Verif.Model.Boussinesq
import Verif.Model.RecoveryKernels

set_option autoImplicit false

/-!
# Linear solvers: presets, quasi-Newton operator, Schur complements, hybridisation

Model of `gusto/solvers/solver_presets.py`, `gusto/solvers/preconditioners.py`, of `QuasiNewtonLinearSolver`
(semi_implicit_quasi_newton.py:873-1040) and of `schur_complement_form` of the Boussinesq and thermal shallow-water
equations.  What PETSc's field splits do with their sub-solvers is modelled with exact sub-solves.
-/

namespace Gusto.Solvers

/-! ### Presets -/

/-- The class of the equation set, as `isinstance` tells them apart, solver_presets.py:59-62; the linear sets are sub
classes, the hydrostatic one is `compressible`, `shallowWater` is a set that is not thermal. -/
inductive Kind where
  | compressible | boussinesq | thermal | shallowWater | shallowWater1d | other
  deriving DecidableEq, Repr

/-- The preconditioners of the presets.  The tolerances and the solvers of the innermost systems are left out
(solver_presets.py 18-479). -/
inductive Pc where
  | hybridization
  | compressibleSCPC
  | auxiliary
  | assembled
  | doNothing
  | schur (fields0 fields1 : List ℕ) (pc0 pc1 : Pc)
  | additive (fields0 fields1 : List ℕ) (pc0 pc1 : Pc)
  deriving DecidableEq, Repr

/-- `tracers`, solver_presets.py:54-57. -/
def tracers (names progs : List String) : List ℕ :=
  (List.range names.length).filter fun i => !decide ((names.getD i "") ∈ progs)

/-- What the application context passes on of the semi-implicit parameters: `alpha` alone, or the `tau_values` too
(solver_presets.py:164-172, 222-226, 292-296, 349-353, 396, 425-427). -/
inductive Ctx where
  | nothing | alphaOnly | alphaAndTau
  deriving DecidableEq, Repr

/-- `hybridised_solver_parameters`, solver_presets.py:19-450. -/
def preset (k : Kind) (names progs : List String) : Except String (Pc × Ctx) :=
  let num : ℤ := names.length - progs.length
  match k with
  | .compressible => .ok (.compressibleSCPC, .alphaAndTau)
  | .boussinesq => .ok (.schur [2] [0, 1] .assembled .auxiliary, .alphaOnly)
  | .thermal =>
    let inner := Pc.schur [2] [0, 1] .assembled .auxiliary
    if num > 0 then .ok (.additive [0, 1, 2] (tracers names progs) inner .doNothing, .alphaOnly)
    else .ok (inner, .alphaOnly)
  | .shallowWater | .shallowWater1d =>
    if num > 0 then .ok (.additive [0, 1] (tracers names progs) .hybridization .doNothing, .nothing)
    else if num = 0 then .ok (.hybridization, .nothing)
    else .error "NotImplementedError"
  | .other => .error "NotImplementedError"

/-- The prognostics of the linear solver of the timesteppers, semi_implicit_quasi_newton.py:172-198 and
tr_bdf2_quasi_newton.py:153-179: `given` is the argument, `active` are the names of the active tracers (`none` for
`equation_set.active_tracers is None`). -/
def solverPrognostics (names : List String) (active given : Option (List String)) : Except String (List String) :=
  match given with
  | some l => if l.all (· ∈ names) then .ok l else .error "AssertionError"
  | none => match active with
    | some a => .ok (names.filter (· ∉ a))
    | none => .ok names

/-! ### Relaxation parameters -/

/-- The completion of `tau_values`, semi_implicit_quasi_newton.py:923-928.  The dict is that of the caller, so this is
also what the caller's dict is afterwards. -/
def completeTau {A : Type*} (tau : String → Option A) (alpha : A) (progs : List String) : String → Option A :=
  progs.foldl (fun t n => if (t n).isSome then t else fun m => if m = n then some alpha else t m) tau

/-- The solvers a sequence of constructions with one dict uses: for each, its parameters `(alpha, prognostics)`
(solver_presets.py 18-446). -/
def completeTaus {A : Type*} (tau : String → Option A) : List (A × List String) → List (String → Option A)
  | [] => []
  | (a, p) :: l => completeTau tau a p :: completeTaus (completeTau tau a p) l

/-! ### Block systems -/

section Blocks
variable {K V0 V1 W0 W1 : Type*} [Field K] [AddCommGroup V0] [AddCommGroup V1] [AddCommGroup W0] [AddCommGroup W1]
  [Module K V0] [Module K V1] [Module K W0] [Module K W1]

/-- A system of two blocks (PETSc; solver_presets.py 18-446). -/
structure Block (K V0 V1 W0 W1 : Type*) [Field K] [AddCommGroup V0] [AddCommGroup V1] [AddCommGroup W0]
    [AddCommGroup W1] [Module K V0] [Module K V1] [Module K W0] [Module K W1] where
  a00 : V0 →ₗ[K] W0
  a01 : V1 →ₗ[K] W0
  a10 : V0 →ₗ[K] W1
  a11 : V1 →ₗ[K] W1

/-- The application of the operator (PETSc; solver_presets.py 18-446). -/
def Block.apply (A : Block K V0 V1 W0 W1) (x : V0 × V1) : W0 × W1 :=
  (A.a00 x.1 + A.a01 x.2, A.a10 x.1 + A.a11 x.2)

/-- PETSc's `pc_fieldsplit_type: schur` with `schur_fact_type: full`: `inv0` is the solver of the first block, `invS`
that of the Schur complement (solver_presets.py 18-446). -/
def schurFull (A : Block K V0 V1 W0 W1) (inv0 : W0 → V0) (invS : W1 → V1) (r : W0 × W1) : V0 × V1 :=
  let x1 := invS (r.2 - A.a10 (inv0 r.1))
  (inv0 (r.1 - A.a01 x1), x1)

/-- PETSc's `pc_fieldsplit_type: additive` (solver_presets.py 18-446). -/
def additive (inv0 : W0 → V0) (inv1 : W1 → V1) (r : W0 × W1) : V0 × V1 := (inv0 r.1, inv1 r.2)

/-- `SlateSchurPC.form`, preconditioners.py:800-814: `a11 - a10*a00.inv*a01`. -/
def slateSchur (A : Block K V0 V1 W0 W1) (inv0 : W0 →ₗ[K] V0) : V1 →ₗ[K] W1 :=
  A.a11 - A.a10.comp (inv0.comp A.a01)
end Blocks

/-! ### The quasi-Newton operator -/

section Forms
open Gusto.DG Gusto.EqSet Gusto.SW

variable {K : Type*} [Field K] [LinearOrder K] [IsStrictOrderedRing K] {d : ℕ} {C F B : Type*}

variable {S : Type*}

/-- The linearisation of a term; only read of terms that have one (semi_implicit_quasi_newton.py 882-992). -/
def linOf (t : LTerm S (S → K)) (h v : S) : K :=
  match t.lin with
  | some l => l h v
  | none => 0

/-- `any(t.has_label(*implicit_terms))`, `implicit_terms = [incompressible, sponge]`,
semi_implicit_quasi_newton.py:154. -/
def isImplicit (t : LTerm S (S → K)) : Bool := decide ("incompressible" ∈ t.labels) || decide ("sponge" ∈ t.labels)
/-- Whether a term has the label `time_derivative`, semi_implicit_quasi_newton.py 882-992. -/
def isTD (t : LTerm S (S → K)) : Bool := decide ("time_derivative" ∈ t.labels)
/-- `t.get(prognostic) == name` (semi_implicit_quasi_newton.py 882-992). -/
def isProg (n : String) (t : LTerm S (S → K)) : Bool := decide (n ∈ t.labels)

/-- `QuasiNewtonLinearSolver.__init__`, semi_implicit_quasi_newton.py:930-966: the bilinear form.  A time derivative
without linearisation is a `KeyError`. -/
def quasiNewton (res : List (LTerm S (S → K))) (progs : List String) (tau : String → K) (dt : K) :
    Except String (S → S → K) :=
  if (res.filter isTD).all (fun t => t.lin.isSome) then
    .ok fun h v => ((res.filter isTD).map fun t => linOf t h v).sum +
      (progs.map fun n =>
        ((res.filter fun t => t.lin.isSome && !isTD t && isProg n t && !isImplicit t).map fun t =>
          tau n * dt * linOf t h v).sum +
        ((res.filter fun t => t.lin.isSome && !isTD t && isProg n t && isImplicit t).map fun t =>
          dt * linOf t h v).sum).sum
  else .error "KeyError"

variable [Fintype C] [Fintype F] [Fintype B]

/-- `BoussinesqEquations.schur_complement_form`, boussinesq_equations.py:221-265; `tau` is `tau_values`, which the preset
does not pass, `mu` the sponge profile. -/
def auxBoussinesq (c : Bou.BCfg K d C F B) (Xref : St K d C F B) (alpha dt : K) (tau : String → Option K)
    (mu : Option (C → K)) : Except String (St K d C F B → St K d C F B → K) :=
  let bu := dt * (tau "u").getD alpha
  let bp := dt * (tau "p").getD alpha
  let bb := dt * (tau "b").getD alpha
  let b (h : St K d C F B) (x : C) := -dot (c.k x) (h.u.c x) * dot (c.k x) (Xref.b.g x) * bb
  match c.Omega with
  | some _ => .error "AttributeError"       -- `self.parameter.Omega`
  | none => .ok fun h v =>
    cells c.M (fun x => dot (v.u.c x) (h.u.c x)) - bu * cells c.M (fun x => v.u.div x * h.D.c x)
      - bu * cells c.M (fun x => dot (v.u.c x) (c.k x) * b h x)
      + (if c.compressible then cells c.M (fun x => v.D.c x * h.D.c x)
            + bp * (c.cs ^ 2 * cells c.M fun x => v.D.c x * h.u.div x)
          else cells c.M fun x => v.D.c x * h.u.div x)
      + (match mu with
        | none => 0
        | some m => dt * cells c.M fun x => m x * (dot (v.u.c x) (c.k x) * dot (h.u.c x) (c.k x)))

/-- `ThermalShallowWaterEquations.schur_complement_form` without equivalent buoyancy, shallow_water_equations.py:534-587;
`cor` is the field `coriolis`, if there is one. -/
def auxThermal (c : Cfg K d C F B) (cor : Option (C → K)) (Xref : St K d C F B) (alpha dt : K) (tau : String → Option K) :
    St K d C F B → St K d C F B → K :=
  let bu := dt * (tau "u").getD alpha
  let bd := dt * (tau "D").getD alpha
  let bb := dt * (tau "b").getD alpha
  let b (h : St K d C F B) (x : C) := -dot (h.u.c x) (Xref.b.g x) * bb
  fun h v =>
    cells c.M (fun x => dot (v.u.c x) (h.u.c x)) + bu * grad1 c.M v.u Xref.b h.D
      - bu * (1 / 2 * cells c.M fun x => Xref.D.c x * b h x * v.u.div x)
      + bu * (1 / 2 * grad1 c.M v.u h.D Xref.b)
      + cells c.M (fun x => v.D.c x * h.D.c x) + bd * contCells c.M v.D Xref.D h.u
      + (match cor with
        | none => 0
        | some f => bu * corForm c.G c.M f h.u v.u)
end Forms

/-! ### Hybridisation -/

section Hybrid
variable {K U P T U' : Type*} [Field K] [AddCommGroup U] [AddCommGroup P] [AddCommGroup T] [AddCommGroup U']
  [Module K U] [Module K P] [Module K T] [Module K U']

/-- The hybridised system of `VerticalHybridizationPC.initialize`, preconditioners.py:135-235: the broken operator is the
block system with the velocity first, `k` the form `Kform` on broken velocities, `kT` its transpose; `K_1` is zero, as
`Kform` has no scalar argument.  Vectors and functionals of the broken spaces are identified by the local basis. -/
structure Hybrid (K U P T : Type*) [Field K] [AddCommGroup U] [AddCommGroup P] [AddCommGroup T]
    [Module K U] [Module K P] [Module K T] where
  A : Block K U P U P
  k : U →ₗ[K] T
  kT : T →ₗ[K] U

/-- The local inverses: of the velocity block and of its Schur complement `M = D - C*A.inv*B`
(preconditioners.py 234-298). -/
structure LocalInv (K U P : Type*) [Field K] [AddCommGroup U] [AddCommGroup P] [Module K U] [Module K P] where
  invA : U →ₗ[K] U
  invM : P →ₗ[K] P

/-- `_reconstruction_calls` and `_reconstruct`, preconditioners.py:243-302: first the scalar, then the velocity. -/
def reconstruct (H : Hybrid K U P T) (L : LocalInv K U P) (g : U) (f : P) (lam : T) : U × P :=
  let R := -(H.A.a10 (L.invA (H.kT lam)))     -- `R * lambdar`, `R = K_1.T - C * A.inv * K_0.T`
  let u := L.invM (f - H.A.a10 (L.invA g) - R)
  (L.invA (g - H.A.a01 u - H.kT lam), u)

/-- `VerticalHybridizationPC.apply`, preconditioners.py:316-390: `brk` distributes the residual over the broken space,
`rec` recovers the continuous velocity, `solve` is the solver of the trace system `K * Atilde.inv * K.T`, whose right-hand
side is `K * Atilde.inv * residual`; `inv` is `Atilde.inv`. -/
def hybridApply {G : Type*} (H : Hybrid K U P T) (L : LocalInv K U P) (inv : U × P → U × P) (brk : G → U) (rec : U → U')
    (solve : T → T) (r : G × P) : U' × P :=
  let g := brk r.1
  let lam := solve (H.k (inv (g, r.2)).1)
  let x := reconstruct H L g r.2 lam
  (rec x.1, x.2)

end Hybrid

section Break
open Gusto.Recovery
variable {K ι : Type*} [Field K] [DecidableEq ι]

/-- The values of a broken function on one cell (preconditioners.py 311-382). -/
def cellValues {n : ℕ} (v : Fin n → K) (i : ℕ) : K := if h : i < n then v ⟨i, h⟩ else 0

/-- The broken residual, preconditioners.py:345-356: the averaging kernel writes from the continuous space into the broken
one, whose degrees of freedom belong to one cell; `node` is the cell-node map. -/
def breakResidual {m n : ℕ} (node : Fin m → ℕ → ι) (R : ι → K) : Fin m → Fin n → K :=
  fun c i => 0 + R (node c i) / weighting n (List.ofFn node) (node c i)

/-- The velocity from the broken one, preconditioners.py:376-383. -/
def unbreak {m n : ℕ} (node : Fin m → ℕ → ι) (v : Fin m → Fin n → K) : ι → K :=
  averageLoop n (weighting n (List.ofFn node)) (List.ofFn fun c => (node c, cellValues (v c))) fun _ => 0
end Break

/-- The boundary parts of the trace system, preconditioners.py:159-198: the parts where `gammar * dot(sigma, n)` is added,
and those where the trace has a Dirichlet condition.  `bcs` is the union of the sub domains of the boundary conditions
of the velocity (`none`: there are none), `markers` the markers of the lateral boundary. -/
def traceParts (bcs : Option (List String)) (markers : List String) : List String × List String :=
  match bcs with
  | none => ([], ["top", "bottom"])
  | some b =>
    let ext := ["bottom", "top"].filter (· ∈ b)                 -- `sorted(extruded_neumann_subdomains)`
    let rest := ["bottom", "top"].filter (· ∉ b)
    let lat := b.filter fun s => s ≠ "top" ∧ s ≠ "bottom"
    (ext ++ lat, (ext.flatMap fun _ => rest) ++ markers.filter (· ∉ lat))

end Gusto.Solvers
