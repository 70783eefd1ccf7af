import Verif.Model.RecoveryKernels

set_option autoImplicit false

/-!
# The Recoverer and BoundaryRecoverer objects

Model of the constructors and of `project`/`apply` of `gusto/recovery/recovery.py` 41-310, and of
`find_eff_coords` for vector-valued spaces.  Interpolation and L2 projection into the broken space are
abstract operators of the source field.  The shape check of Firedrake's `Projector`, and the errors
that Firedrake raises when a source of another shape is interpolated, are not modelled.
-/

namespace Gusto.Recovery

/-! ### The constructors -/

/-- `BoundaryMethod`, recovery.py:25-41, and anything else that may be passed for it. -/
inductive BMethod where
  | extruded | hcurl | taylor
  /-- not a member of the enumeration -/
  | invalid
  deriving DecidableEq

/-- What the constructors (recovery.py:90-150, 193-281) inspect of the target space. -/
structure Target where
  /-- `isinstance(rec_elt, VectorElement)` (line 205) -/
  vectorElt : Bool
  /-- `x_out.ufl_shape` -/
  shape : List ℕ
  /-- the dimension that `VectorElement(...)` takes on this mesh when none is given (line 209) -/
  defaultDim : ℕ
  extruded : Bool
  /-- the space equals `FunctionSpace(mesh, "CG", 1)` (line 98); it is then scalar -/
  cg1 : Bool
  /-- `V.finat_element.degree[1]` (recovery_kernels.py:123); `none` if `degree` is no tuple -/
  vertDegree : Option ℕ
  /-- `V.finat_element.elements[0].degree[1]` (recovery_kernels.py:188); `none` if the element is not
  a sum of elements -/
  horiVertDegree : Option ℕ

/-- The source: `x_in` (recovery.py:193-195). -/
inductive Src where
  /-- neither a UFL expression nor a Function -/
  | other
  /-- a UFL expression that is not a Function -/
  | expr
  | function
  deriving DecidableEq

/-- The constructor of `BoundaryRecoveryExtruded`, recovery_kernels.py:118-126: what it raises. -/
def kernelExtruded (t : Target) : Except String Unit :=
  match t.vertDegree with
  | none => .error "TypeError"
  | some d => if d = 1 then .ok () else .error "AssertionError"

/-- The constructor of `BoundaryRecoveryHCurl`, recovery_kernels.py:181-190: what it raises. -/
def kernelHCurl (t : Target) : Except String Unit :=
  match t.horiVertDegree with
  | none => .error "AttributeError"
  | some d => if d = 1 then .ok () else .error "AssertionError"

/-- `BoundaryRecoverer.__init__`, recovery.py:58-148 (checks: 94-111; kernels: 117-148).
`hasEff` tells whether `eff_coords` was given. -/
def boundaryInit (t : Target) (m : BMethod) (hasEff : Bool) : Except String Unit :=
  match m with
  | .taylor =>
    if ¬ t.cg1 then .error "ValueError"
    else if ¬ hasEff then .error "ValueError"
    else .ok ()
  | .extruded => if ¬ t.extruded then .error "ValueError" else kernelExtruded t
  | .hcurl => if ¬ t.extruded then .error "ValueError" else kernelHCurl t
  | .invalid => .error "ValueError"

/-- The target of the scalar functions `x_out_scalars` in CG1 (recovery.py:258, 269): CG1 on the same
mesh. -/
def Target.scalarCG1 (t : Target) : Target :=
  { t with vectorElt := false, shape := [], cg1 := true, horiVertDegree := none }

/-- Which boundary attributes the constructor of `Recoverer` sets (recovery.py:236-281). -/
inductive BState where
  /-- no boundary method -/
  | none
  /-- `self.boundary_recoverer`, with its method -/
  | single (m : BMethod)
  /-- `self.boundary_recoverers`, one per component -/
  | perComponent (n : ℕ)
  deriving DecidableEq

/-- A constructed `Recoverer`: the fields that `project` reads. -/
structure Rec where
  vector : Bool
  l2 : Bool
  bmethod : Option BMethod
  bstate : BState
  deriving DecidableEq

/-- `Recoverer.__init__`, recovery.py:193-281: source check (193), broken space (205-213), method
(220-224), Averager (226), boundary method (231-281).  `value_size` (line 266) is the product of the
shape. -/
def recInit (s : Src) (t : Target) (method : String) (b : Option BMethod) : Except String Rec := do
  if s = .other then .error "ValueError"
  let brokShape := if t.vectorElt then [t.defaultDim] else t.shape
  if method ≠ "project" ∧ method ≠ "interpolate" then .error "ValueError"
  if brokShape ≠ t.shape then .error "RuntimeError"
  let st ← (match b with
    | Option.none => pure BState.none
    | some .invalid => .error "TypeError"
    | some .extruded =>
      if t.vectorElt then .error "ValueError"
      else (boundaryInit t .extruded false).map fun _ => BState.single .extruded
    | some .hcurl => (boundaryInit t .hcurl false).map fun _ => BState.single .hcurl
    | some .taylor =>
      if s ≠ .function then .error "AttributeError"
      else if t.vectorElt then
        (boundaryInit t.scalarCG1 .taylor true).map fun _ => BState.perComponent t.shape.prod
      else (boundaryInit t .taylor true).map fun _ => BState.single .taylor : Except String BState)
  pure { vector := t.vectorElt, l2 := method = "project", bmethod := b, bstate := st }

/-! ### `project` -/

/-- The operators that `Recoverer.project` applies (recovery.py:283-310): to the source `S`, broken
fields `B`, target fields `F` and scalar CG1 fields `C`. -/
structure RecOps (S B F C : Type*) where
  /-- `self.x_brok.interpolate(self.x_in)` (line 290) -/
  interp : S → B
  /-- `Projector(x_in, self.x_brok)` (line 288) -/
  proj : S → B
  /-- `Averager(self.x_brok, self.x_out)` (line 291) -/
  avg : B → F
  /-- `BoundaryRecoverer(x_out, method).apply()` for each method (lines 150-160) -/
  boundary : BMethod → F → F
  /-- `dot(self.unit_vec[i], self.x_out)` interpolated to CG1 (line 300) -/
  comp : ℕ → F → C
  /-- `self.boundary_recoverers[i].apply()` (line 303) -/
  boundaryC : ℕ → C → C
  /-- `as_vector(self.x_out_expr)` interpolated to the target space (line 305) -/
  combine : List C → F

/-- The mutable fields of a `Recoverer` (recovery.py:198, 217, 269). -/
structure RecState (S B F C : Type*) where
  xIn : S
  xBrok : B
  xOut : F
  scalars : ℕ → C

/-- `Recoverer.project`, recovery.py:283-310.  On a VectorElement the attribute `boundary_recoverers`
is read (line 299): it exists only for the Taylor method. -/
def recProject {S B F C : Type*} (o : RecOps S B F C) (r : Rec) (st : RecState S B F C) :
    Except String (RecState S B F C) :=
  let brok := if r.l2 then o.proj st.xIn else o.interp st.xIn
  let st := { st with xBrok := brok }
  let st := { st with xOut := o.avg st.xBrok }
  if r.bmethod.isSome then
    match r.vector, r.bstate with
    | true, .perComponent n =>
      let st := (List.range n).foldl (fun st i =>
        let c := o.comp i st.xOut
        { st with scalars := Function.update st.scalars i (o.boundaryC i c) }) st
      .ok { st with xOut := o.combine ((List.range n).map st.scalars) }
    | true, _ => .error "AttributeError"
    | false, .single m => .ok { st with xOut := o.boundary m st.xOut }
    | false, _ => .error "AttributeError"
  else .ok st

/-! ### The Taylor method for any source space, component by component -/

section Taylor
variable {K : Type*} [Field K] [LinearOrder K] {ι : Type*} [DecidableEq ι]

/-- A cell: its node map, the coordinates that `find_eff_coords` (recovery.py:345-360) computes for each
component, vertex and direction (`V0_coords_list[d][i]` interpolated at the vertex), and the
coordinates of its own vertices. -/
structure VCell (K ι : Type*) where
  node : ℕ → ι
  /-- component, vertex, direction -/
  v0 : ℕ → ℕ → ℕ → K
  /-- vertex, direction -/
  vertex : ℕ → ℕ → K

/-- `find_eff_coords`, recovery.py:345-367, and `correct_eff_coords`, 417-430, for a vector-valued
space: direction `d` of the effective coordinates of component `i`, at each vertex of each cell. -/
def vectorEffCoords (n : ℕ) (cells : List (VCell K ι)) (i d : ℕ) : List (ℕ → K) :=
  let effCG1 := average n (cells.map fun c => (c.node, fun k => c.v0 i k d))
  let fromAveraged := average n (cells.map fun c => (c.node, fun k => c.vertex k d))
  cells.map fun c => fun k => effCG1 (c.node k) + (c.vertex k d - fromAveraged (c.node k))

/-- `BoundaryRecoverer.apply` with the Taylor method, recovery.py:150-156, on a CG1 field `x`, with the
effective coordinates of component `i`. -/
def taylorBoundary (dim n : ℕ) (boundary : ι → Bool) (cells : List (VCell K ι)) (i : ℕ) (x : ι → K) :
    ι → K :=
  average n (cells.zipIdx.map fun c =>
    (c.1.node, gaussKernel dim n (numExt n boundary c.1.node) (fun k d => c.1.vertex k d)
      (fun k d => ((vectorEffCoords n cells i d)[c.2]?.getD fun _ => 0) k)
      (fun k => x (c.1.node k)) fun _ => 0))

/-- The operators of a vector CG1 target, recovery.py:283-310: a source is the list, cell by cell, of the
values at the vertices of each component (`interp`; projection is taken to give the same data), a field
is a vector of nodal values. -/
def vectorOps (dim n size : ℕ) (boundary : ι → Bool) (cells : List (VCell K ι)) :
    RecOps (List (ℕ → ℕ → K)) (List (ℕ → ℕ → K)) (ℕ → ι → K) (ι → K) where
  interp s := s
  proj s := s
  avg s := fun i => average n ((cells.zip s).map fun c => (c.1.node, fun k => c.2 i k))
  boundary _ f := f
  comp i f := f i
  boundaryC i f := taylorBoundary dim n boundary cells i f
  combine l := fun i => if i < size then l.getD i (fun _ => 0) else fun _ => 0

end Taylor

end Gusto.Recovery
