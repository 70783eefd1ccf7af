import Mathlib.Algebra.Order.Field.Basic
import Mathlib.Algebra.Order.AbsoluteValue.Basic
import Mathlib.Logic.Function.Basic

set_option autoImplicit false

/-!
# Recovery: averaging and the boundary kernels

Model of `gusto/recovery/averaging.py`, `gusto/recovery/recovery_kernels.py` and of the classes
`BoundaryRecoverer` and `Recoverer` of `gusto/recovery/recovery.py`.

A mesh is a list of cells; a cell gives the global degree of freedom of each of its local ones.  One
component of a field is treated (the components `j` of the kernels do not interact).  A `par_loop`
visits the cells in the order of the list; theorems show where the order does not matter.  Numbers are
elements of an ordered field (no rounding).  Halo exchanges are not modelled.
-/

namespace Gusto.Recovery
variable {K : Type*} [Field K] {ι : Type*} [DecidableEq ι]

/-! ### Averager -/

/-- What the constructor of `Averager` inspects (averaging.py:40-56). -/
inductive Source where
  /-- neither a UFL expression nor a Function -/
  | other
  /-- a UFL expression that is not a Function -/
  | expr (shape : List ℕ)
  | function (shape : List ℕ) (localDofs : ℕ)

/-- `Averager.__init__`, averaging.py:40-56.  `function_space()` is not a method of a general UFL
expression. -/
def averagerInit (v : Source) (shapeOut : List ℕ) (localDofsOut : ℕ) : Except String Unit :=
  match v with
  | .other => .error "ValueError"
  | .expr s => if s ≠ shapeOut then .error "RuntimeError" else .error "AttributeError"
  | .function s n =>
    if s ≠ shapeOut then .error "RuntimeError"
    else if localDofsOut ≠ n then .error "RuntimeError"
    else .ok ()

/-- `AverageWeightings`, recovery_kernels.py:85-92, on one cell. -/
def weightCell (n : ℕ) (node : ℕ → ι) (w : ι → K) : ι → K :=
  (List.range n).foldl (fun w i => Function.update w (node i) (w (node i) + 1)) w

/-- `AverageWeightings.apply`, recovery_kernels.py:96-105, on a new (zero) Function
(averaging.py:62). -/
def weighting (n : ℕ) (cells : List (ℕ → ι)) : ι → K :=
  cells.foldl (fun w node => weightCell n node w) (fun _ => 0)

/-- `AverageKernel`, recovery_kernels.py:37-44, on one cell with local input values `v`. -/
def averageCell (n : ℕ) (w : ι → K) (node : ℕ → ι) (v : ℕ → K) (vo : ι → K) : ι → K :=
  (List.range n).foldl
    (fun vo i => Function.update vo (node i) (vo (node i) + v i / w (node i))) vo

/-- `AverageKernel.apply`, recovery_kernels.py:48-61: each cell comes with its input values. -/
def averageLoop (n : ℕ) (w : ι → K) (cells : List ((ℕ → ι) × (ℕ → K))) (vo : ι → K) : ι → K :=
  cells.foldl (fun vo c => averageCell n w c.1 c.2 vo) vo

/-- The state of an `Averager`: the cached weighting (`cached_property`, averaging.py:59-67) and the
output Function. -/
structure Averager (K ι : Type*) where
  cache : Option (ι → K)
  out : ι → K

/-- `Averager.project`, averaging.py:69-74. -/
def Averager.project (n : ℕ) (cells : List ((ℕ → ι) × (ℕ → K))) (s : Averager K ι) :
    Averager K ι :=
  let out := fun _ => 0
  let w := s.cache.getD (weighting n (cells.map Prod.fst))
  { cache := some w, out := averageLoop n w cells out }

/-! ### Extruded and HCurl boundary recovery -/

/-- Top kernel, recovery_kernels.py:132-137 and 200-209 (`nVert = 0` for the scalar kernel): values
written by one cell; `xin` are the local values read. -/
def topKernel (nBase nVert : ℕ) (xin : ℕ → K) (xout : ℕ → K) : ℕ → K :=
  let xout := (List.range nBase).foldl (fun x i =>
    Function.update (Function.update x (2 * i) (xin (2 * i))) (2 * i + 1)
      (-xin (2 * i) + 2 * xin (2 * i + 1))) xout
  (List.range nVert).foldl (fun x j => Function.update x (2 * nBase + j) (xin (2 * nBase + j))) xout

/-- Bottom kernel, recovery_kernels.py:139-144 and 211-220. -/
def botKernel (nBase nVert : ℕ) (xin : ℕ → K) (xout : ℕ → K) : ℕ → K :=
  let xout := (List.range nBase).foldl (fun x i =>
    Function.update (Function.update x (2 * i) (2 * xin (2 * i) - xin (2 * i + 1))) (2 * i + 1)
      (xin (2 * i + 1))) xout
  (List.range nVert).foldl (fun x j => Function.update x (2 * nBase + j) (xin (2 * nBase + j))) xout

/-- A `par_loop` with access `WRITE` on one cell: the kernel fills a local array of `n` values, which
are then stored (Firedrake `par_loop`; recovery_kernels.py 484-518). -/
def writeCell (n : ℕ) (kernel : (ℕ → K) → (ℕ → K) → ℕ → K) (xin : ι → K) (node : ℕ → ι)
    (xout : ι → K) : ι → K :=
  let loc := kernel (fun i => xin (node i)) (fun _ => 0)
  (List.range n).foldl (fun x i => Function.update x (node i) (loc i)) xout

/-- `BoundaryRecoveryExtruded.apply` (recovery_kernels.py:149-167), `BoundaryRecoveryHCurl.apply`
(225-243): the top cells, then the bottom cells. -/
def boundaryApply (nBase nVert : ℕ) (top bottom : List (ℕ → ι)) (xin xout : ι → K) : ι → K :=
  let n := 2 * nBase + nVert
  let xout := top.foldl (fun x node => writeCell n (topKernel nBase nVert) xin node x) xout
  bottom.foldl (fun x node => writeCell n (botKernel nBase nVert) xin node x) xout

/-- `BoundaryRecoverer.apply`, recovery.py:158-160, extruded and hcurl methods: `x_tmp` is a copy of
the field that is overwritten. -/
def boundaryRecover (nBase nVert : ℕ) (top bottom : List (ℕ → ι)) (x : ι → K) : ι → K :=
  boundaryApply nBase nVert top bottom x x

/-- Degrees of freedom of a space of degree 1 in the vertical on an extruded mesh: a base degree of
freedom and a level, or a degree of freedom interior to a layer (the vertical component of HCurl: a
base degree of freedom and a layer) (recovery_kernels.py 108-243). -/
inductive Dof (β γ : Type*) where
  | level (b : β) (l : ℕ)
  | layer (v : γ) (l : ℕ)
  deriving DecidableEq

/-- A base cell: its degrees of freedom of both kinds.  The cell above it in layer `l` numbers them up
the column (recovery_kernels.py:120-121, 183-186). -/
def cellNode {β γ : Type*} (nBase : ℕ) (cell : (ℕ → β) × (ℕ → γ)) (l : ℕ) (i : ℕ) : Dof β γ :=
  if i < 2 * nBase then .level (cell.1 (i / 2)) (l + i % 2) else .layer (cell.2 (i - 2 * nBase)) l

/-- The kernels on a mesh of `layers` layers: ON_TOP is layer `layers - 1`, ON_BOTTOM layer 0
(recovery_kernels.py 149-167, 225-243). -/
def recoverColumns {β γ : Type*} [DecidableEq β] [DecidableEq γ] (nBase nVert layers : ℕ)
    (cells : List ((ℕ → β) × (ℕ → γ))) (x : Dof β γ → K) : Dof β γ → K :=
  boundaryRecover nBase nVert (cells.map fun c => cellNode nBase c (layers - 1))
    (cells.map fun c => cellNode nBase c 0) x

/-! ### Gaussian elimination -/

section Gauss
variable [LinearOrder K]

/-- recovery_kernels.py:394-400: body of the loop over `jj = ii + 1 + jj_loop`; the state is
`(i_max, A_max)`. -/
def pivotStep (n : ℕ) (A : ℕ → ℕ → K) (ii : ℕ) (st : ℕ × K) (jjLoop : ℕ) : ℕ × K :=
  let jj := ii + 1 + jjLoop
  if jj < n then (if |A jj ii| > st.2 then jj else st.1, max st.2 |A jj ii|) else st

/-- recovery_kernels.py:386-401: `(i_max, A_max)` after the loop. -/
def pivotSearch (n : ℕ) (A : ℕ → ℕ → K) (ii : ℕ) : ℕ × K :=
  (List.range n).foldl (pivotStep n A ii) (ii, |A ii ii|)

/-- recovery_kernels.py:409-411. -/
def swapF (f : ℕ → K) (ii iMax : ℕ) : ℕ → K :=
  let temp := f ii
  let f := Function.update f ii (f iMax)
  Function.update f iMax temp

/-- recovery_kernels.py:418-420: one entry of the two rows. -/
def swapEntry (ii iMax : ℕ) (A : ℕ → ℕ → K) (kk : ℕ) : ℕ → ℕ → K :=
  if ii ≤ kk then
    let temp := A ii kk
    let A := Function.update A ii (Function.update (A ii) kk (A iMax kk))
    Function.update A iMax (Function.update (A iMax) kk temp)
  else A

/-- recovery_kernels.py:416-422 (`kk > ii - 1` in integers is `ii ≤ kk`). -/
def swapA (n : ℕ) (A : ℕ → ℕ → K) (ii iMax : ℕ) : ℕ → ℕ → K :=
  (List.range n).foldl (swapEntry ii iMax) A

/-- recovery_kernels.py:435-437: the loop over `mm`. -/
def addRow (n : ℕ) (A : ℕ → ℕ → K) (ii ll : ℕ) (c : K) : ℕ → ℕ → K :=
  (List.range n).foldl
    (fun A mm => Function.update A ll (Function.update (A ll) mm (A ll mm + c * A ii mm))) A

/-- recovery_kernels.py:429-441: body of the loop over `ll = ii + 1 + ll_loop` (so `ll > ii` always
holds). -/
def elimStep (n ii : ℕ) (s : (ℕ → ℕ → K) × (ℕ → K)) (llLoop : ℕ) : (ℕ → ℕ → K) × (ℕ → K) :=
  let ll := ii + 1 + llLoop
  if ll < n then
    let c := -s.1 ll ii / s.1 ii ii
    (addRow n s.1 ii ll c, Function.update s.2 ll (s.2 ll + c * s.2 ii))
  else s

/-- recovery_kernels.py:427-442. -/
def eliminate (n : ℕ) (s : (ℕ → ℕ → K) × (ℕ → K)) (ii : ℕ) : (ℕ → ℕ → K) × (ℕ → K) :=
  (List.range n).foldl (elimStep n ii) s

/-- recovery_kernels.py:385-444: one column. -/
def column (n : ℕ) (s : (ℕ → ℕ → K) × (ℕ → K)) (ii : ℕ) : (ℕ → ℕ → K) × (ℕ → K) :=
  let iMax := (pivotSearch n s.1 ii).1
  let s := if iMax ≠ ii then (swapA n s.1 ii iMax, swapF s.2 ii iMax) else s
  eliminate n s ii

/-- recovery_kernels.py:385-444: all columns. -/
def forward (n : ℕ) (s : (ℕ → ℕ → K) × (ℕ → K)) : (ℕ → ℕ → K) × (ℕ → K) :=
  (List.range n).foldl (column n) s

/-- recovery_kernels.py:455-459: the loop over `kkk_loop` for row `j`. -/
def backInner (n : ℕ) (A : ℕ → ℕ → K) (j : ℕ) (a : ℕ → K) : ℕ → K :=
  (List.range n).foldl
    (fun a kkk => if kkk > j then Function.update a j (a j - A j kkk * a kkk) else a) a

/-- recovery_kernels.py:453-460: one row of the back substitution, `jjj = nDOFs - iii - 1`. -/
def backStep (n : ℕ) (A : ℕ → ℕ → K) (f : ℕ → K) (a : ℕ → K) (iii : ℕ) : ℕ → K :=
  let jjj := n - iii - 1
  let a := Function.update a jjj (f jjj)
  let a := backInner n A jjj a
  Function.update a jjj (a jjj / A jjj jjj)

/-- recovery_kernels.py:448-462: the back substitution, from the last row upwards. -/
def backSubst (n : ℕ) (A : ℕ → ℕ → K) (f : ℕ → K) : ℕ → K :=
  (List.range n).foldl (backStep n A f) (fun _ => 0)

/-- The entries assigned in a row of `A`, recovery_kernels.py:284-287 (`dim = 1`) and 293-318, for
the point `x`, as chosen by the dimension and `nDOFs`. -/
def basisRow (dim n : ℕ) (x : ℕ → K) : List K :=
  if dim = 1 then [1, x 0]
  else [1, x 0] ++
    (if n = 3 then [x 1]
    else if n = 4 then [x 1, x 0 * x 1]
    else if n = 6 then [x 1, x (dim - 1), x 0 * x (dim - 1), x 1 * x (dim - 1)]
    else if n = 8 then
      [x 1, x 0 * x 1, x (dim - 1), x 0 * x (dim - 1), x 1 * x (dim - 1), x 0 * x 1 * x (dim - 1)]
    else [])

/-- A row of `A`: entries that are not assigned keep the initial value 0 (line 363). [recovery_kernels.py] -/
def basis (dim n : ℕ) (x : ℕ → K) (k : ℕ) : K := (basisRow dim n x).getD k 0

/-- recovery_kernels.py:288-291, 321-334: the value stored for the point `x`; `old` is the content of
the output if no branch applies. -/
def evaluate (dim n : ℕ) (a x : ℕ → K) (old : K) : K :=
  if dim = 1 then a 0 + a 1 * x 0
  else if n = 2 then a 0 + a 1 * x 0
  else if n = 3 then a 0 + a 1 * x 0 + a 2 * x 1
  else if n = 4 then a 0 + a 1 * x 0 + a 2 * x 1 + a 3 * x 0 * x 1
  else if n = 6 then
    a 0 + a 1 * x 0 + a 2 * x 1 + a 3 * x (dim - 1) + a 4 * x 0 * x (dim - 1)
      + a 5 * x 1 * x (dim - 1)
  else if n = 8 then
    a 0 + a 1 * x 0 + a 2 * x 1 + a 3 * x 0 * x 1 + a 4 * x (dim - 1) + a 5 * x 0 * x (dim - 1)
      + a 6 * x 1 * x (dim - 1) + a 7 * x 0 * x 1 * x (dim - 1)
  else old

/-- The kernel of `BoundaryGaussianElimination`, recovery_kernels.py:349-480, on one cell: `act` and
`eff` are the actual and effective coordinates, `old` the field before, `out` the output buffer. -/
def gaussKernel (dim n : ℕ) (numExt : K) (act eff : ℕ → ℕ → K) (old out : ℕ → K) : ℕ → K :=
  let a := if numExt > 0 then
      let s := forward n (fun i k => basis dim n (eff i) k, old)
      backSubst n s.1 s.2
    else fun _ => 0
  (List.range n).foldl (fun out i =>
    Function.update out i (if numExt > 0 then evaluate dim n a (act i) (out i) else old i)) out

/-! ### The Taylor method -/

/-- A scalar Function in a broken space: the local values of each cell, paired with the node map of the
cell (averaging.py 29-57). -/
abbrev Broken (K ι : Type*) := List ((ℕ → ι) × (ℕ → K))

/-- `Averager(v, v_out).project()` with a new Averager (averaging.py 29-74). -/
def average (n : ℕ) (v : Broken K ι) : ι → K :=
  (Averager.project n v { cache := none, out := fun _ => 0 }).out

/-- `find_eff_coords`, recovery.py:369-381 and `correct_eff_coords`, 417-430, for a scalar space `V0`
with one degree of freedom per cell: coordinate `d` of the effective coordinates of local vertex `i` of
each cell.  A cell comes with its node map, the coordinates of its degree of freedom (`V0_coords`) and
its own vertex coordinates (which differ between cells sharing a node on periodic meshes). -/
def effCoords (n : ℕ) (cells : List ((ℕ → ι) × (ℕ → K) × (ℕ → ℕ → K))) (d : ℕ) :
    List (ℕ → K) :=
  let effCG1 := average n (cells.map fun c => (c.1, fun _ => c.2.1 d))
  let fromAveraged := average n (cells.map fun c => (c.1, fun i => c.2.2 i d))
  cells.map fun c => fun i => effCG1 (c.1 i) + (c.2.2 i d - fromAveraged (c.1 i))

/-- `find_domain_boundaries`, recovery.py:435-465: the indicator of the boundary nodes, interpolated at
the centre of the cell, where every vertex has the weight `1/n`. -/
def numExt (n : ℕ) (boundary : ι → Bool) (node : ℕ → ι) : K :=
  ((List.range n).map fun i => if boundary (node i) then (1 : K) else 0).sum / n

/-- `Recoverer.project` with the Taylor boundary method for a scalar field with one value per cell
(recovery.py:283-310, 150-156): interpolation to the broken space, average, interpolation back
(`x_DG1_wrong`), the elimination kernel, average. -/
def taylorRecover (dim n : ℕ) (boundary : ι → Bool)
    (cells : List ((ℕ → ι) × (ℕ → K) × (ℕ → ℕ → K))) (q : List K) : ι → K :=
  let x := average n ((cells.zip q).map fun c => (c.1.1, fun _ => c.2))
  let correct := cells.zipIdx.map fun c =>
    (c.1.1, gaussKernel dim n (numExt n boundary c.1.1) (fun i d => c.1.2.2 i d)
      (fun i d => ((effCoords n cells d)[c.2]?.getD fun _ => 0) i) (fun i => x (c.1.1 i)) fun _ => 0)
  average n correct

end Gauss

end Gusto.Recovery
