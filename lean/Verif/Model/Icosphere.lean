import Mathlib.Analysis.SpecialFunctions.Pow.Real
import Mathlib.Analysis.InnerProductSpace.PiL2

set_option autoImplicit false

/-!
# The icosahedral mesh of the sphere

Model of `GeneralIcosahedralSphereMesh`, core/meshes.py:17-434.

The arrays filled in loops with a running counter are lists built by the same nested loops.  The vertices are built in any
real vector space from the twelve base vertices (`V = ℝ³` is the code).  An index outside of an array, which raises
`IndexError`, is represented by the number of vertices, which is not the number of a vertex.  `int(a / 2)` is exact division.
Left out: `plex_from_cell_list` and the mesh object; reordering, distribution and names.
-/

namespace Gusto.Icosphere

/-- A triangle: the numbers of its three vertices (core/meshes.py 18-436). -/
abbrev Face := ℕ × ℕ × ℕ

/-- The edges of the base icosahedron, core/meshes.py:120-149 (the earlier table in lines 88-117 is overwritten). -/
def panelEdges : List (ℕ × ℕ) :=
  [(0, 1), (0, 5), (0, 7), (0, 10), (0, 11), (1, 5), (1, 7), (1, 8), (1, 9), (2, 3), (2, 4), (2, 6), (2, 10), (2, 11),
   (3, 4), (3, 6), (3, 8), (3, 9), (4, 5), (4, 9), (4, 11), (5, 9), (5, 11), (6, 7), (6, 8), (6, 10), (7, 8), (7, 10),
   (8, 9), (10, 11)]

/-- The faces of the base icosahedron, core/meshes.py:152-171. -/
def panels : List Face :=
  [(0, 5, 11), (0, 1, 5), (0, 1, 7), (0, 7, 10), (0, 10, 11), (1, 5, 9), (4, 5, 11), (2, 10, 11), (6, 7, 10), (1, 7, 8),
   (3, 4, 9), (2, 3, 4), (2, 3, 6), (3, 6, 8), (3, 8, 9), (4, 5, 9), (2, 4, 11), (2, 6, 10), (6, 7, 8), (1, 8, 9)]

/-- The edges of each face, core/meshes.py:173-192. -/
def panelsToEdges : List (ℕ × ℕ × ℕ) :=
  [(1, 4, 22), (0, 1, 5), (0, 2, 6), (2, 3, 27), (3, 4, 29), (5, 8, 21), (18, 20, 22), (12, 13, 29), (23, 25, 27),
   (6, 7, 26), (14, 17, 19), (9, 10, 14), (9, 11, 15), (15, 16, 24), (16, 17, 28), (18, 19, 21), (10, 13, 20),
   (11, 12, 25), (23, 24, 26), (7, 8, 28)]

/-- `panels[i]` (core/meshes.py 18-436). -/
def panel (i : ℕ) : Face := panels.getD i (0, 0, 0)
/-- `panels_to_edges[i]` (core/meshes.py 18-436). -/
def panelToEdges (i : ℕ) : ℕ × ℕ × ℕ := panelsToEdges.getD i (0, 0, 0)
/-- `panel_edges[e]` (core/meshes.py 18-436). -/
def panelEdge (e : ℕ) : ℕ × ℕ := panelEdges.getD e (0, 0)

/-- `v in face` (Python; core/meshes.py 18-436). -/
def inFace (v : ℕ) (f : Face) : Bool := v == f.1 || v == f.2.1 || v == f.2.2

/-- The check of the tables, core/meshes.py:194-200. -/
def tablesOk : Bool :=
  (panelsToEdges.zip panels).all fun (es, f) =>
    [panelEdge es.1, panelEdge es.2.1, panelEdge es.2.2].all fun e => inFace e.1 f && inFace e.2 f

/-- `num_edge_vertices`, core/meshes.py:204. -/
def numEdgeVertices (N : ℕ) : ℕ := 30 * (N - 1)
/-- `num_face_vertices`, core/meshes.py:205. -/
def numFaceVertices (N : ℕ) : ℕ := 20 * (N - 1) * (N - 2) / 2
/-- `total_num_vertices`, core/meshes.py:203, 206. -/
def totalNumVertices (N : ℕ) : ℕ := 12 + numEdgeVertices N + numFaceVertices N
/-- `num_faces_per_panel`, core/meshes.py:209-210. -/
def numFacesPerPanel (N : ℕ) : ℕ := N * (N + 1) / 2 + N * (N - 1) / 2
/-- `vertices_per_edge`, core/meshes.py:272. -/
def verticesPerEdge (N : ℕ) : ℕ := numEdgeVertices N / panelEdges.length
/-- `vertices_per_face`, core/meshes.py:273. -/
def verticesPerFace (N : ℕ) : ℕ := numFaceVertices N / panels.length

/-- `np.linspace(0, 1, num)[j]` (numpy; core/meshes.py 18-436). -/
noncomputable def linspace01 (num j : ℕ) : ℝ := (j : ℝ) / ((num : ℝ) - 1)

section Vertices
variable {V : Type*} [AddCommGroup V] [Module ℝ V]

/-- `edge_vertices`, core/meshes.py:220-236. -/
noncomputable def edgeVertices (base : ℕ → V) (N : ℕ) : List V :=
  panelEdges.flatMap fun edge => (List.range (N - 1)).map fun j =>
    base edge.1 + linspace01 (N + 1) (j + 1) • (base edge.2 - base edge.1)

/-- `face_vertices`, core/meshes.py:239-259. -/
noncomputable def faceVertices (base : ℕ → V) (N : ℕ) : List V :=
  panelsToEdges.flatMap fun es => (List.range (N - 2)).flatMap fun j =>
    let x0 := (edgeVertices base N).getD (es.2.1 * (N - 1) + j) 0
    let x1 := (edgeVertices base N).getD (es.2.2 * (N - 1) + j) 0
    (List.range (N - j - 2)).map fun k => x0 + linspace01 (N - j) (k + 1) • (x1 - x0)

/-- `all_vertices`, core/meshes.py:262-266. -/
noncomputable def allVertices (base : ℕ → V) (N : ℕ) : List V :=
  (List.range 12).map base ++ edgeVertices base N ++ faceVertices base N

end Vertices

/-- `range(start, start + len)[idx]` with Python's negative indices; `bad` stands for `IndexError`
(Python; core/meshes.py 18-436). -/
def pyRange (start len bad : ℕ) (idx : ℤ) : ℕ :=
  if 0 ≤ idx ∧ idx < len then start + idx.toNat
  else if -len ≤ idx ∧ idx < 0 then start + (len + idx).toNat
  else bad

/-- `indices_of_edge_vertices[c, idx]` for the edge with number `e`, core/meshes.py:292-294. -/
def edgeIndex (N e : ℕ) (idx : ℤ) : ℕ :=
  pyRange (12 + e * verticesPerEdge N) (verticesPerEdge N) (totalNumVertices N) idx

/-- `indices_of_face_vertices[idx]` of panel `i`, core/meshes.py:297-299. -/
def faceIndex (N i : ℕ) (idx : ℤ) : ℕ :=
  pyRange (12 + numEdgeVertices N + i * verticesPerFace N) (verticesPerFace N) (totalNumVertices N) idx

/-- `this_panel_faces[face_counter, 0]` of the triangles oriented with the panel, core/meshes.py:334-350. -/
def upVertex0 (N i j k : ℕ) : ℕ :=
  if j = 0 then
    if k = 0 then (panel i).1 else edgeIndex N (panelToEdges i).1 ((k : ℤ) - 1)
  else
    if k = 0 then edgeIndex N (panelToEdges i).2.1 ((j : ℤ) - 1)
    else faceIndex N i ((verticesPerFace N : ℤ) - ((N : ℤ) - j - 1) * ((N : ℤ) - j) / 2 + k - 1)

/-- `this_panel_faces[face_counter, 1]` of the triangles oriented with the panel, core/meshes.py:340-343, 352-358. -/
def upVertex1 (N i j k : ℕ) : ℕ :=
  if j = 0 then
    if (k : ℤ) = (N : ℤ) - j - 1 then (panel i).2.1 else edgeIndex N (panelToEdges i).1 k
  else
    if (k : ℤ) = (N : ℤ) - j - 1 then edgeIndex N (panelToEdges i).2.2 ((j : ℤ) - 1)
    else faceIndex N i ((verticesPerFace N : ℤ) - ((N : ℤ) - j - 1) * ((N : ℤ) - j) / 2 + k)

/-- `this_panel_faces[face_counter, 2]` of the triangles oriented with the panel, core/meshes.py:361-371. -/
def upVertex2 (N i j k : ℕ) : ℕ :=
  if (j : ℤ) = (N : ℤ) - 1 then (panel i).2.2
  else if k = 0 then edgeIndex N (panelToEdges i).2.1 j
  else if (k : ℤ) = (N : ℤ) - j - 1 then edgeIndex N (panelToEdges i).2.2 j
  else faceIndex N i ((verticesPerFace N : ℤ) - ((N : ℤ) - j - 2) * ((N : ℤ) - j - 1) / 2 + k - 1)

/-- `this_panel_faces[face_counter, 0]` of the triangles oriented against the panel, core/meshes.py:384-389. -/
def downVertex0 (N i j k : ℕ) : ℕ :=
  if j = 0 then edgeIndex N (panelToEdges i).1 k
  else faceIndex N i ((verticesPerFace N : ℤ) - ((N : ℤ) - j - 1) * ((N : ℤ) - j) / 2 + k)

/-- `this_panel_faces[face_counter, 1]` of the triangles oriented against the panel, core/meshes.py:392-397. -/
def downVertex1 (N i j k : ℕ) : ℕ :=
  if (k : ℤ) = (N : ℤ) - j - 2 then edgeIndex N (panelToEdges i).2.2 j
  else faceIndex N i ((verticesPerFace N : ℤ) - ((N : ℤ) - j - 2) * ((N : ℤ) - j - 1) / 2 + k)

/-- `this_panel_faces[face_counter, 2]` of the triangles oriented against the panel, core/meshes.py:400-405. -/
def downVertex2 (N i j k : ℕ) : ℕ :=
  if k = 0 then edgeIndex N (panelToEdges i).2.1 j
  else faceIndex N i ((verticesPerFace N : ℤ) - ((N : ℤ) - j - 2) * ((N : ℤ) - j - 1) / 2 + k - 1)

/-- `this_panel_faces` of panel `i`, core/meshes.py:303-407. -/
def panelFaces (N i : ℕ) : List Face :=
  (List.range N).flatMap fun j =>
    ((List.range (N - j)).map fun k => (upVertex0 N i j k, upVertex1 N i j k, upVertex2 N i j k)) ++
    (if j < N - 1 then
      (List.range (N - j - 1)).map fun k => (downVertex0 N i j k, downVertex1 N i j k, downVertex2 N i j k)
    else [])

/-- `all_faces`, core/meshes.py:271, 275-278, 409-412. -/
def allFaces (N : ℕ) : List Face :=
  if 1 < N then (List.range panels.length).flatMap (panelFaces N) else panels

/-- How often a number occurs in a triangle (specification; core/meshes.py 18-436). -/
def occ (f : Face) (v : ℕ) : ℕ := (if f.1 = v then 1 else 0) + (if f.2.1 = v then 1 else 0) + (if f.2.2 = v then 1 else 0)

/-- `np.count_nonzero(all_faces == i)`, core/meshes.py:416. -/
def numOccurrences (N v : ℕ) : ℕ := ((allFaces N).map fun f => occ f v).sum

/-- The check of the numbers of occurrences, core/meshes.py:414-419. -/
def occurrencesOk (N : ℕ) : Bool :=
  (List.range (totalNumVertices N)).all fun v => numOccurrences N v == 5 || numOccurrences N v == 6

/-- The exceptions (core/meshes.py 18-436). -/
inductive Err | runtimeError | valueError
  deriving DecidableEq

/-- The point of the sphere of the given radius in the direction of `x`: `coords *= radius / norm(coords)`,
core/meshes.py:424-425, 430. -/
noncomputable def pushOut (radius : ℝ) (x : EuclideanSpace ℝ (Fin 3)) : EuclideanSpace ℝ (Fin 3) := (radius / ‖x‖) • x

/-- `phi`, core/meshes.py:71. -/
noncomputable def phi : ℝ := (1 + √5) / 2

/-- `base_vertices`, core/meshes.py:73-85. -/
noncomputable def baseVertices (v : ℕ) : EuclideanSpace ℝ (Fin 3) :=
  ([!₂[-1, phi, 0], !₂[1, phi, 0], !₂[-1, -phi, 0], !₂[1, -phi, 0], !₂[0, -1, phi], !₂[0, 1, phi], !₂[0, -1, -phi],
    !₂[0, 1, -phi], !₂[phi, 0, -1], !₂[phi, 0, 1], !₂[-phi, 0, -1], !₂[-phi, 0, 1]] : List (EuclideanSpace ℝ (Fin 3))).getD v 0

/-- The triangles and the points given to `mesh.Mesh`, core/meshes.py:40-44, 414-426. -/
noncomputable def icosphere (radius : ℝ) (num degree : ℤ) : Except Err (List Face × List (EuclideanSpace ℝ (Fin 3))) :=
  if num < 1 then .error .runtimeError
  else if degree < 1 then .error .valueError
  else if tablesOk = false then .error .valueError
  else if occurrencesOk num.toNat = false then .error .valueError
  else .ok (allFaces num.toNat, (allVertices baseVertices num.toNat).map (pushOut radius))

/-- The nodes of the coordinate field of higher degree, core/meshes.py:427-431: the field is interpolated from the linear
one, then every node is pushed out. -/
noncomputable def higherDegree (radius : ℝ) (nodes : List (EuclideanSpace ℝ (Fin 3))) : List (EuclideanSpace ℝ (Fin 3)) :=
  nodes.map (pushOut radius)

end Gusto.Icosphere
