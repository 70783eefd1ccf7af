import Verif.Props.Recovery
import Verif.Model.Recoverer

set_option autoImplicit false
set_option linter.unusedSectionVars false
set_option linter.unusedSimpArgs false

/-! # C128: the recovery operator, from the constructor to the recovered field -/

namespace Gusto.Props.RecovererProps
open Gusto.Recovery Gusto.Spec.Recovery Gusto.Props.RecoveryProps

/-! ### Which recoveries are accepted -/

/-- The documented conditions on the boundary method, as the constructor enforces them. -/
def BoundaryOk (s : Src) (t : Target) : Option BMethod → Prop
  | none => True
  | some .extruded => t.vectorElt = false ∧ t.extruded = true ∧ t.vertDegree = some 1
  | some .hcurl => t.extruded = true ∧ t.horiVertDegree = some 1
  | some .taylor => s = .function ∧ (t.vectorElt = true ∨ t.cg1 = true)
  | some .invalid => False

theorem map_ok {α β : Type*} (e : Except String α) (f : α → β) :
    (∃ r, e.map f = .ok r) ↔ ∃ a, e = .ok a := by
  cases e <;> simp [Except.map]

/-- **C128** (constructor).  Exactly the recoveries that are accepted. -/
theorem C128_accepts (s : Src) (t : Target) (method : String) (b : Option BMethod) :
    (∃ r, recInit s t method b = .ok r) ↔
      s ≠ .other ∧ (method = "project" ∨ method = "interpolate") ∧
        (t.vectorElt = true → t.shape = [t.defaultDim]) ∧ BoundaryOk s t b := by
  obtain ⟨v, sh, dd, ex, cg, vd, hd⟩ := t
  by_cases h1 : s = .other
  · subst h1; simp [recInit, bind, Except.bind]
  by_cases h2 : method ≠ "project" ∧ method ≠ "interpolate"
  · have : ¬ (method = "project" ∨ method = "interpolate") := by tauto
    simp [recInit, bind, Except.bind, h1, h2]
  have h2' : method = "project" ∨ method = "interpolate" := by tauto
  have h2'' : (method = "project" → False) → method = "interpolate" := fun h => h2'.resolve_left h
  by_cases h3 : v = true ∧ sh ≠ [dd]
  · obtain ⟨rfl, h3⟩ := h3
    have h3' : ¬ [dd] = sh := fun h => h3 h.symm
    simp only [recInit, bind, Except.bind, h1, h2, h3', pure, Except.pure, ne_eq, if_false, if_true,
      not_false_eq_true]
    simp [h3]
  have h3' : (if v = true then [dd] else sh) = sh := by
    split
    · rename_i hv; exact (not_not.mp fun h => h3 ⟨hv, h⟩).symm
    · rfl
  have h3'' : v = true → sh = [dd] := fun hv => not_not.mp fun h => h3 ⟨hv, h⟩
  simp only [recInit, bind, Except.bind, h1, h2, h3', pure, Except.pure, ne_eq, not_true_eq_false,
    if_false, not_false_eq_true, true_and, h2']
  rcases b with _ | b
  · simpa [BoundaryOk] using h3''
  · cases b
    · cases v <;> cases ex <;> rcases vd with _ | d <;>
        simp [BoundaryOk, boundaryInit, kernelExtruded, Except.map] <;>
        by_cases hd1 : d = 1 <;> simp [hd1]
    · cases ex <;> rcases hd with _ | d <;>
        simp [BoundaryOk, boundaryInit, kernelHCurl, Except.map] <;>
        by_cases hd1 : d = 1 <;> simp [hd1] <;> exact h3''
    · cases s <;> cases v <;> cases cg <;>
        simp_all [BoundaryOk, boundaryInit, Except.map, Target.scalarCG1]
    · simp [BoundaryOk]

/-- A vector DG0 field recovered to vector CG1 on a plane mesh. -/
def exVector : Target :=
  { vectorElt := true, shape := [2], defaultDim := 2, extruded := false, cg1 := false,
    vertDegree := none, horiVertDegree := none }

/-- A scalar field recovered to CG1 on an extruded mesh. -/
def exScalar : Target :=
  { vectorElt := false, shape := [], defaultDim := 2, extruded := true, cg1 := true,
    vertDegree := some 1, horiVertDegree := none }

/-- An HCurl space on an extruded mesh. -/
def exHCurl : Target :=
  { vectorElt := false, shape := [3], defaultDim := 3, extruded := true, cg1 := false,
    vertDegree := some 1, horiVertDegree := some 1 }

example : recInit .function exVector "interpolate" (some .taylor) =
      .ok { vector := true, l2 := false, bmethod := some .taylor, bstate := .perComponent 2 } ∧
    recInit .function exScalar "project" (some .extruded) =
      .ok { vector := false, l2 := true, bmethod := some .extruded, bstate := .single .extruded } ∧
    recInit .function exHCurl "project" (some .hcurl) =
      .ok { vector := false, l2 := true, bmethod := some .hcurl, bstate := .single .hcurl } ∧
    recInit .expr exScalar "interpolate" none =
      .ok { vector := false, l2 := false, bmethod := none, bstate := .none } := by
  refine ⟨?_, ?_, ?_, ?_⟩ <;> rfl

/-! ### What `project` computes -/

variable {S B F C : Type*}

/-- The recovered field, as documented: into the broken space, average, correct the boundary (component
by component on a vector space). -/
def recovered (o : RecOps S B F C) (t : Target) (method : String) (b : Option BMethod) (x : S) : F :=
  let y := o.avg (if method = "project" then o.proj x else o.interp x)
  match b with
  | none => y
  | some m =>
    if t.vectorElt then o.combine ((List.range t.shape.prod).map fun i => o.boundaryC i (o.comp i y))
    else o.boundary m y

theorem fold_scalars (o : RecOps S B F C) (n : ℕ) (st : RecState S B F C) :
    let st' := (List.range n).foldl (fun st i =>
        let c := o.comp i st.xOut
        { st with scalars := Function.update st.scalars i (o.boundaryC i c) }) st
    st'.xIn = st.xIn ∧ st'.xBrok = st.xBrok ∧ st'.xOut = st.xOut ∧
      ∀ i, st'.scalars i = if i < n then o.boundaryC i (o.comp i st.xOut) else st.scalars i := by
  induction n with
  | zero => simp
  | succ n ih =>
    simp only [List.range_succ, List.foldl_append, List.foldl_cons, List.foldl_nil] at ih ⊢
    obtain ⟨h1, h2, h3, h4⟩ := ih
    refine ⟨h1, h2, h3, fun i => ?_⟩
    rw [h3]
    by_cases hi : i = n
    · subst hi; simp
    · rw [Function.update_of_ne hi, h4]
      by_cases h : i < n
      · rw [if_pos h, if_pos (by omega)]
      · rw [if_neg h, if_neg (by omega)]

/-- **C128** (`project`).  For every accepted recovery other than the hcurl method on a VectorElement,
and in every state of the object, `project` puts the recovered field in the output, whatever it held, and
does not change the source. -/
theorem C128_result (o : RecOps S B F C) (s : Src) (t : Target) (method : String) (b : Option BMethod)
    (r : Rec) (hr : recInit s t method b = .ok r) (hc : ¬ (t.vectorElt = true ∧ b = some .hcurl))
    (st : RecState S B F C) :
    ∃ st', recProject o r st = .ok st' ∧ st'.xIn = st.xIn ∧
      st'.xOut = recovered o t method b st.xIn := by
  obtain ⟨v, sh, dd, ex, cg, vd, hd⟩ := t
  have hok := (C128_accepts s ⟨v, sh, dd, ex, cg, vd, hd⟩ method b).mp ⟨r, hr⟩
  obtain ⟨h1, h2, h3, h4⟩ := hok
  have h2' : ¬ (method ≠ "project" ∧ method ≠ "interpolate") := by tauto
  have h3' : (if v = true then [dd] else sh) = sh := by
    split
    · rename_i hv; exact (h3 hv).symm
    · rfl
  simp only [recInit, bind, Except.bind, h1, h2', h3', pure, Except.pure, ne_eq, not_true_eq_false,
    if_false, not_false_eq_true] at hr
  rcases b with _ | b
  · simp only [Except.ok.injEq] at hr
    subst hr
    refine ⟨_, rfl, rfl, ?_⟩
    by_cases hm : method = "project" <;> simp [recovered, hm]
  · cases b
    · obtain ⟨hv, he, hdv⟩ := h4
      dsimp only at hv he hdv
      subst hv; subst he; subst hdv
      simp [boundaryInit, kernelExtruded, Except.map] at hr
      subst hr
      refine ⟨_, rfl, rfl, ?_⟩
      by_cases hm : method = "project" <;> simp [recovered, hm]
    · obtain ⟨he, hdv⟩ := h4
      have hv : v = false := by
        cases v
        · rfl
        · exact absurd ⟨rfl, rfl⟩ hc
      dsimp only at he hdv
      subst hv; subst he; subst hdv
      simp [boundaryInit, kernelHCurl, Except.map] at hr
      subst hr
      refine ⟨_, rfl, rfl, ?_⟩
      by_cases hm : method = "project" <;> simp [recovered, hm]
    · obtain ⟨hs, hv⟩ := h4
      subst hs
      dsimp only at hv
      cases v
      · have hcg : cg = true := by simpa using hv
        subst hcg
        simp [boundaryInit, Except.map] at hr
        subst hr
        refine ⟨_, rfl, rfl, ?_⟩
        by_cases hm : method = "project" <;> simp [recovered, hm]
      · simp [boundaryInit, Except.map, Target.scalarCG1] at hr
        subst hr
        have hf := fold_scalars o sh.prod
          { st with xBrok := (if method = "project" then o.proj st.xIn else o.interp st.xIn),
                    xOut := o.avg (if method = "project" then o.proj st.xIn else o.interp st.xIn) }
        obtain ⟨f1, f2, f3, f4⟩ := hf
        simp only [recProject, Option.isSome_some, if_true, decide_eq_true_eq]
        refine ⟨_, rfl, f1, ?_⟩
        simp only [recovered, if_true]
        congr 1
        refine List.map_congr_left fun i hi => ?_
        rw [f4 i, if_pos (List.mem_range.mp hi)]
    · exact absurd h4 id

/-- The states after calls of `project` with successive values of the source. -/
def runs (o : RecOps S B F C) (r : Rec) (st : RecState S B F C) :
    List S → Except String (RecState S B F C)
  | [] => .ok st
  | x :: xs => (recProject o r { st with xIn := x }).bind fun st => runs o r st xs

/-- **C128** (histories).  After any sequence of calls with changing sources, the output is the
recovery of the last source. -/
theorem C128_history (o : RecOps S B F C) (s : Src) (t : Target) (method : String) (b : Option BMethod)
    (r : Rec) (hr : recInit s t method b = .ok r) (hc : ¬ (t.vectorElt = true ∧ b = some .hcurl))
    (st : RecState S B F C) (xs : List S) (x : S) :
    ∃ st', runs o r st (xs ++ [x]) = .ok st' ∧ st'.xIn = x ∧
      st'.xOut = recovered o t method b x := by
  induction xs generalizing st with
  | nil =>
    obtain ⟨st', h1, h2, h3⟩ := C128_result o s t method b r hr hc { st with xIn := x }
    exact ⟨st', by simp [runs, h1, Except.bind], h2, h3⟩
  | cons y ys ih =>
    obtain ⟨st', h1, -, -⟩ := C128_result o s t method b r hr hc { st with xIn := y }
    obtain ⟨st'', h4, h5, h6⟩ := ih st'
    exact ⟨st'', by simp only [List.cons_append, runs, h1, Except.bind]; exact h4, h5, h6⟩

/-! ### The Taylor method on vector fields -/

section Taylor
variable {K : Type*} [Field K] [LinearOrder K] [IsStrictOrderedRing K] {ι : Type*} [DecidableEq ι]

/-- **C128** (scalar case).  With one value per cell and the same coordinates for every vertex, the
boundary correction is that of the scalar recovery of C31. -/
theorem C128_scalar (dim n : ℕ) (boundary : ι → Bool)
    (cells : List ((ℕ → ι) × (ℕ → K) × (ℕ → ℕ → K))) (q : List K) (i : ℕ) :
    taylorRecover dim n boundary cells q =
      taylorBoundary dim n boundary
        (cells.map fun c => { node := c.1, v0 := fun _ _ d => c.2.1 d, vertex := c.2.2 }) i
        (average n ((cells.zip q).map fun c => (c.1.1, fun _ => c.2))) := by
  simp only [taylorRecover, taylorBoundary, List.zipIdx_map, List.map_map]
  congr 1
  refine List.map_congr_left fun c _ => ?_
  simp only [Function.comp, vectorEffCoords, effCoords, List.map_map, Prod.map, id]
  rfl

/-- **C128** (components).  The components of a recovered vector field do not interact: component `i`
is the Taylor correction of the average of component `i` of the source. -/
theorem C128_components (dim n size : ℕ) (boundary : ι → Bool) (cells : List (VCell K ι))
    (t : Target) (ht : t.vectorElt = true) (hs : t.shape = [size]) (method : String)
    (x : List (ℕ → ℕ → K)) (i : ℕ) (hi : i < size) :
    recovered (vectorOps dim n size boundary cells) t method (some .taylor) x i =
      taylorBoundary dim n boundary cells i
        (average n ((cells.zip x).map fun c => (c.1.node, fun k => c.2 i k))) := by
  simp only [recovered, ht, if_true, hs, List.prod_cons, List.prod_nil, mul_one, vectorOps, ite_self,
    hi, List.getD_eq_getElem?_getD, List.getElem?_map, List.getElem?_range hi, Option.map_some,
    Option.getD_some]

/-- Averages of affine functions of vertex data. -/
theorem average_affine' (n : ℕ) {γ : Type*} (cells : List γ) (node : γ → ℕ → ι) (z : γ → ℕ → ℕ → K)
    (dim : ℕ) (b : ℕ → K) (x : ι) (hx : ∃ c ∈ cells, ∃ i < n, node c i = x) :
    average n (cells.map fun c => (node c, fun k => affine dim b (z c k))) x =
      affine dim b fun d => average n (cells.map fun c => (node c, fun k => z c k d)) x := by
  induction dim with
  | zero =>
    simp only [affine, Finset.range_zero, Finset.sum_empty, add_zero]
    refine C30_continuous n _ (fun _ => b 0) ?_ x ?_
    · intro c hc i hi
      obtain ⟨d, _, rfl⟩ := List.mem_map.mp hc
      rfl
    · obtain ⟨c, hc, i, hi, h⟩ := hx
      exact ⟨_, List.mem_map.mpr ⟨c, hc, rfl⟩, i, hi, h⟩
  | succ dim ih =>
    simp only [affine, Finset.sum_range_succ] at ih ⊢
    have := C30_linear n 1 (b (dim + 1)) cells node
      (fun c k => b 0 + ∑ d ∈ Finset.range dim, b (d + 1) * z c k d) (fun c k => z c k dim) x
    simp only [one_mul] at this
    rw [← add_assoc, ← ih, ← this]
    simp only [add_assoc]

/-- The Taylor correction reproduces affine functions. -/
theorem taylorBoundary_affine (c : Cell) (boundary : ι → Bool) (X : ι → ℕ → K)
    (cells : List (VCell K ι)) (i : ℕ)
    (hX : ∀ e ∈ cells, ∀ k < c.vertices, ∀ d, e.vertex k d = X (e.node k) d)
    (hint : ∀ e ∈ cells, ∀ k < c.vertices, boundary (e.node k) = false → ∀ d < c.dim,
      average c.vertices (cells.map fun e => (e.node, fun k => e.v0 i k d)) (e.node k) =
        X (e.node k) d)
    (hU : ∀ e ∈ cells, (∃ k < c.vertices, boundary (e.node k) = true) →
      c.Unisolvent fun k d =>
        average c.vertices (cells.map fun e => (e.node, fun k => e.v0 i k d)) (e.node k))
    (b : ℕ → K) (x : ι) (hx : ∃ e ∈ cells, ∃ k < c.vertices, e.node k = x) :
    taylorBoundary c.dim c.vertices boundary cells i
      (average c.vertices (cells.map fun e => (e.node, fun k => affine c.dim b (e.v0 i k)))) x =
      affine c.dim b (X x) := by
  have hpos : 0 < c.vertices := by cases c <;> decide
  have heff : ∀ (j : ℕ) (e), cells[j]? = some e → ∀ k < c.vertices, ∀ d,
      ((vectorEffCoords c.vertices cells i d)[j]?.getD fun _ => 0) k =
        average c.vertices (cells.map fun e => (e.node, fun k => e.v0 i k d)) (e.node k) := by
    intro j e hj k hk d
    have he : e ∈ cells := List.mem_of_getElem? hj
    have hav : average c.vertices (cells.map fun e => (e.node, fun k => e.vertex k d)) (e.node k) =
        X (e.node k) d := by
      refine C30_continuous c.vertices _ (fun y => X y d) ?_ _ ?_
      · intro a ha m hm
        obtain ⟨e', he', rfl⟩ := List.mem_map.mp ha
        exact hX e' he' m hm d
      · exact ⟨_, List.mem_map.mpr ⟨e, he, rfl⟩, k, hk, rfl⟩
    simp only [vectorEffCoords, List.getElem?_map, hj, Option.map_some, Option.getD_some]
    rw [hav, hX e he k hk d, sub_self, add_zero]
  have hfirst : ∀ y, (∃ e ∈ cells, ∃ k < c.vertices, e.node k = y) →
      average c.vertices (cells.map fun e => (e.node, fun k => affine c.dim b (e.v0 i k))) y =
        affine c.dim b fun d =>
          average c.vertices (cells.map fun e => (e.node, fun k => e.v0 i k d)) y := fun y hy =>
    average_affine' c.vertices cells (fun e => e.node) (fun e => e.v0 i) c.dim b y hy
  unfold taylorBoundary
  refine C30_continuous c.vertices _ (fun y => affine c.dim b (X y)) ?_ x ?_
  · intro a ha k hk
    obtain ⟨⟨e, j⟩, hej, rfl⟩ := List.mem_map.mp ha
    have hj : cells[j]? = some e := List.mem_zipIdx_iff_getElem?.mp hej
    have he : e ∈ cells := List.mem_of_getElem? hj
    dsimp only
    rcases numExt_pos_or (K := K) c.vertices hpos boundary e.node with ⟨h1, h2⟩ | ⟨h1, h2⟩
    · have hold : ∀ m < c.vertices,
          average c.vertices (cells.map fun e => (e.node, fun k => affine c.dim b (e.v0 i k)))
            (e.node m) =
          c.poly (affineCoeff b c) fun d =>
            ((vectorEffCoords c.vertices cells i d)[j]?.getD fun _ => 0) m := by
        intro m hm
        rw [(affineCoeff_spec c b _).2, hfirst _ ⟨e, he, m, hm, rfl⟩]
        congr 1
        funext d
        rw [heff j e hj m hm d]
      have hUe : c.Unisolvent fun k d =>
          ((vectorEffCoords c.vertices cells i d)[j]?.getD fun _ => 0) k := by
        intro b' hb' hz
        refine hU e he h2 b' hb' fun m hm => ?_
        have := hz m hm
        rw [← this]
        congr 1
        funext d
        exact (heff j e hj m hm d).symm
      rw [C31_reproduces c _ h1 _ _ _ _ hUe (affineCoeff b c) (affineCoeff_spec c b (X x)).1 hold k hk,
        (affineCoeff_spec c b _).2]
      congr 1
      funext d
      exact hX e he k hk d
    · rw [C31_interior c _ h1 _ _ _ _ k hk, hfirst _ ⟨e, he, k, hk, rfl⟩]
      unfold affine
      congr 1
      refine Finset.sum_congr rfl fun d hd => ?_
      exact congrArg _ (hint e he k hk (h2 k hk) d (Finset.mem_range.mp hd))
  · obtain ⟨e, he, k, hk, hxe⟩ := hx
    obtain ⟨j, hj⟩ := List.getElem?_of_mem he
    exact ⟨_, List.mem_map.mpr ⟨(e, j), List.mem_zipIdx_iff_getElem?.mpr hj, rfl⟩, k, hk, hxe⟩

theorem zip_self_map {γ δ : Type*} (l : List γ) (f : γ → δ) :
    l.zip (l.map f) = l.map fun e => (e, f e) := by
  induction l with
  | nil => rfl
  | cons a as ih => rw [List.map_cons, List.zip_cons_cons, ih, List.map_cons]

/-- **C128** (second order up to the boundary, for vector fields).  Let `project` be called, in any
state, on a recoverer accepted with the Taylor method for a vector CG1 target, on a mesh that is not
periodic.  If component `i` of the source is an affine function `a i` evaluated at the coordinates that
the source space gives to its degrees of freedom for that component, these coordinates average to the
node at interior nodes, and the effective coordinates of the cells touching the boundary are unisolvent,
then the recovered component is that affine function at every node. -/
theorem C128_affine (c : Cell) (size : ℕ) (boundary : ι → Bool) (X : ι → ℕ → K)
    (cells : List (VCell K ι)) (t : Target) (method : String) (r : Rec)
    (hr : recInit .function t method (some .taylor) = .ok r)
    (ht : t.vectorElt = true) (hs : t.shape = [size])
    (hX : ∀ e ∈ cells, ∀ k < c.vertices, ∀ d, e.vertex k d = X (e.node k) d)
    (hint : ∀ i < size, ∀ e ∈ cells, ∀ k < c.vertices, boundary (e.node k) = false → ∀ d < c.dim,
      average c.vertices (cells.map fun e => (e.node, fun k => e.v0 i k d)) (e.node k) =
        X (e.node k) d)
    (hU : ∀ i < size, ∀ e ∈ cells, (∃ k < c.vertices, boundary (e.node k) = true) →
      c.Unisolvent fun k d =>
        average c.vertices (cells.map fun e => (e.node, fun k => e.v0 i k d)) (e.node k))
    (a : ℕ → ℕ → K)
    (st : RecState (List (ℕ → ℕ → K)) (List (ℕ → ℕ → K)) (ℕ → ι → K) (ι → K))
    (hsrc : st.xIn = cells.map fun e => fun i k => affine c.dim (a i) (e.v0 i k)) :
    ∃ st', recProject (vectorOps c.dim c.vertices size boundary cells) r st = .ok st' ∧
      ∀ i < size, ∀ x, (∃ e ∈ cells, ∃ k < c.vertices, e.node k = x) →
        st'.xOut i x = affine c.dim (a i) (X x) := by
  obtain ⟨st', h1, h2, h3⟩ := C128_result (vectorOps c.dim c.vertices size boundary cells) .function t
    method (some .taylor) r hr (by simp) st
  refine ⟨st', h1, fun i hi x hx => ?_⟩
  rw [h3, C128_components c.dim c.vertices size boundary cells t ht hs method _ i hi, hsrc,
    zip_self_map, List.map_map]
  exact taylorBoundary_affine c boundary X cells i hX (hint i hi) (hU i hi) (a i) x hx

/-- The mesh `[0,1], [1,2]` of an interval, with one value per cell. -/
def exVCells : List (VCell ℚ ℕ) :=
  exMesh.map fun c => { node := c.1, v0 := fun _ _ d => c.2.1 d, vertex := c.2.2 }

example :
    (∀ e ∈ exVCells, ∀ k < Cell.interval.vertices, ∀ d, e.vertex k d = ((e.node k : ℕ) : ℚ)) ∧
    (∀ i < 1, ∀ e ∈ exVCells, ∀ k < Cell.interval.vertices, exBoundary (e.node k) = false →
      ∀ d < Cell.interval.dim,
      average 2 (exVCells.map fun e => (e.node, fun k => e.v0 i k d)) (e.node k) =
        ((e.node k : ℕ) : ℚ)) ∧
    (∀ i < 1, ∀ e ∈ exVCells, (∃ k < Cell.interval.vertices, exBoundary (e.node k) = true) →
      Cell.interval.Unisolvent fun k d =>
        average 2 (exVCells.map fun e => (e.node, fun k => e.v0 i k d)) (e.node k)) ∧
    recInit .function { exVector with shape := [1], defaultDim := 1 } "interpolate" (some .taylor) =
      .ok { vector := true, l2 := false, bmethod := some .taylor, bstate := .perComponent 1 } := by
  have hmem : ∀ e ∈ exMesh, e = (fun i => i, fun _ => 1 / 2, fun (i : ℕ) _ => (i : ℚ)) ∨
      e = (fun i => i + 1, fun _ => 3 / 2, fun (i : ℕ) _ => (i : ℚ) + 1) := by
    intro e he
    simpa [exMesh] using he
  refine ⟨fun e he k hk d => ?_, fun i _ e he k hk hb d hd => ?_, fun i _ e he _ => ?_, rfl⟩
  · obtain ⟨e', he', rfl⟩ := List.mem_map.mp he
    rcases hmem e' he' with rfl | rfl <;> simp
  · have : e.node k = 1 := by simpa [exBoundary] using hb
    rw [this]
    have := (exMesh_avg d).2.1
    exact this.trans (by norm_num)
  · intro b hb h
    obtain ⟨e', he', rfl⟩ := List.mem_map.mp he
    rcases b with _ | ⟨b0, _ | ⟨b1, _ | ⟨b2, b⟩⟩⟩ <;> simp [Cell.vertices] at hb
    have h0 := h 0 (by decide)
    have h1 := h 1 (by decide)
    simp [Cell.vertices, List.replicate]
    have a0 : average 2 (exVCells.map fun e => (e.node, fun k => e.v0 i k 0)) 0 = 1 / 2 :=
      (exMesh_avg 0).1
    have a1 : average 2 (exVCells.map fun e => (e.node, fun k => e.v0 i k 0)) 1 = 1 :=
      (exMesh_avg 0).2.1
    have a2 : average 2 (exVCells.map fun e => (e.node, fun k => e.v0 i k 0)) 2 = 3 / 2 :=
      (exMesh_avg 0).2.2
    rcases hmem e' he' with rfl | rfl
    · simp only [Cell.poly, Cell.monomials, a0, a1] at h0 h1
      simp at h0 h1
      constructor <;> linarith
    · simp only [Cell.poly, Cell.monomials, zero_add, a1, Nat.reduceAdd, a2] at h0 h1
      simp at h0 h1
      constructor <;> linarith

end Taylor

/-! ### Refutations -/

/-- **C128** (refuted: expressions).  The constructor documents that the source may be a UFL
expression, and accepts it, but with the Taylor method an expression raises AttributeError on every
target. -/
theorem C128_expression_refuted (t : Target) (method : String)
    (hm : method = "project" ∨ method = "interpolate")
    (hs : t.vectorElt = true → t.shape = [t.defaultDim]) :
    (∃ r, recInit .expr t method none = .ok r) ∧
      recInit .expr t method (some .taylor) = .error "AttributeError" := by
  refine ⟨(C128_accepts _ _ _ _).mpr ⟨by simp, hm, hs, trivial⟩, ?_⟩
  have h2' : ¬ (method ≠ "project" ∧ method ≠ "interpolate") := by tauto
  have h3' : (if t.vectorElt = true then [t.defaultDim] else t.shape) = t.shape := by
    split
    · rename_i hv; exact (hs hv).symm
    · rfl
  simp [recInit, bind, Except.bind, h2', h3', pure, Except.pure]

/-- **C128** (refuted: vector targets other than CG1).  A scalar target that is not CG1 is rejected with
the Taylor method, as documented; every vector target is accepted, and its values then come from
the CG1 interpolants of its components: the output is in the range of `combine`. -/
theorem C128_vector_target_refuted (o : RecOps S B F C) (t : Target) (hcg : t.cg1 = false)
    (st : RecState S B F C) :
    (t.vectorElt = false → recInit .function t "interpolate" (some .taylor) = .error "ValueError") ∧
    (t.vectorElt = true → t.shape = [t.defaultDim] →
      ∃ r st', recInit .function t "interpolate" (some .taylor) = .ok r ∧
        recProject o r st = .ok st' ∧ ∃ l : List C, st'.xOut = o.combine l) := by
  constructor
  · intro hv
    simp [recInit, bind, Except.bind, hv, hcg, boundaryInit, Except.map, pure, Except.pure]
  · intro hv hs
    obtain ⟨r, hr⟩ := (C128_accepts .function t "interpolate" (some .taylor)).mpr
      ⟨by simp, Or.inr rfl, fun _ => hs, rfl, Or.inl hv⟩
    obtain ⟨st', h1, -, h3⟩ := C128_result o .function t _ _ r hr (by simp) st
    refine ⟨r, st', hr, h1, ?_⟩
    rw [h3]
    simp only [recovered, hv, if_true]
    exact ⟨_, rfl⟩

/-- **C128** (refuted: only scalars for the extruded method).  The constructor means to reject vector
fields ("This method only works for scalar functions") but tests for a VectorElement: an HCurl target is
accepted, and the kernel, which pairs all the degrees of freedom of the cell, changes the vertical ones
that the hcurl kernel leaves alone. -/
theorem C128_extruded_vector_refuted :
    (∃ r, recInit .function exHCurl "project" (some .extruded) = .ok r ∧ exHCurl.shape = [3]) ∧
    ∃ x : ℕ → ℚ, topKernel 4 4 x (fun _ => 0) 9 = x 9 ∧
      topKernel ((2 * 4 + 4) / 2) 0 x (fun _ => 0) 9 ≠ x 9 := by
  refine ⟨⟨_, rfl, rfl⟩, fun i => i, ?_, ?_⟩
  · norm_num [topKernel, List.range_succ, Function.update]
  · norm_num [topKernel, List.range_succ, Function.update]

/-- **C128** (refuted: hcurl on a VectorElement).  If the constructor accepts it, `project` always
raises AttributeError. -/
theorem C128_hcurl_vector_refuted (o : RecOps S B F C) (s : Src) (t : Target) (method : String) (r : Rec)
    (ht : t.vectorElt = true) (hr : recInit s t method (some .hcurl) = .ok r)
    (st : RecState S B F C) : recProject o r st = .error "AttributeError" := by
  obtain ⟨v, sh, dd, ex, cg, vd, hd⟩ := t
  obtain ⟨h1, h2, h3, h4⟩ := (C128_accepts _ _ _ _).mp ⟨r, hr⟩
  dsimp only at ht h3
  subst ht
  obtain ⟨he, hdv⟩ := h4
  dsimp only at he hdv
  have hsh := h3 rfl
  subst hsh; subst he; subst hdv
  have h2' : ¬ (method ≠ "project" ∧ method ≠ "interpolate") := by tauto
  simp [recInit, bind, Except.bind, h1, h2', pure, Except.pure, boundaryInit, kernelHCurl,
    Except.map] at hr
  subst hr
  rfl

example : (∃ r, recInit .function
    { exHCurl with vectorElt := true, shape := [3], defaultDim := 3 } "interpolate" (some .hcurl) =
      .ok r) := ⟨_, rfl⟩

/-- **C128** (refuted: vector spaces of another dimension).  The broken space drops the dimension of a
VectorElement: a target whose dimension is not the default one of its cell (more components than
directions, say) is always rejected with RuntimeError. -/
theorem C128_dimension_refuted (s : Src) (hs : s ≠ .other) (t : Target) (ht : t.vectorElt = true)
    (hd : t.shape ≠ [t.defaultDim]) (method : String)
    (hm : method = "project" ∨ method = "interpolate") (b : Option BMethod) :
    recInit s t method b = .error "RuntimeError" := by
  have h2' : ¬ (method ≠ "project" ∧ method ≠ "interpolate") := by tauto
  have hd' : ¬ [t.defaultDim] = t.shape := fun h => hd h.symm
  simp [recInit, bind, Except.bind, hs, h2', ht, hd', pure, Except.pure]

example : ({ exVector with shape := [3] } : Target).shape ≠ [exVector.defaultDim] := by decide

end Gusto.Props.RecovererProps
