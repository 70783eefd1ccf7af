import Verif.Lemmas.Gauss
import Verif.Spec.Recovery
import Mathlib.Tactic.NormNum
import Mathlib.Tactic.FinCases
import Mathlib.Algebra.Order.BigOperators.Group.List
import Mathlib.Algebra.Order.Ring.Rat

set_option autoImplicit false
set_option linter.unusedSectionVars false
set_option linter.unusedSimpArgs false

/-! # C30, C31, C32: averaging recovery and the boundary kernels -/

namespace Gusto.Props.RecoveryProps
open Gusto.Recovery Gusto.Spec.Recovery
variable {K : Type*} [Field K] [LinearOrder K] [IsStrictOrderedRing K] {ι : Type*} [DecidableEq ι]

/-! ### C30 -/

theorem weightCell_apply (n : ℕ) (node : ℕ → ι) (w : ι → K) (x : ι) :
    weightCell n node w x = w x + (((List.range n).filter fun i => node i = x).length : K) := by
  unfold weightCell
  induction n with
  | zero => simp
  | succ n ih =>
    rw [List.range_succ, List.foldl_append, List.foldl_cons, List.foldl_nil, List.filter_append,
      List.length_append]
    by_cases h : node n = x
    · subst h
      rw [Function.update_self, ih]
      simp; ring
    · rw [Function.update_of_ne (Ne.symm h), ih]
      simp [h]

theorem weighting_apply (n : ℕ) (cells : List ((ℕ → ι) × (ℕ → K))) (x : ι) :
    weighting n (cells.map Prod.fst) x = ((coinciding n cells x).length : K) := by
  have key : ∀ (cs : List ((ℕ → ι) × (ℕ → K))) (w : ι → K),
      (cs.map Prod.fst).foldl (fun w node => weightCell n node w) w x =
        w x + ((coinciding n cs x).length : K) := by
    intro cs
    induction cs with
    | nil => intro w; simp [coinciding]
    | cons c cs ih =>
      intro w
      rw [List.map_cons, List.foldl_cons, ih, weightCell_apply]
      simp [coinciding, List.flatMap_cons]
      ring
  unfold weighting
  rw [key cells]; simp

theorem averageCell_apply (n : ℕ) (w : ι → K) (node : ℕ → ι) (v : ℕ → K) (vo : ι → K) (x : ι) :
    averageCell n w node v vo x =
      vo x + ((((List.range n).filter fun i => node i = x).map v).sum) / w x := by
  unfold averageCell
  induction n with
  | zero => simp
  | succ n ih =>
    rw [List.range_succ, List.foldl_append, List.foldl_cons, List.foldl_nil, List.filter_append,
      List.map_append, List.sum_append]
    by_cases h : node n = x
    · subst h
      rw [Function.update_self, ih]
      simp; ring
    · rw [Function.update_of_ne (Ne.symm h), ih]
      simp [h]

theorem averageLoop_apply (n : ℕ) (w : ι → K) (cells : List ((ℕ → ι) × (ℕ → K))) (vo : ι → K)
    (x : ι) : averageLoop n w cells vo x = vo x + (coinciding n cells x).sum / w x := by
  unfold averageLoop
  induction cells generalizing vo with
  | nil => simp [coinciding]
  | cons c cs ih =>
    rw [List.foldl_cons, ih, averageCell_apply]
    simp only [coinciding, List.flatMap_cons, List.sum_append]
    ring

/-- Use of one `Averager` object several times, the values of the source changing between the
calls. -/
def runAverager (n : ℕ) (s : Averager K ι) (calls : List (List ((ℕ → ι) × (ℕ → K)))) : Averager K ι :=
  calls.foldl (fun s cells => Averager.project n cells s) s

/-- **C30**.  After any number of earlier calls on the same mesh, with any earlier content of the
output, `project` gives at every degree of freedom the arithmetic mean of the coinciding values. -/
theorem C30_mean (n : ℕ) (mesh : List (ℕ → ι)) (out : ι → K)
    (calls : List (List ((ℕ → ι) × (ℕ → K)))) (hc : ∀ c ∈ calls, c.map Prod.fst = mesh)
    (cells : List ((ℕ → ι) × (ℕ → K))) (hm : cells.map Prod.fst = mesh) (x : ι) :
    (Averager.project n cells (runAverager n { cache := none, out := out } calls)).out x =
      mean (coinciding n cells x) := by
  have inv : ∀ (calls : List (List ((ℕ → ι) × (ℕ → K)))) (s : Averager K ι),
      (∀ c ∈ calls, c.map Prod.fst = mesh) →
      (s.cache = none ∨ s.cache = some (weighting n mesh)) →
      ((runAverager n s calls).cache = none ∨
        (runAverager n s calls).cache = some (weighting n mesh)) := by
    intro calls
    induction calls with
    | nil => intro s _ h; exact h
    | cons c cs ih =>
      intro s hc h
      refine ih _ (fun d hd => hc d (List.mem_cons_of_mem _ hd)) (Or.inr ?_)
      rcases h with h | h
      · simp only [Averager.project, h, hc c (List.mem_cons_self ..), Option.getD_none]
      · simp only [Averager.project, h, Option.getD_some]
  have hw : (runAverager n ({ cache := none, out := out } : Averager K ι) calls).cache.getD
      (weighting n (cells.map Prod.fst)) = weighting n (cells.map Prod.fst) := by
    rcases inv calls { cache := none, out := out } hc (Or.inl rfl) with h | h
    · rw [h]; rfl
    · rw [h, hm]; rfl
  show averageLoop n _ cells (fun _ => 0) x = _
  rw [hw, averageLoop_apply, weighting_apply, zero_add, mean]

example : ([] : List (List ((ℕ → ℕ) × (ℕ → ℚ)))) = [] ∧
    [((fun i => i : ℕ → ℕ), (fun _ => 3 : ℕ → ℚ)), (fun i => i + 1, fun _ => 5)].map Prod.fst =
      [fun i => i, fun i => i + 1] ∧
    mean (coinciding 2 [((fun i => i : ℕ → ℕ), (fun _ => 3 : ℕ → ℚ)), (fun i => i + 1, fun _ => 5)] 1)
      = 4 := by
  refine ⟨rfl, rfl, ?_⟩
  norm_num [mean, coinciding, List.range_succ]

theorem average_apply (n : ℕ) (cells : List ((ℕ → ι) × (ℕ → K))) (x : ι) :
    average n cells x = mean (coinciding n cells x) :=
  C30_mean n (cells.map Prod.fst) (fun _ => 0) [] (by simp) cells rfl x

theorem mem_coinciding {n : ℕ} {cells : List ((ℕ → ι) × (ℕ → K))} {x : ι} {v : K} :
    v ∈ coinciding n cells x ↔ ∃ c ∈ cells, ∃ i < n, c.1 i = x ∧ c.2 i = v := by
  simp only [coinciding, List.mem_flatMap, List.mem_map, List.mem_filter, List.mem_range,
    decide_eq_true_eq]
  constructor
  · rintro ⟨c, hc, i, ⟨hi, hx⟩, hv⟩; exact ⟨c, hc, i, hi, hx, hv⟩
  · rintro ⟨c, hc, i, hi, hx, hv⟩; exact ⟨c, hc, i, ⟨hi, hx⟩, hv⟩

theorem mean_le {l : List K} {b : K} (h0 : l ≠ []) (h : ∀ v ∈ l, v ≤ b) : mean l ≤ b := by
  have hpos : (0 : K) < l.length := by
    have := List.length_pos_iff.mpr h0
    exact_mod_cast this
  unfold mean
  rw [div_le_iff₀ hpos]
  have := List.sum_le_card_nsmul l b h
  rw [nsmul_eq_mul, mul_comm] at this
  exact this

theorem le_mean {l : List K} {b : K} (h0 : l ≠ []) (h : ∀ v ∈ l, b ≤ v) : b ≤ mean l := by
  have hpos : (0 : K) < l.length := by
    have := List.length_pos_iff.mpr h0
    exact_mod_cast this
  unfold mean
  rw [le_div_iff₀ hpos]
  have := List.card_nsmul_le_sum l b h
  rw [nsmul_eq_mul, mul_comm] at this
  exact this

/-- **C30** (bounds).  The average lies between any lower and any upper bound of the coinciding
values, hence between their minimum and maximum. -/
theorem C30_bounds (n : ℕ) (cells : List ((ℕ → ι) × (ℕ → K))) (x : ι) (lo hi : K)
    (hx : ∃ c ∈ cells, ∃ i < n, c.1 i = x)
    (h : ∀ c ∈ cells, ∀ i < n, c.1 i = x → lo ≤ c.2 i ∧ c.2 i ≤ hi) :
    lo ≤ average n cells x ∧ average n cells x ≤ hi := by
  have hne : coinciding n cells x ≠ [] := by
    obtain ⟨c, hc, i, hi', hx'⟩ := hx
    exact List.ne_nil_of_mem (mem_coinciding.mpr ⟨c, hc, i, hi', hx', rfl⟩)
  have hb : ∀ v ∈ coinciding n cells x, lo ≤ v ∧ v ≤ hi := fun v hv => by
    obtain ⟨c, hc, i, hi', hx', rfl⟩ := mem_coinciding.mp hv
    exact h c hc i hi' hx'
  rw [average_apply]
  exact ⟨le_mean hne fun v hv => (hb v hv).1, mean_le hne fun v hv => (hb v hv).2⟩

/-- **C30** (consistency).  A field that is already continuous is reproduced at every degree of
freedom of the mesh, in particular a constant. -/
theorem C30_continuous (n : ℕ) (cells : List ((ℕ → ι) × (ℕ → K))) (u : ι → K)
    (h : ∀ c ∈ cells, ∀ i < n, c.2 i = u (c.1 i)) (x : ι) (hx : ∃ c ∈ cells, ∃ i < n, c.1 i = x) :
    average n cells x = u x := by
  have := C30_bounds n cells x (u x) (u x) hx fun c hc i hi hcx => by
    rw [h c hc i hi, hcx]; exact ⟨le_refl _, le_refl _⟩
  exact le_antisymm this.2 this.1

example : ∃ c ∈ [((fun i => i : ℕ → ℕ), (fun i => (i : ℚ) ^ 2)), (fun i => i + 1, fun i => ((i : ℚ) + 1) ^ 2)],
    ∃ i < 2, c.1 i = 1 := ⟨_, List.mem_cons_self .., 1, by norm_num, rfl⟩

/-- **C30** (order of the loop).  The order in which the cells are visited does not matter. -/
theorem C30_order (n : ℕ) (cells cells' : List ((ℕ → ι) × (ℕ → K))) (h : cells.Perm cells') :
    average n cells = average n cells' := by
  funext x
  have hp : (coinciding n cells x).Perm (coinciding n cells' x) := h.flatMap_right _
  rw [average_apply, average_apply, mean, mean, hp.sum_eq, hp.length_eq]

theorem sum_coinciding_linear (n : ℕ) (a b : K) {γ : Type*} (cells : List γ) (node : γ → ℕ → ι)
    (v w : γ → ℕ → K) (x : ι) :
    (coinciding n (cells.map fun c => (node c, fun i => a * v c i + b * w c i)) x).sum =
      a * (coinciding n (cells.map fun c => (node c, v c)) x).sum +
        b * (coinciding n (cells.map fun c => (node c, w c)) x).sum ∧
    (coinciding n (cells.map fun c => (node c, v c)) x).length =
      (coinciding n (cells.map fun c => (node c, w c)) x).length := by
  induction cells with
  | nil => simp [coinciding]
  | cons c cs ih =>
    simp only [coinciding, List.map_cons, List.flatMap_cons, List.sum_append, List.length_append,
      List.length_map] at ih ⊢
    refine ⟨?_, by rw [ih.2]⟩
    rw [ih.1, List.sum_map_add, List.sum_map_mul_left, List.sum_map_mul_left]
    ring

/-- **C30** (linearity).  Averaging is linear in the field. -/
theorem C30_linear (n : ℕ) (a b : K) {γ : Type*} (cells : List γ) (node : γ → ℕ → ι)
    (v w : γ → ℕ → K) (x : ι) :
    average n (cells.map fun c => (node c, fun i => a * v c i + b * w c i)) x =
      a * average n (cells.map fun c => (node c, v c)) x +
        b * average n (cells.map fun c => (node c, w c)) x := by
  have h := sum_coinciding_linear n a b cells node v w x
  have hl := (sum_coinciding_linear n a b cells node v (fun c i => a * v c i + b * w c i) x).2
  rw [average_apply, average_apply, average_apply, mean, mean, mean, h.1, ← hl, ← h.2]
  ring

/-- **C30** (constructor).  Accepted: Functions with the shape and the number of local degrees of
freedom of the target.  A UFL expression that is not a Function is never accepted, although the
documentation allows it. -/
theorem C30_setup (v : Source) (shape : List ℕ) (n : ℕ) :
    averagerInit v shape n = .ok () ↔ v = .function shape n := by
  rcases v with _ | s | ⟨s, m⟩
  · simp [averagerInit]
  · simp only [averagerInit]; split <;> simp
  · simp only [averagerInit]
    by_cases h1 : s = shape <;> by_cases h2 : n = m <;> simp [h1, h2, eq_comm]
    exact fun h => h1 h.symm

/-! ### C31 -/

theorem sum_basis (c : Cell) (x a : ℕ → K) :
    ∑ k ∈ Finset.range c.vertices, basis c.dim c.vertices x k * a k =
      c.poly ((List.range c.vertices).map a) x := by
  cases c <;> simp [Cell.vertices, Cell.dim, Cell.poly, Cell.monomials, Finset.sum_range_succ, basis, basisRow,
    List.range_succ] <;> ring

theorem evaluate_eq (c : Cell) (x a : ℕ → K) (old : K) :
    evaluate c.dim c.vertices a x old = c.poly ((List.range c.vertices).map a) x := by
  cases c <;> simp [Cell.vertices, Cell.dim, Cell.poly, Cell.monomials, evaluate,
    List.range_succ] <;> ring

theorem list_eq_map_range {l : List K} {n : ℕ} (h : l.length = n) :
    l = (List.range n).map fun k => l.getD k 0 := by
  subst h
  apply List.ext_getElem
  · simp
  · intro i h1 h2
    simp [h1]

theorem nonsing_of_unisolvent (c : Cell) (pts : ℕ → ℕ → K) (h : c.Unisolvent pts) :
    Nonsing c.vertices fun i k => basis c.dim c.vertices (pts i) k := by
  intro x hx k hk
  have := h ((List.range c.vertices).map x) (by simp) fun i hi => by
    rw [← sum_basis]; exact hx i hi
  have e : ((List.range c.vertices).map x)[k]? = (List.replicate c.vertices (0 : K))[k]? := by
    rw [this]
  simpa [List.getElem?_map, List.getElem?_range hk, List.getElem?_replicate, hk] using e

theorem writeAll (n : ℕ) (g : ℕ → K → K) (out : ℕ → K) (i : ℕ) :
    (List.range n).foldl (fun out i => Function.update out i (g i (out i))) out i =
      if i < n then g i (out i) else out i := by
  induction n generalizing i with
  | zero => simp
  | succ n ih =>
    rw [List.range_succ, List.foldl_append, List.foldl_cons, List.foldl_nil]
    by_cases h : i = n
    · subst h
      rw [Function.update_self, ih]; simp
    · rw [Function.update_of_ne h, ih]
      have e : i < n + 1 ↔ i < n := by omega
      simp only [e]

/-- **C31** (interior cells).  A cell without exterior nodes gets its old values. -/
theorem C31_interior (c : Cell) (numExt : K) (hE : numExt ≤ 0) (act eff : ℕ → ℕ → K)
    (old out : ℕ → K) (i : ℕ) (hi : i < c.vertices) :
    gaussKernel c.dim c.vertices numExt act eff old out i = old i := by
  unfold gaussKernel
  simp only [not_lt.mpr hE, gt_iff_lt, if_false]
  rw [writeAll c.vertices (fun i _ => old i), if_pos hi]

/-- **C31**.  In an exterior cell whose effective coordinates are unisolvent there is exactly one
polynomial of the cell's space through the old values at the effective coordinates, and the kernel
returns its values at the actual coordinates.  (No nonsingularity of intermediate matrices or pivots
is assumed.) -/
theorem C31_polynomial (c : Cell) (numExt : K) (hE : 0 < numExt) (act eff : ℕ → ℕ → K)
    (old out : ℕ → K) (hU : c.Unisolvent eff) :
    ∃! b : List K, b.length = c.vertices ∧ (∀ i < c.vertices, c.poly b (eff i) = old i) ∧
      ∀ i < c.vertices, gaussKernel c.dim c.vertices numExt act eff old out i = c.poly b (act i) := by
  have hN := nonsing_of_unisolvent c eff hU
  set A : ℕ → ℕ → K := fun i k => basis c.dim c.vertices (eff i) k with hA
  have hs := gauss_sol c.vertices A old hN
  set a := backSubst c.vertices (forward c.vertices (A, old)).1 (forward c.vertices (A, old)).2 with ha
  refine ⟨(List.range c.vertices).map a, ⟨by simp, fun i hi => ?_, fun i hi => ?_⟩, ?_⟩
  · rw [← sum_basis]; exact hs i hi
  · unfold gaussKernel
    simp only [hE, gt_iff_lt, if_true]
    rw [writeAll c.vertices (fun i o => evaluate c.dim c.vertices a (act i) o), if_pos hi,
      evaluate_eq]
  · rintro b ⟨hb, hv, _⟩
    rw [list_eq_map_range hb]
    apply List.map_congr_left
    intro k hk
    have hk := List.mem_range.mp hk
    have hdiff := hN (fun k => b.getD k 0 - a k) (fun i hi => by
      have h1 : ∑ k ∈ Finset.range c.vertices, A i k * b.getD k 0 = old i := by
        rw [hA, sum_basis, ← list_eq_map_range hb]; exact hv i hi
      have h2 := hs i hi
      simp only [mul_sub, Finset.sum_sub_distrib]
      rw [h1, h2, sub_self]) k hk
    exact sub_eq_zero.mp hdiff

/-- **C31**.  Consequently, if the old values are the values of a polynomial `q` of the cell's space at
the effective coordinates, the new values are the values of `q` at the actual coordinates. -/
theorem C31_reproduces (c : Cell) (numExt : K) (hE : 0 < numExt) (act eff : ℕ → ℕ → K)
    (old out : ℕ → K) (hU : c.Unisolvent eff) (q : List K) (hq : q.length = c.vertices)
    (hold : ∀ i < c.vertices, old i = c.poly q (eff i)) (i : ℕ) (hi : i < c.vertices) :
    gaussKernel c.dim c.vertices numExt act eff old out i = c.poly q (act i) := by
  obtain ⟨b, ⟨hb, hv, ho⟩, _⟩ := C31_polynomial c numExt hE act eff old out hU
  have hN := nonsing_of_unisolvent c eff hU
  have : b = q := by
    rw [list_eq_map_range hb, list_eq_map_range hq]
    apply List.map_congr_left
    intro k hk
    have hk := List.mem_range.mp hk
    have hdiff := hN (fun k => b.getD k 0 - q.getD k 0) (fun i hi => by
      simp only [mul_sub, Finset.sum_sub_distrib]
      rw [sum_basis, sum_basis, ← list_eq_map_range hb, ← list_eq_map_range hq, hv i hi, hold i hi,
        sub_self]) k hk
    exact sub_eq_zero.mp hdiff
  rw [ho i hi, this]

/-- Effective coordinates of a boundary quadrilateral `[0,1] × [0,1]` of a unit mesh on the left
boundary. -/
def exEff (i : ℕ) (d : ℕ) : ℚ :=
  if d = 0 then (if i < 2 then 1 / 2 else 1) else (if i % 2 = 0 then 0 else 1)

example : Cell.quad.Unisolvent exEff := by
  intro b hb h
  rcases b with _ | ⟨b0, _ | ⟨b1, _ | ⟨b2, _ | ⟨b3, _ | ⟨b4, b⟩⟩⟩⟩⟩ <;>
    simp [Cell.vertices] at hb
  have h0 := h 0 (by decide)
  have h1 := h 1 (by decide)
  have h2 := h 2 (by decide)
  have h3 := h 3 (by decide)
  simp [Cell.poly, Cell.monomials, exEff] at h0 h1 h2 h3
  simp [Cell.vertices, List.replicate]
  refine ⟨?_, ?_, ?_, ?_⟩ <;> linarith

/-! The whole Taylor recovery. -/

/-- Affine functions of `dim` coordinates. -/
def affine (dim : ℕ) (b : ℕ → K) (x : ℕ → K) : K := b 0 + ∑ d ∈ Finset.range dim, b (d + 1) * x d

/-- Coefficients of an affine function in the basis of the cell. -/
def affineCoeff (b : ℕ → K) : Cell → List K
  | .interval => [b 0, b 1]
  | .triangle => [b 0, b 1, b 2]
  | .quad => [b 0, b 1, b 2, 0]
  | .prism => [b 0, b 1, b 2, b 3, 0, 0]
  | .hex => [b 0, b 1, b 2, 0, b 3, 0, 0, 0]

theorem affineCoeff_spec (c : Cell) (b x : ℕ → K) :
    (affineCoeff b c).length = c.vertices ∧ c.poly (affineCoeff b c) x = affine c.dim b x := by
  cases c <;> simp [affineCoeff, Cell.vertices, Cell.dim, Cell.poly, Cell.monomials, affine,
    Finset.sum_range_succ] <;> ring

/-- Averages of affine functions of cell data are affine functions of the averages. -/
theorem average_affine (n : ℕ) {γ : Type*} (cells : List γ) (node : γ → ℕ → ι) (z : γ → ℕ → K)
    (dim : ℕ) (b : ℕ → K) (x : ι) (hx : ∃ c ∈ cells, ∃ i < n, node c i = x) :
    average n (cells.map fun c => (node c, fun _ => affine dim b (z c))) x =
      affine dim b fun d => average n (cells.map fun c => (node c, fun _ => z c d)) x := by
  induction dim with
  | zero =>
    simp only [affine, Finset.range_zero, Finset.sum_empty, add_zero]
    refine C30_continuous n _ (fun _ => b 0) ?_ x ?_
    · intro c hc i hi
      obtain ⟨d, _, rfl⟩ := List.mem_map.mp hc
      rfl
    · obtain ⟨c, hc, i, hi, h⟩ := hx
      exact ⟨_, List.mem_map.mpr ⟨c, hc, rfl⟩, i, hi, h⟩
  | succ dim ih =>
    simp only [affine, Finset.sum_range_succ] at ih ⊢
    have := C30_linear n 1 (b (dim + 1)) cells node
      (fun c _ => b 0 + ∑ d ∈ Finset.range dim, b (d + 1) * z c d) (fun c _ => z c dim) x
    simp only [one_mul] at this
    rw [← add_assoc, ← ih, ← this]
    simp only [add_assoc]

theorem numExt_pos_or (n : ℕ) (hn : 0 < n) (boundary : ι → Bool) (node : ℕ → ι) :
    (0 < (numExt n boundary node : K) ∧ ∃ i < n, boundary (node i) = true) ∨
      ((numExt n boundary node : K) ≤ 0 ∧ ∀ i < n, boundary (node i) = false) := by
  have hnK : (0 : K) < n := by exact_mod_cast hn
  by_cases h : ∃ i < n, boundary (node i) = true
  · refine Or.inl ⟨div_pos ?_ hnK, h⟩
    obtain ⟨i, hi, hb⟩ := h
    have hnn : ∀ v ∈ (List.range n).map (fun i => if boundary (node i) then (1 : K) else 0), 0 ≤ v := by
      intro v hv
      obtain ⟨j, _, rfl⟩ := List.mem_map.mp hv
      split <;> norm_num
    have h1 : (1 : K) ∈ (List.range n).map (fun i => if boundary (node i) then (1 : K) else 0) :=
      List.mem_map.mpr ⟨i, List.mem_range.mpr hi, by rw [hb]; rfl⟩
    exact lt_of_lt_of_le one_pos (List.single_le_sum hnn _ h1)
  · push Not at h
    refine Or.inr ⟨?_, fun i hi => by simpa using h i hi⟩
    have : (List.range n).map (fun i => if boundary (node i) then (1 : K) else 0) =
        (List.range n).map fun _ => (0 : K) := by
      apply List.map_congr_left
      intro i hi
      rw [if_neg (h i (List.mem_range.mp hi))]
    unfold numExt
    rw [this]
    simp

/-- **C31** (whole Taylor recovery).  A mesh whose cells share vertex coordinates at common nodes
(not periodic), one value per cell, `q` the values of an affine function at the coordinates of the
cell degrees of freedom.  If the average of these coordinates around every node off the boundary is
the node itself, and the effective coordinates of each cell touching the boundary are unisolvent, then
the recovery reproduces the affine function at every node, boundary nodes included. -/
theorem C31_taylor_recovery (c : Cell) (boundary : ι → Bool) (X : ι → ℕ → K)
    (cells : List ((ℕ → ι) × (ℕ → K) × (ℕ → ℕ → K)))
    (hX : ∀ e ∈ cells, ∀ i < c.vertices, ∀ d, e.2.2 i d = X (e.1 i) d)
    (hint : ∀ e ∈ cells, ∀ i < c.vertices, boundary (e.1 i) = false → ∀ d < c.dim,
      average c.vertices (cells.map fun e => (e.1, fun _ => e.2.1 d)) (e.1 i) = X (e.1 i) d)
    (hU : ∀ e ∈ cells, (∃ i < c.vertices, boundary (e.1 i) = true) →
      c.Unisolvent fun i d => average c.vertices (cells.map fun e => (e.1, fun _ => e.2.1 d)) (e.1 i))
    (b : ℕ → K) (x : ι) (hx : ∃ e ∈ cells, ∃ i < c.vertices, e.1 i = x) :
    taylorRecover c.dim c.vertices boundary cells (cells.map fun e => affine c.dim b e.2.1) x =
      affine c.dim b (X x) := by
  have hpos : 0 < c.vertices := by cases c <;> decide
  -- effective coordinates
  have heff : ∀ (j : ℕ) (e), cells[j]? = some e → ∀ i < c.vertices, ∀ d,
      ((effCoords c.vertices cells d)[j]?.getD fun _ => 0) i =
        average c.vertices (cells.map fun e => (e.1, fun _ => e.2.1 d)) (e.1 i) := by
    intro j e hj i hi d
    have he : e ∈ cells := List.mem_of_getElem? hj
    have hav : average c.vertices (cells.map fun e => (e.1, fun i => e.2.2 i d)) (e.1 i) =
        X (e.1 i) d := by
      refine C30_continuous c.vertices _ (fun y => X y d) ?_ _ ?_
      · intro a ha k hk
        obtain ⟨e', he', rfl⟩ := List.mem_map.mp ha
        exact hX e' he' k hk d
      · exact ⟨_, List.mem_map.mpr ⟨e, he, rfl⟩, i, hi, rfl⟩
    simp only [effCoords, List.getElem?_map, hj, Option.map_some, Option.getD_some]
    rw [hav, hX e he i hi d, sub_self, add_zero]
  -- the first average
  have hzip : (cells.zip (cells.map fun e => affine c.dim b e.2.1)).map
      (fun e => (e.1.1, fun (_ : ℕ) => e.2)) =
      cells.map fun e => (e.1, fun _ => affine c.dim b e.2.1) := by
    rw [List.zip_map_right, List.map_map]
    have hz : ∀ l : List ((ℕ → ι) × (ℕ → K) × (ℕ → ℕ → K)), l.zip l = l.map fun e => (e, e) := by
      intro l
      induction l with
      | nil => rfl
      | cons a as ih => rw [List.zip_cons_cons, ih, List.map_cons]
    rw [hz, List.map_map]
    rfl
  have hfirst : ∀ y, (∃ e ∈ cells, ∃ i < c.vertices, e.1 i = y) →
      average c.vertices (cells.map fun e => (e.1, fun _ => affine c.dim b e.2.1)) y =
        affine c.dim b fun d =>
          average c.vertices (cells.map fun e => (e.1, fun _ => e.2.1 d)) y := fun y hy =>
    average_affine c.vertices cells (fun e => e.1) (fun e => e.2.1) c.dim b y hy
  unfold taylorRecover
  rw [hzip]
  refine C30_continuous c.vertices _ (fun y => affine c.dim b (X y)) ?_ x ?_
  · intro a ha i hi
    obtain ⟨⟨e, j⟩, hej, rfl⟩ := List.mem_map.mp ha
    have hj : cells[j]? = some e := by
      have := List.mem_zipIdx_iff_getElem?.mp hej
      exact this
    have he : e ∈ cells := List.mem_of_getElem? hj
    dsimp only
    rcases numExt_pos_or (K := K) c.vertices hpos boundary e.1 with ⟨h1, h2⟩ | ⟨h1, h2⟩
    · have hold : ∀ k < c.vertices,
          average c.vertices (cells.map fun e => (e.1, fun _ => affine c.dim b e.2.1)) (e.1 k) =
          c.poly (affineCoeff b c) fun d =>
            ((effCoords c.vertices cells d)[j]?.getD fun _ => 0) k := by
        intro k hk
        rw [(affineCoeff_spec c b _).2, hfirst _ ⟨e, he, k, hk, rfl⟩]
        congr 1
        funext d
        rw [heff j e hj k hk d]
      have hUe : c.Unisolvent fun i d => ((effCoords c.vertices cells d)[j]?.getD fun _ => 0) i := by
        intro b' hb' hz
        refine hU e he h2 b' hb' fun k hk => ?_
        have := hz k hk
        rw [← this]
        congr 1
        funext d
        exact (heff j e hj k hk d).symm
      rw [C31_reproduces c _ h1 _ _ _ _ hUe (affineCoeff b c) (affineCoeff_spec c b (X x)).1 hold i hi,
        (affineCoeff_spec c b _).2]
      congr 1
      funext d
      exact hX e he i hi d
    · rw [C31_interior c _ h1 _ _ _ _ i hi, hfirst _ ⟨e, he, i, hi, rfl⟩]
      unfold affine
      congr 1
      refine Finset.sum_congr rfl fun d hd => ?_
      exact congrArg _ (hint e he i hi (h2 i hi) d (Finset.mem_range.mp hd))
  · obtain ⟨e, he, i, hi, hxe⟩ := hx
    obtain ⟨j, hj⟩ := List.getElem?_of_mem he
    exact ⟨_, List.mem_map.mpr ⟨(e, j), List.mem_zipIdx_iff_getElem?.mpr hj, rfl⟩, i, hi, hxe⟩

/-- The mesh `[0,1], [1,2]` of an interval. -/
def exMesh : List ((ℕ → ℕ) × (ℕ → ℚ) × (ℕ → ℕ → ℚ)) :=
  [(fun i => i, fun _ => 1 / 2, fun i _ => i), (fun i => i + 1, fun _ => 3 / 2, fun i _ => i + 1)]

/-- The end points. -/
def exBoundary (i : ℕ) : Bool := i != 1

theorem exMesh_avg (d : ℕ) :
    average 2 (exMesh.map fun e => (e.1, fun _ => e.2.1 d)) 0 = 1 / 2 ∧
    average 2 (exMesh.map fun e => (e.1, fun _ => e.2.1 d)) 1 = 1 ∧
    average 2 (exMesh.map fun e => (e.1, fun _ => e.2.1 d)) 2 = 3 / 2 := by
  refine ⟨?_, ?_, ?_⟩ <;> rw [average_apply] <;>
    norm_num [exMesh, mean, coinciding, List.range_succ]

example :
    (∀ e ∈ exMesh, ∀ i < Cell.interval.vertices, ∀ d, e.2.2 i d = ((e.1 i : ℕ) : ℚ)) ∧
    (∀ e ∈ exMesh, ∀ i < Cell.interval.vertices, exBoundary (e.1 i) = false → ∀ d < Cell.interval.dim,
      average 2 (exMesh.map fun e => (e.1, fun _ => e.2.1 d)) (e.1 i) = ((e.1 i : ℕ) : ℚ)) ∧
    (∀ e ∈ exMesh, (∃ i < Cell.interval.vertices, exBoundary (e.1 i) = true) →
      Cell.interval.Unisolvent fun i d =>
        average 2 (exMesh.map fun e => (e.1, fun _ => e.2.1 d)) (e.1 i)) := by
  have hmem : ∀ e ∈ exMesh, e = (fun i => i, fun _ => 1 / 2, fun (i : ℕ) _ => (i : ℚ)) ∨
      e = (fun i => i + 1, fun _ => 3 / 2, fun (i : ℕ) _ => (i : ℚ) + 1) := by
    intro e he
    simpa [exMesh] using he
  refine ⟨fun e he i hi d => ?_, fun e he i hi hb d hd => ?_, fun e he _ => ?_⟩
  · rcases hmem e he with rfl | rfl <;> simp
  · have : e.1 i = 1 := by simpa [exBoundary] using hb
    rw [this, (exMesh_avg d).2.1]; norm_num
  · intro b hb h
    rcases b with _ | ⟨b0, _ | ⟨b1, _ | ⟨b2, b⟩⟩⟩ <;> simp [Cell.vertices] at hb
    have h0 := h 0 (by decide)
    have h1 := h 1 (by decide)
    simp [Cell.vertices, List.replicate]
    rcases hmem e he with rfl | rfl
    · simp only [Cell.poly, Cell.monomials, (exMesh_avg 0).1, (exMesh_avg 0).2.1] at h0 h1
      simp at h0 h1
      constructor <;> linarith
    · simp only [Cell.poly, Cell.monomials, zero_add, (exMesh_avg 0).2.1, Nat.reduceAdd,
        (exMesh_avg 0).2.2] at h0 h1
      simp at h0 h1
      constructor <;> linarith

/-! ### C32 -/

theorem update2 (x : ℕ → K) (i : ℕ) (a b : K) (k : ℕ) :
    Function.update (Function.update x (2 * i) a) (2 * i + 1) b k =
      if k = 2 * i + 1 then b else if k = 2 * i then a else x k := by
  by_cases h1 : k = 2 * i + 1
  · subst h1; simp
  · rw [Function.update_of_ne h1, if_neg h1]
    by_cases h2 : k = 2 * i
    · subst h2; simp
    · rw [Function.update_of_ne h2, if_neg h2]

theorem fold2 (n : ℕ) (a b : ℕ → K) (x : ℕ → K) (k : ℕ) :
    (List.range n).foldl (fun x i =>
      Function.update (Function.update x (2 * i) (a i)) (2 * i + 1) (b i)) x k =
      if k < 2 * n then (if k % 2 = 0 then a (k / 2) else b (k / 2)) else x k := by
  induction n generalizing k with
  | zero => simp
  | succ n ih =>
    rw [List.range_succ, List.foldl_append, List.foldl_cons, List.foldl_nil, update2, ih]
    by_cases h1 : k = 2 * n + 1
    · subst h1
      rw [if_pos rfl, if_pos (by omega), if_neg (by omega), show (2 * n + 1) / 2 = n by omega]
    · rw [if_neg h1]
      by_cases h2 : k = 2 * n
      · subst h2
        rw [if_pos rfl, if_pos (by omega), if_pos (by omega), show 2 * n / 2 = n by omega]
      · rw [if_neg h2]
        by_cases h3 : k < 2 * n
        · rw [if_pos h3, if_pos (show k < 2 * (n + 1) by omega)]
        · rw [if_neg h3, if_neg (show ¬k < 2 * (n + 1) by omega)]

theorem foldTail (m n : ℕ) (a : ℕ → K) (x : ℕ → K) (k : ℕ) :
    (List.range n).foldl (fun x j => Function.update x (m + j) (a (m + j))) x k =
      if m ≤ k ∧ k < m + n then a k else x k := by
  induction n generalizing k with
  | zero =>
    have : ¬(m ≤ k ∧ k < m + 0) := by omega
    rw [if_neg this]; rfl
  | succ n ih =>
    rw [List.range_succ, List.foldl_append, List.foldl_cons, List.foldl_nil]
    by_cases h : k = m + n
    · subst h
      rw [Function.update_self, if_pos (by omega)]
    · rw [Function.update_of_ne h, ih]
      have e : (m ≤ k ∧ k < m + n) ↔ (m ≤ k ∧ k < m + (n + 1)) := by omega
      simp only [e]

theorem writeCell_apply (n : ℕ) (kernel : (ℕ → K) → (ℕ → K) → ℕ → K) (xin : ι → K) (node : ℕ → ι)
    (V : ι → K) (hV : ∀ i < n, kernel (fun i => xin (node i)) (fun _ => 0) i = V (node i))
    (xout : ι → K) (d : ι) :
    ((∃ i < n, node i = d) → writeCell n kernel xin node xout d = V d) ∧
      ((¬∃ i < n, node i = d) → writeCell n kernel xin node xout d = xout d) := by
  unfold writeCell
  have key : ∀ m ≤ n,
      ((∃ i < m, node i = d) → (List.range m).foldl (fun x i => Function.update x (node i)
        (kernel (fun i => xin (node i)) (fun _ => 0) i)) xout d = V d) ∧
      ((¬∃ i < m, node i = d) → (List.range m).foldl (fun x i => Function.update x (node i)
        (kernel (fun i => xin (node i)) (fun _ => 0) i)) xout d = xout d) := by
    intro m
    induction m with
    | zero => intro _; simp
    | succ m ih =>
      intro hm
      obtain ⟨i1, i2⟩ := ih (by omega)
      rw [List.range_succ, List.foldl_append, List.foldl_cons, List.foldl_nil]
      by_cases h : node m = d
      · subst h
        refine ⟨fun _ => by rw [Function.update_self, hV m (by omega)], fun hn => ?_⟩
        exact absurd ⟨m, by omega, rfl⟩ hn
      · rw [Function.update_of_ne (Ne.symm h)]
        refine ⟨?_, fun hn => i2 fun ⟨i, hi, he⟩ => hn ⟨i, by omega, he⟩⟩
        rintro ⟨i, hi, he⟩
        refine i1 ⟨i, ?_, he⟩
        rcases Nat.lt_succ_iff_lt_or_eq.mp hi with h' | h'
        · exact h'
        · subst h'; exact absurd he h
  exact key n le_rfl

theorem foldCells (n : ℕ) (kernel : (ℕ → K) → (ℕ → K) → ℕ → K) (xin : ι → K) (nodes : List (ℕ → ι))
    (V : ι → K)
    (hV : ∀ node ∈ nodes, ∀ i < n, kernel (fun i => xin (node i)) (fun _ => 0) i = V (node i))
    (xout : ι → K) (d : ι) :
    ((∃ node ∈ nodes, ∃ i < n, node i = d) →
        nodes.foldl (fun x node => writeCell n kernel xin node x) xout d = V d) ∧
      ((¬∃ node ∈ nodes, ∃ i < n, node i = d) →
        nodes.foldl (fun x node => writeCell n kernel xin node x) xout d = xout d) := by
  induction nodes generalizing xout with
  | nil => simp
  | cons c cs ih =>
    rw [List.foldl_cons]
    obtain ⟨i1, i2⟩ := ih (fun node hn => hV node (List.mem_cons_of_mem _ hn))
      (writeCell n kernel xin c xout)
    have hc := writeCell_apply n kernel xin c V (hV c (List.mem_cons_self ..)) xout d
    constructor
    · rintro ⟨node, hn, hd⟩
      by_cases h : ∃ node ∈ cs, ∃ i < n, node i = d
      · exact i1 h
      · rw [i2 h]
        rcases List.mem_cons.mp hn with rfl | hn
        · exact hc.1 hd
        · exact absurd ⟨node, hn, hd⟩ h
    · intro h
      rw [i2 fun ⟨node, hn, hd⟩ => h ⟨node, List.mem_cons_of_mem _ hn, hd⟩]
      exact hc.2 fun hd => h ⟨c, List.mem_cons_self .., hd⟩

section columns
variable {β γ : Type*} [DecidableEq β] [DecidableEq γ]

/-- The base degree of freedom `b` belongs to some base cell. -/
def Covered (nBase : ℕ) (cells : List ((ℕ → β) × (ℕ → γ))) (b : β) : Prop :=
  ∃ c ∈ cells, ∃ i < nBase, c.1 i = b

theorem cellNode_level (nBase nVert : ℕ) (c : (ℕ → β) × (ℕ → γ)) (l : ℕ) (b : β) (l' : ℕ) :
    (∃ i < 2 * nBase + nVert, cellNode nBase c l i = Dof.level b l') ↔
      (∃ j < nBase, c.1 j = b) ∧ (l' = l ∨ l' = l + 1) := by
  constructor
  · rintro ⟨i, hi, h⟩
    unfold cellNode at h
    split at h
    · rename_i h2
      rw [Dof.level.injEq] at h
      exact ⟨⟨i / 2, by omega, h.1⟩, by omega⟩
    · cases h
  · rintro ⟨⟨j, hj, hb⟩, h⟩
    rcases h with h | h
    · refine ⟨2 * j, by omega, ?_⟩
      unfold cellNode
      rw [if_pos (by omega), show 2 * j / 2 = j by omega, show l + 2 * j % 2 = l by omega, hb, h]
    · refine ⟨2 * j + 1, by omega, ?_⟩
      unfold cellNode
      rw [if_pos (by omega), show (2 * j + 1) / 2 = j by omega,
        show l + (2 * j + 1) % 2 = l + 1 by omega, hb, h]

/-- Field written by the top kernel in layer `l`. -/
def topV (x : Dof β γ → K) (l : ℕ) : Dof β γ → K
  | .level b l' => if l' = l + 1 then -x (.level b l) + 2 * x (.level b (l + 1)) else x (.level b l')
  | .layer v l' => x (.layer v l')

/-- Field written by the bottom kernel in layer `l`. -/
def botV (x : Dof β γ → K) (l : ℕ) : Dof β γ → K
  | .level b l' => if l' = l then 2 * x (.level b l) - x (.level b (l + 1)) else x (.level b l')
  | .layer v l' => x (.layer v l')

theorem topKernel_V (nBase nVert : ℕ) (c : (ℕ → β) × (ℕ → γ)) (l : ℕ) (x : Dof β γ → K) (i : ℕ)
    (hi : i < 2 * nBase + nVert) :
    topKernel nBase nVert (fun i => x (cellNode nBase c l i)) (fun _ => 0) i =
      topV x l (cellNode nBase c l i) := by
  unfold topKernel
  dsimp only
  rw [foldTail (2 * nBase) nVert (fun k => x (cellNode nBase c l k)),
    fold2 nBase (fun i => x (cellNode nBase c l (2 * i)))
      (fun i => -x (cellNode nBase c l (2 * i)) + 2 * x (cellNode nBase c l (2 * i + 1)))]
  by_cases h : i < 2 * nBase
  · rw [if_neg (by omega), if_pos h]
    have e0 : ∀ j, j < nBase → cellNode nBase c l (2 * j) = Dof.level (c.1 j) l := fun j hj => by
      unfold cellNode
      rw [if_pos (by omega), show 2 * j / 2 = j by omega, show l + 2 * j % 2 = l by omega]
    have e1 : ∀ j, j < nBase → cellNode nBase c l (2 * j + 1) = Dof.level (c.1 j) (l + 1) :=
      fun j hj => by
        unfold cellNode
        rw [if_pos (by omega), show (2 * j + 1) / 2 = j by omega,
          show l + (2 * j + 1) % 2 = l + 1 by omega]
    by_cases hp : i % 2 = 0
    · obtain ⟨j, rfl⟩ : ∃ j, i = 2 * j := ⟨i / 2, by omega⟩
      rw [if_pos hp, show 2 * j / 2 = j by omega, e0 j (by omega)]
      simp [topV]
    · obtain ⟨j, rfl⟩ : ∃ j, i = 2 * j + 1 := ⟨i / 2, by omega⟩
      rw [if_neg hp, show (2 * j + 1) / 2 = j by omega, e0 j (by omega), e1 j (by omega)]
      simp [topV]
  · rw [if_pos (by omega)]
    have : cellNode nBase c l i = Dof.layer (c.2 (i - 2 * nBase)) l := by
      unfold cellNode; rw [if_neg h]
    rw [this]; rfl

theorem botKernel_V (nBase nVert : ℕ) (c : (ℕ → β) × (ℕ → γ)) (l : ℕ) (x : Dof β γ → K) (i : ℕ)
    (hi : i < 2 * nBase + nVert) :
    botKernel nBase nVert (fun i => x (cellNode nBase c l i)) (fun _ => 0) i =
      botV x l (cellNode nBase c l i) := by
  unfold botKernel
  dsimp only
  rw [foldTail (2 * nBase) nVert (fun k => x (cellNode nBase c l k)),
    fold2 nBase (fun i => 2 * x (cellNode nBase c l (2 * i)) - x (cellNode nBase c l (2 * i + 1)))
      (fun i => x (cellNode nBase c l (2 * i + 1)))]
  by_cases h : i < 2 * nBase
  · rw [if_neg (by omega), if_pos h]
    have e0 : ∀ j, j < nBase → cellNode nBase c l (2 * j) = Dof.level (c.1 j) l := fun j hj => by
      unfold cellNode
      rw [if_pos (by omega), show 2 * j / 2 = j by omega, show l + 2 * j % 2 = l by omega]
    have e1 : ∀ j, j < nBase → cellNode nBase c l (2 * j + 1) = Dof.level (c.1 j) (l + 1) :=
      fun j hj => by
        unfold cellNode
        rw [if_pos (by omega), show (2 * j + 1) / 2 = j by omega,
          show l + (2 * j + 1) % 2 = l + 1 by omega]
    by_cases hp : i % 2 = 0
    · obtain ⟨j, rfl⟩ : ∃ j, i = 2 * j := ⟨i / 2, by omega⟩
      rw [if_pos hp, show 2 * j / 2 = j by omega, e0 j (by omega), e1 j (by omega)]
      simp [botV]
    · obtain ⟨j, rfl⟩ : ∃ j, i = 2 * j + 1 := ⟨i / 2, by omega⟩
      rw [if_neg hp, show (2 * j + 1) / 2 = j by omega, e1 j (by omega)]
      simp [botV]
  · rw [if_pos (by omega)]
    have : cellNode nBase c l i = Dof.layer (c.2 (i - 2 * nBase)) l := by
      unfold cellNode; rw [if_neg h]
    rw [this]; rfl

theorem exists_level (nBase nVert : ℕ) (cells : List ((ℕ → β) × (ℕ → γ))) (l : ℕ) (b : β) (l' : ℕ) :
    (∃ node ∈ cells.map fun c => cellNode nBase c l, ∃ i < 2 * nBase + nVert,
      node i = Dof.level b l') ↔ Covered nBase cells b ∧ (l' = l ∨ l' = l + 1) := by
  constructor
  · rintro ⟨node, hn, h⟩
    obtain ⟨c, hc, rfl⟩ := List.mem_map.mp hn
    obtain ⟨h1, h2⟩ := (cellNode_level nBase nVert c l b l').mp h
    exact ⟨⟨c, hc, h1⟩, h2⟩
  · rintro ⟨⟨c, hc, h1⟩, h2⟩
    exact ⟨_, List.mem_map.mpr ⟨c, hc, rfl⟩, (cellNode_level nBase nVert c l b l').mpr ⟨h1, h2⟩⟩

/-- **C32**.  The exact effect of the extruded (`nVert = 0`) and HCurl boundary recovery on every
degree of freedom, for meshes of at least two layers: only the two boundary levels change, and they get
the linear extrapolation of the recovered values. -/
theorem C32_effect (nBase nVert layers : ℕ) (hl : 2 ≤ layers) (cells : List ((ℕ → β) × (ℕ → γ)))
    (x : Dof β γ → K) :
    (∀ b, Covered nBase cells b →
      recoverColumns nBase nVert layers cells x (.level b 0) =
        2 * x (.level b 0) - x (.level b 1) ∧
      recoverColumns nBase nVert layers cells x (.level b layers) =
        2 * x (.level b layers) - x (.level b (layers - 1))) ∧
    (∀ b l, l ≠ 0 → l ≠ layers →
      recoverColumns nBase nVert layers cells x (.level b l) = x (.level b l)) ∧
    (∀ v l, recoverColumns nBase nVert layers cells x (.layer v l) = x (.layer v l)) ∧
    (∀ b, ¬Covered nBase cells b → ∀ l,
      recoverColumns nBase nVert layers cells x (.level b l) = x (.level b l)) := by
  unfold recoverColumns boundaryRecover boundaryApply
  set top := (cells.map fun c => cellNode nBase c (layers - 1)) with htop
  set bot := (cells.map fun c => cellNode nBase c 0) with hbot
  have hT : ∀ node ∈ top, ∀ i < 2 * nBase + nVert,
      topKernel nBase nVert (fun i => x (node i)) (fun _ => 0) i = topV x (layers - 1) (node i) := by
    intro node hn i hi
    obtain ⟨c, _, rfl⟩ := List.mem_map.mp hn
    exact topKernel_V nBase nVert c _ x i hi
  have hB : ∀ node ∈ bot, ∀ i < 2 * nBase + nVert,
      botKernel nBase nVert (fun i => x (node i)) (fun _ => 0) i = botV x 0 (node i) := by
    intro node hn i hi
    obtain ⟨c, _, rfl⟩ := List.mem_map.mp hn
    exact botKernel_V nBase nVert c _ x i hi
  have fT := foldCells (2 * nBase + nVert) (topKernel nBase nVert) x top _ hT x
  have fB := foldCells (2 * nBase + nVert) (botKernel nBase nVert) x bot _ hB
    (top.foldl (fun x' node => writeCell (2 * nBase + nVert) (topKernel nBase nVert) x node x') x)
  have eT := exists_level nBase nVert cells (layers - 1)
  have eB := exists_level nBase nVert cells 0
  rw [← htop] at eT
  rw [← hbot] at eB
  refine ⟨fun b hb => ⟨?_, ?_⟩, fun b l h0 h1 => ?_, fun v l => ?_, fun b hb l => ?_⟩
  · rw [(fB _).1 ((eB b 0).mpr ⟨hb, Or.inl rfl⟩)]
    simp [botV]
  · rw [(fB _).2 (fun h => by have := ((eB b layers).mp h).2; omega),
      (fT _).1 ((eT b layers).mpr ⟨hb, Or.inr (by omega)⟩)]
    simp only [topV]
    rw [if_pos (by omega), show layers - 1 + 1 = layers by omega]
    ring
  · by_cases hb : Covered nBase cells b
    · by_cases h2 : l = 1
      · rw [(fB _).1 ((eB b l).mpr ⟨hb, Or.inr h2⟩)]
        simp only [botV]
        rw [if_neg h0]
      · rw [(fB _).2 (fun h => by have := ((eB b l).mp h).2; omega)]
        by_cases h3 : l = layers - 1
        · rw [(fT _).1 ((eT b l).mpr ⟨hb, Or.inl h3⟩)]
          simp only [topV]
          rw [if_neg (by omega)]
        · rw [(fT _).2 (fun h => by have := ((eT b l).mp h).2; omega)]
    · rw [(fB _).2 (fun h => hb ((eB b l).mp h).1), (fT _).2 (fun h => hb ((eT b l).mp h).1)]
  · by_cases h : ∃ node ∈ bot, ∃ i < 2 * nBase + nVert, node i = Dof.layer v l
    · rw [(fB _).1 h]; rfl
    · rw [(fB _).2 h]
      by_cases h' : ∃ node ∈ top, ∃ i < 2 * nBase + nVert, node i = Dof.layer v l
      · rw [(fT _).1 h']; rfl
      · rw [(fT _).2 h']
  · rw [(fB _).2 (fun h => hb ((eB b l).mp h).1), (fT _).2 (fun h => hb ((eT b l).mp h).1)]

/-- **C32** (one layer).  On a mesh with a single layer the bottom loop overwrites the top values, so
only the bottom level is corrected. -/
theorem C32_single_layer (nBase nVert : ℕ) (cells : List ((ℕ → β) × (ℕ → γ))) (x : Dof β γ → K)
    (b : β) (hb : Covered nBase cells b) :
    recoverColumns nBase nVert 1 cells x (.level b 0) = 2 * x (.level b 0) - x (.level b 1) ∧
    recoverColumns nBase nVert 1 cells x (.level b 1) = x (.level b 1) := by
  unfold recoverColumns boundaryRecover boundaryApply
  set bot := (cells.map fun c => cellNode nBase c 0) with hbot
  have hB : ∀ node ∈ bot, ∀ i < 2 * nBase + nVert,
      botKernel nBase nVert (fun i => x (node i)) (fun _ => 0) i = botV x 0 (node i) := by
    intro node hn i hi
    obtain ⟨c, _, rfl⟩ := List.mem_map.mp hn
    exact botKernel_V nBase nVert c _ x i hi
  have fB := foldCells (2 * nBase + nVert) (botKernel nBase nVert) x bot _ hB
    ((cells.map fun c => cellNode nBase c (1 - 1)).foldl
      (fun x' node => writeCell (2 * nBase + nVert) (topKernel nBase nVert) x node x') x)
  have eB := exists_level nBase nVert cells 0
  rw [← hbot] at eB
  constructor
  · rw [(fB _).1 ((eB b 0).mpr ⟨hb, Or.inl rfl⟩)]; simp [botV]
  · rw [(fB _).1 ((eB b 1).mpr ⟨hb, Or.inr rfl⟩)]; simp [botV]

/-- The field obtained in one column by averaging one value per layer: the average of the two layers at
interior levels, the value of the boundary layer at the boundary levels. -/
def layerAverage (layers : ℕ) (q : ℕ → K) (l : ℕ) : K :=
  if l = 0 then q 0 else if l = layers then q (layers - 1) else (q (l - 1) + q l) / 2

/-- **C32** (linear profiles).  Columns with equally spaced levels `z0 + l h` and at least two layers:
if the layer values are those of an affine function of height at the middle of the layers, averaging
and boundary recovery give the affine function at every level, both boundaries included. -/
theorem C32_linear (nBase nVert layers : ℕ) (hl : 2 ≤ layers) (cells : List ((ℕ → β) × (ℕ → γ)))
    (b : β) (hb : Covered nBase cells b) (z0 h s t : K) (x : Dof β γ → K)
    (hx : ∀ l ≤ layers, x (.level b l) =
      layerAverage layers (fun l => s + t * (z0 + (l + 1 / 2) * h)) l)
    (l : ℕ) (hll : l ≤ layers) :
    recoverColumns nBase nVert layers cells x (.level b l) = s + t * (z0 + l * h) := by
  obtain ⟨h1, h2, _, _⟩ := C32_effect nBase nVert layers hl cells x
  by_cases h0 : l = 0
  · subst h0
    rw [(h1 b hb).1, hx 0 (by omega), hx 1 (by omega)]
    simp only [layerAverage, if_true]
    rw [if_neg (by omega), if_neg (by omega)]
    push_cast
    ring
  · by_cases hL : l = layers
    · subst hL
      rw [(h1 b hb).2, hx l le_rfl, hx (l - 1) (by omega)]
      obtain ⟨m, rfl⟩ : ∃ m, l = m + 2 := ⟨l - 2, by omega⟩
      simp only [layerAverage, if_true]
      rw [if_neg (by omega), if_neg (by omega), if_neg (by omega),
        show m + 2 - 1 = m + 1 by omega, show m + 1 - 1 = m by omega]
      push_cast
      ring
    · rw [h2 b l h0 hL, hx l hll]
      obtain ⟨m, rfl⟩ : ∃ m, l = m + 1 := ⟨l - 1, by omega⟩
      simp only [layerAverage]
      rw [if_neg h0, if_neg hL, show m + 1 - 1 = m by omega]
      push_cast
      ring

/-- **C32** (boundary values on arbitrary levels).  For levels `z` that need not be equally spaced the
top value is exact for affine profiles if and only if the value below it is. -/
theorem C32_boundary_exact (nBase nVert layers : ℕ) (hl : 2 ≤ layers)
    (cells : List ((ℕ → β) × (ℕ → γ))) (b : β) (hb : Covered nBase cells b) (z : ℕ → K) (s t : K)
    (x : Dof β γ → K) (htop : x (.level b layers) = s + t * ((z (layers - 1) + z layers) / 2))
    (hbot : x (.level b 0) = s + t * ((z 0 + z 1) / 2)) :
    (recoverColumns nBase nVert layers cells x (.level b layers) = s + t * z layers ↔
      x (.level b (layers - 1)) = s + t * z (layers - 1)) ∧
    (recoverColumns nBase nVert layers cells x (.level b 0) = s + t * z 0 ↔
      x (.level b 1) = s + t * z 1) := by
  obtain ⟨h1, _, _, _⟩ := C32_effect nBase nVert layers hl cells x
  rw [(h1 b hb).1, (h1 b hb).2, htop, hbot]
  constructor
  · constructor <;> intro h <;> linear_combination -h
  · constructor <;> intro h <;> linear_combination -h

end columns

/-- One interval cell on the base, no vertical component. -/
def exCells : List ((ℕ → ℕ) × (ℕ → Unit)) := [(fun i => i, fun _ => ())]

example : Covered 2 exCells 1 := ⟨_, List.mem_cons_self .., 1, by norm_num, rfl⟩

/-- **C32** (refuted part).  With a single layer a linear profile is not reproduced. -/
theorem C32_single_layer_refuted :
    ∃ x : Dof ℕ Unit → ℚ, (∀ l ≤ 1, x (.level 0 l) = layerAverage 1 (fun l => (l : ℚ) + 1 / 2) l) ∧
      recoverColumns 2 0 1 exCells x (.level 0 1) ≠ 1 := by
  refine ⟨fun _ => 1 / 2, fun l hl => ?_, ?_⟩
  · have : l = 0 ∨ l = 1 := by omega
    rcases this with rfl | rfl <;> norm_num [layerAverage]
  · rw [(C32_single_layer 2 0 exCells (fun _ => (1 / 2 : ℚ)) 0
      ⟨_, List.mem_cons_self .., 0, by norm_num, rfl⟩).2]
    norm_num

end Gusto.Props.RecoveryProps
