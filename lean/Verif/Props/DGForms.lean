import Verif.Model.DGForms
import Mathlib.Tactic.Ring
import Mathlib.Tactic.Linarith
import Mathlib.Tactic.FieldSimp
import Mathlib.Tactic.FinCases
import Mathlib.Algebra.Order.BigOperators.Group.Finset

set_option autoImplicit false
set_option linter.unusedSectionVars false
set_option linter.unusedSimpArgs false

/-!
# C84, C86, C87, C88, C89: discontinuous Galerkin transport and interior penalty diffusion
-/

namespace Gusto.Props.DGProps
open Gusto.DG
open Gusto.Forms (TType)

variable {K : Type*} [Field K] [LinearOrder K] [IsStrictOrderedRing K] {d : ℕ} {C F B : Type*}
variable [Fintype C] [Fintype F] [Fintype B]

/-! ### Specification -/

/-- The quadrature integrates `div(φ q u)` over the cells exactly: the divergence theorem holds for the product. -/
def DivThm (M : Mesh K d C F B) (φ q : Sc K d C F B) (u : Ve K d C F B) : Prop :=
  ∑ x, M.wC x * (dot (φ.g x) (u.c x) * q.c x + φ.c x * dot (q.g x) (u.c x) + φ.c x * q.c x * u.div x) =
    (∑ x, M.wF x * (φ.p x * q.p x * dot (u.p x) (M.nP x) + φ.m x * q.m x * dot (u.m x) (M.nM x))) +
    ∑ x, M.wB x * (φ.b x * q.b x * dot (u.b x) (M.nB x))

/-- The normal velocity is continuous (`u` is in H(div)). -/
def FluxCont (M : Mesh K d C F B) (u : Ve K d C F B) : Prop :=
  ∀ x, dot (u.m x) (M.nM x) = -dot (u.p x) (M.nP x)
/-- No flow through the boundary. -/
def NoFlow (M : Mesh K d C F B) (u : Ve K d C F B) : Prop := ∀ x, dot (u.b x) (M.nB x) = 0
/-- `q` has no jump on the interior facets. -/
def Continuous (q : Sc K d C F B) : Prop := ∀ x, q.p x = q.m x

/-! ### A concrete mesh: two cells of a periodic line, piecewise linear functions, midpoint rule -/

/-- Two cells of length one; facet `0` between the cells `0` and `1`, facet `1` between `1` and `0`. -/
def line : Mesh ℚ 1 (Fin 2) (Fin 2) (Fin 0) where
  wC _ := 1
  wF _ := 1
  wB _ := 1
  nP _ _ := 1
  nM _ _ := -1
  nB _ _ := 1

/-- The discontinuous piecewise linear function with the values `l` and `r` at the ends of the cells. -/
def dg1 (l r : Fin 2 → ℚ) : Sc ℚ 1 (Fin 2) (Fin 2) (Fin 0) where
  c i := (l i + r i) / 2
  g i _ := r i - l i
  p f := r f
  m f := l (1 - f)
  b _ := 0
  gp f _ := r f - l f
  gm f _ := r (1 - f) - l (1 - f)

/-- A constant velocity. -/
def wind (a : ℚ) : Ve ℚ 1 (Fin 2) (Fin 2) (Fin 0) where
  c _ _ := a
  j _ _ _ := 0
  p _ _ := a
  m _ _ := a
  b _ _ := a

/-- On this mesh the hypotheses of the theorems below hold for all functions. -/
theorem line_ok (l r l' r' : Fin 2 → ℚ) (a : ℚ) :
    DivThm line (dg1 l r) (dg1 l' r') (wind a) ∧ FluxCont line (wind a) ∧ NoFlow line (wind a) := by
  refine ⟨?_, ?_, ?_⟩
  · simp [DivThm, line, dg1, wind, dot, Ve.div]; ring
  · intro x; simp [line, wind, dot]
  · intro x; exact x.elim0

/-! ### Basic facts -/

theorem un_zero : un (0 : K) = 0 := by simp [un]
theorem un_sub (a : K) : un a - un (-a) = a := by simp [un]; ring
theorem un_nonneg (a : K) : 0 ≤ un a := by
  unfold un
  have := neg_abs_le a
  linarith
theorem un_pos {a : K} (h : 0 ≤ a) : un a = a := by unfold un; rw [abs_of_nonneg h]; ring
theorem un_neg {a : K} (h : a ≤ 0) : un a = 0 := by unfold un; rw [abs_of_nonpos h]; ring
theorem un_neg_eq (a : K) : un (-a) = 1 / 2 * (|a| - a) := by unfold un; rw [abs_neg]; ring

theorem dot_zero_left (b : Fin d → K) : dot (fun _ => 0) b = 0 := by simp [dot]
theorem dot_comm (a b : Fin d → K) : dot a b = dot b a := by
  unfold dot; exact Finset.sum_congr rfl fun i _ => mul_comm _ _
theorem dot_smul (a : K) (v w : Fin d → K) : dot v (fun i => a * w i) = a * dot v w := by
  unfold dot; rw [Finset.mul_sum]; exact Finset.sum_congr rfl fun i _ => by ring
theorem dot_add (v w w' : Fin d → K) : dot v (fun i => w i + w' i) = dot v w + dot v w' := by
  unfold dot; rw [← Finset.sum_add_distrib]; exact Finset.sum_congr rfl fun i _ => by ring
theorem dot_sub (v w w' : Fin d → K) : dot v (fun i => w i - w' i) = dot v w - dot v w' := by
  unfold dot; rw [← Finset.sum_sub_distrib]; exact Finset.sum_congr rfl fun i _ => by ring

theorem facets_noflow_outflow (M : Mesh K d C F B) (test q : Sc K d C F B) (u : Ve K d C F B) (h : NoFlow M u) :
    outflowFacets M test q u = 0 := by
  unfold outflowFacets
  apply Finset.sum_eq_zero
  intro x _
  have : M.aB u x = 0 := h x
  rw [this, un_zero]; ring

/-! ### C84: conservation, constants, consistency -/

/-- C84: the continuity form integrated by parts once conserves mass: tested with the constant `1` it vanishes for every
field and every velocity; with outflow it is the mass flux out through the boundary. -/
theorem C84_conservative (M : Mesh K d C F B) (q : Sc K d C F B) (u : Ve K d C F B) (outflow : Bool) :
    upwindContinuity M (Sc.const 1) q u .once outflow =
      .ok (if outflow then ∑ x, M.wB x * (max (dot (u.b x) (M.nB x)) 0 * q.b x) else 0) := by
  have hun : ∀ a : K, un a = max a 0 := by
    intro a
    rcases le_total 0 a with h | h
    · rw [un_pos h, max_eq_left h]
    · rw [un_neg h, max_eq_right h]
  unfold upwindContinuity
  simp only [reduceCtorEq, and_false, if_false, if_true]
  congr 1
  have h1 : contCellsOnce M (Sc.const 1) q u = 0 := by
    simp [contCellsOnce, Sc.const, dot]
  have h2 : upwindFacets M (Sc.const 1) q u = 0 := by simp [upwindFacets, Sc.const]
  simp only [facets, h1, h2, reduceCtorEq, if_false, sub_zero, zero_add]
  cases outflow
  · simp
  · simp [outflowFacets, Sc.const, hun, Mesh.aB]

/-- C84: the same for the mass-weighted tracer form: the tracer mass `∫ q ρ` is conserved. -/
theorem C84_tracer_conservative (M : Mesh K d C F B) (q rho : Sc K d C F B) (u : Ve K d C F B) :
    upwindTracerConservative M (Sc.const 1) q rho u .once false = .ok 0 := by
  simp [upwindTracerConservative, Sc.const, dot]

/-- The integral of a field, and its product with a test function. -/
def mass (M : Mesh K d C F B) (q : Sc K d C F B) : K := ∑ x, M.wC x * q.c x
def massForm (M : Mesh K d C F B) (φ q : Sc K d C F B) : K := ∑ x, M.wC x * (φ.c x * q.c x)

/-- C84: a run of any explicit or implicit multi-stage or multi-step scheme with the continuity form conserves mass, for
any number of stages and steps and any winds, changing from stage to stage: whenever every new field is, tested with
every function, a combination with weights adding up to one of earlier fields minus a combination of the forms evaluated
at any of the fields, all the fields have the mass of the first. -/
theorem C84_run_conserves (M : Mesh K d C F B) (q : ℕ → Sc K d C F B) (u : ℕ → Ve K d C F B)
    (a b : ℕ → ℕ → K) (S : ℕ → Finset ℕ) (ha : ∀ n, ∑ i ∈ Finset.range (n + 1), a n i = 1)
    (hstep : ∀ n φ, ∃ L : ℕ → K, (∀ i ∈ S n, upwindContinuity M φ (q i) (u i) .once false = .ok (L i)) ∧
      massForm M φ (q (n + 1)) = ∑ i ∈ Finset.range (n + 1), a n i * massForm M φ (q i) - ∑ i ∈ S n, b n i * L i) :
    ∀ n, mass M (q n) = mass M (q 0) := by
  have hm : ∀ p : Sc K d C F B, massForm M (Sc.const 1) p = mass M p := by
    intro p; simp [massForm, mass, Sc.const]
  intro n
  induction n using Nat.strong_induction_on with
  | _ n ih =>
    cases n with
    | zero => rfl
    | succ n =>
      obtain ⟨L, hL, h⟩ := hstep n (Sc.const 1)
      have hz : ∑ i ∈ S n, b n i * L i = 0 := by
        apply Finset.sum_eq_zero
        intro i hi
        have h1 := hL i hi
        rw [C84_conservative] at h1
        simp only [Bool.false_eq_true, if_false, Except.ok.injEq] at h1
        rw [← h1, mul_zero]
      simp only [hm] at h
      rw [h, hz, sub_zero]
      have : ∀ i ∈ Finset.range (n + 1), a n i * mass M (q i) = a n i * mass M (q 0) := by
        intro i hi
        rw [ih i (Finset.mem_range.1 hi)]
      rw [Finset.sum_congr rfl this, ← Finset.sum_mul, ha n, one_mul]

/-- C84: integrating by parts twice conserves mass as well, for exact quadrature and no flow through the boundary. -/
theorem C84_conservative_twice (M : Mesh K d C F B) (q : Sc K d C F B) (u : Ve K d C F B) (outflow : Bool)
    (hdiv : DivThm M (Sc.const 1) q u) (hno : NoFlow M u) :
    upwindContinuity M (Sc.const 1) q u .twice outflow = .ok 0 := by
  unfold upwindContinuity
  simp only [reduceCtorEq, and_false, if_false, facets, if_true]
  congr 1
  have h2 : upwindFacets M (Sc.const 1) q u = 0 := by simp [upwindFacets, Sc.const]
  have h3 : contCells M (Sc.const 1) q u = bothFacets M (Sc.const 1) q u := by
    unfold DivThm at hdiv
    have hB : (∑ x, M.wB x * ((Sc.const 1 : Sc K d C F B).b x * q.b x * dot (u.b x) (M.nB x))) = 0 := by
      apply Finset.sum_eq_zero; intro x _; rw [hno x]; ring
    rw [hB, add_zero] at hdiv
    unfold contCells bothFacets
    rw [show (∑ x, M.wC x * ((Sc.const 1 : Sc K d C F B).c x * (dot (q.g x) (u.c x) + q.c x * u.div x))) =
      ∑ x, M.wC x * (dot ((Sc.const 1 : Sc K d C F B).g x) (u.c x) * q.c x +
        (Sc.const 1 : Sc K d C F B).c x * dot (q.g x) (u.c x) + (Sc.const 1 : Sc K d C F B).c x * q.c x * u.div x) from ?_,
      hdiv]
    · apply Finset.sum_congr rfl; intro x _; simp only [Mesh.aP, Mesh.aM]; ring
    · apply Finset.sum_congr rfl; intro x _; simp [Sc.const, dot]
  rw [h2, h3, facets_noflow_outflow M _ q u hno]
  cases outflow <;> simp

/-- C84: integrating by parts once or twice gives the same advection form, for exact quadrature and no flow through the
boundary. -/
theorem C84_ibp_advection (M : Mesh K d C F B) (φ q : Sc K d C F B) (u : Ve K d C F B) (outflow : Bool)
    (hdiv : DivThm M φ q u) (hno : NoFlow M u) :
    upwindAdvection M φ q u .once outflow = upwindAdvection M φ q u .twice outflow := by
  unfold upwindAdvection
  simp only [reduceCtorEq, and_false, if_false, facets, if_true]
  congr 1
  have hB : (∑ x, M.wB x * (φ.b x * q.b x * dot (u.b x) (M.nB x))) = 0 := by
    apply Finset.sum_eq_zero; intro x _; rw [hno x]; ring
  have key : advCellsOnce M φ q u = advCells M φ q u - bothFacets M φ q u := by
    unfold DivThm at hdiv
    rw [hB, add_zero] at hdiv
    have e1 : bothFacets M φ q u = ∑ x, M.wF x * (φ.p x * q.p x * dot (u.p x) (M.nP x) +
        φ.m x * q.m x * dot (u.m x) (M.nM x)) := by
      unfold bothFacets; apply Finset.sum_congr rfl; intro x _; simp only [Mesh.aP, Mesh.aM]; ring
    rw [e1, ← hdiv]
    unfold advCellsOnce advCells
    rw [← Finset.sum_sub_distrib, ← Finset.sum_neg_distrib]
    apply Finset.sum_congr rfl
    intro x _
    rw [dot_comm (u.c x)]; ring
  rw [key]; ring

/-- C84: the same for the continuity form. -/
theorem C84_ibp_continuity (M : Mesh K d C F B) (φ q : Sc K d C F B) (u : Ve K d C F B) (outflow : Bool)
    (hdiv : DivThm M φ q u) (hno : NoFlow M u) :
    upwindContinuity M φ q u .once outflow = upwindContinuity M φ q u .twice outflow := by
  unfold upwindContinuity
  simp only [reduceCtorEq, and_false, if_false, facets, if_true]
  congr 1
  have hB : (∑ x, M.wB x * (φ.b x * q.b x * dot (u.b x) (M.nB x))) = 0 := by
    apply Finset.sum_eq_zero; intro x _; rw [hno x]; ring
  have key : contCellsOnce M φ q u = contCells M φ q u - bothFacets M φ q u := by
    unfold DivThm at hdiv
    rw [hB, add_zero] at hdiv
    have e1 : bothFacets M φ q u = ∑ x, M.wF x * (φ.p x * q.p x * dot (u.p x) (M.nP x) +
        φ.m x * q.m x * dot (u.m x) (M.nM x)) := by
      unfold bothFacets; apply Finset.sum_congr rfl; intro x _; simp only [Mesh.aP, Mesh.aM]; ring
    rw [e1, ← hdiv]
    unfold contCellsOnce contCells
    rw [← Finset.sum_sub_distrib, ← Finset.sum_neg_distrib]
    apply Finset.sum_congr rfl
    intro x _
    rw [dot_smul]; ring
  rw [key]; ring

example (l r l' r' : Fin 2 → ℚ) (a : ℚ) :
    upwindAdvection line (dg1 l r) (dg1 l' r') (wind a) .once false =
      upwindAdvection line (dg1 l r) (dg1 l' r') (wind a) .twice false :=
  C84_ibp_advection _ _ _ _ _ (line_ok l r l' r' a).1 (line_ok l r l' r' a).2.2

theorem twice_facets_const (M : Mesh K d C F B) (φ : Sc K d C F B) (k : K) (u : Ve K d C F B) (hflux : FluxCont M u) :
    upwindFacets M φ (Sc.const k) u - bothFacets M φ (Sc.const k) u = 0 := by
  unfold upwindFacets bothFacets
  rw [← Finset.sum_sub_distrib]
  apply Finset.sum_eq_zero
  intro x _
  have h : M.aM u x = -M.aP u x := hflux x
  have h2 := un_sub (M.aP u x)
  simp only [Sc.const, h]
  have : un (M.aP u x) * k - un (-M.aP u x) * k = M.aP u x * k := by rw [← sub_mul, h2]
  rw [this]; ring

/-- C84: the advection form preserves constants: a constant field is not changed by transport, for every velocity with
continuous normal flux and no flow through the boundary (for one integration by parts with exact quadrature). -/
theorem C84_constants (M : Mesh K d C F B) (φ : Sc K d C F B) (k : K) (u : Ve K d C F B) (ibp : Ibp)
    (hflux : FluxCont M u) (hno : NoFlow M u) (hdiv : ibp = .once → DivThm M φ (Sc.const k) u) :
    upwindAdvection M φ (Sc.const k) u ibp false = .ok 0 := by
  have htwice : upwindAdvection M φ (Sc.const k) u .twice false = .ok 0 := by
    unfold upwindAdvection
    simp only [reduceCtorEq, and_false, if_false, facets, if_true]
    rw [twice_facets_const M φ k u hflux]
    simp [advCells, Sc.const, dot]
  cases ibp with
  | once => rw [C84_ibp_advection M φ _ u false (hdiv rfl) hno]; exact htwice
  | twice => exact htwice
  | never => simp [upwindAdvection, facets, advCells, Sc.const, dot]

/-- C84: consistency: for a field without jumps the facet terms of the second integration by parts cancel, so the form is
the exact operator tested cell by cell. -/
theorem C84_consistent (M : Mesh K d C F B) (φ q : Sc K d C F B) (u : Ve K d C F B) (hflux : FluxCont M u)
    (hq : Continuous q) :
    upwindAdvection M φ q u .twice false = .ok (∑ x, M.wC x * (φ.c x * dot (u.c x) (q.g x))) ∧
    upwindContinuity M φ q u .twice false =
      .ok (∑ x, M.wC x * (φ.c x * (dot (q.g x) (u.c x) + q.c x * u.div x))) := by
  have h : upwindFacets M φ q u - bothFacets M φ q u = 0 := by
    unfold upwindFacets bothFacets
    rw [← Finset.sum_sub_distrib]
    apply Finset.sum_eq_zero
    intro x _
    have h1 : M.aM u x = -M.aP u x := hflux x
    have h2 := un_sub (M.aP u x)
    rw [h1, ← hq x]
    have : un (M.aP u x) * q.p x - un (-M.aP u x) * q.p x = M.aP u x * q.p x := by rw [← sub_mul, h2]
    rw [this]; ring
  constructor
  · simp only [upwindAdvection, facets, reduceCtorEq, and_false, if_false, if_true, h]
    simp [advCells]
  · simp only [upwindContinuity, facets, reduceCtorEq, and_false, if_false, if_true, h]
    simp [contCells]

/-- C84: the facet flux is the upwind one: the normal velocity times the value on the side the wind comes from, and what
leaves one side enters the other. -/
theorem C84_upwind_value (M : Mesh K d C F B) (q : Sc K d C F B) (u : Ve K d C F B) (hflux : FluxCont M u)
    (φ : Sc K d C F B) :
    upwindFacets M φ q u = ∑ x, M.wF x * ((φ.p x - φ.m x) *
      (if 0 ≤ dot (u.p x) (M.nP x) then dot (u.p x) (M.nP x) * q.p x else dot (u.p x) (M.nP x) * q.m x)) := by
  unfold upwindFacets
  apply Finset.sum_congr rfl
  intro x _
  have h1 : M.aM u x = -M.aP u x := hflux x
  rw [h1]
  congr 2
  change _ = if 0 ≤ M.aP u x then M.aP u x * q.p x else M.aP u x * q.m x
  split
  · rename_i h
    rw [un_pos h, un_neg (neg_nonpos.2 h)]; ring
  · rename_i h
    have h := (not_le.1 h).le
    rw [un_neg h, un_pos (neg_nonneg.2 h)]; ring

/-- C84: tracer consistency: a constant mixing ratio `k` is transported exactly as `k` times the density, in every
integration by parts, so that constant mixing ratios stay constant. -/
theorem C84_tracer_consistency (M : Mesh K d C F B) (φ rho : Sc K d C F B) (k : K) (u : Ve K d C F B) (ibp : Ibp)
    (outflow : Bool) :
    upwindTracerConservative M φ (Sc.const k) rho u ibp outflow =
      (upwindContinuity M φ rho u ibp outflow).map fun L => k * L := by
  unfold upwindTracerConservative upwindContinuity
  split
  · rfl
  · simp only [Except.map]
    congr 1
    rw [mul_add]
    congr 1
    · split
      · simp only [contCellsOnce, Sc.const, mul_neg, Finset.mul_sum]
        congr 1
        apply Finset.sum_congr rfl
        intro x _
        have e : dot (φ.g x) (fun i => k * rho.c x * u.c x i) = k * dot (φ.g x) (fun i => rho.c x * u.c x i) := by
          rw [dot_smul, dot_smul]; ring
        rw [e]; ring
      · simp only [contCells, Sc.const, Finset.mul_sum]
        apply Finset.sum_congr rfl
        intro x _
        have e : dot (fun i => 0 * rho.c x + k * rho.g x i) (u.c x) = k * dot (rho.g x) (u.c x) := by
          rw [dot_comm _ (u.c x), dot_comm _ (u.c x), ← dot_smul]
          simp
        rw [e]; ring
    · unfold facets
      rw [mul_add]
      congr 1
      · split
        · simp
        · rw [mul_sub]
          congr 1
          · simp only [upwindFacets, Sc.const, Finset.mul_sum]
            apply Finset.sum_congr rfl; intro x _; ring
          · split
            · simp only [bothFacets, Sc.const, Finset.mul_sum]
              apply Finset.sum_congr rfl; intro x _; ring
            · simp
      · split
        · simp only [outflowFacets, Sc.const, Finset.mul_sum]
          apply Finset.sum_congr rfl; intro x _; ring
        · simp

/-- C84: the tracer form is the continuity form of the tracer mass `q ρ`. -/
theorem C84_tracer_is_continuity (M : Mesh K d C F B) (φ q rho : Sc K d C F B) (u : Ve K d C F B) (ibp : Ibp)
    (outflow : Bool) :
    upwindTracerConservative M φ q rho u ibp outflow = upwindContinuity M φ (q.mul rho) u ibp outflow := by
  unfold upwindTracerConservative upwindContinuity
  split
  · rfl
  · congr 1
    congr 1
    unfold facets
    congr 1
    · split
      · rfl
      · congr 1
        · simp only [upwindFacets, Sc.mul]
          apply Finset.sum_congr rfl; intro x _; ring
        · split
          · simp only [bothFacets, Sc.mul]
            apply Finset.sum_congr rfl; intro x _; ring
          · rfl
    · split
      · simp only [outflowFacets, Sc.mul]
        apply Finset.sum_congr rfl; intro x _; ring
      · rfl

/-- Linear combinations of functions. -/
def lin (α β : K) (a b : Sc K d C F B) : Sc K d C F B where
  c x := α * a.c x + β * b.c x
  g x i := α * a.g x i + β * b.g x i
  p x := α * a.p x + β * b.p x
  m x := α * a.m x + β * b.m x
  b x := α * a.b x + β * b.b x
  gp x i := α * a.gp x i + β * b.gp x i
  gm x i := α * a.gm x i + β * b.gm x i

/-- C84: the transport operators are linear in the transported field, so linear relations between fields transported by
the same wind are preserved. -/
theorem C84_linear (M : Mesh K d C F B) (φ q q' : Sc K d C F B) (u : Ve K d C F B) (ibp : Ibp) (α β L L' : K)
    (outflow : Bool) :
    (upwindAdvection M φ q u ibp outflow = .ok L → upwindAdvection M φ q' u ibp outflow = .ok L' →
      upwindAdvection M φ (lin α β q q') u ibp outflow = .ok (α * L + β * L')) ∧
    (upwindContinuity M φ q u ibp outflow = .ok L → upwindContinuity M φ q' u ibp outflow = .ok L' →
      upwindContinuity M φ (lin α β q q') u ibp outflow = .ok (α * L + β * L')) := by
  have hdot : ∀ v : Fin d → K, ∀ w w' : Fin d → K, dot v (fun i => α * w i + β * w' i) = α * dot v w + β * dot v w' := by
    intro v w w'
    rw [dot_add, dot_smul, dot_smul]
  have hf : facets M φ (lin α β q q') u ibp outflow =
      α * facets M φ q u ibp outflow + β * facets M φ q' u ibp outflow := by
    have h1 : upwindFacets M φ (lin α β q q') u = α * upwindFacets M φ q u + β * upwindFacets M φ q' u := by
      simp only [upwindFacets, lin, Finset.mul_sum, ← Finset.sum_add_distrib]
      apply Finset.sum_congr rfl; intro x _; ring
    have h2 : bothFacets M φ (lin α β q q') u = α * bothFacets M φ q u + β * bothFacets M φ q' u := by
      simp only [bothFacets, lin, Finset.mul_sum, ← Finset.sum_add_distrib]
      apply Finset.sum_congr rfl; intro x _; ring
    have h3 : outflowFacets M φ (lin α β q q') u = α * outflowFacets M φ q u + β * outflowFacets M φ q' u := by
      simp only [outflowFacets, lin, Finset.mul_sum, ← Finset.sum_add_distrib]
      apply Finset.sum_congr rfl; intro x _; ring
    unfold facets
    rw [h1, h2, h3]
    split <;> split <;> (try split) <;> ring
  constructor
  · unfold upwindAdvection
    split
    · intro h; cases h
    · intro h h'
      simp only [Except.ok.injEq] at h h' ⊢
      subst h; subst h'
      have h1 : advCellsOnce M φ (lin α β q q') u = α * advCellsOnce M φ q u + β * advCellsOnce M φ q' u := by
        simp only [advCellsOnce, lin, mul_neg, Finset.mul_sum, ← Finset.sum_neg_distrib, ← Finset.sum_add_distrib]
        apply Finset.sum_congr rfl; intro x _; ring
      have h2 : advCells M φ (lin α β q q') u = α * advCells M φ q u + β * advCells M φ q' u := by
        simp only [advCells, lin, hdot, Finset.mul_sum, ← Finset.sum_add_distrib]
        apply Finset.sum_congr rfl; intro x _; ring
      rw [hf, h1, h2]
      split <;> ring
  · unfold upwindContinuity
    split
    · intro h; cases h
    · intro h h'
      simp only [Except.ok.injEq] at h h' ⊢
      subst h; subst h'
      have h1 : contCellsOnce M φ (lin α β q q') u = α * contCellsOnce M φ q u + β * contCellsOnce M φ q' u := by
        simp only [contCellsOnce, lin, dot_smul, mul_neg, Finset.mul_sum, ← Finset.sum_neg_distrib,
          ← Finset.sum_add_distrib]
        apply Finset.sum_congr rfl; intro x _; ring
      have h2 : contCells M φ (lin α β q q') u = α * contCells M φ q u + β * contCells M φ q' u := by
        simp only [contCells, lin, dot_comm _ (u.c _), hdot, Finset.mul_sum, ← Finset.sum_add_distrib]
        apply Finset.sum_congr rfl; intro x _; ring
      rw [hf, h1, h2]
      split <;> ring

/-- C84: on a one-dimensional mesh the special forms are the general ones. -/
theorem C84_one_dimension (M : Mesh K 1 C F B) (φ q : Sc K 1 C F B) (u : Ve K 1 C F B) :
    upwindAdvection1d M φ q u .once false = upwindAdvection M φ q u .once false ∧
    upwindContinuity1d M φ q u .once false = upwindContinuity M φ q u .once false := by
  constructor
  · simp [upwindAdvection1d, upwindAdvection, facets, advCellsOnce, upwindFacets, dot, Ve.div, Mesh.aP, Mesh.aM]
  · simp only [upwindContinuity1d, upwindContinuity, facets, contCellsOnce, upwindFacets, dot, Mesh.aP, Mesh.aM]
    simp [mul_assoc]

/-! #### Horizontal and vertical splitting -/

theorem un_add_of_mul {a b : K} (h : a = 0 ∨ b = 0) : un a + un b = un (a + b) := by
  rcases h with h | h <;> subst h <;> simp [un_zero]

theorem aP_split (M : Mesh K d C F B) (k : Fin d → K) (u : Ve K d C F B) (x : F) :
    M.aP (horiz k u) x + M.aP (vert k u) x = M.aP u x ∧ M.aM (horiz k u) x + M.aM (vert k u) x = M.aM u x := by
  constructor
  · simp only [Mesh.aP, horiz, vert, dot]
    rw [← Finset.sum_add_distrib]
    apply Finset.sum_congr rfl; intro i _; ring
  · simp only [Mesh.aM, horiz, vert, dot]
    rw [← Finset.sum_add_distrib]
    apply Finset.sum_congr rfl; intro i _; ring

theorem aB_split (M : Mesh K d C F B) (k : Fin d → K) (u : Ve K d C F B) (x : B) :
    M.aB (horiz k u) x + M.aB (vert k u) x = M.aB u x := by
  simp only [Mesh.aB, horiz, vert, dot]
  rw [← Finset.sum_add_distrib]
  apply Finset.sum_congr rfl; intro i _; ring

/-- C84: the two velocities of the split forms are what their names say, for a unit vertical vector: they add up to the
velocity, the horizontal one has no vertical component, and the vertical one has no component in any horizontal
direction; in the cells, on both sides of the facets and on the boundary. -/
theorem C84_split_directions (k : Fin d → K) (hk : dot k k = 1) (u : Ve K d C F B) :
    (∀ x, (fun i => (horiz k u).c x i + (vert k u).c x i) = u.c x) ∧
    (∀ x, dot ((horiz k u).c x) k = 0) ∧ (∀ x, dot ((horiz k u).p x) k = 0) ∧
    (∀ x, dot ((horiz k u).m x) k = 0) ∧ (∀ x, dot ((horiz k u).b x) k = 0) ∧
    ∀ l : Fin d → K, dot k l = 0 → (∀ x, dot ((vert k u).c x) l = 0) ∧ (∀ x, dot ((vert k u).p x) l = 0) ∧
      (∀ x, dot ((vert k u).m x) l = 0) ∧ (∀ x, dot ((vert k u).b x) l = 0) := by
  have hv : ∀ (s : K) (l : Fin d → K), dot (fun i => k i * s) l = s * dot k l := by
    intro s l
    simp only [dot, Finset.mul_sum]
    exact Finset.sum_congr rfl fun i _ => by ring
  have hh : ∀ v : Fin d → K, dot (fun i => v i - k i * dot v k) k = 0 := by
    intro v
    have e : dot (fun i => v i - k i * dot v k) k = dot v k - dot (fun i => k i * dot v k) k := by
      simp only [dot, ← Finset.sum_sub_distrib, sub_mul]
    rw [e, hv, hk]; ring
  refine ⟨fun x => ?_, fun x => hh _, fun x => hh _, fun x => hh _, fun x => hh _, fun l hl => ⟨?_, ?_, ?_, ?_⟩⟩
  · funext i; simp [horiz]
  all_goals
    intro x
    simp only [vert, hv, hl, mul_zero]

example : dot (![0, 1] : Fin 2 → ℚ) ![0, 1] = 1 ∧ dot (![0, 1] : Fin 2 → ℚ) ![1, 0] = 0 := by
  simp [dot, Fin.sum_univ_two]

/-- C84: the horizontal and the vertical form add up to the full upwind form, on every mesh on whose facets either the
horizontal or the vertical part of the normal velocity vanishes (the facets of a mesh extruded vertically, without
orography). -/
theorem C84_split (M : Mesh K d C F B) (k : Fin d → K) (φ q : Sc K d C F B) (u : Ve K d C F B) (ibp : Ibp)
    (outflow : Bool)
    (hP : ∀ x, M.aP (horiz k u) x = 0 ∨ M.aP (vert k u) x = 0)
    (hM : ∀ x, M.aM (horiz k u) x = 0 ∨ M.aM (vert k u) x = 0)
    (hB : ∀ x, M.aB (horiz k u) x = 0 ∨ M.aB (vert k u) x = 0) :
    (splitUpwindAdvection M k φ q u ibp outflow).map (fun p => p.1 + p.2) = upwindAdvection M φ q u ibp outflow := by
  unfold splitUpwindAdvection upwindAdvection
  split
  · rfl
  · simp only [Except.map]
    congr 1
    have hc1 : advCellsOnce M φ q (horiz k u) + advCellsOnce M φ q (vert k u) = advCellsOnce M φ q u := by
      simp only [advCellsOnce, ← Finset.sum_neg_distrib, ← Finset.sum_add_distrib]
      apply Finset.sum_congr rfl
      intro x _
      have e1 : dot (φ.g x) ((horiz k u).c x) = dot (φ.g x) (u.c x) - dot (φ.g x) ((vert k u).c x) := by
        simp only [horiz]; rw [dot_sub]
      have e2 : (horiz k u).div x = u.div x - (vert k u).div x := by
        simp only [Ve.div, horiz, ← Finset.sum_sub_distrib]
      rw [e1, e2]; ring
    have hc2 : advCells M φ q (horiz k u) + advCells M φ q (vert k u) = advCells M φ q u := by
      simp only [advCells, ← Finset.sum_add_distrib]
      apply Finset.sum_congr rfl
      intro x _
      have e1 : dot ((horiz k u).c x) (q.g x) = dot (u.c x) (q.g x) - dot ((vert k u).c x) (q.g x) := by
        rw [dot_comm, dot_comm (u.c x), dot_comm ((vert k u).c x), ← dot_sub]; rfl
      rw [e1]; ring
    have hf1 : upwindFacets M φ q (horiz k u) + upwindFacets M φ q (vert k u) = upwindFacets M φ q u := by
      simp only [upwindFacets, ← Finset.sum_add_distrib]
      apply Finset.sum_congr rfl
      intro x _
      rw [← (aP_split M k u x).1, ← (aP_split M k u x).2, ← un_add_of_mul (hP x), ← un_add_of_mul (hM x)]
      ring
    have hf2 : bothFacets M φ q (horiz k u) + bothFacets M φ q (vert k u) = bothFacets M φ q u := by
      simp only [bothFacets, ← Finset.sum_add_distrib]
      apply Finset.sum_congr rfl
      intro x _
      rw [← (aP_split M k u x).1, ← (aP_split M k u x).2]
      ring
    have hf3 : outflowFacets M φ q (horiz k u) + outflowFacets M φ q (vert k u) = outflowFacets M φ q u := by
      simp only [outflowFacets, ← Finset.sum_add_distrib]
      apply Finset.sum_congr rfl
      intro x _
      rw [← aB_split M k u x, ← un_add_of_mul (hB x)]
      ring
    unfold facets
    rw [← hc1, ← hc2, ← hf1, ← hf2, ← hf3]
    cases ibp <;> cases outflow <;>
      simp only [reduceCtorEq, if_true, if_false, Bool.false_eq_true] <;> ring

/-- On a sloping facet (orography) this fails: with wind `(1, -1)` and normal `(3/5, 4/5)` the two forms take the field
from different sides of the facet, and their sum differs from the unsplit form. -/
theorem C84_split_slope_differs :
    ∃ (M : Mesh ℚ 2 (Fin 0) (Fin 1) (Fin 0)) (φ q : Sc ℚ 2 (Fin 0) (Fin 1) (Fin 0)) (u : Ve ℚ 2 (Fin 0) (Fin 1) (Fin 0)),
      FluxCont M u ∧ (splitUpwindAdvection M ![0, 1] φ q u .once false).map (fun p => p.1 + p.2) = .ok (4 / 5) ∧
      upwindAdvection M φ q u .once false = .ok (1 / 5) := by
  refine ⟨⟨fun _ => 1, fun _ => 1, fun _ => 1, fun _ => ![3 / 5, 4 / 5], fun _ => ![-3 / 5, -4 / 5], fun _ => 0⟩,
    ⟨fun _ => 0, fun _ => 0, fun _ => 1, fun _ => 0, fun _ => 0, fun _ => 0, fun _ => 0⟩,
    ⟨fun _ => 0, fun _ => 0, fun _ => 0, fun _ => -1, fun _ => 0, fun _ => 0, fun _ => 0⟩,
    ⟨fun _ => 0, fun _ => 0, fun _ => ![1, -1], fun _ => ![1, -1], fun _ => 0⟩, ?_, ?_, ?_⟩
  · intro x; simp [dot, Fin.sum_univ_two]; norm_num
  · simp only [splitUpwindAdvection, facets, advCellsOnce, upwindFacets, Mesh.aP, Mesh.aM, horiz, vert, dot, un,
      Except.map, reduceCtorEq, and_false, if_false, if_true, Bool.false_eq_true]
    norm_num [Fin.sum_univ_two, abs_of_nonneg, abs_of_nonpos]
  · simp only [upwindAdvection, facets, advCellsOnce, upwindFacets, Mesh.aP, Mesh.aM, dot, un, reduceCtorEq, and_false,
      if_false, if_true, Bool.false_eq_true]
    norm_num [Fin.sum_univ_two, abs_of_nonneg, abs_of_nonpos]

/-! ### C89: energy -/

/-- C89: the energy balance of upwind advection, exactly: for exact quadrature the form tested with the field itself is the
upwind dissipation on the facets, minus half the divergence term and half the boundary flux. -/
theorem C89_energy (M : Mesh K d C F B) (q : Sc K d C F B) (u : Ve K d C F B) (hdiv : DivThm M q q u)
    (hflux : FluxCont M u) :
    upwindAdvection M q q u .once false = .ok (
      1 / 2 * (∑ x, M.wF x * (|dot (u.p x) (M.nP x)| * (q.p x - q.m x) ^ 2))
      - 1 / 2 * (∑ x, M.wC x * (q.c x ^ 2 * u.div x))
      - 1 / 2 * ∑ x, M.wB x * (dot (u.b x) (M.nB x) * q.b x ^ 2)) := by
  unfold upwindAdvection
  simp only [reduceCtorEq, and_false, if_false, if_true, facets, sub_zero, Bool.false_eq_true, add_zero]
  congr 1
  unfold DivThm at hdiv
  have e1 : (∑ x, M.wC x * (dot (q.g x) (u.c x) * q.c x + q.c x * dot (q.g x) (u.c x) + q.c x * q.c x * u.div x)) =
      2 * (∑ x, M.wC x * (q.c x * dot (q.g x) (u.c x))) + ∑ x, M.wC x * (q.c x ^ 2 * u.div x) := by
    rw [Finset.mul_sum, ← Finset.sum_add_distrib]
    apply Finset.sum_congr rfl; intro x _; ring
  have e2 : advCellsOnce M q q u = -(∑ x, M.wC x * (q.c x * dot (q.g x) (u.c x)))
      - ∑ x, M.wC x * (q.c x ^ 2 * u.div x) := by
    unfold advCellsOnce
    rw [← Finset.sum_neg_distrib, ← Finset.sum_neg_distrib, ← Finset.sum_sub_distrib]
    apply Finset.sum_congr rfl; intro x _; ring
  have e3 : upwindFacets M q q u = 1 / 2 * (∑ x, M.wF x * (|dot (u.p x) (M.nP x)| * (q.p x - q.m x) ^ 2)) +
      1 / 2 * ∑ x, M.wF x * (q.p x * q.p x * dot (u.p x) (M.nP x) + q.m x * q.m x * dot (u.m x) (M.nM x)) := by
    unfold upwindFacets
    rw [Finset.mul_sum, Finset.mul_sum, ← Finset.sum_add_distrib]
    apply Finset.sum_congr rfl
    intro x _
    have h1 : M.aM u x = -M.aP u x := hflux x
    rw [hflux x, h1, un_neg_eq]
    simp only [un]
    change _ = 1 / 2 * (M.wF x * (|M.aP u x| * (q.p x - q.m x) ^ 2)) +
      1 / 2 * (M.wF x * (q.p x * q.p x * M.aP u x + q.m x * q.m x * -M.aP u x))
    ring
  have e4 : (∑ x, M.wB x * (q.b x * q.b x * dot (u.b x) (M.nB x))) =
      ∑ x, M.wB x * (dot (u.b x) (M.nB x) * q.b x ^ 2) := by
    apply Finset.sum_congr rfl; intro x _; ring
  rw [e1, e4] at hdiv
  rw [e2, e3]
  linarith

/-- C89: for a divergence-free wind without flow through the boundary upwind advection never increases the energy
`½∫q²`: its rate of change, the negative of the form, is at most zero. -/
theorem C89_dissipative (M : Mesh K d C F B) (hw : ∀ x, 0 ≤ M.wF x) (q : Sc K d C F B) (u : Ve K d C F B)
    (hdiv : DivThm M q q u) (hflux : FluxCont M u) (hno : NoFlow M u) (hfree : ∀ x, u.div x = 0) :
    ∃ L, upwindAdvection M q q u .once false = .ok L ∧ 0 ≤ L := by
  refine ⟨_, C89_energy M q u hdiv hflux, ?_⟩
  have h1 : (∑ x, M.wC x * (q.c x ^ 2 * u.div x)) = 0 := by
    apply Finset.sum_eq_zero; intro x _; rw [hfree x]; ring
  have h2 : (∑ x, M.wB x * (dot (u.b x) (M.nB x) * q.b x ^ 2)) = 0 := by
    apply Finset.sum_eq_zero; intro x _; rw [hno x]; ring
  have h3 : 0 ≤ ∑ x, M.wF x * (|dot (u.p x) (M.nP x)| * (q.p x - q.m x) ^ 2) :=
    Finset.sum_nonneg fun x _ => mul_nonneg (hw x) (mul_nonneg (abs_nonneg _) (sq_nonneg _))
  rw [h1, h2]
  linarith

/-- C89: with outflow the boundary is dissipative too, for every divergence-free wind, whatever its direction on the
boundary. -/
theorem C89_outflow (M : Mesh K d C F B) (hw : ∀ x, 0 ≤ M.wF x) (hwB : ∀ x, 0 ≤ M.wB x) (q : Sc K d C F B)
    (u : Ve K d C F B) (hdiv : DivThm M q q u) (hflux : FluxCont M u) (hfree : ∀ x, u.div x = 0) :
    ∃ L, upwindAdvection M q q u .once true = .ok L ∧ 0 ≤ L := by
  have h0 := C89_energy M q u hdiv hflux
  have hsum : upwindAdvection M q q u .once true =
      (upwindAdvection M q q u .once false).map fun L => L + outflowFacets M q q u := by
    unfold upwindAdvection facets
    simp [Except.map, add_assoc]
  rw [h0] at hsum
  refine ⟨_, hsum, ?_⟩
  have h1 : (∑ x, M.wC x * (q.c x ^ 2 * u.div x)) = 0 := by
    apply Finset.sum_eq_zero; intro x _; rw [hfree x]; ring
  have h3 : 0 ≤ ∑ x, M.wF x * (|dot (u.p x) (M.nP x)| * (q.p x - q.m x) ^ 2) :=
    Finset.sum_nonneg fun x _ => mul_nonneg (hw x) (mul_nonneg (abs_nonneg _) (sq_nonneg _))
  have h4 : 0 ≤ outflowFacets M q q u - 1 / 2 * ∑ x, M.wB x * (dot (u.b x) (M.nB x) * q.b x ^ 2) := by
    unfold outflowFacets
    rw [Finset.mul_sum, ← Finset.sum_sub_distrib]
    apply Finset.sum_nonneg
    intro x _
    have e : M.wB x * (q.b x * un (M.aB u x) * q.b x) - 1 / 2 * (M.wB x * (dot (u.b x) (M.nB x) * q.b x ^ 2)) =
        M.wB x * (1 / 2 * |M.aB u x| * q.b x ^ 2) := by
      change M.wB x * (q.b x * un (M.aB u x) * q.b x) - 1 / 2 * (M.wB x * (M.aB u x * q.b x ^ 2)) = _
      simp only [un]; ring
    rw [e]
    exact mul_nonneg (hwB x) (mul_nonneg (mul_nonneg (by norm_num) (abs_nonneg _)) (sq_nonneg _))
  simp only
  rw [h1]
  linarith

example (l r : Fin 2 → ℚ) (a : ℚ) : ∃ L, upwindAdvection line (dg1 l r) (dg1 l r) (wind a) .once false = .ok L ∧ 0 ≤ L :=
  C89_dissipative line (fun _ => by simp [line]) _ _ (line_ok l r l r a).1 (line_ok l r l r a).2.1
    (line_ok l r l r a).2.2 (fun _ => by simp [Ve.div, wind])

/-! ### C87: the options of `DGUpwind` -/

/-- C87: options that contradict each other are refused: advective-then-flux needs the conservative form, and outflow
needs integration by parts. -/
theorem C87_refused (ty : TType) (M : Mesh K d C F B) (test q rho : Sc K d C F B) (u : Ve K d C F B) (ibp : Ibp)
    (outflow : Bool) (h : ty ≠ .conservative) :
    dgUpwind ty M test q rho u ibp outflow true = .error .valueError ∧
    (ty = .advective → dgUpwind ty M test q rho u .never true false = .error .valueError) ∧
    dgUpwind .conservative M test q rho u .never true false = .error .valueError := by
  refine ⟨by simp [dgUpwind, h], ?_, ?_⟩
  · rintro rfl; simp [dgUpwind, upwindAdvection, Except.map]
  · simp [dgUpwind, upwindContinuity, Except.bind]

/-- C87: on general meshes the option builds the form that was asked for, with outflow for advective and conservative
fields; advective-then-flux keeps the conservative form for the last stage and the advective form for the others. -/
theorem C87_built (M : Mesh K d C F B) (test q rho : Sc K d C F B) (u : Ve K d C F B) (outflow : Bool) :
    (∃ f, upwindAdvection M test q u .once outflow = .ok f ∧
      dgUpwind .advective M test q rho u .once outflow false = .ok { form := f }) ∧
    (∃ f, upwindContinuity M test q u .once outflow = .ok f ∧
      dgUpwind .conservative M test q rho u .once outflow false = .ok { form := f }) ∧
    (∃ f g, upwindContinuity M test q u .once outflow = .ok f ∧ upwindAdvection M test q u .once outflow = .ok g ∧
      dgUpwind .conservative M test q rho u .once outflow true = .ok { form := f, allButLast := some g }) ∧
    (∃ f w, upwindAdvection M test q u .once false = .ok f ∧
      upwindTracerConservative M test q rho u .once false = .ok w ∧
      dgUpwind .tracerConservative M test q rho u .once false false = .ok { form := f, weighted := some w }) := by
  refine ⟨?_, ?_, ?_, ?_⟩ <;>
    simp [dgUpwind, upwindAdvection, upwindContinuity, upwindTracerConservative, Except.map, Except.bind]

/-- C87: on one-dimensional meshes as well the form that was asked for is built. -/
theorem C87_built_1d (M : Mesh K 1 C F B) (test q : Sc K 1 C F B) (u : Ve K 1 C F B) (outflow : Bool) :
    (∃ f, upwindAdvection1d M test q u .once outflow = .ok f ∧
      dgUpwind1d .advective M test q u .once outflow false = .ok { form := f }) ∧
    (∃ f, upwindContinuity1d M test q u .once outflow = .ok f ∧
      dgUpwind1d .conservative M test q u .once outflow false = .ok { form := f }) := by
  refine ⟨?_, ?_⟩ <;> simp [dgUpwind1d, upwindAdvection1d, upwindContinuity1d, Except.map]

/-- `outflow=True` is silently ignored on one-dimensional meshes, and for mass-weighted tracers on all meshes; and
advective-then-flux is silently ignored on one-dimensional meshes. -/
theorem C87_ignored (M : Mesh K 1 C F B) (test q rho : Sc K 1 C F B) (u : Ve K 1 C F B) :
    dgUpwind1d .advective M test q u .once true false = dgUpwind1d .advective M test q u .once false false ∧
    dgUpwind1d .conservative M test q u .once true false = dgUpwind1d .conservative M test q u .once false false ∧
    dgUpwind1d .conservative M test q u .once false true = dgUpwind1d .conservative M test q u .once false false ∧
    dgUpwind .tracerConservative M test q rho u .once true false =
      dgUpwind .tracerConservative M test q rho u .once false false := by
  refine ⟨?_, ?_, ?_, ?_⟩ <;> simp [dgUpwind1d, dgUpwind, upwindAdvection1d, upwindContinuity1d]

/-- So the claim that the outflow option lets mass leave the domain is false there: on an interval with the wind blowing
out of its only boundary point the option changes nothing, although the general form has a flux. -/
theorem C87_outflow_refuted :
    ∃ (M : Mesh ℚ 1 (Fin 0) (Fin 0) (Fin 1)) (test q : Sc ℚ 1 (Fin 0) (Fin 0) (Fin 1))
      (u : Ve ℚ 1 (Fin 0) (Fin 0) (Fin 1)),
      (dgUpwind1d .conservative M test q u .once true false).map (fun b => b.form) = .ok 0 ∧
      upwindContinuity M test q u .once true = .ok 6 := by
  refine ⟨⟨fun _ => 1, fun _ => 1, fun _ => 1, fun _ _ => 1, fun _ _ => 1, fun _ _ => 1⟩,
    Sc.const 1, Sc.const 3, ⟨fun _ _ => 0, fun _ _ _ => 0, fun _ _ => 2, fun _ _ => 2, fun _ _ => 2⟩, ?_, ?_⟩
  · simp [dgUpwind1d, upwindContinuity1d, Except.map]
  · simp [upwindContinuity, facets, contCellsOnce, upwindFacets, outflowFacets, Sc.const, un, Mesh.aB, dot]
    norm_num

/-- On a one-dimensional mesh a mass-weighted tracer fails with an unassigned variable instead of a message. -/
theorem C87_one_dimension_unbound (M : Mesh K 1 C F B) (test q : Sc K 1 C F B) (u : Ve K 1 C F B) (ibp : Ibp)
    (outflow : Bool) :
    dgUpwind1d .tracerConservative M test q u ibp outflow false = .error .unboundLocal := by
  simp [dgUpwind1d]

/-! ### C86: interior penalty diffusion -/

/-- The normals of the two sides of a facet are opposite (on a flat mesh). -/
def Opposite (M : Mesh K d C F B) : Prop := ∀ x i, M.nM x i = -M.nP x i

theorem jumpN_cont (M : Mesh K d C F B) (hn : Opposite M) (q : Sc K d C F B) (hq : Continuous q) (x : F) :
    jumpN M q x = fun _ => 0 := by
  funext i
  simp only [jumpN, hn x i, hq x]; ring

/-- C86: the interior penalty form is symmetric. -/
theorem C86_symmetric (M : Mesh K d C F B) (kappa mu : K) (φ q : Sc K d C F B) :
    interiorPenalty M kappa mu φ q = interiorPenalty M kappa mu q φ := by
  unfold interiorPenalty
  congr 1
  · apply Finset.sum_congr rfl
    intro x _
    congr 1
    unfold dot; apply Finset.sum_congr rfl; intro i _; ring
  · apply Finset.sum_congr rfl
    intro x _
    congr 1
    have e : dot (jumpN M q x) (fun i => jumpN M φ x i * kappa) = dot (jumpN M φ x) (fun i => jumpN M q x i * kappa) := by
      unfold dot; apply Finset.sum_congr rfl; intro i _; ring
    rw [e, dot_comm (jumpN M q x) (avgGrad kappa φ x), dot_comm (avgGrad kappa q x) (jumpN M φ x)]
    ring

/-- C86: diffusion conserves the integral of the field: tested with a constant the form vanishes. -/
theorem C86_conservative (M : Mesh K d C F B) (hn : Opposite M) (kappa mu k : K) (q : Sc K d C F B) :
    interiorPenalty M kappa mu (Sc.const k) q = 0 := by
  have hc : Continuous (Sc.const k : Sc K d C F B) := fun x => rfl
  unfold interiorPenalty
  have h1 : (∑ x, M.wC x * dot ((Sc.const k : Sc K d C F B).g x) (fun i => q.g x i * kappa)) = 0 := by
    simp [Sc.const, dot]
  rw [h1, zero_add]
  apply Finset.sum_eq_zero
  intro x _
  have h2 : avgGrad kappa (Sc.const k : Sc K d C F B) x = fun _ => 0 := by
    funext i; simp [avgGrad, Sc.const]
  rw [jumpN_cont M hn _ hc x, h2]
  simp [dot]

/-- C86: constant fields are not diffused. -/
theorem C86_constants (M : Mesh K d C F B) (hn : Opposite M) (kappa mu k : K) (φ : Sc K d C F B) :
    interiorPenalty M kappa mu φ (Sc.const k) = 0 := by
  rw [C86_symmetric]; exact C86_conservative M hn kappa mu k φ

/-- C86: consistency: for a field without jumps only the standard form and the flux of the mean gradient remain, without
penalty; if the test function has no jumps either it is the form of the continuous method. -/
theorem C86_consistent (M : Mesh K d C F B) (hn : Opposite M) (kappa mu : K) (φ q : Sc K d C F B) (hq : Continuous q) :
    interiorPenalty M kappa mu φ q = (∑ x, M.wC x * (kappa * dot (φ.g x) (q.g x)))
      - ∑ x, M.wF x * dot (fun i => kappa * ((q.gp x i + q.gm x i) / 2)) (fun i => φ.p x * M.nP x i + φ.m x * M.nM x i)
    ∧ (Continuous φ → interiorPenalty M kappa mu φ q = cgDiffusion M kappa φ q) := by
  have first : interiorPenalty M kappa mu φ q = (∑ x, M.wC x * (kappa * dot (φ.g x) (q.g x)))
      - ∑ x, M.wF x * dot (fun i => kappa * ((q.gp x i + q.gm x i) / 2))
          (fun i => φ.p x * M.nP x i + φ.m x * M.nM x i) := by
    unfold interiorPenalty
    rw [sub_eq_add_neg, ← Finset.sum_neg_distrib]
    congr 1
    · apply Finset.sum_congr rfl
      intro x _
      congr 1
      unfold dot; rw [Finset.mul_sum]; apply Finset.sum_congr rfl; intro i _; ring
    · apply Finset.sum_congr rfl
      intro x _
      rw [jumpN_cont M hn q hq x]
      have e : avgGrad kappa q x = fun i => kappa * ((q.gp x i + q.gm x i) / 2) := by
        funext i; simp only [avgGrad]; ring
      rw [e, dot_zero_left, dot_zero_left]
      change M.wF x * (-0 - dot (fun i => kappa * ((q.gp x i + q.gm x i) / 2))
        (fun i => φ.p x * M.nP x i + φ.m x * M.nM x i) + mu * 0) = _
      ring
  refine ⟨first, fun hφ => ?_⟩
  rw [first]
  have : (∑ x, M.wF x * dot (fun i => kappa * ((q.gp x i + q.gm x i) / 2))
      (fun i => φ.p x * M.nP x i + φ.m x * M.nM x i)) = 0 := by
    apply Finset.sum_eq_zero
    intro x _
    have := jumpN_cont M hn φ hφ x
    change M.wF x * dot _ (jumpN M φ x) = 0
    rw [this, dot_comm, dot_zero_left, mul_zero]
  rw [this, sub_zero]; rfl

/-- C86: coercivity: if the penalty weight is large enough for the mesh (the mean gradients on the facets are bounded by
`mu` times the gradients in the cells, the usual trace inequality), diffusion with a non-negative coefficient never
increases the energy. -/
theorem C86_coercive (M : Mesh K d C F B) (hw : ∀ x, 0 ≤ M.wF x) (kappa mu : K) (hk : 0 ≤ kappa) (hmu : 0 < mu)
    (q : Sc K d C F B)
    (htrace : (∑ x, M.wF x * dot (fun i => (q.gp x i + q.gm x i) / 2) (fun i => (q.gp x i + q.gm x i) / 2)) ≤
      mu * ∑ x, M.wC x * dot (q.g x) (q.g x)) :
    0 ≤ interiorPenalty M kappa mu q q := by
  let G : F → Fin d → K := fun x i => (q.gp x i + q.gm x i) / 2
  have e : interiorPenalty M kappa mu q q = kappa * ((∑ x, M.wC x * dot (q.g x) (q.g x)) +
      ∑ x, M.wF x * (mu * dot (jumpN M q x) (jumpN M q x) - 2 * dot (jumpN M q x) (G x))) := by
    unfold interiorPenalty
    rw [mul_add, Finset.mul_sum, Finset.mul_sum]
    congr 1
    · apply Finset.sum_congr rfl
      intro x _
      unfold dot; rw [Finset.mul_sum, Finset.mul_sum, Finset.mul_sum]
      apply Finset.sum_congr rfl; intro i _; ring
    · apply Finset.sum_congr rfl
      intro x _
      have e1 : avgGrad kappa q x = fun i => kappa * G x i := by
        funext i; simp only [avgGrad, G]; ring
      have e2 : (fun i => jumpN M q x i * kappa) = fun i => kappa * jumpN M q x i := by
        funext i; ring
      rw [e1, e2, dot_smul, dot_smul, dot_comm (fun i => kappa * G x i), dot_smul]
      ring
  rw [e]
  apply mul_nonneg hk
  have young : ∀ x, -(1 / mu * (M.wF x * dot (G x) (G x))) ≤
      M.wF x * (mu * dot (jumpN M q x) (jumpN M q x) - 2 * dot (jumpN M q x) (G x)) := by
    intro x
    have hsq : 0 ≤ ∑ i, (mu * jumpN M q x i - G x i) ^ 2 := Finset.sum_nonneg fun i _ => sq_nonneg _
    have hexp : ∑ i, (mu * jumpN M q x i - G x i) ^ 2 =
        mu * (mu * dot (jumpN M q x) (jumpN M q x) - 2 * dot (jumpN M q x) (G x)) + dot (G x) (G x) := by
      unfold dot
      simp only [Finset.mul_sum, ← Finset.sum_sub_distrib, ← Finset.sum_add_distrib]
      apply Finset.sum_congr rfl; intro i _; ring
    rw [hexp] at hsq
    have h2 : -(1 / mu * dot (G x) (G x)) ≤ mu * dot (jumpN M q x) (jumpN M q x) - 2 * dot (jumpN M q x) (G x) := by
      rw [neg_le_iff_add_nonneg]
      have := mul_nonneg (one_div_pos.2 hmu).le hsq
      have e3 : 1 / mu * (mu * (mu * dot (jumpN M q x) (jumpN M q x) - 2 * dot (jumpN M q x) (G x)) + dot (G x) (G x)) =
          mu * dot (jumpN M q x) (jumpN M q x) - 2 * dot (jumpN M q x) (G x) + 1 / mu * dot (G x) (G x) := by
        field_simp
      linarith
    calc -(1 / mu * (M.wF x * dot (G x) (G x))) = M.wF x * -(1 / mu * dot (G x) (G x)) := by ring
      _ ≤ _ := mul_le_mul_of_nonneg_left h2 (hw x)
  have hsum : -(1 / mu * ∑ x, M.wF x * dot (G x) (G x)) ≤
      ∑ x, M.wF x * (mu * dot (jumpN M q x) (jumpN M q x) - 2 * dot (jumpN M q x) (G x)) := by
    rw [Finset.mul_sum, ← Finset.sum_neg_distrib]
    exact Finset.sum_le_sum fun x _ => young x
  have ht : 1 / mu * (∑ x, M.wF x * dot (G x) (G x)) ≤ ∑ x, M.wC x * dot (q.g x) (q.g x) := by
    have := mul_le_mul_of_nonneg_left htrace (one_div_pos.2 hmu).le
    have e4 : 1 / mu * (mu * ∑ x, M.wC x * dot (q.g x) (q.g x)) = ∑ x, M.wC x * dot (q.g x) (q.g x) := by
      field_simp
    rw [e4] at this
    exact this
  linarith

/-- C86: on a one-dimensional mesh the special form is the general one. -/
theorem C86_one_dimension (M : Mesh K 1 C F B) (kappa mu : K) (φ q : Sc K 1 C F B) :
    interiorPenalty1d M kappa mu φ q = interiorPenalty M kappa mu φ q := by
  simp only [interiorPenalty1d, interiorPenalty, dot, jumpN, avgGrad, Finset.univ_unique, Fin.default_eq_zero,
    Finset.sum_singleton]
  congr 1
  · apply Finset.sum_congr rfl; intro x _; ring
  · apply Finset.sum_congr rfl; intro x _; ring

/-- On the line the trace inequality holds with `mu = 2` for all piecewise linear functions. -/
example (l r : Fin 2 → ℚ) : 0 ≤ interiorPenalty line 3 2 (dg1 l r) (dg1 l r) := by
  apply C86_coercive line (fun _ => by simp [line]) 3 2 (by norm_num) (by norm_num)
  simp [line, dg1, dot, Fin.sum_univ_two]
  nlinarith [sq_nonneg (r 0 - l 0 - (r 1 - l 1)), sq_nonneg (r 0 - l 0), sq_nonneg (r 1 - l 1)]

example : Opposite line := fun _ _ => rfl

/-! ### C88: circulation and vector-invariant forms -/

theorem dot_perp_self (v : Fin 2 → K) : dot v (perp v) = 0 := by
  simp [dot, perp, Fin.sum_univ_two]; ring

/-- C88: the circulation term does no work: tested with the transporting wind it vanishes, for every transported field. -/
theorem C88_no_work (M : Mesh K 2 C F B) (q u : Ve K 2 C F B) (ibp : Ibp) :
    upwindCirculation2 M u q u ibp = 0 := by
  have h1 : (psi u u).p = fun _ => 0 := by funext x; exact dot_perp_self _
  have h2 : (psi u u).m = fun _ => 0 := by funext x; exact dot_perp_self _
  have h3 : (psi u u).g = fun _ _ => 0 := by
    funext x l; simp [psi, dot, perp, Fin.sum_univ_two]; ring
  have h4 : circFacets2 M u q u = 0 := by
    simp [circFacets2, h1, h2, dot]
  unfold upwindCirculation2
  split
  · rw [h4, h3]; simp [dot, perp, Fin.sum_univ_two]
  · rw [h4]
    have h5 : ∀ x, (psi u u).p x = 0 := fun x => congrFun h1 x
    have h6 : ∀ x, (psi u u).m x = 0 := fun x => congrFun h2 x
    have : ∀ x, dot (u.c x) (fun i => (-q.j x 1 0 + q.j x 0 1) * perp (u.c x) i) = 0 := by
      intro x; rw [dot_smul, dot_perp_self, mul_zero]
    simp only [this, h5, h6, zero_mul, dot_zero_left]
    simp

/-- C88: so the rate of work of the vector-invariant form is the kinetic energy part alone. -/
theorem C88_vector_invariant_work (M : Mesh K 2 C F B) (q u : Ve K 2 C F B) (ibp : Ibp) :
    upwindVectorInvariant2 M u q u ibp = -∑ x, M.wC x * (1 / 2 * u.div x * dot (q.c x) (u.c x)) := by
  simp [upwindVectorInvariant2, C88_no_work, kineticCells]

/-- C88: the same in three dimensions. -/
theorem C88_no_work3 (M : Mesh K 3 C F B) (q u : Ve K 3 C F B) : upwindCirculation3 M u q u .once = .ok 0 := by
  have hc : ∀ v : Fin 3 → K, cross v v = fun _ => 0 := by
    intro v; funext i; fin_cases i <;> simp [cross] <;> ring
  have hz : ∀ v : Fin 3 → K, cross v (fun _ => 0) = fun _ => 0 := by
    intro v; funext i; fin_cases i <;> simp [cross]
  have hj : ∀ x, crossJ (u.c x) (u.c x) (u.j x) (u.j x) = fun _ _ => 0 := by
    intro x; funext i l; fin_cases i <;> simp [crossJ, cross] <;> ring
  have hcz : curlJ (fun _ _ => (0 : K)) = fun _ => 0 := by
    funext i; fin_cases i <;> simp [curlJ]
  simp only [upwindCirculation3, ne_eq, not_true_eq_false, if_false]
  simp [hc, hz, hj, hcz, dot]

/-- The quadrature satisfies the divergence theorem for `ψ perp(q)`. -/
def PerpThm (M : Mesh K 2 C F B) (ψ : Sc K 2 C F B) (q : Ve K 2 C F B) : Prop :=
  ∑ x, M.wC x * (dot (ψ.g x) (perp (q.c x)) + ψ.c x * (-q.j x 1 0 + q.j x 0 1)) =
    ∑ x, M.wF x * (ψ.p x * dot (perp (q.p x)) (M.nP x) + ψ.m x * dot (perp (q.m x)) (M.nM x))

/-- C88: in the plane one or two integrations by parts give the same circulation form, for exact quadrature and test
functions that vanish on the boundary. -/
theorem C88_ibp (M : Mesh K 2 C F B) (test q u : Ve K 2 C F B) (h : PerpThm M (psi test u) q) :
    upwindCirculation2 M test q u .once = upwindCirculation2 M test q u .twice := by
  unfold upwindCirculation2
  simp only [if_true, reduceCtorEq, if_false]
  unfold PerpThm at h
  have e1 : (∑ x, M.wF x * (dot (fun i => (psi test u).p x * perp (q.p x) i) (M.nP x)
        + dot (fun i => (psi test u).m x * perp (q.m x) i) (M.nM x))) =
      ∑ x, M.wF x * ((psi test u).p x * dot (perp (q.p x)) (M.nP x) + (psi test u).m x * dot (perp (q.m x)) (M.nM x)) := by
    apply Finset.sum_congr rfl; intro x _
    rw [dot_comm _ (M.nP x), dot_smul, dot_comm _ (M.nM x), dot_smul, dot_comm (M.nP x), dot_comm (M.nM x)]
  rw [e1, ← h]
  have e2 : (∑ x, M.wC x * (dot ((psi test u).g x) (perp (q.c x)) + (psi test u).c x * (-q.j x 1 0 + q.j x 0 1))) =
      -(∑ x, M.wC x * dot (perp ((psi test u).g x)) (q.c x)) +
        ∑ x, M.wC x * dot (test.c x) (fun i => (-q.j x 1 0 + q.j x 0 1) * perp (u.c x) i) := by
    rw [← Finset.sum_neg_distrib, ← Finset.sum_add_distrib]
    apply Finset.sum_congr rfl
    intro x _
    rw [dot_smul]
    have e3 : dot ((psi test u).g x) (perp (q.c x)) = -dot (perp ((psi test u).g x)) (q.c x) := by
      simp [dot, perp, Fin.sum_univ_two]
    rw [e3]
    simp only [psi]; ring
  rw [e2]; ring

/-- Two unit squares side by side, periodic in the second direction: facet `0` between them, facets `1` and `2` the
periodic ones. -/
def strip : Mesh ℚ 2 (Fin 2) (Fin 3) (Fin 0) where
  wC _ := 1
  wF _ := 1
  wB _ := 1
  nP f := if f = 0 then ![1, 0] else ![0, 1]
  nM f := if f = 0 then ![-1, 0] else ![0, -1]
  nB _ := 0

/-- The vector `(a, r i)` on cell `i`. -/
def piece (a : ℚ) (r : Fin 2 → ℚ) : Ve ℚ 2 (Fin 2) (Fin 3) (Fin 0) where
  c i := ![a, r i]
  j _ _ _ := 0
  p f := ![a, if f = 2 then r 1 else r 0]
  m f := ![a, if f = 1 then r 0 else r 1]
  b _ := 0

/-- The test function `(0, hat)`, with the hat function that is one on facet `0` and vanishes at the ends. -/
def hat : Ve ℚ 2 (Fin 2) (Fin 3) (Fin 0) where
  c _ := ![0, 1 / 2]
  j x i l := if i = 1 ∧ l = 0 then (if x = 0 then 1 else -1) else 0
  p f := ![0, if f = 0 then 1 else 1 / 2]
  m f := ![0, if f = 0 then 1 else 1 / 2]
  b _ := 0

/-- The hypotheses hold for discontinuous fields. -/
example (a : ℚ) (r : Fin 2 → ℚ) (w : ℚ) : PerpThm strip (psi hat (piece w fun _ => 0)) (piece a r) ∧
    FluxCont strip (piece w fun _ => 0) := by
  constructor
  · simp [PerpThm, strip, piece, hat, psi, dot, perp, Fin.sum_univ_two, Fin.sum_univ_three]
  · intro x; fin_cases x <;> simp [strip, piece, dot, Fin.sum_univ_two]

/-- The weight of the side the wind comes from is one, and that of the other side is zero. -/
theorem C88_weights_upwind (a : K) : (0 < a → upw a = 1) ∧ (a < 0 → upw a = 0) := by
  unfold upw
  refine ⟨fun h => ?_, fun h => ?_⟩
  · rw [if_pos h]; norm_num
  · rw [if_neg (not_lt.2 h.le), if_pos h]; norm_num

example : upw (3 : ℚ) = 1 ∧ upw (-2 : ℚ) = 0 :=
  ⟨(C88_weights_upwind 3).1 (by norm_num), (C88_weights_upwind (-2)).2 (by norm_num)⟩

/-- C88, three dimensions: the curl in the cell integral is that of vector calculus:
`∇×(a×b) = a (∇·b) - b (∇·a) + (b·∇)a - (a·∇)b`. -/
theorem C88_curl (a b : Fin 3 → K) (ja jb : Fin 3 → Fin 3 → K) (i : Fin 3) :
    curlJ (crossJ a b ja jb) i =
      a i * (∑ l, jb l l) - b i * (∑ l, ja l l) + (∑ l, b l * ja i l) - ∑ l, a l * jb i l := by
  fin_cases i <;> simp [curlJ, crossJ, cross, Fin.sum_univ_three] <;> ring

/-- With the wind along the facet the upwind weights are one half on both sides, so they always add up to one. -/
theorem C88_weights (a : K) : upw a + upw (-a) = 1 ∧ 0 ≤ upw a ∧ upw a ≤ 1 := by
  unfold upw
  rcases lt_trichotomy a 0 with h | h | h
  · rw [if_neg (not_lt.2 h.le), if_pos h, if_pos (neg_pos.2 h)]; norm_num
  · subst h; simp; norm_num
  · rw [if_pos h, if_neg (not_lt.2 (neg_nonpos.2 h.le)), if_pos (neg_neg_iff_pos.2 h)]; norm_num

/-- C88: consistency: for a transported field without jumps, with continuous normal wind, the twice integrated form is the vorticity `∂₀q₁ - ∂₁q₀` times `perp(u)`, that is `(∇×q)×u`. -/
theorem C88_consistent (M : Mesh K 2 C F B) (test q u : Ve K 2 C F B) (hflux : FluxCont M u)
    (hq : ∀ x, q.p x = q.m x) :
    upwindCirculation2 M test q u .twice =
      ∑ x, M.wC x * ((q.j x 1 0 - q.j x 0 1) * dot (test.c x) (perp (u.c x))) := by
  unfold upwindCirculation2
  simp only [reduceCtorEq, if_false]
  have hup : ∀ x, upw (M.aP u x) + upw (M.aM u x) = 1 := by
    intro x
    have h1 : M.aM u x = -M.aP u x := hflux x
    rw [h1]; exact (C88_weights _).1
  have hf : (∑ x, M.wF x * (dot (fun i => (psi test u).p x * perp (q.p x) i) (M.nP x)
        + dot (fun i => (psi test u).m x * perp (q.m x) i) (M.nM x))) = circFacets2 M test q u := by
    unfold circFacets2
    apply Finset.sum_congr rfl
    intro x _
    congr 1
    have e : (fun i => upw (M.aP u x) * perp (q.p x) i + upw (M.aM u x) * perp (q.m x) i) = perp (q.m x) := by
      funext i
      rw [hq x, ← add_mul, hup x, one_mul]
    rw [e, hq x]
    unfold dot
    rw [← Finset.sum_add_distrib]
    apply Finset.sum_congr rfl; intro i _; ring
  rw [hf, sub_add_cancel, ← Finset.sum_neg_distrib]
  apply Finset.sum_congr rfl
  intro x _
  rw [dot_smul]; ring

/-- C88: three dimensions are only supported with one integration by parts. -/
theorem C88_three_dimensions (M : Mesh K 3 C F B) (test q u : Ve K 3 C F B) (ibp : Ibp) :
    (upwindCirculation3 M test q u ibp = .error .notImplemented) ↔ ibp ≠ .once := by
  unfold upwindCirculation3
  split
  · simp_all
  · rename_i h; constructor
    · intro h'; cases h'
    · intro h'; exact absurd h' h

end Gusto.Props.DGProps
