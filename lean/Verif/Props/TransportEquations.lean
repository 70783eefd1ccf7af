import Verif.Model.TransportEquations
import Verif.Props.EquationSet
import Verif.Props.CommonForms

set_option autoImplicit false
set_option linter.unusedSectionVars false
set_option linter.unusedSimpArgs false

/-!
# C113: transport and diffusion equations
-/

namespace Gusto.Props.TransportEquationsProps
open Gusto.Forms Gusto.TranspEq

variable {R : Type} [CommRing R] [Algebra ℚ R] {d : ℕ} {S : Type}

/-! ### The equations of the documentation -/

/-- The group of the values of a field. -/
instance : (r : Rank) → AddCommGroup (Val R d r)
  | .scalar => inferInstanceAs (AddCommGroup R)
  | .vector => inferInstanceAs (AddCommGroup (Fin d → R))

/-- `(u.∇)q`, component by component. -/
def advect (D : Derivs R d) (u : Fin d → R) : (r : Rank) → Val R d r → Val R d r
  | .scalar, q => (∑ i, u i * D i (show R from q) : R)
  | .vector, q => (fun a => ∑ i, u i * D i (q a) : Fin d → R)

/-- `∇.(u q)`, component by component. -/
def fluxDiv (D : Derivs R d) (u : Fin d → R) : (r : Rank) → Val R d r → Val R d r
  | .scalar, q => (∑ i, D i (u i * (show R from q)) : R)
  | .vector, q => (fun a => ∑ i, D i (u i * q a) : Fin d → R)

/-- `∇.(κ∇q)` of a scalar. -/
def diffuse1 (D : Derivs R d) (q : R) : Kappa R d → R
  | .scalar k => ∑ i, D i (k * D i q)
  | .matrix k => ∑ i, D i (∑ j, k i j * D j q)

/-- `∇.(κ∇q)`, component by component. -/
def diffuse (D : Derivs R d) (k : Kappa R d) : (r : Rank) → Val R d r → Val R d r
  | .scalar, q => (diffuse1 D q k : R)
  | .vector, q => (fun a => diffuse1 D (q a) k : Fin d → R)

/-- The equation in the documentation of a class: `dq` is the time derivative of `q`. -/
def Documented (D : Derivs R d) (u : Fin d → R) (c : Call S R d) (dq q : Val R d c.rank) : Prop :=
  match c.kind, c.kappa with
  | .advection, _ => dq + advect D u c.rank q = 0
  | .continuity, _ => dq + fluxDiv D u c.rank q = 0
  | .diffusion, some k => dq = diffuse D k c.rank q
  | .advectionDiffusion, some k => dq + advect D u c.rank q = diffuse D k c.rank q
  | _, none => False

/-- A residual holds in weak form: for every test function the terms add up to zero, with the time derivative of the field in the
terms labelled so. -/
def Holds {r : Rank} (u : Fin d → R) (res : List (Tm R d r)) (dq q : Val R d r) : Prop :=
  ∀ test, (res.map fun t => if t.timeDerivative then t.form u dq test else t.form u q test).sum = 0

/-- The cases in which the forms are those of the documentation. -/
def Fine (c : Call S R d) : Prop :=
  match c.rank, c.kind, c.kappa with
  | .scalar, _, _ => True
  | .vector, .continuity, _ => True
  | .vector, .diffusion, some (.scalar _) => True
  | _, _, _ => False

/-! ### Weak and strong -/

theorem weak_scalar (a : R) : (∀ test : R, test * a = 0) ↔ a = 0 :=
  ⟨fun h => by simpa using h 1, fun h t => by rw [h, mul_zero]⟩

theorem weak_vector (a : Fin d → R) : (∀ test : Fin d → R, dot test a = 0) ↔ a = 0 := by
  refine ⟨fun h => funext fun i => ?_, fun h t => by simp [dot, h]⟩
  have := h (Pi.single i 1)
  simpa [dot, Pi.single_apply] using this

theorem e1 (a b t : R) : a * t + t * b = t * (a + b) := by ring
theorem e2 (a b t : R) : a * t + -(t * b) = t * (a - b) := by ring
theorem e3 (a b c t : R) : a * t + (t * b + -(t * c)) = t * (a + b - c) := by ring

/-- The constructors fail only without parameters. -/
theorem construct_ok (D : Derivs R d) (dom : Dom S) (c : Call S R d)
    (hk : c.kind = .diffusion ∨ c.kind = .advectionDiffusion → c.kappa ≠ none) :
    ∃ e, (construct D dom c).2 = .ok e := by
  unfold construct
  cases hc : c.kind <;> simp only
  · exact ⟨_, rfl⟩
  · exact ⟨_, rfl⟩
  all_goals
    cases hp : c.kappa with
    | none => exact absurd hp (hk (by simp [hc]))
    | some k => exact ⟨_, rfl⟩

/-- **C113** (partial: the equation).  The constructors of `AdvectionEquation`, `ContinuityEquation`, `DiffusionEquation` and
`AdvectionDiffusionEquation` make an equation whose residual holds in weak form exactly if the field satisfies the equation in
the documentation, for every velocity, field, time derivative and diffusivity; provided that the field is a scalar, or the class
is `ContinuityEquation`, or it is `DiffusionEquation` with a scalar diffusivity. -/
theorem C113_equations_partial (D : Derivs R d) (dom : Dom S) (name : String) (r : Rank) (kind : Kind) (Vu : Option S)
    (kappa : Option (Kappa R d)) (hf : Fine (⟨kind, name, r, Vu, kappa⟩ : Call S R d))
    (hk : kind = .diffusion ∨ kind = .advectionDiffusion → kappa ≠ none) :
    ∃ res V, (construct D dom ⟨kind, name, r, Vu, kappa⟩).2 = .ok ⟨name, r, V, res⟩ ∧
      ∀ u dq q, Holds u res dq q ↔ Documented D u ⟨kind, name, r, Vu, kappa⟩ dq q := by
  cases kind with
  | advection =>
    refine ⟨_, _, rfl, fun u dq q => ?_⟩
    cases r with
    | vector => exact absurd hf (by simp [Fine])
    | scalar =>
      refine Iff.trans ?_ (weak_scalar (R := R) (show R from dq + advect D u .scalar q))
      refine forall_congr' fun test => ?_
      simp only [List.map_cons, List.map_nil, List.sum_cons, List.sum_nil, massTm, advTm, massForm, advection, advectionForm,
        dot, grad, if_true, Bool.false_eq_true, if_false, add_zero]
      exact Eq.congr (e1 (R := R) dq _ test) rfl
  | continuity =>
    refine ⟨_, _, rfl, fun u dq q => ?_⟩
    cases r with
    | vector =>
      refine Iff.trans ?_ (weak_vector (show Fin d → R from dq + fluxDiv D u .vector q))
      refine forall_congr' fun test => ?_
      simp only [List.map_cons, List.map_nil, List.sum_cons, List.sum_nil, massTm, contTm, massForm, continuity, div, outer,
        dot, if_true, Bool.false_eq_true, if_false, add_zero]
      refine Eq.congr ?_ rfl
      rw [← Finset.sum_add_distrib]
      refine Finset.sum_congr rfl fun a _ => ?_
      change dq a * test a + test a * (∑ i, D i (q a * u i)) = test a * (dq a + ∑ i, D i (u i * q a))
      simp only [mul_comm (u _) (q a)]
      ring
    | scalar =>
      refine Iff.trans ?_ (weak_scalar (R := R) (show R from dq + fluxDiv D u .scalar q))
      refine forall_congr' fun test => ?_
      simp only [List.map_cons, List.map_nil, List.sum_cons, List.sum_nil, massTm, contTm, massForm, continuity,
        continuityForm, div, outer, if_true, Bool.false_eq_true, if_false, add_zero]
      have : (∑ i, D i (u i * (show R from q))) = ∑ i, D i ((show R from q) * u i) :=
        Finset.sum_congr rfl fun i _ => by rw [mul_comm]
      refine Eq.congr ((e1 (R := R) dq _ test).trans ?_) rfl
      exact congrArg (fun z : R => (show R from test) * ((show R from dq) + z)) this.symm
  | diffusion =>
    cases kappa with
    | none => exact absurd rfl (hk (by simp))
    | some k =>
      refine ⟨_, _, rfl, fun u dq q => ?_⟩
      cases r with
      | vector =>
        cases k with
        | matrix k => exact absurd hf (by simp [Fine])
        | scalar k =>
          refine Iff.trans ?_ ((weak_vector (show Fin d → R from dq - diffuse D (.scalar k) .vector q)).trans sub_eq_zero)
          refine forall_congr' fun test => ?_
          simp only [List.map_cons, List.map_nil, List.sum_cons, List.sum_nil, massTm, diffTm, massForm, diffusion, div,
            kappaGradV, dot, if_true, Bool.false_eq_true, if_false, add_zero]
          refine Eq.congr ?_ rfl
          rw [← sub_eq_add_neg, ← Finset.sum_sub_distrib]
          refine Finset.sum_congr rfl fun a _ => ?_
          change dq a * test a - test a * _ = test a * (dq a - _)
          rw [mul_sub, mul_comm (dq a)]
          rfl
      | scalar =>
        refine Iff.trans ?_ ((weak_scalar (R := R) (show R from dq - diffuse D k .scalar q)).trans sub_eq_zero)
        refine forall_congr' fun test => ?_
        simp only [List.map_cons, List.map_nil, List.sum_cons, List.sum_nil, massTm, diffTm, massForm, diffusion, div,
          if_true, Bool.false_eq_true, if_false, add_zero]
        cases k with
        | scalar k => exact Eq.congr (e2 (R := R) dq _ test) rfl
        | matrix k => exact Eq.congr (e2 (R := R) dq _ test) rfl
  | advectionDiffusion =>
    cases kappa with
    | none => exact absurd rfl (hk (by simp))
    | some k =>
      refine ⟨_, _, rfl, fun u dq q => ?_⟩
      cases r with
      | vector => cases k <;> exact absurd hf (by simp [Fine])
      | scalar =>
        refine Iff.trans ?_ ((weak_scalar (R := R)
          (show R from dq + advect D u .scalar q - diffuse D k .scalar q)).trans sub_eq_zero)
        refine forall_congr' fun test => ?_
        simp only [List.map_cons, List.map_nil, List.sum_cons, List.sum_nil, massTm, diffTm, advTm, massForm, diffusion, div,
          advection, advectionForm, dot, grad, if_true, Bool.false_eq_true, if_false, add_zero]
        cases k with
        | scalar k => exact Eq.congr (e3 (R := R) dq _ _ test) rfl
        | matrix k => exact Eq.congr (e3 (R := R) dq _ _ test) rfl

/-- **C113** (labels).  Whatever is constructed, every term is labelled with the name of the field, there is one time derivative;
there is one transport term, of the type of the class, unless the class is `DiffusionEquation`; there is one diffusion term for
the two classes with diffusion and none for the others; and there is a prescribed velocity unless the class is
`DiffusionEquation`. -/
theorem C113_labels (D : Derivs R d) (dom : Dom S) (c : Call S R d) (e : Eqn S R d) (h : (construct D dom c).2 = .ok e) :
    e.name = c.name ∧ e.rank = c.rank ∧ (∀ t ∈ e.residual, t.prognostic = c.name) ∧
    (e.residual.filter (·.timeDerivative)).length = 1 ∧
    e.residual.filterMap (·.transport) = (match c.kind with
      | .advection => [.advective] | .continuity => [.conservative] | .diffusion => [] | .advectionDiffusion => [.advective]) ∧
    (e.residual.filter (·.diffusion)).length =
      (if c.kind = .diffusion ∨ c.kind = .advectionDiffusion then 1 else 0) ∧
    (e.velocity.isSome ↔ c.kind ≠ .diffusion) := by
  obtain ⟨kind, name, r, Vu, kappa⟩ := c
  cases kind <;> cases kappa <;> simp only [construct] at h
  all_goals first
    | (cases h; done)
    | (obtain rfl := (Except.ok.inj h).symm
       simp [massTm, advTm, contTm, diffTm, List.filter])

example : Fine (⟨.advectionDiffusion, "q", .scalar, none, some (.matrix fun _ _ => 1)⟩ : Call Unit ℚ 2) := trivial

/-- **C113** (missing parameters).  The two classes with diffusion fail without diffusion parameters, although
`AdvectionDiffusionEquation` documents them as optional; nothing else fails. -/
theorem C113_default_refuted (D : Derivs R d) (dom : Dom S) (c : Call S R d) :
    (construct D dom c).2 = .error .attributeError ↔
      (c.kind = .diffusion ∨ c.kind = .advectionDiffusion) ∧ c.kappa = none := by
  obtain ⟨kind, name, r, Vu, kappa⟩ := c
  cases kind <;> cases kappa <;> simp [construct]

/-! ### Vectors -/

/-- **C113** (advection of a vector: what is solved).  For a vector the advection equation holds in weak form exactly if
`∂q_j/∂t + Σ_i u_i ∂_j q_i = 0` for every component: the velocity is contracted with the components of `q`, not with the
directions of the derivatives. -/
theorem C113_vector_advection_partial (D : Derivs R d) (dom : Dom S) (name : String) (Vu : Option S) :
    ∃ res V, (construct D dom ⟨.advection, name, .vector, Vu, none⟩).2 = .ok ⟨name, .vector, V, res⟩ ∧
      ∀ (u dq q : Fin d → R), Holds (r := .vector) u res dq q ↔ ∀ j, dq j + ∑ i, u i * D j (q i) = 0 := by
  refine ⟨_, _, rfl, fun u dq q => ?_⟩
  refine Iff.trans ?_ ((weak_vector (fun j => dq j + ∑ i, u i * D j (q i))).trans funext_iff)
  refine forall_congr' fun test => ?_
  simp only [List.map_cons, List.map_nil, List.sum_cons, List.sum_nil, massTm, advTm, massForm, advection, dotGrad,
    dot, if_true, Bool.false_eq_true, if_false, add_zero]
  refine Eq.congr ?_ rfl
  rw [← Finset.sum_add_distrib]
  refine Finset.sum_congr rfl fun a _ => ?_
  change dq a * test a + test a * _ = test a * (dq a + _)
  rw [mul_add, mul_comm (dq a)]

/-- **C113** (advection of a vector: when it is right).  That is the documented equation for every time derivative exactly if the
field has no vorticity along the velocity: `Σ_i u_i (∂_j q_i - ∂_i q_j) = 0`. -/
theorem C113_vector_advection_iff (D : Derivs R d) (u q : Fin d → R) :
    (∀ dq : Fin d → R, (∀ j, dq j + ∑ i, u i * D j (q i) = 0) ↔
      Documented (S := S) D u ⟨.advection, "q", .vector, none, none⟩ dq q) ↔
    ∀ j, ∑ i, u i * (D j (q i) - D i (q j)) = 0 := by
  have hd : ∀ dq : Fin d → R, Documented (S := S) D u ⟨.advection, "q", .vector, none, none⟩ dq q ↔
      ∀ j, dq j + ∑ i, u i * D i (q j) = 0 := fun dq => funext_iff
  simp only [hd, mul_sub, Finset.sum_sub_distrib]
  constructor
  · intro h j
    have h1 := (h fun j => -∑ i, u i * D j (q i)).1 (fun j => by ring) j
    linear_combination -h1
  · intro h dq
    refine forall_congr' fun j => ?_
    rw [sub_eq_zero.1 (h j)]

/-- The derivative along the first of two coordinates. -/
noncomputable def Dx : Derivs (Polynomial ℚ) 2 := ![Polynomial.derivative', 0]

/-- **C113** (refuted for vectors).  A shear `q = (0, x)` carried by `u = (1, 0)` changes at the rate `-(0, 1)` by the documented
equation, and not at all by the residual of `AdvectionEquation`. -/
theorem C113_vector_advection_refuted : ∃ (u q : Fin 2 → Polynomial ℚ) (res : List (Tm (Polynomial ℚ) 2 .vector)) (V : Option Unit),
    (construct Dx ⟨()⟩ ⟨.advection, "q", .vector, none, none⟩).2 = .ok ⟨"q", .vector, V, res⟩ ∧
    (∀ dq : Fin 2 → Polynomial ℚ, Holds (r := .vector) u res dq q ↔ dq = 0) ∧
    (∀ dq : Fin 2 → Polynomial ℚ, Documented (S := Unit) Dx u ⟨.advection, "q", .vector, none, none⟩ dq q ↔ dq = ![0, -1]) := by
  obtain ⟨res, V, h, hr⟩ := C113_vector_advection_partial Dx (⟨()⟩ : Dom Unit) "q" none
  refine ⟨![1, 0], ![0, Polynomial.X], res, V, h, fun dq => ?_, fun dq => ?_⟩
  · rw [hr, funext_iff]
    refine forall_congr' fun j => ?_
    simp [Fin.sum_univ_two]
  · have hd : Documented (S := Unit) Dx ![1, 0] ⟨.advection, "q", .vector, none, none⟩ dq ![0, Polynomial.X] ↔
      ∀ j, dq j + ∑ i, (![1, 0] : Fin 2 → Polynomial ℚ) i * Dx i ((![0, Polynomial.X] : Fin 2 → Polynomial ℚ) j) = 0 := funext_iff
    rw [hd, Fin.forall_fin_two, funext_iff, Fin.forall_fin_two]
    simp [Fin.sum_univ_two, Dx, eq_neg_iff_add_eq_zero]

/-- **C113** (the replacement of the term).  The form that `DGUpwind` puts in place of the term (in a cell, not integrated by
parts) is the documented operator, so that with and without it different equations are solved. -/
theorem C113_vector_upwind (D : Derivs R d) (u q : Fin d → R) :
    (∀ test, dgAdvectionV D u q test = dot test (advect D u .vector q)) ∧
    ((∀ test, dgAdvectionV D u q test = advection D u .vector q test) ↔ ∀ j, ∑ i, u i * (D j (q i) - D i (q j)) = 0) := by
  have h1 : ∀ test, dgAdvectionV D u q test = dot test (advect D u .vector q) := by
    intro test
    simp only [dgAdvectionV, dot]
    refine Finset.sum_congr rfl fun a _ => ?_
    change _ = test a * ∑ i, u i * D i (q a)
    rw [Finset.mul_sum]
    exact Finset.sum_congr rfl fun i _ => by ring
  refine ⟨h1, ?_⟩
  have h2 : (∀ test, dgAdvectionV D u q test = advection D u .vector q test) ↔
      ∀ test, dot test (fun j => ∑ i, u i * D j (q i) - ∑ i, u i * D i (q j)) = 0 := by
    refine forall_congr' fun test => ?_
    rw [h1]
    change dot test (fun j => ∑ i, u i * D i (q j)) = dot test (fun j => ∑ i, u i * D j (q i)) ↔ _
    simp only [dot, mul_sub, Finset.sum_sub_distrib]
    rw [sub_eq_zero, eq_comm]
  rw [h2, weak_vector, funext_iff]
  refine forall_congr' fun j => ?_
  simp only [mul_sub, Finset.sum_sub_distrib, Pi.zero_apply]

/-- **C113** (refuted for a tensor diffusivity and a vector).  With diffusion along `y` only, `q = (0, x²)` does not change by the
documented equation; by the residual of `DiffusionEquation` it changes at the rate `(0, 2)`. -/
theorem C113_tensor_diffusion_refuted : ∃ (k : Fin 2 → Fin 2 → Polynomial ℚ) (q : Fin 2 → Polynomial ℚ)
    (res : List (Tm (Polynomial ℚ) 2 .vector)) (V : Option Unit),
    (construct Dx ⟨()⟩ ⟨.diffusion, "q", .vector, none, some (.matrix k)⟩).2 = .ok ⟨"q", .vector, V, res⟩ ∧
    (∀ u (dq : Fin 2 → Polynomial ℚ), Holds (r := .vector) u res dq q ↔ dq = ![0, 2]) ∧
    (∀ u (dq : Fin 2 → Polynomial ℚ),
      Documented (S := Unit) Dx u ⟨.diffusion, "q", .vector, none, some (.matrix k)⟩ dq q ↔ dq = 0) := by
  refine ⟨![![0, 0], ![0, 1]], ![0, Polynomial.X ^ 2], _, _, rfl, fun u dq => ?_, fun u dq => ?_⟩
  · refine Iff.trans ?_ ((weak_vector (fun j => dq j - (![0, 2] : Fin 2 → Polynomial ℚ) j)).trans
      (funext_iff.trans (Iff.trans (forall_congr' fun j => sub_eq_zero) funext_iff.symm)))
    refine forall_congr' fun test => ?_
    refine Eq.congr ?_ rfl
    simp only [List.map_cons, List.map_nil, List.sum_cons, List.sum_nil, massTm, diffTm, massForm, diffusion, dot, div,
      kappaGradV, if_true, Bool.false_eq_true, if_false, Fin.sum_univ_two]
    simp [Dx, show ∀ x : Polynomial ℚ, Polynomial.derivative' x = Polynomial.derivative x from fun _ => rfl]
    ring
  · have hd : Documented (S := Unit) Dx u ⟨.diffusion, "q", .vector, none, some (.matrix ![![0, 0], ![0, 1]])⟩ dq
        ![0, Polynomial.X ^ 2] ↔ ∀ a, dq a = diffuse1 Dx ((![0, Polynomial.X ^ 2] : Fin 2 → Polynomial ℚ) a)
          (.matrix ![![0, 0], ![0, 1]]) := funext_iff
    rw [hd, Fin.forall_fin_two, funext_iff, Fin.forall_fin_two]
    simp [diffuse1, Fin.sum_univ_two, Dx]

/-- **C113** (the replacement of the diffusion term).  The form that `InteriorPenaltyDiffusion` puts in place of the term is, in
cells and up to a divergence, minus the test function times the documented operator, for every scalar diffusivity and for every
symmetric tensor. -/
theorem C113_vector_diffusion_method (D : Derivs R d) (q test : Fin d → R) (k : Kappa R d)
    (hs : ∀ m, k = .matrix m → ∀ i j, m i j = m j i) :
    ∃ flux : Fin d → R, ipDiffusionV D q test k = -dot test (diffuse D k .vector q) + div D flux := by
  cases k with
  | scalar k =>
    refine ⟨fun j => ∑ a, test a * (k * D j (q a)), ?_⟩
    have hx : dot test (diffuse D (.scalar k) .vector q) = ∑ a, test a * ∑ j, D j (k * D j (q a)) := rfl
    rw [hx]
    simp only [ipDiffusionV, div, map_sum, Finset.mul_sum]
    rw [Finset.sum_comm (f := fun j a => D j (test a * (k * D j (q a)))), neg_add_eq_sub, ← Finset.sum_sub_distrib]
    refine Finset.sum_congr rfl fun a _ => ?_
    rw [← Finset.sum_sub_distrib]
    refine Finset.sum_congr rfl fun j _ => ?_
    rw [(D j).leibniz (test a)]
    simp only [smul_eq_mul]
    ring
  | matrix k =>
    have hs := hs k rfl
    refine ⟨fun j => ∑ a, test a * ∑ i, k j i * D i (q a), ?_⟩
    have hx : dot test (diffuse D (.matrix k) .vector q) = ∑ a, test a * ∑ j, D j (∑ i, k j i * D i (q a)) := rfl
    rw [hx]
    simp only [ipDiffusionV, div]
    have h1 : ∀ j, D j (∑ a, test a * ∑ i, k j i * D i (q a)) =
        ∑ a, (test a * D j (∑ i, k j i * D i (q a)) + (∑ i, k j i * D i (q a)) * D j (test a)) := by
      intro j
      rw [map_sum]
      refine Finset.sum_congr rfl fun a _ => ?_
      rw [(D j).leibniz]
      simp only [smul_eq_mul]
    simp only [h1]
    rw [Finset.sum_comm (f := fun j a => (test a * D j (∑ i, k j i * D i (q a)) + (∑ i, k j i * D i (q a)) * D j (test a))),
      neg_add_eq_sub, ← Finset.sum_sub_distrib]
    refine Finset.sum_congr rfl fun a _ => ?_
    rw [Finset.mul_sum, ← Finset.sum_sub_distrib]
    refine Finset.sum_congr rfl fun j _ => ?_
    rw [add_sub_cancel_left, mul_comm]
    refine congrArg (· * _) (Finset.sum_congr rfl fun i _ => ?_)
    rw [hs i j, mul_comm]

/-! ### The space of the velocity -/

/-- A call that overwrites the space `HDiv` of the domain with `V`. -/
def Sets (c : Call S R d) (V : S) : Prop := c.kind ≠ .diffusion ∧ c.Vu = some V

theorem construct_dom (D : Derivs R d) (dom : Dom S) (c : Call S R d) :
    (∀ V, Sets c V → (construct D dom c).1 = ⟨V⟩) ∧ ((∀ V, ¬ Sets c V) → (construct D dom c).1 = dom) ∧
    ∀ e, (construct D dom c).2 = .ok e → ∀ V, e.velocity = some V → V = (construct D dom c).1.hdiv := by
  obtain ⟨kind, name, r, Vu, kappa⟩ := c
  cases kind <;> cases kappa <;> cases Vu <;> simp [construct, Sets, setVu]

/-- **C113** (partial: the space of the velocity).  After any history of constructions on a domain, including failed ones, the
velocity of an equation is in the space given as `Vu` by the last of the calls up to its own that gave one, and in the space set
up by the domain only if there was none. -/
theorem C113_velocity_partial (D : Derivs R d) : ∀ (calls : List (Call S R d)) (dom : Dom S) (k : ℕ) (e : Eqn S R d) (V : S),
    (constructAll D dom calls).2[k]? = some (.ok e) → e.velocity = some V →
    (∃ j c, j ≤ k ∧ calls[j]? = some c ∧ Sets c V ∧ ∀ i c', j < i → i ≤ k → calls[i]? = some c' → ∀ W, ¬ Sets c' W) ∨
    (V = dom.hdiv ∧ ∀ i c', i ≤ k → calls[i]? = some c' → ∀ W, ¬ Sets c' W) := by
  intro calls
  induction calls with
  | nil => intro dom k e V h; simp [constructAll] at h
  | cons c l ih =>
    intro dom k e V h hv
    obtain ⟨h1, h2, h3⟩ := construct_dom D dom c
    cases k with
    | zero =>
      simp only [constructAll, List.getElem?_cons_zero, Option.some.injEq] at h
      have hV := h3 e h V hv
      by_cases hs : ∃ W, Sets c W
      · obtain ⟨W, hW⟩ := hs
        rw [h1 W hW] at hV
        have hV : V = W := hV
        subst hV
        exact Or.inl ⟨0, c, le_refl _, rfl, hW, fun i _ hi hi' => absurd (lt_of_lt_of_le hi hi') (lt_irrefl _)⟩
      · push Not at hs
        rw [h2 hs] at hV
        refine Or.inr ⟨hV, fun i c' hi hc => ?_⟩
        obtain rfl : i = 0 := by omega
        simp only [List.getElem?_cons_zero, Option.some.injEq] at hc
        exact hc ▸ hs
    | succ k =>
      simp only [constructAll, List.getElem?_cons_succ] at h
      rcases ih _ k e V h hv with ⟨j, c1, hj, hc1, hs1, hr⟩ | ⟨hV, hr⟩
      · refine Or.inl ⟨j + 1, c1, by omega, by simpa using hc1, hs1, fun i c' hi hi' hc W => ?_⟩
        obtain ⟨i, rfl⟩ : ∃ i', i = i' + 1 := ⟨i - 1, by omega⟩
        exact hr i c' (by omega) (by omega) (by simpa using hc) W
      · by_cases hs : ∃ W, Sets c W
        · obtain ⟨W, hW⟩ := hs
          rw [h1 W hW] at hV
          have hV : V = W := hV
          subst hV
          refine Or.inl ⟨0, c, by omega, rfl, hW, fun i c' hi hi' hc W => ?_⟩
          obtain ⟨i, rfl⟩ : ∃ i', i = i' + 1 := ⟨i - 1, by omega⟩
          exact hr i c' (by omega) (by simpa using hc) W
        · push Not at hs
          rw [h2 hs] at hV
          refine Or.inr ⟨hV, fun i c' hi hc W => ?_⟩
          cases i with
          | zero =>
            simp only [List.getElem?_cons_zero, Option.some.injEq] at hc
            exact hc ▸ hs W
          | succ i => exact hr i c' (by omega) (by simpa using hc) W

/-- **C113** (refuted).  An equation made without `Vu` is documented to use the space set up by the domain; if an equation with
`Vu` was made before, even one whose constructor raised an exception, it uses that space. -/
theorem C113_velocity_refuted (D : Derivs R d) (V W : S) (a b : String) (r r' : Rank) :
    (∃ e e', (constructAll D ⟨V⟩ [⟨.advection, a, r, some W, none⟩, ⟨.advection, b, r', none, none⟩]).2 = [.ok e, .ok e'] ∧
      e'.velocity = some W) ∧
    (∃ e', (constructAll D ⟨V⟩ [⟨.advectionDiffusion, a, r, some W, none⟩, ⟨.continuity, b, r', none, none⟩]).2 =
      [.error .attributeError, .ok e'] ∧ e'.velocity = some W) :=
  ⟨⟨_, _, rfl, rfl⟩, ⟨_, rfl, rfl⟩⟩

/-! ### Coupled transport -/

open Gusto.EqSet Gusto.Props.EqSetProps

/-- The operator in the equation of a tracer. -/
def tracerOp (D : Derivs R d) (u : Fin d → R) (eqn : TType) (q : R) : R :=
  match eqn with
  | .conservative => ∑ i, D i (u i * q)
  | .advective | .tracerConservative => ∑ i, u i * D i q
  | _ => 0

/-- The number of the field of a tracer among the prognostics. -/
def pos (fields : List String) (t : Tracer) : ℕ := fields.idxOf t.name

/-- The residual of the coupled equation for the time derivatives `dX`. -/
def coupledValue (c : Coupled S R) (dX X v : ℕ → R) : R :=
  (c.residual.1.map fun m => m.form dX v).sum + (c.residual.2.map fun m => m.form X v).sum

theorem massTerm_ok (fields : List String) (i : ℕ) (name : String) (ts : List Tracer)
    (h : ∀ t ∈ ts, t.eqn = .tracerConservative → t.density.getD "" ∈ fields) :
    ∃ m : STerm R, massTerm fields ts i name = .ok m := by
  unfold massTerm
  generalize (⟨name, fun X v => X i * v i, none, none⟩ : STerm R) = m0
  induction ts generalizing m0 with
  | nil => exact ⟨m0, rfl⟩
  | cons t l ih =>
    simp only [List.foldl_cons]
    by_cases hc : name = t.name ∧ t.eqn = .tracerConservative
    · obtain ⟨k, hk⟩ := (index_iff fields (t.density.getD "")).2 (h t (by simp) hc.2)
      simp only [if_pos hc, hk]
      exact ih (fun t ht => h t (by simp [ht])) _
    · simp only [if_neg hc]
      exact ih (fun t ht => h t (by simp [ht])) _

theorem massLoop_ok (fields : List String) (ts : List Tracer)
    (h : ∀ t ∈ ts, t.eqn = .tracerConservative → t.density.getD "" ∈ fields) (l : List String) :
    ∀ i, ∃ ms : List (STerm R), massLoop fields ts i l = .ok ms := by
  induction l with
  | nil => exact fun i => ⟨[], rfl⟩
  | cons n l ih =>
    intro i
    obtain ⟨m, hm⟩ := massTerm_ok (R := R) fields i n ts h
    obtain ⟨ms, hms⟩ := ih (i + 1)
    exact ⟨m :: ms, by simp [massLoop, hm, hms]⟩

theorem getElem_pos {fields : List String} {t : Tracer} {i : ℕ} (hn : fields.Nodup) (h : fields[i]? = some t.name) :
    pos fields t = i := by
  obtain ⟨hi, h⟩ := List.getElem?_eq_some_iff.1 h
  rw [pos, ← h]
  exact hn.idxOf_getElem i hi

theorem transport_sum (D : Derivs R d) (u : Fin d → R) (fields : List String) (hn : fields.Nodup) (X v : ℕ → R) :
    ∀ (us : List Tracer) (ms : List (STerm R)),
    List.Forall₂ (TransportSpec D u fields) (us.filter fun t => decide (t.eqn ≠ .noTransport)) ms →
    (ms.map fun m => m.form X v).sum = (us.map fun t => v (pos fields t) * tracerOp D u t.eqn (X (pos fields t))).sum := by
  intro us
  induction us with
  | nil => intro ms h; simp at h; simp [h]
  | cons t us ih =>
    intro ms h
    by_cases ht : t.eqn = .noTransport
    · simp only [ht, List.filter_cons, ne_eq, not_true, decide_false, Bool.false_eq_true, if_false] at h
      simp [ht, tracerOp, ih ms h]
    · simp only [ht, List.filter_cons, ne_eq, not_false_eq_true, decide_true, if_true] at h
      cases h with
      | cons h1 h2 =>
        rename_i m l
        rw [List.map_cons, List.sum_cons, List.map_cons, List.sum_cons, ih l h2]
        congr 1
        obtain ⟨_, i, hi, hc⟩ := h1
        rw [getElem_pos hn hi]
        rcases hc with ⟨he, _, _, hf⟩ | ⟨he, _, _, hf⟩ | ⟨he, _, hf, _⟩
        · rw [hf, he]; rfl
        · rw [hf, he]
          simp only [tracerOp, mul_comm (u _)]
        · rw [hf, he]; rfl

theorem mass_sum (us : List Tracer) (hn : NamesNodup us) (ms : List (STerm R))
    (h : massTerms (us.map Tracer.name) us = .ok ms) (dX v : ℕ → R) :
    (ms.map fun m => m.form dX v).sum =
      (us.map fun t => dX (pos (us.map Tracer.name) t) * v (pos (us.map Tracer.name) t)).sum := by
  obtain ⟨h1, h2⟩ := C78_mass_terms _ us hn ms h
  have hl : ms.length = us.length := by
    have := congrArg List.length h1
    simpa using this
  congr 1
  refine List.ext_getElem (by simp [hl]) fun i hi hi' => ?_
  simp only [List.length_map] at hi hi'
  simp only [List.getElem_map]
  rw [(h2 i ms[i] (List.getElem?_eq_getElem hi)).1]
  have hp : pos (us.map Tracer.name) us[i] = i := getElem_pos hn (by
    rw [List.getElem?_map, List.getElem?_eq_getElem hi']; rfl)
  rw [hp]

theorem sum_single (us : List Tracer) (fields : List String) (f : ℕ → R) (t0 : Tracer) (h0 : t0 ∈ us)
    (hinj : (us.map fun t => pos fields t).Nodup) (g : Tracer → R) :
    (us.map fun t => (Pi.single (pos fields t0) 1 : ℕ → R) (pos fields t) * g t).sum = g t0 := by
  induction us with
  | nil => simp at h0
  | cons t l ih =>
    simp only [List.map_cons, List.nodup_cons, List.sum_cons] at *
    rcases List.mem_cons.1 h0 with rfl | h0
    · have hz : (l.map fun t => (Pi.single (pos fields t0) 1 : ℕ → R) (pos fields t) * g t).sum = 0 := by
        refine List.sum_eq_zero fun x hx => ?_
        obtain ⟨t, ht, rfl⟩ := List.mem_map.1 hx
        have : pos fields t ≠ pos fields t0 := fun he => hinj.1 (List.mem_map.2 ⟨t, ht, he⟩)
        simp [this]
      rw [hz]; simp
    · have : pos fields t ≠ pos fields t0 := fun he => hinj.1 (List.mem_map.2 ⟨t0, h0, he.symm⟩)
      simp [this, ih h0 hinj.2]

/-- **C113** (coupled transport).  For every list of tracers that is not empty, with different names other than `u`, equations
without transport, advective, conservative or conservative with one of the tracers as density, `CoupledTransportEquation`
succeeds; its prognostics are the tracers, and its residual holds in weak form exactly if every tracer satisfies its transport
equation (the advective one for the last type, which the residual only carries as an option). -/
theorem C113_coupled_partial (D : Derivs R d) (u : Fin d → R) (dom : Dom S) (ts : List Tracer) (Vu : Option S) (hne : ts ≠ [])
    (hn : NamesNodup ts) (hu : "u" ∉ ts.map Tracer.name)
    (ht : ∀ t ∈ ts, t.eqn = .noTransport ∨ t.eqn = .advective ∨ t.eqn = .conservative ∨
      (t.eqn = .tracerConservative ∧ t.density.getD "" ∈ ts.map Tracer.name)) :
    ∃ c, coupled D u dom (some ts) Vu = (setVu dom Vu, .ok c) ∧ c.fields.Perm (ts.map Tracer.name) ∧
      c.velocity = Vu.getD dom.hdiv ∧
      ∀ dX X : ℕ → R, (∀ v, coupledValue c dX X v = 0) ↔
        ∀ t ∈ ts, dX (pos c.fields t) + tracerOp D u t.eqn (X (pos c.fields t)) = 0 := by
  have hp : (reorder ts).Perm ts := fold_perm _ _
  have hpn := hp.map Tracer.name
  have hnu : NamesNodup (reorder ts) := hpn.nodup_iff.2 hn
  obtain ⟨n, hadd⟩ := (C55_add_partial ⟨[], [], []⟩ ts).1.2 ⟨hn, by simp, by simp⟩
  obtain ⟨h1, h2⟩ := addLoop_spec (reorder ts) ⟨[], [], []⟩
  obtain ⟨e1, e2, -⟩ := h2 n hadd
  simp only [List.nil_append] at e1 e2
  have hsp : n.spaces ≠ [] := by
    rw [e2]
    intro h
    have := hp.length_eq
    simp only [List.map_eq_nil_iff] at h
    rw [h] at this
    exact hne (List.length_eq_zero_iff.1 this.symm)
  have hd : ∀ t ∈ reorder ts, t.eqn = .tracerConservative → t.density.getD "" ∈ (reorder ts).map Tracer.name := by
    intro t h hc
    rcases ht t (hp.mem_iff.1 h) with h | h | h | h
    · rw [h] at hc; cases hc
    · rw [h] at hc; cases hc
    · rw [h] at hc; cases hc
    · exact hpn.mem_iff.2 h.2
  obtain ⟨ms, hms⟩ := massLoop_ok (R := R) ((reorder ts).map Tracer.name) (reorder ts) hd ((reorder ts).map Tracer.name) 0
  obtain ⟨tr, htr⟩ := (C78_tracer_transport_ok D (some u) ((reorder ts).map Tracer.name) (reorder ts)).2 ⟨rfl, fun t h hnt =>
    ⟨List.mem_map_of_mem h, by
      rcases ht t (hp.mem_iff.1 h) with h' | h' | h' | h'
      · exact absurd h' hnt
      · exact Or.inl h'
      · exact Or.inr (Or.inl h')
      · exact Or.inr (Or.inr ⟨h'.1, hpn.mem_iff.2 h'.2⟩)⟩⟩
  refine ⟨⟨n.fields, (setVu dom Vu).hdiv, (ms, tr)⟩, ?_, ?_, ?_, ?_⟩
  · have hu' : "u" ∉ (reorder ts).map Tracer.name := fun h => hu (hpn.mem_iff.1 h)
    simp only [coupled, Option.getD_some, hadd, if_neg hsp, massTerms, e1, hms, htr]
    rw [if_neg (fun h => hu' h.1)]
  · simpa [e1] using hpn
  · cases Vu <;> rfl
  · intro dX X
    have hval : ∀ v, coupledValue (⟨n.fields, (setVu dom Vu).hdiv, (ms, tr)⟩ : Coupled S R) dX X v =
        ((reorder ts).map fun t => v (pos n.fields t) * (dX (pos n.fields t) + tracerOp D u t.eqn (X (pos n.fields t)))).sum := by
      intro v
      obtain ⟨u', hu', hf⟩ := C78_tracer_transport D (some u) _ _ tr htr
      obtain rfl := Option.some.inj hu'
      simp only [coupledValue]
      rw [mass_sum (reorder ts) hnu ms hms, transport_sum D u _ hnu X v _ _ hf, e1, ← List.sum_map_add]
      congr 1
      refine List.map_congr_left fun t _ => by ring
    constructor
    · intro h t h0
      have h3 := h (Pi.single (pos n.fields t) 1)
      rw [hval] at h3
      rw [sum_single (reorder ts) n.fields dX t (hp.mem_iff.2 h0) ?_
        (fun t => dX (pos n.fields t) + tracerOp D u t.eqn (X (pos n.fields t)))] at h3
      · exact h3
      · have : (reorder ts).map (fun t => pos n.fields t) = List.range (reorder ts).length := by
          refine List.ext_getElem (by simp) fun i hi hi' => ?_
          simp only [List.length_map] at hi
          rw [List.getElem_map, List.getElem_range]
          refine getElem_pos (by rw [e1]; exact hnu) ?_
          exact (congrArg (·[i]?) e1).trans (by rw [List.getElem?_map, List.getElem?_eq_getElem hi]; rfl)
        rw [this]
        exact List.nodup_range
    · intro h v
      rw [hval]
      refine List.sum_eq_zero fun x hx => ?_
      obtain ⟨t, ht, rfl⟩ := List.mem_map.1 hx
      rw [h t (hp.mem_iff.1 ht), mul_zero]

/-- **C113** (coupled transport: failures).  Without tracers, or with `None`, the constructor fails; with a tracer called `u` it
takes that tracer for the velocity and fails if anything is transported; in both cases, and for the first before the space of the
domain is overwritten. -/
theorem C113_coupled_refuted (D : Derivs R d) (u : Fin d → R) (dom : Dom S) (Vu : Option S) :
    coupled D u dom none Vu = (dom, .error .indexError) ∧ coupled D u dom (some []) Vu = (dom, .error .indexError) ∧
    coupled D u dom (some [⟨"u", "DG", .advective, none⟩]) Vu = (setVu dom Vu, .error .shape) := by
  refine ⟨rfl, rfl, ?_⟩
  simp [coupled, addTracers, reorder, addLoop, massTerms, massLoop, massTerm]

example : ∃ ts : List Tracer, ts ≠ [] ∧ NamesNodup ts ∧ "u" ∉ ts.map Tracer.name ∧
    (∀ t ∈ ts, t.eqn = .noTransport ∨ t.eqn = .advective ∨ t.eqn = .conservative ∨
      (t.eqn = .tracerConservative ∧ t.density.getD "" ∈ ts.map Tracer.name)) :=
  ⟨[⟨"m", "theta", .tracerConservative, some "rho"⟩, ⟨"rho", "DG", .conservative, none⟩, ⟨"q", "DG", .advective, none⟩],
    by simp, by decide, by decide, by decide⟩

end Gusto.Props.TransportEquationsProps
