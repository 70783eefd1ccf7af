import Verif.Props.Euler

set_option autoImplicit false
set_option linter.unusedSectionVars false
set_option linter.unusedSimpArgs false

/-!
# C101: the hydrostatic compressible Euler equations
-/

namespace Gusto.Props.HydroProps
open Gusto.DG Gusto.EqSet Gusto.SW Gusto.Bou Gusto.Thermo Gusto.Euler
open Gusto.EqnDiag (pgf MTracer Phase)
open Gusto.Props.DGProps Gusto.Props.SWProps Gusto.Props.BouProps Gusto.Props.EulerProps

variable {d : ℕ} {C F B : Type*} [Fintype C] [Fintype F] [Fintype B]

/-! ### Specification -/

/-- `k` has length one. -/
def Unit1 (k : C → Fin d → ℝ) : Prop := ∀ x, dot (k x) (k x) = 1
/-- The integral of the product of the vertical components. -/
noncomputable def vv (M : Mesh ℝ d C F B) (k : C → Fin d → ℝ) (w u : Ve ℝ d C F B) : ℝ :=
  ∑ x, M.wC x * (dot (w.c x) (k x) * dot (u.c x) (k x))
/-- The test function is a vertical velocity. -/
structure VerticalTest (k : C → Fin d → ℝ) (v : EuSt d C F B) : Prop where
  u : ∃ s : C → ℝ, ∀ x i, v.u.c x i = s x * k x i
  rho : ∀ x, v.rho.c x = 0
  th : ∀ x, v.th.c x = 0

/-! ### What is built -/

/-- The residual of the hydrostatic equations, given that of the compressible Euler equations. -/
noncomputable def hyd (c : ECfg d C F B) (res : List (ET d C F B)) : List (ET d C F B) :=
  (res.map fun t => if "time_derivative" ∈ t.labels then project c.base.k t else t) ++ [hydT c]

theorem builtH (c : ECfg d C F B) (p : ET d C F B → Bool) (Xref : EuSt d C F B) (hres : List (ET d C F B))
    (h : Euler.hydrostatic c p Xref = .ok hres) : ∃ res, euler c p Xref = .ok res ∧ hres = hyd c res := by
  unfold Euler.hydrostatic at h
  cases he : euler c p Xref with
  | error e => rw [he] at h; cases h
  | ok res => rw [he] at h; cases h; exact ⟨res, rfl, rfl⟩

theorem hyd_ntd (c : ECfg d C F B) (res : List (ET d C F B)) (q : ET d C F B → Bool)
    (hq : ∀ t, q t = true → "time_derivative" ∉ t.labels) (hqp : ∀ t, q (project c.base.k t) = q t) :
    (hyd c res).filter q = res.filter q ++ [hydT c].filter q := by
  unfold hyd
  rw [List.filter_append]
  congr 1
  induction res with
  | nil => rfl
  | cons t ts ih =>
    simp only [List.map_cons, List.filter_cons]
    by_cases ht : "time_derivative" ∈ t.labels
    · have hf : q t = false := by
        cases hh : q t with
        | false => rfl
        | true => exact absurd ht (hq t hh)
      rw [if_pos ht, hqp, hf]
      simpa using ih
    · rw [if_neg ht, ih]

theorem hyd_td (c : ECfg d C F B) (res : List (ET d C F B)) (q : ET d C F B → Bool)
    (hq : ∀ t, q t = true → "time_derivative" ∈ t.labels) (hqp : ∀ t, q (project c.base.k t) = q t) :
    (hyd c res).filter q = (res.filter q).map (project c.base.k) := by
  unfold hyd
  rw [List.filter_append]
  have h0 : [hydT c].filter q = [] := by
    rw [List.filter_eq_nil_iff]
    intro t ht hh
    simp only [List.mem_singleton] at ht
    subst ht
    have := hq _ hh
    simp [hydT] at this
  rw [h0, List.append_nil]
  induction res with
  | nil => rfl
  | cons t ts ih =>
    simp only [List.map_cons, List.filter_cons]
    by_cases ht : "time_derivative" ∈ t.labels
    · rw [if_pos ht, hqp, ih]
      cases q t <;> simp
    · rw [if_neg ht, ih]
      have hf : q t = false := by
        cases hh : q t with
        | false => rfl
        | true => exact absurd (hq t hh) ht
      simp [hf]

theorem hyd_spatial (c : ECfg d C F B) (res : List (ET d C F B)) (X v : EuSt d C F B) :
    spatialE (hyd c res) X v = spatialE res X v - vv c.base.M c.base.k v.u X.u := by
  unfold spatialE
  rw [hyd_ntd c res nTD (fun t ht => by unfold nTD at ht; simpa using ht) (fun t => rfl)]
  have : [hydT c].filter nTD = [hydT c] := by simp [nTD, hydT]
  rw [this, value_applyE, value_applyE, List.map_append, List.sum_append]
  simp only [List.map_cons, List.map_nil, List.sum_cons, List.sum_nil, add_zero]
  simp only [hydT, vv, cells, dot_comm (c.base.k _)]
  ring

theorem hyd_temporal (c : ECfg d C F B) (p : ET d C F B → Bool) (Xref : EuSt d C F B) (res : List (ET d C F B))
    (he : euler c p Xref = .ok res) (X v : EuSt d C F B) :
    temporalE (hyd c res) X v = temporalE res { X with u := hproj c.base.k X.u } v := by
  unfold temporalE
  rw [hyd_td c res _ (fun t ht => of_decide_eq_true ht) (fun t => rfl), value_applyE, value_applyE, List.map_map]
  rfl

theorem dot_proj (k u w : Fin d → ℝ) : dot (fun i => u i - dot u k * k i) w = dot u w - dot w k * dot u k := by
  have : dot (fun i => u i - dot u k * k i) w = dot u w - dot u k * dot k w := by
    unfold dot
    rw [Finset.mul_sum, ← Finset.sum_sub_distrib]
    exact Finset.sum_congr rfl fun i _ => by ring
  rw [this, dot_comm k w]; ring

/-! ### The theorems -/

/-- C101, options: the hydrostatic equations are built exactly when the compressible Euler equations are. -/
theorem C101_accepts (c : ECfg d C F B) (p : ET d C F B → Bool) (Xref : EuSt d C F B) :
    (∃ res, Euler.hydrostatic c p Xref = .ok res) ↔ ∃ res, euler c p Xref = .ok res := by
  unfold Euler.hydrostatic
  cases euler c p Xref <;> simp [Except.map]

/-- C101, time derivative: only the horizontal velocity `u - (u . k) k` has a time derivative. -/
theorem C101_time_derivative (c : ECfg d C F B) (p : ET d C F B → Bool) (Xref X v : EuSt d C F B)
    (res : List (ET d C F B)) (h : Euler.hydrostatic c p Xref = .ok res) :
    temporalE res X v = (∑ x, c.base.M.wC x * dot (fun i => X.u.c x i - dot (X.u.c x) (c.base.k x) * c.base.k x i) (v.u.c x))
      + (∑ x, c.base.M.wC x * (X.rho.c x * v.rho.c x)) + ∑ x, c.base.M.wC x * (X.th.c x * v.th.c x) := by
  obtain ⟨r, he, rfl⟩ := builtH c p Xref res h
  rw [hyd_temporal c p Xref r he, euler_temporal c p Xref _ v r he]
  rfl

/-- C101, vertical momentum: vertical test functions see no time derivative. -/
theorem C101_no_vertical_derivative (c : ECfg d C F B) (hk : Unit1 c.base.k) (p : ET d C F B → Bool)
    (Xref X v : EuSt d C F B) (res : List (ET d C F B)) (h : Euler.hydrostatic c p Xref = .ok res)
    (hv : VerticalTest c.base.k v) : temporalE res X v = 0 := by
  rw [C101_time_derivative c p Xref X v res h]
  obtain ⟨s, hs⟩ := hv.u
  simp only [hv.rho, hv.th, mul_zero, Finset.sum_const_zero, add_zero]
  refine Finset.sum_eq_zero fun x _ => ?_
  have h1 : v.u.c x = fun i => s x * c.base.k x i := funext (hs x)
  have h2 : dot (fun i => s x * c.base.k x i) (c.base.k x) = s x := by
    have := hk x
    unfold dot at this ⊢
    simp only [mul_assoc]
    rw [← Finset.mul_sum, this, mul_one]
  have h3 : dot (X.u.c x) (fun i => s x * c.base.k x i) = s x * dot (X.u.c x) (c.base.k x) := by
    unfold dot; rw [Finset.mul_sum]; exact Finset.sum_congr rfl fun i _ => by ring
  rw [dot_proj, h1, h2, h3]; ring

/-- C101, form: apart from the time derivative the residual is that of the compressible Euler equations minus
`(k . w) (k . u)`. -/
theorem C101_form (c : ECfg d C F B) (p : ET d C F B → Bool) (Xref X v : EuSt d C F B)
    (res full : List (ET d C F B)) (h : Euler.hydrostatic c p Xref = .ok res) (hf : euler c p Xref = .ok full) :
    spatialE res X v = spatialE full X v - ∑ x, c.base.M.wC x * (dot (v.u.c x) (c.base.k x) * dot (X.u.c x) (c.base.k x)) := by
  obtain ⟨r, he, rfl⟩ := builtH c p Xref res h
  rw [hf] at he; cases he
  exact hyd_spatial c full X v

/-- C101, refuted: "the vertical velocity derivative is zero in the equations", so the vertical momentum equation should
be the balance of the vertical forces; a solution of the residual, with any time derivative `dX`, has instead the vertical
forces equal to the vertical velocity (whatever the units), for every vertical test function.  The balance holds only if
the vertical velocity is orthogonal to that test function. -/
theorem C101_balance_refuted (c : ECfg d C F B) (hk : Unit1 c.base.k) (p : ET d C F B → Bool)
    (Xref X dX v : EuSt d C F B) (res full : List (ET d C F B)) (h : Euler.hydrostatic c p Xref = .ok res)
    (hf : euler c p Xref = .ok full) (hv : VerticalTest c.base.k v) (hsol : temporalE res dX v + spatialE res X v = 0) :
    spatialE full X v = ∑ x, c.base.M.wC x * (dot (v.u.c x) (c.base.k x) * dot (X.u.c x) (c.base.k x)) := by
  rw [C101_no_vertical_derivative c hk p Xref dX v res h hv, C101_form c p Xref X v res full h hf] at hsol
  linarith

/-- C101, linearisation of the time derivative, refuted: `replace_subject` leaves the linearisation alone, so the linear
equations have the time derivative of the whole velocity and differ from the residual by the vertical part. -/
theorem C101_linear_mass_refuted (c : ECfg d C F B) (Xref X v : EuSt d C F B) (res : List (ET d C F B))
    (h : Euler.hydrostatic c (fun _ => true) Xref = .ok res) :
    temporalE (lineariseSet res) X v = temporalE res X v + vv c.base.M c.base.k v.u X.u := by
  obtain ⟨r, he, rfl⟩ := builtH c _ Xref res h
  rw [hyd_temporal c _ Xref r he, euler_temporal c _ Xref _ v r he]
  obtain ⟨ut, op, sp, hu, ho, hs, rfl⟩ := builtE c _ Xref r he
  unfold temporalE
  rw [lin_filterE _ (fun _ _ => rfl), hyd_td c _ _ (fun t ht => of_decide_eq_true ht) (fun t => rfl),
    gen_filterE _ (fun _ _ => rfl), termsE_temporal c _ Xref ut op sp hu hs, value_applyE]
  have e : ∀ x, dot ((hproj c.base.k X.u).c x) (v.u.c x) =
      dot (X.u.c x) (v.u.c x) - dot (v.u.c x) (c.base.k x) * dot (X.u.c x) (c.base.k x) := fun x => dot_proj _ _ _
  simp only [e, vv, mul_sub, Finset.sum_sub_distrib]
  simp [generateLinear, lineariseSet, linearise, project, Euler.massU, massRho, massTh, cells]
  ring

/-- C101, linearisation of the forces, refuted: the term `-(k . w) (k . u)` is added after the linearisation, has none, and
so is missing in the linear equations: the derivative of the hydrostatic residual is the linear residual minus this
term. -/
theorem C101_linear_forces_refuted (c : ECfg d C F B) (hR : GoodC c.base.R) (hP : ThermoProps.Good c.P) (hcp : c.P.cp ≠ 0)
    (Xref : EuSt d C F B) (hX : Positive c Xref) (res : List (ET d C F B))
    (h : Euler.hydrostatic c (fun _ => true) Xref = .ok res) (X' v : EuSt d C F B) :
    HasDerivAt (fun e : ℝ => spatialE res (Xref.axpy e X') v)
      (spatialE (lineariseSet res) X' v - vv c.base.M c.base.k v.u X'.u) 0 := by
  obtain ⟨r, he, rfl⟩ := builtH c _ Xref res h
  simp only [hyd_spatial]
  obtain ⟨ut, op, sp, hu, ho, hs, rfl⟩ := builtE c _ Xref r he
  have h1 : HasDerivAt (fun e : ℝ => vv c.base.M c.base.k v.u (Xref.axpy e X').u) (vv c.base.M c.base.k v.u X'.u) 0 :=
    quadratic _ (vv c.base.M c.base.k v.u Xref.u) _ 0 fun e => by
      unfold vv
      rw [Finset.mul_sum]
      simp only [pow_two, mul_zero, add_zero]
      rw [← Finset.sum_add_distrib]
      exact Finset.sum_congr rfl fun x _ => by simp only [EuSt.axpy, vc, dot_axpy_left]; ring
  refine HasDerivAt.sub ?_ h1
  unfold spatialE
  rw [lin_filterE _ (fun _ _ => rfl), hyd_ntd c _ nTD (fun t ht => by unfold nTD at ht; simpa using ht) (fun t => rfl)]
  have e1 : lineariseSet ((generateLinear Xref (fun _ => true) (termsE c (fun _ => true) Xref ut op sp)).filter nTD ++
      [hydT c].filter nTD) =
      lineariseSet ((generateLinear Xref (fun _ => true) (termsE c (fun _ => true) Xref ut op sp)).filter nTD) := by
    unfold lineariseSet
    rw [List.flatMap_append]
    simp [nTD, hydT]
  rw [e1, gen_filterE _ (fun _ _ => rfl), value_linearE]
  simp only [gen_valueE]
  have hd : ∀ t ∈ (termsE c (fun _ => true) Xref ut op sp).filter nTD, DerivAt t.form Xref (effE Xref t) :=
    fun t ht => termsE_deriv c hR hP hcp Xref hX ut op sp hu ho hs t (List.mem_filter.1 ht).1
  revert hd
  generalize (termsE c (fun _ => true) Xref ut op sp).filter nTD = l
  intro hd
  induction l with
  | nil => simpa using hasDerivAt_const (0 : ℝ) (0 : ℝ)
  | cons t ts ih =>
    simp only [List.map_cons, List.sum_cons]
    exact (hd t (by simp) X' v).add (ih fun t' ht' => hd t' (by simp [ht']))

/-- C101, refuted: the documentation of the projection says that it adds the label `hydrostatic`; no term with a time
derivative has it. -/
theorem C101_label_refuted (c : ECfg d C F B) (p : ET d C F B → Bool) (Xref : EuSt d C F B) (res : List (ET d C F B))
    (h : Euler.hydrostatic c p Xref = .ok res) : ∀ t ∈ res, "time_derivative" ∈ t.labels → "hydrostatic" ∉ t.labels := by
  obtain ⟨r, he, rfl⟩ := builtH c _ Xref res h
  obtain ⟨ut, op, sp, hu, ho, hs, rfl⟩ := builtE c _ Xref r he
  intro t ht htd
  have h1 : t ∈ (hyd c (generateLinear Xref p (termsE c p Xref ut op sp))).filter
      (fun t => decide ("time_derivative" ∈ t.labels)) := List.mem_filter.2 ⟨ht, by simpa using htd⟩
  rw [hyd_td c _ _ (fun t ht => of_decide_eq_true ht) (fun t => rfl), gen_filterE _ (fun _ _ => rfl),
    termsE_temporal c _ Xref ut op sp hu hs] at h1
  have hl : ∀ m : ET d C F B, ∀ b, (project c.base.k (if b = true then linearise Xref m else m)).labels = m.labels := by
    intro m b
    cases b
    · rfl
    · simp only [if_true, project, linearise]; split_ifs <;> rfl
  simp only [generateLinear, List.map_cons, List.map_nil, List.mem_cons, List.not_mem_nil, or_false] at h1
  rcases h1 with h1 | h1 | h1 <;> rw [h1, hl] <;> simp [Euler.massU, massRho, massTh]

/-! ### The forcing -/

theorem forcingA_eq (c : ECfg d C F B) (p : ET d C F B → Bool) (Xref : EuSt d C F B) (r : List (ET d C F B))
    (he : euler c p Xref = .ok r) (xF v : EuSt d C F B) : forcingA (hyd c r) xF v = temporalE (hyd c r) xF v := by
  obtain ⟨ut, op, sp, hu, ho, hs, rfl⟩ := builtE c _ Xref r he
  unfold forcingA temporalE forcingTerms
  rw [List.filter_filter]
  rw [hyd_td c _ (fun t => hasAny ["time_derivative"] t && !hasAny ["transport", "diffusion", "physics"] t)
    (fun t ht => by simp [hasAny] at ht; exact ht.1) (fun t => rfl),
    hyd_td c _ (fun t => decide ("time_derivative" ∈ t.labels)) (fun t ht => of_decide_eq_true ht) (fun t => rfl)]
  congr 2
  rw [gen_filterE _ (fun _ _ => rfl), gen_filterE _ (fun _ _ => rfl), termsE_temporal c _ Xref ut op sp hu hs]
  congr 1
  have h2 : ∀ l : List (ET d C F B), l.filter (fun t => hasAny ["time_derivative"] t &&
      !hasAny ["transport", "diffusion", "physics"] t) =
      (l.filter (fun t => decide ("time_derivative" ∈ t.labels))).filter
        (fun t => !hasAny ["transport", "diffusion", "physics"] t) := by
    intro l
    rw [List.filter_filter]
    refine List.filter_congr fun t _ => ?_
    simp [hasAny, Bool.and_comm]
  rw [h2, termsE_temporal c _ Xref ut op sp hu hs]
  simp [hasAny, Euler.massU, massRho, massTh]

/-- C101, forcing, refuted: the left-hand side of the forcing problems of the semi-implicit quasi-Newton scheme vanishes for
every vertical test function, so the problems are singular: a solution is determined up to any vertical velocity ... -/
theorem C101_forcing_kernel_refuted (c : ECfg d C F B) (hk : Unit1 c.base.k) (p : ET d C F B → Bool)
    (Xref xF v : EuSt d C F B) (res : List (ET d C F B)) (h : Euler.hydrostatic c p Xref = .ok res) (s : C → ℝ) :
    forcingA res { xF with u := { xF.u with c := fun x i => xF.u.c x i + s x * c.base.k x i } } v = forcingA res xF v := by
  obtain ⟨r, he, rfl⟩ := builtH c p Xref res h
  rw [forcingA_eq c p Xref r he, forcingA_eq c p Xref r he, C101_time_derivative c p Xref _ v _ h,
    C101_time_derivative c p Xref _ v _ h]
  congr 2
  refine Finset.sum_congr rfl fun x _ => ?_
  have h1 : dot (fun i => xF.u.c x i + s x * c.base.k x i) (c.base.k x) = dot (xF.u.c x) (c.base.k x) + s x := by
    rw [dot_axpy_left, hk x, mul_one]
  congr 1
  rw [dot_proj, dot_proj, h1, dot_axpy_left, dot_comm (c.base.k x) (v.u.c x)]
  ring

/-- ... and there is a solution of the explicit one only if the vertical forces and the vertical velocity cancel: for every
vertical test function, `(1 - alpha) dt` times the vertical force plus the vertical velocity must vanish. -/
theorem C101_forcing_solvable_refuted (c : ECfg d C F B) (hk : Unit1 c.base.k) (p : ET d C F B → Bool)
    (Xref x0 xF v : EuSt d C F B) (impl : List String) (alpha dt : ℝ) (res : List (ET d C F B))
    (h : Euler.hydrostatic c p Xref = .ok res) (hv : VerticalTest c.base.k v)
    (hsol : forcingA res xF v = forcingExplicit impl alpha dt res x0 v) :
    (1 - alpha) * dt * forcingN impl res x0 v + vv c.base.M c.base.k v.u x0.u = 0 := by
  obtain ⟨r, he, rfl⟩ := builtH c p Xref res h
  rw [forcingA_eq c p Xref r he, C101_no_vertical_derivative c hk p Xref xF v _ h hv] at hsol
  have hH : forcingH (hyd c r) x0 v = -vv c.base.M c.base.k v.u x0.u := by
    obtain ⟨ut, op, sp, hu, ho, hs, rfl⟩ := builtE c _ Xref r he
    unfold forcingH forcingTerms
    rw [List.filter_filter]
    have hno : ∀ t ∈ termsE c p Xref ut op sp, "hydrostatic" ∉ t.labels := by
      intro t ht
      unfold termsE at ht
      simp only [List.mem_append] at ht
      rcases ht with ((((ht | ht) | ht) | ht) | ht) | ht
      · simp only [List.mem_cons, List.not_mem_nil, or_false] at ht
        rcases ht with ht | ht | ht <;> subst ht <;> simp [Euler.massU, massRho, massTh]
      · obtain ⟨t', ht', rfl⟩ := List.mem_map.1 ht
        have hl : t'.labels = ["transport", "u"] ∨ t'.labels = ["u"] := by
          unfold Bou.uTransport at hu
          cases hc : c.base.uopt <;> rw [hc] at hu <;> cases hu
          · simp only [List.mem_singleton] at ht'; subst ht'; exact Or.inl (attach_labels _ _ _)
          · simp only [List.mem_cons, List.not_mem_nil, or_false] at ht'
            rcases ht' with ht' | ht' <;> subst ht'
            · exact Or.inl (attach_labels _ _ _)
            · exact Or.inr rfl
          · simp only [List.mem_singleton] at ht'; subst ht'; exact Or.inl rfl
        show "hydrostatic" ∉ t'.labels
        rcases hl with hl | hl <;> rw [hl] <;> simp
      · simp only [List.mem_cons, List.not_mem_nil, or_false] at ht
        rcases ht with ht | ht | ht | ht <;> subst ht
        · unfold rhoAdv; rw [attachE_labels]; simp
        · unfold thAdv; rw [attachE_labels]; simp
        · simp [pg]
        · simp [Euler.grav]
      · unfold moistTerms at ht
        split_ifs at ht
        · simp at ht
        · simp only [List.mem_singleton] at ht; subst ht; simp [moist]
      · cases op with
        | none => simp [Euler.corTerms] at ht
        | some f => simp only [Euler.corTerms, List.mem_singleton] at ht; subst ht; simp
      · rw [sponge_labels c sp hs t ht]; simp
    have hno' : ∀ t ∈ generateLinear Xref p (termsE c p Xref ut op sp), "hydrostatic" ∉ t.labels := by
      intro t ht
      obtain ⟨t', ht', rfl⟩ := List.mem_map.1 ht
      have := hno t' ht'
      split_ifs
      · unfold linearise; split_ifs <;> exact this
      · exact this
    unfold hyd
    rw [List.filter_append]
    have e1 : ((generateLinear Xref p (termsE c p Xref ut op sp)).map
        fun t => if "time_derivative" ∈ t.labels then project c.base.k t else t).filter
        (fun t => hasAny ["hydrostatic"] t && !hasAny ["transport", "diffusion", "physics"] t) = [] := by
      rw [List.filter_eq_nil_iff]
      intro t ht hh
      obtain ⟨t', ht', rfl⟩ := List.mem_map.1 ht
      have := hno' t' ht'
      have hl : (if "time_derivative" ∈ t'.labels then project c.base.k t' else t').labels = t'.labels := by
        split_ifs <;> rfl
      simp [hasAny, hl, this] at hh
    have e2 : [hydT c].filter (fun t => hasAny ["hydrostatic"] t && !hasAny ["transport", "diffusion", "physics"] t) =
        [hydT c] := by simp [hasAny, hydT]
    rw [e1, e2, value_applyE]
    simp [hydT, vv, cells, dot_comm (c.base.k _)]
  unfold forcingExplicit at hsol
  rw [hH] at hsol
  linarith

/-- The kinetic energy of the circulation form, which has no `transport` label. -/
noncomputable def keE (c : ECfg d C F B) (X v : EuSt d C F B) : ℝ :=
  match c.base.uopt with
  | .circulation => kinE c.base.M v.u X.u X.u
  | _ => 0

/-- C101, forcing terms: with the fully implicit terms of the scheme, what is evaluated as forcing is the pressure gradient,
gravity, the moist term, the Coriolis force and, for the circulation form, the gradient of kinetic energy. -/
theorem C101_forcing_terms (c : ECfg d C F B) (p : ET d C F B → Bool) (Xref X v : EuSt d C F B)
    (op : Option ((Fin d → ℝ) → Fin d → ℝ)) (ho : corOp c.base = .ok op) (res : List (ET d C F B))
    (h : Euler.hydrostatic c p Xref = .ok res) :
    forcingN ["incompressible", "sponge"] res X v = keE c X v
      + pgf c.base.M c.vert c.P.cp v.u (thetaV c.tracers X) (exnerF c.P X) + gravForm c v.u
      + moistE c X v + corE c op X v := by
  obtain ⟨r, he, rfl⟩ := builtH c p Xref res h
  obtain ⟨ut, op', sp, hu, ho', hs, rfl⟩ := builtE c p Xref r he
  rw [ho] at ho'; cases ho'
  unfold forcingN forcingTerms
  rw [List.filter_filter]
  set q : ET d C F B → Bool := fun t =>
    (!hasAny (["time_derivative", "hydrostatic"] ++ ["incompressible", "sponge"]) t) &&
      !hasAny ["transport", "diffusion", "physics"] t with hq
  rw [hyd_ntd c _ q (fun t ht => by simp [hq, hasAny] at ht; tauto) (fun t => rfl)]
  have e0 : [hydT c].filter q = [] := by simp [hq, hasAny, hydT]
  rw [e0, List.append_nil, gen_filterE q (fun _ _ => rfl), gen_valueE]
  have hlab : ∀ (t : ET d C F B) (l : List String), t.labels = l →
      q t = ((!(["time_derivative", "hydrostatic", "incompressible", "sponge"].any fun a => decide (a ∈ l))) &&
        !(["transport", "diffusion", "physics"].any fun a => decide (a ∈ l))) := by
    intro t l hl; simp [hq, hasAny, hl]
  have e1 : (((ut.map lift).filter q).map fun t => t.form X v).sum = keE c X v := by
    unfold Bou.uTransport at hu
    unfold keE
    cases hc : c.base.uopt <;> rw [hc] at hu <;> cases hu
    · have : q (lift (attach (fun t => p (lift t)) { form := fun X v => bcirc c.base v.u X.u X.u + kinE c.base.M v.u X.u X.u
                                                     dform := fun X h v => bcirc c.base v.u h.u X.u + bcirc c.base v.u X.u h.u
                      + (kinE c.base.M v.u h.u X.u + kinE c.base.M v.u X.u h.u)
                                                     empty := false, lin := none, labels := ["transport", "u"] }
      fun h v => bcirc c.base v.u h.u (toSt Xref).u + bcirc c.base v.u (toSt Xref).u h.u
        - cells c.base.M fun x => v.u.div x * dot (h.u.c x) ((toSt Xref).u.c x))) = false := by
        rw [hlab _ ["transport", "u"] (attach_labels _ _ _)]; decide
      simp only [List.map_cons, List.map_nil, List.filter_cons, List.filter_nil, this]
      simp
    · have h1 : q (lift (attach (fun t => p (lift t)) { form := fun X v => bcirc c.base v.u X.u X.u
                                                        dform := fun X h v => bcirc c.base v.u h.u X.u + bcirc c.base v.u X.u h.u
                                                        empty := false, lin := none, labels := ["transport", "u"] }
      fun h v => bcirc c.base v.u h.u (toSt Xref).u + bcirc c.base v.u (toSt Xref).u h.u)) = false := by
        rw [hlab _ ["transport", "u"] (attach_labels _ _ _)]; decide
      have h2 : q (lift { form := fun X v => kinE c.base.M v.u X.u X.u
                          dform := fun X h v => kinE c.base.M v.u h.u X.u + kinE c.base.M v.u X.u h.u
                          empty := false, lin := none, labels := ["u"] }) = true := by
        rw [hlab _ ["u"] rfl]; decide
      simp only [List.map_cons, List.map_nil, List.filter_cons, List.filter_nil, h1, h2]
      simp [lift, toSt]
    · simp [hq, hasAny, lift]
  have e2 : q (rhoAdv c p Xref) = false := by
    rw [hlab _ ["transport", "rho"] (by unfold rhoAdv; rw [attachE_labels])]; decide
  have e3 : q (thAdv c p Xref) = false := by
    rw [hlab _ ["transport", "theta"] (by unfold thAdv; rw [attachE_labels])]; decide
  have e4 : (((moistTerms c).filter q).map fun t => t.form X v).sum = moistE c X v := by
    unfold moistTerms moistE
    split_ifs <;> simp [hq, hasAny, moist, moistForm, cells]
  have e5 : (((Euler.corTerms c op).filter q).map fun t => t.form X v).sum = corE c op X v := by
    cases op with
    | none => rfl
    | some f => simp [Euler.corTerms, hq, hasAny, corE, bcor, cells]
  have e6 : sp.filter q = [] := by
    rw [List.filter_eq_nil_iff]
    intro t ht
    rw [hlab t _ (sponge_labels c sp hs t ht)]; decide
  have e7 : q (Euler.massU c.base.M) = false ∧ q (massRho c.base.M) = false ∧ q (massTh c.base.M) = false := by
    simp [hq, hasAny, Euler.massU, massRho, massTh]
  have e8 : q (pg c) = true ∧ q (Euler.grav c) = true := by simp [hq, hasAny, pg, Euler.grav]
  unfold termsE
  simp only [List.filter_append, List.filter_cons, List.filter_nil, e2, e3, e6, e7.1, e7.2.1, e7.2.2, e8.1, e8.2, if_true,
    Bool.false_eq_true, if_false, List.nil_append, List.append_nil, List.map_append, List.sum_append, e1, e4, e5,
    List.map_cons, List.map_nil, List.sum_cons, List.sum_nil]
  simp only [pg, Euler.grav]
  ring

/-! ### The balanced column with vertical motion -/

/-- The balanced moist column of `Props/Euler.lean`, with the vertical velocity of `hat`. -/
noncomputable def colMoving : EuSt 2 (Fin 2) (Fin 3) (Fin 2) := { colSt with u := EulerProps.hat }
/-- The vertical test function. -/
noncomputable def hatTest : EuSt 2 (Fin 2) (Fin 3) (Fin 2) := ⟨EulerProps.hat, Sc.const 0, Sc.const 0, fun _ => Sc.const 0⟩

theorem hatTest_vertical : VerticalTest (colCfg .vectorInvariant).base.k hatTest where
  u := ⟨fun _ => 1 / 2, fun x i => by fin_cases i <;> simp [hatTest, EulerProps.hat, colCfg]⟩
  rho x := rfl
  th x := rfl


/-- The hypotheses hold in the moist column, and the explicit forcing problem has no solution there: the column is in
hydrostatic balance but moves vertically, so the forces vanish and the vertical velocity does not. -/
theorem C101_forcing_unsolvable_refuted : ∃ res, Euler.hydrostatic (colCfg .vectorInvariant) (fun _ => true) colSt = .ok res ∧
    Unit1 (colCfg .vectorInvariant).base.k ∧ ∀ (alpha dt : ℝ) (xF : EuSt 2 (Fin 2) (Fin 3) (Fin 2)),
      forcingA res xF hatTest ≠ forcingExplicit ["incompressible", "sponge"] alpha dt res colMoving hatTest := by
  obtain ⟨r, hr⟩ := (C100_accepts (colCfg .vectorInvariant) (fun _ => true) colSt).2
    ⟨by simp [colCfg], Or.inl rfl, fun s hs => by simp [colCfg] at hs; subst hs; norm_num⟩
  obtain ⟨res, hres⟩ := (C101_accepts (colCfg .vectorInvariant) (fun _ => true) colSt).2 ⟨r, hr⟩
  have hk : Unit1 (colCfg .vectorInvariant).base.k := fun x => by simp [colCfg, dot, Fin.sum_univ_two]
  refine ⟨res, hres, hk, fun alpha dt xF hsol => ?_⟩
  have h1 := C101_forcing_solvable_refuted _ hk _ colSt colMoving xF hatTest _ alpha dt res hres hatTest_vertical hsol
  rw [C101_forcing_terms _ _ colSt colMoving hatTest none rfl res hres] at h1
  have hF : Flow colM EulerProps.hat := by
    refine ⟨fun x => ?_, fun x => ?_⟩
    · fin_cases x <;> simp [colM, EulerProps.hat, dot, Fin.sum_univ_two]
    · fin_cases x <;> simp [colM, EulerProps.hat, dot, Fin.sum_univ_two]
  obtain ⟨e1, e2, e3, e4, e5⟩ := col_exner
  have hth : thetaV (colCfg .vectorInvariant).tracers colMoving = Sc.const 300 := col_thetaV
  have hex : exnerF (colCfg .vectorInvariant).P colMoving = exnerF defaults colSt := rfl
  have hd : DivThm colM (Sc.const 300) (exnerF defaults colSt) EulerProps.hat := by
    unfold DivThm
    simp only [e1, e2, e3, e4, e5]
    simp [Fin.sum_univ_two, Fin.sum_univ_three, colM, EulerProps.hat, dot, DG.Ve.div, Sc.const, colPi, zC, zF, zB]
    norm_num
  have h2 : pgf (colCfg .vectorInvariant).base.M (colCfg .vectorInvariant).vert (colCfg .vectorInvariant).P.cp hatTest.u
      (thetaV (colCfg .vectorInvariant).tracers colMoving) (exnerF (colCfg .vectorInvariant).P colMoving) = -10 := by
    rw [hth, hex]
    refine (pgf_parts colM _ _ EulerProps.hat (Sc.const 300) (exnerF defaults colSt) hF ?_ ?_ hd).trans ?_
    · intro x; rw [e3, e4]
    · intro x _; rfl
    · simp only [e2]
      norm_num [Fin.sum_univ_two, colM, EulerProps.hat, dot, Sc.const, colCfg, defaults]
  have h3 : gravForm (colCfg .vectorInvariant) hatTest.u = 10 := by
    norm_num [gravForm, cells, colCfg, colM, EulerProps.hat, hatTest, dot, Fin.sum_univ_two]
  have h4 : keE (colCfg .vectorInvariant) colMoving hatTest = 0 := rfl
  have h5 : moistE (colCfg .vectorInvariant) colMoving hatTest = 0 := by
    unfold moistE
    split_ifs
    · rfl
    · simp [hatTest, Sc.const]
  have h6 : corE (colCfg .vectorInvariant) none colMoving hatTest = 0 := rfl
  have h7 : vv (colCfg .vectorInvariant).base.M (colCfg .vectorInvariant).base.k hatTest.u colMoving.u = 1 / 2 := by
    norm_num [vv, colCfg, colM, hatTest, colMoving, EulerProps.hat, dot, Fin.sum_univ_two]
  rw [h2, h3, h4, h5, h6, h7] at h1
  norm_num at h1

end Gusto.Props.HydroProps
