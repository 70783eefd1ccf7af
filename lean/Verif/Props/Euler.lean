import Mathlib.Analysis.Calculus.Deriv.Pow
import Mathlib.Analysis.Calculus.Deriv.Inv
import Verif.Model.Euler
import Verif.Props.Boussinesq
import Verif.Props.Thermodynamics

set_option autoImplicit false
set_option linter.unusedSectionVars false
set_option linter.unusedSimpArgs false

/-!
# C100: the compressible Euler equations
-/

namespace Gusto.Props.EulerProps
open Gusto.DG Gusto.EqSet Gusto.SW Gusto.Bou Gusto.Thermo Gusto.Euler
open Gusto.EqnDiag (pgf MTracer Phase)
open Gusto.Props.DGProps Gusto.Props.SWProps Gusto.Props.BouProps
open Gusto.Props.ThermoProps (base_pos C40_exner_of_density defaults_good)

variable {d : ℕ} {C F B : Type*} [Fintype C] [Fintype F] [Fintype B]

/-! ### Specification -/

/-- Whether a term has no time derivative. -/
def nTD (t : ET d C F B) : Bool := !decide ("time_derivative" ∈ t.labels)
/-- The part of a residual without time derivatives. -/
def spatialE (res : List (ET d C F B)) (X v : EuSt d C F B) : ℝ := value (res.filter nTD) X v
/-- The part of a residual with time derivatives. -/
def temporalE (res : List (ET d C F B)) (X v : EuSt d C F B) : ℝ :=
  value (res.filter fun t => decide ("time_derivative" ∈ t.labels)) X v

/-- The velocity transport form of the option. -/
noncomputable def uFormE (c : ECfg d C F B) (X v : EuSt d C F B) : ℝ :=
  match c.base.uopt with
  | .vectorInvariant | .circulation => bcirc c.base v.u X.u X.u + kinE c.base.M v.u X.u X.u
  | .vectorAdvection => advVec c.base.M v.u X.u X.u
  | .invalid => 0
/-- The Coriolis force. -/
noncomputable def corE (c : ECfg d C F B) (op : Option ((Fin d → ℝ) → Fin d → ℝ)) (X v : EuSt d C F B) : ℝ :=
  match op with
  | none => 0
  | some f => ∑ x, c.base.M.wC x * dot (v.u.c x) (f (X.u.c x))
/-- The force of the sponge. -/
noncomputable def spongeE (c : ECfg d C F B) (X v : EuSt d C F B) : ℝ :=
  match c.sponge with
  | none => 0
  | some s => ∑ x, c.base.M.wC x * (s.mu x * dot (v.u.c x) (c.base.k x) * dot (X.u.c x) (c.base.k x))
/-- The moist divergence term. -/
noncomputable def moistE (c : ECfg d C F B) (X v : EuSt d C F B) : ℝ :=
  if c.tracers.isEmpty then 0 else ∑ x, c.base.M.wC x * (v.th.c x * X.th.c x * X.u.div x * moistAt c X x)

/-- A state at which the thermodynamics makes sense. -/
structure Positive (c : ECfg d C F B) (X : EuSt d C F B) : Prop where
  rc : ∀ x, 0 < X.rho.c x
  rp : ∀ x, 0 < X.rho.p x
  rm : ∀ x, 0 < X.rho.m x
  tc : ∀ x, 0 < X.th.c x
  tp : ∀ x, 0 < X.th.p x
  tm : ∀ x, 0 < X.th.m x
  mc : ∀ x, 0 < (mrOne c.tracers X).c x
  mp : ∀ x, 0 < (mrOne c.tracers X).p x
  mm : ∀ x, 0 < (mrOne c.tracers X).m x
  cv : ∀ x, 0 < cvml c.P (mrPhase .gas c.tracers X x) (mrPhase .liquid c.tracers X x)

/-! ### Values of residuals -/

theorem value_applyE (res : List (ET d C F B)) (X v : EuSt d C F B) :
    value res X v = (res.map fun t => t.form X v).sum := by
  unfold value
  induction res with
  | nil => rfl
  | cons t ts ih =>
    simp only [List.map_cons, List.sum_cons, Pi.add_apply]
    rw [ih]

/-- The linearisation a term ends up with when the map accepts every term. -/
noncomputable def effE (Xref : EuSt d C F B) (t : ET d C F B) (h v : EuSt d C F B) : ℝ :=
  match t.lin with
  | some l => l h v
  | none => if t.empty then 0 else t.dform Xref h v

theorem value_linearE (res : List (ET d C F B)) (Xref h v : EuSt d C F B) :
    value (lineariseSet (generateLinear Xref (fun _ => true) res)) h v = (res.map fun t => effE Xref t h v).sum := by
  rw [value_applyE]
  induction res with
  | nil => rfl
  | cons t ts ih =>
    simp only [generateLinear, lineariseSet, List.map_cons, List.flatMap_cons, List.map_append, List.sum_append,
      List.sum_cons] at ih ⊢
    rw [ih]
    congr 1
    unfold effE
    cases hl : t.lin with
    | some l => simp [hl]
    | none =>
      cases he : t.empty <;> simp [hl, he, linearise]

theorem gen_filterE (q : ET d C F B → Bool) (hq : ∀ t l, q { t with lin := l } = q t) (Xref : EuSt d C F B)
    (p : ET d C F B → Bool) (res : List (ET d C F B)) :
    (generateLinear Xref p res).filter q = generateLinear Xref p (res.filter q) := by
  induction res with
  | nil => rfl
  | cons t ts ih =>
    simp only [generateLinear, List.map_cons, List.filter_cons] at ih ⊢
    have : q (if (t.lin.isNone && p t) = true then linearise Xref t else t) = q t := by
      split_ifs
      · unfold linearise; split_ifs
        · rfl
        · exact hq t _
      · rfl
    rw [this, ih]
    cases q t <;> simp

theorem lin_filterE (q : ET d C F B → Bool) (hq : ∀ t l, q { t with form := l } = q t) (res : List (ET d C F B)) :
    (lineariseSet res).filter q = lineariseSet (res.filter q) := by
  induction res with
  | nil => rfl
  | cons t ts ih =>
    simp only [lineariseSet, List.flatMap_cons, List.filter_append, List.filter_cons] at ih ⊢
    rw [ih]
    by_cases h : q t = true
    · cases hl : t.lin with
      | none => simp [h, hl]
      | some l => have hh := hq t l; rw [hl, h] at hh; simp [h, hl, List.filter_cons, hh]
    · cases hl : t.lin with
      | none => simp [h, hl]
      | some l =>
        have hh := hq t l
        rw [hl, Bool.eq_false_iff.2 h] at hh
        simp [h, hl, List.filter_cons, hh]

theorem gen_valueE (Xref : EuSt d C F B) (p : ET d C F B → Bool) (res : List (ET d C F B)) (X v : EuSt d C F B) :
    value (generateLinear Xref p res) X v = (res.map fun t => t.form X v).sum := by
  rw [value_applyE, generateLinear, List.map_map]
  congr 1
  apply List.map_congr_left
  intro t _
  simp only [Function.comp]
  split_ifs
  · unfold linearise; split_ifs <;> rfl
  · rfl

theorem attachE_labels (p : ET d C F B → Bool) (t : ET d C F B) (l : EuSt d C F B → EuSt d C F B → ℝ) :
    (attachE p t l).labels = t.labels := by unfold attachE; split_ifs <;> rfl
theorem attachE_form (p : ET d C F B → Bool) (t : ET d C F B) (l : EuSt d C F B → EuSt d C F B → ℝ) :
    (attachE p t l).form = t.form := by unfold attachE; split_ifs <;> rfl

/-! ### What is built -/

/-- The terms of the residual. -/
noncomputable def termsE (c : ECfg d C F B) (p : ET d C F B → Bool) (Xref : EuSt d C F B) (ut : List (T ℝ d C F B))
    (op : Option ((Fin d → ℝ) → Fin d → ℝ)) (sp : List (ET d C F B)) : List (ET d C F B) :=
  [Euler.massU c.base.M, massRho c.base.M, massTh c.base.M] ++ ut.map lift ++
          [rhoAdv c p Xref, thAdv c p Xref, pg c, Euler.grav c] ++ moistTerms c ++ Euler.corTerms c op ++ sp

theorem builtE (c : ECfg d C F B) (p : ET d C F B → Bool) (Xref : EuSt d C F B) (res : List (ET d C F B))
    (h : euler c p Xref = .ok res) : ∃ ut op sp, Bou.uTransport c.base (fun t => p (lift t)) (toSt Xref) = .ok ut ∧
      corOp c.base = .ok op ∧ spongeTerms c = .ok sp ∧ res = generateLinear Xref p (termsE c p Xref ut op sp) := by
  unfold euler setup Euler.uTransport at h
  cases hu : Bou.uTransport c.base (fun t => p (lift t)) (toSt Xref) with
  | error e => rw [hu] at h; cases h
  | ok ut =>
    cases ho : corOp c.base with
    | error e => rw [hu, ho] at h; cases h
    | ok op =>
      cases hs : spongeTerms c with
      | error e => rw [hu, ho, hs] at h; cases h
      | ok sp =>
        rw [hu, ho, hs] at h
        exact ⟨ut, op, sp, rfl, rfl, rfl, by cases h; rfl⟩

theorem sponge_labels (c : ECfg d C F B) (sp : List (ET d C F B)) (h : spongeTerms c = .ok sp) :
    ∀ t ∈ sp, t.labels = ["sponge", "u"] := by
  unfold spongeTerms at h
  cases hs : c.sponge with
  | none => rw [hs] at h; cases h; simp
  | some s =>
    rw [hs] at h
    simp only at h
    split_ifs at h
    cases h
    simp

theorem sponge_value (c : ECfg d C F B) (sp : List (ET d C F B)) (h : spongeTerms c = .ok sp) (X v : EuSt d C F B) :
    (sp.map fun t => t.form X v).sum = spongeE c X v := by
  unfold spongeTerms at h
  unfold spongeE
  cases hs : c.sponge with
  | none => rw [hs] at h; cases h; rfl
  | some s =>
    rw [hs] at h
    simp only at h
    split_ifs at h
    cases h
    simp [spongeForm, cells]

theorem termsE_spatial (c : ECfg d C F B) (p : ET d C F B → Bool) (Xref : EuSt d C F B) (ut : List (T ℝ d C F B))
    (op : Option ((Fin d → ℝ) → Fin d → ℝ)) (sp : List (ET d C F B))
    (hu : Bou.uTransport c.base (fun t => p (lift t)) (toSt Xref) = .ok ut) (hs : spongeTerms c = .ok sp) :
    (termsE c p Xref ut op sp).filter nTD = ut.map lift ++ [rhoAdv c p Xref, thAdv c p Xref, pg c, Euler.grav c] ++
      moistTerms c ++ Euler.corTerms c op ++ sp := by
  have h1 : (ut.map lift).filter nTD = ut.map lift := List.filter_eq_self.2 fun t ht => by
    obtain ⟨t', ht', rfl⟩ := List.mem_map.1 ht
    exact utr_notTD c.base _ _ ut hu t' ht'
  have h2 : nTD (rhoAdv c p Xref) = true := by unfold nTD rhoAdv; rw [attachE_labels]; rfl
  have h3 : nTD (thAdv c p Xref) = true := by unfold nTD thAdv; rw [attachE_labels]; rfl
  have h4 : (moistTerms c).filter nTD = moistTerms c := by unfold moistTerms; split_ifs <;> rfl
  have h5 : (Euler.corTerms c op).filter nTD = Euler.corTerms c op := by cases op <;> rfl
  have h6 : sp.filter nTD = sp := List.filter_eq_self.2 fun t ht => by
    unfold nTD; rw [sponge_labels c sp hs t ht]; rfl
  have h7 : nTD (pg c) = true ∧ nTD (Euler.grav c) = true := ⟨rfl, rfl⟩
  have h8 : nTD (Euler.massU c.base.M) = false ∧ nTD (massRho c.base.M) = false ∧ nTD (massTh c.base.M) = false :=
    ⟨rfl, rfl, rfl⟩
  unfold termsE
  simp only [List.filter_append, h1, h4, h5, h6, List.filter_cons, h2, h3, h7.1, h7.2, h8.1, h8.2.1, h8.2.2, if_true,
    List.filter_nil, Bool.false_eq_true, if_false, List.nil_append]

theorem termsE_temporal (c : ECfg d C F B) (p : ET d C F B → Bool) (Xref : EuSt d C F B) (ut : List (T ℝ d C F B))
    (op : Option ((Fin d → ℝ) → Fin d → ℝ)) (sp : List (ET d C F B))
    (hu : Bou.uTransport c.base (fun t => p (lift t)) (toSt Xref) = .ok ut) (hs : spongeTerms c = .ok sp) :
    (termsE c p Xref ut op sp).filter (fun t => decide ("time_derivative" ∈ t.labels)) =
      [Euler.massU c.base.M, massRho c.base.M, massTh c.base.M] := by
  have h1 : (ut.map lift).filter (fun t => decide ("time_derivative" ∈ t.labels)) = [] :=
    List.filter_eq_nil_iff.2 fun t ht => by
      obtain ⟨t', ht', rfl⟩ := List.mem_map.1 ht
      have := utr_notTD c.base _ _ ut hu t' ht'
      unfold notTD at this
      intro hc
      have hm : "time_derivative" ∈ t'.labels := of_decide_eq_true hc
      simp [hm] at this
  have h2 : "time_derivative" ∉ (rhoAdv c p Xref).labels := by unfold rhoAdv; rw [attachE_labels]; simp
  have h3 : "time_derivative" ∉ (thAdv c p Xref).labels := by unfold thAdv; rw [attachE_labels]; simp
  have h4 : (moistTerms c).filter (fun t => decide ("time_derivative" ∈ t.labels)) = [] := by
    unfold moistTerms; split_ifs <;> rfl
  have h5 : (Euler.corTerms c op).filter (fun t => decide ("time_derivative" ∈ t.labels)) = [] := by cases op <;> rfl
  have h6 : sp.filter (fun t => decide ("time_derivative" ∈ t.labels)) = [] := List.filter_eq_nil_iff.2 fun t ht => by
    rw [sponge_labels c sp hs t ht]; decide
  unfold termsE
  simp only [List.filter_append, h1, h4, h5, h6]
  simp [List.filter_cons, h2, h3, Euler.massU, massRho, massTh, pg, Euler.grav]

/-- The value of the residual without time derivatives. -/
theorem euler_spatial (c : ECfg d C F B) (p : ET d C F B → Bool) (Xref X v : EuSt d C F B) (res : List (ET d C F B))
    (h : euler c p Xref = .ok res) (op : Option ((Fin d → ℝ) → Fin d → ℝ)) (ho : corOp c.base = .ok op) :
    spatialE res X v = uFormE c X v + contCells c.base.M v.rho X.rho X.u + advCells c.base.M v.th X.th X.u
      + pgf c.base.M c.vert c.P.cp v.u (thetaV c.tracers X) (exnerF c.P X) + gravForm c v.u
      + moistE c X v + corE c op X v + spongeE c X v := by
  obtain ⟨ut, op', sp, hu, ho', hs, rfl⟩ := builtE c p Xref res h
  rw [ho] at ho'; cases ho'
  unfold spatialE
  rw [gen_filterE _ (fun _ _ => rfl), gen_valueE, termsE_spatial c p Xref ut op sp hu hs]
  have e1 : ((ut.map lift).map fun t => t.form X v).sum = uFormE c X v := by
    unfold Bou.uTransport at hu
    unfold uFormE
    cases hc : c.base.uopt <;> rw [hc] at hu <;> cases hu <;> simp [lift, attach_form, toSt]
  have e2 : (rhoAdv c p Xref).form X v = contCells c.base.M v.rho X.rho X.u := by unfold rhoAdv; rw [attachE_form]
  have e3 : (thAdv c p Xref).form X v = advCells c.base.M v.th X.th X.u := by unfold thAdv; rw [attachE_form]
  have e4 : ((moistTerms c).map fun t => t.form X v).sum = moistE c X v := by
    unfold moistTerms moistE; split_ifs <;> simp [moist, moistForm, cells]
  have e5 : ((Euler.corTerms c op).map fun t => t.form X v).sum = corE c op X v := by
    cases op with
    | none => rfl
    | some f => simp [Euler.corTerms, corE, bcor, cells]
  simp only [List.map_append, List.sum_append, e1, e4, e5, sponge_value c sp hs, List.map_cons, List.map_nil,
    List.sum_cons, List.sum_nil, e2, e3]
  simp only [pg, Euler.grav]
  ring

theorem euler_temporal (c : ECfg d C F B) (p : ET d C F B → Bool) (Xref X v : EuSt d C F B) (res : List (ET d C F B))
    (h : euler c p Xref = .ok res) :
    temporalE res X v = (∑ x, c.base.M.wC x * dot (X.u.c x) (v.u.c x)) +
      (∑ x, c.base.M.wC x * (X.rho.c x * v.rho.c x)) + ∑ x, c.base.M.wC x * (X.th.c x * v.th.c x) := by
  obtain ⟨ut, op, sp, hu, ho, hs, rfl⟩ := builtE c p Xref res h
  unfold temporalE
  rw [gen_filterE _ (fun _ _ => rfl), gen_valueE, termsE_temporal c p Xref ut op sp hu hs]
  simp [Euler.massU, massRho, massTh, cells, add_assoc]

/-! ### The theorems -/

/-- C100, options: the equations are built exactly for a supported velocity option, with rotation only in three dimensions,
and with the sponge level below the height of the domain. -/
theorem C100_accepts (c : ECfg d C F B) (p : ET d C F B → Bool) (Xref : EuSt d C F B) :
    (∃ res, euler c p Xref = .ok res) ↔
      c.base.uopt ≠ .invalid ∧ (c.base.Omega = none ∨ d = 3) ∧ ∀ s, c.sponge = some s → s.zc < s.H := by
  have hcr : (crossOmega (K := ℝ) d).isSome ↔ d = 3 := by
    match d with
    | 0 => simp [crossOmega]
    | 1 => simp [crossOmega]
    | 2 => simp [crossOmega]
    | 3 => simp [crossOmega]
    | n + 4 => simp [crossOmega]
  unfold euler setup Euler.uTransport Bou.uTransport corOp spongeTerms
  rw [← hcr]
  cases c.base.Omega <;> cases c.base.uopt <;> cases crossOmega (K := ℝ) d <;> cases c.sponge <;>
    simp [Except.map] <;> split_ifs <;> simp_all

/-- C100, refuted: the docstring promises `NotImplementedError` for tracers that are not mixing ratios, but they are
accepted, whatever they are. -/
theorem C100_tracers_refuted (c : ECfg d C F B) (p : ET d C F B → Bool) (Xref : EuSt d C F B) (ts : List MTracer)
    (h : ∃ res, euler c p Xref = .ok res) : ∃ res, euler { c with tracers := ts } p Xref = .ok res := by
  rw [C100_accepts] at h ⊢
  exact h

/-- C100, Coriolis: the Coriolis force does no work. -/
theorem C100_coriolis_no_work (c : ECfg d C F B) (op : Option ((Fin d → ℝ) → Fin d → ℝ)) (ho : corOp c.base = .ok op)
    (X v : EuSt d C F B) (hv : v.u = X.u) : corE c op X v = 0 := by
  unfold corE
  cases op with
  | none => rfl
  | some f => exact Finset.sum_eq_zero fun x _ => by rw [hv, (corOp_good c.base f ho).2]; ring

/-- The pressure gradient by parts. -/
theorem pgf_parts (M : Mesh ℝ d C F B) (vert : F → Bool) (cp : ℝ) (w : Ve ℝ d C F B) (th ex : Sc ℝ d C F B)
    (hw : Flow M w) (hex : Continuous ex) (hth : ∀ x, vert x = false → th.p x = th.m x) (hd : DivThm M th ex w) :
    pgf M vert cp w th ex = ∑ x, M.wC x * dot (w.c x) (fun i => cp * th.c x * ex.g x i) := by
  have h2 : ∑ x, M.wB x * (th.b x * ex.b x * dot (w.b x) (M.nB x)) = 0 :=
    Finset.sum_eq_zero fun x _ => by rw [hw.2 x]; ring
  have h1 : ∑ x, M.wF x * (th.p x * ex.p x * dot (w.p x) (M.nP x) + th.m x * ex.m x * dot (w.m x) (M.nM x)) =
      ∑ x, if vert x then M.wF x * ((th.p x * dot (w.p x) (M.nP x) + th.m x * dot (w.m x) (M.nM x)) *
      (1 / 2 * (ex.p x + ex.m x))) else 0 := by
    refine Finset.sum_congr rfl fun x _ => ?_
    rw [hex x]
    split_ifs with hv
    · ring
    · rw [hw.1 x, hth x (by simpa using hv)]; ring
  unfold DivThm at hd
  rw [h2, h1, add_zero] at hd
  unfold pgf
  rw [← hd]
  rw [Finset.mul_sum, Finset.mul_sum, ← Finset.sum_add_distrib]
  refine Finset.sum_congr rfl fun x _ => ?_
  have e : dot (w.c x) (fun i => cp * th.c x * ex.g x i) = cp * th.c x * dot (ex.g x) (w.c x) := by
    unfold dot; rw [Finset.mul_sum]; exact Finset.sum_congr rfl fun i _ => by ring
  rw [e]; ring

/-- C100, the documented equations: for a continuous Exner pressure, and a virtual potential temperature continuous across
the horizontal facets, the residual without time derivatives is, tested with a velocity, a density and a potential
temperature, the transport of velocity plus `2 Omega x u + c_p theta_v grad Pi + g k`, `div(rho u)`, `u . grad theta`, the
moist term and the sponge. -/
theorem C100_documented_form (c : ECfg d C F B) (p : ET d C F B → Bool) (Xref X v : EuSt d C F B)
    (res : List (ET d C F B)) (h : euler c p Xref = .ok res)
    (f : (Fin d → ℝ) → Fin d → ℝ) (ho : corOp c.base = .ok (some f))
    (hw : Flow c.base.M v.u) (hex : Continuous (exnerF c.P X))
    (hth : ∀ x, c.vert x = false → (thetaV c.tracers X).p x = (thetaV c.tracers X).m x)
    (hd : DivThm c.base.M (thetaV c.tracers X) (exnerF c.P X) v.u) :
    spatialE res X v = uFormE c X v
      + (∑ x, c.base.M.wC x * dot (v.u.c x) (fun i => f (X.u.c x) i
          + c.P.cp * (thetaV c.tracers X).c x * (exnerF c.P X).g x i + c.g * c.base.k x i))
      + (∑ x, c.base.M.wC x * (v.rho.c x * (dot (X.rho.g x) (X.u.c x) + X.rho.c x * X.u.div x)))
      + (∑ x, c.base.M.wC x * (v.th.c x * dot (X.u.c x) (X.th.g x)))
      + moistE c X v + spongeE c X v := by
  rw [euler_spatial c p Xref X v res h _ ho, pgf_parts _ _ _ _ _ _ hw hex hth hd]
  have e : ∀ x, dot (v.u.c x) (fun i => f (X.u.c x) i
      + c.P.cp * (thetaV c.tracers X).c x * (exnerF c.P X).g x i + c.g * c.base.k x i) =
      dot (v.u.c x) (f (X.u.c x)) + dot (v.u.c x) (fun i => c.P.cp * (thetaV c.tracers X).c x * (exnerF c.P X).g x i)
      + c.g * dot (c.base.k x) (v.u.c x) := fun x => by
    unfold dot
    rw [Finset.mul_sum, ← Finset.sum_add_distrib, ← Finset.sum_add_distrib]
    exact Finset.sum_congr rfl fun i _ => by ring
  simp only [e, mul_add, Finset.sum_add_distrib]
  unfold gravForm contCells advCells corE cells
  rw [Finset.mul_sum]
  have e2 : ∀ x, c.base.M.wC x * (c.g * dot (c.base.k x) (v.u.c x)) = c.g * (c.base.M.wC x * dot (c.base.k x) (v.u.c x)) :=
    fun x => by ring
  have e3 : ∀ x, c.base.M.wC x * (v.th.c x * dot (X.u.c x) (X.th.g x)) =
    c.base.M.wC x * (v.th.c x * dot (X.u.c x) (X.th.g x)) := fun x => rfl
  simp only [e2]
  have e4 : ∑ x, c.base.M.wC x * (v.rho.c x * (dot (X.rho.g x) (X.u.c x) + X.rho.c x * X.u.div x)) =
      ∑ x, c.base.M.wC x * (v.rho.c x * dot (X.rho.g x) (X.u.c x)) +
      ∑ x, c.base.M.wC x * (v.rho.c x * (X.rho.c x * X.u.div x)) := by
    rw [← Finset.sum_add_distrib]; exact Finset.sum_congr rfl fun x _ => by ring
  simp only [mul_add, Finset.sum_add_distrib] at e4 ⊢
  ring

/-! ### Balance, mass and the dry limit -/

/-- C100, hydrostatic balance: air at rest with `c_p theta_v grad Pi = -g k` is a steady state, for every velocity option,
rotation, sponge, set of tracers and test function. -/
theorem C100_hydrostatic_rest (c : ECfg d C F B) (hR : GoodC c.base.R) (p : ET d C F B → Bool) (Xref X v : EuSt d C F B)
    (res : List (ET d C F B)) (h : euler c p Xref = .ok res) (hu : X.u = Ve.zero)
    (hbal : ∀ x i, c.P.cp * (thetaV c.tracers X).c x * (exnerF c.P X).g x i = -c.g * c.base.k x i)
    (hw : Flow c.base.M v.u) (hex : Continuous (exnerF c.P X))
    (hth : ∀ x, c.vert x = false → (thetaV c.tracers X).p x = (thetaV c.tracers X).m x)
    (hd : DivThm c.base.M (thetaV c.tracers X) (exnerF c.P X) v.u) : spatialE res X v = 0 := by
  obtain ⟨ut, op, sp, hut, ho, hs, _⟩ := builtE c p Xref res h
  rw [euler_spatial c p Xref X v res h op ho, pgf_parts _ _ _ _ _ _ hw hex hth hd]
  have h2 : uFormE c X v = 0 := by
    unfold uFormE
    rw [hu]
    cases c.base.uopt <;> simp [bcirc_zero_q c.base hR, kin_zero, adv_zero_q]
  have hz : ∀ a : Fin d → ℝ, dot (fun _ => (0 : ℝ)) a = 0 := fun a => by simp [dot]
  have h3 : corE c op X v = 0 := by
    unfold corE
    cases op with
    | none => rfl
    | some f =>
      have : f (fun _ => 0) = fun _ => 0 := by
        have := (corOp_good c.base f ho).1 (fun _ => 0) (fun _ => 0) 1
        simp only [mul_zero, add_zero, one_mul] at this
        funext i
        have := congrFun this i
        linear_combination -this
      refine Finset.sum_eq_zero fun x _ => ?_
      rw [hu]
      simp only [SW.Ve.zero]
      rw [this]; simp [dot]
  have h4 : moistE c X v = 0 := by
    unfold moistE
    have : ∀ x, (Ve.zero : Ve ℝ d C F B).div x = 0 := fun x => by simp [SW.Ve.zero, DG.Ve.div]
    rw [hu]
    simp [this]
  have h5 : spongeE c X v = 0 := by
    unfold spongeE
    cases c.sponge with
    | none => rfl
    | some s => rw [hu]; simp [SW.Ve.zero, hz]
  rw [h2, h3, h4, h5, hu, cont_zero, advs_zero]
  have h6 : (∑ x, c.base.M.wC x * dot (v.u.c x) (fun i => c.P.cp * (thetaV c.tracers X).c x * (exnerF c.P X).g x i)) +
      gravForm c v.u = 0 := by
    unfold gravForm cells
    rw [Finset.mul_sum, ← Finset.sum_add_distrib]
    refine Finset.sum_eq_zero fun x _ => ?_
    have : dot (v.u.c x) (fun i => c.P.cp * (thetaV c.tracers X).c x * (exnerF c.P X).g x i) =
        -c.g * dot (c.base.k x) (v.u.c x) := by
      unfold dot
      rw [Finset.mul_sum]
      exact Finset.sum_congr rfl fun i _ => by beta_reduce; rw [hbal]; ring
    rw [this]; ring
  linear_combination h6

/-- The test function that sees only the density equation. -/
noncomputable def onlyRho (φ : Sc ℝ d C F B) : EuSt d C F B := ⟨Ve.zero, φ, Sc.const 0, fun _ => Sc.const 0⟩

theorem onlyRho_spatial (c : ECfg d C F B) (p : ET d C F B → Bool) (Xref X : EuSt d C F B)
    (φ : Sc ℝ d C F B) (res : List (ET d C F B)) (h : euler c p Xref = .ok res) :
    spatialE res X (onlyRho φ) = contCells c.base.M φ X.rho X.u := by
  obtain ⟨ut, op, sp, hut, ho, hs, _⟩ := builtE c p Xref res h
  rw [euler_spatial c p Xref X _ res h op ho]
  have hz : ∀ a : Fin d → ℝ, dot (fun _ => (0 : ℝ)) a = 0 := fun a => by simp [dot]
  have hz' : ∀ a : Fin d → ℝ, dot a (fun _ => (0 : ℝ)) = 0 := fun a => by simp [dot]
  have h2 : uFormE c X (onlyRho φ) = 0 := by
    unfold uFormE onlyRho bcirc kinE kineticCells advVec cells
    cases c.base.uopt <;> simp [SW.Ve.zero, hz, DG.Ve.div]
  have h3 : corE c op X (onlyRho φ) = 0 := by
    unfold corE onlyRho
    cases op <;> simp [SW.Ve.zero, hz]
  have h4 : spongeE c X (onlyRho φ) = 0 := by
    unfold spongeE onlyRho
    cases c.sponge <;> simp [SW.Ve.zero, hz]
  have h5 : moistE c X (onlyRho φ) = 0 := by
    unfold moistE onlyRho
    split_ifs <;> simp [Sc.const]
  rw [h2, h3, h4, h5]
  simp [onlyRho, pgf, gravForm, advCells, cells, SW.Ve.zero, hz, hz', DG.Ve.div, Sc.const]

/-- C100, mass: if the mass flux through the facets is continuous and vanishes on the boundary, the density equation
conserves the total mass. -/
theorem C100_mass (c : ECfg d C F B) (p : ET d C F B → Bool) (Xref X : EuSt d C F B) (res : List (ET d C F B))
    (h : euler c p Xref = .ok res) (hw : Flow c.base.M X.u) (hr : Continuous X.rho)
    (hd : DivThm c.base.M (Sc.const 1) X.rho X.u) : spatialE res X (onlyRho (Sc.const 1)) = 0 := by
  rw [onlyRho_spatial c p Xref X _ res h]
  unfold DivThm at hd
  have h1 : ∑ x, c.base.M.wF x * ((Sc.const 1 : Sc ℝ d C F B).p x * X.rho.p x * dot (X.u.p x) (c.base.M.nP x) +
      (Sc.const 1 : Sc ℝ d C F B).m x * X.rho.m x * dot (X.u.m x) (c.base.M.nM x)) = 0 :=
    Finset.sum_eq_zero fun x _ => by rw [hw.1 x, hr x]; simp [Sc.const]
  have h2 : ∑ x, c.base.M.wB x * ((Sc.const 1 : Sc ℝ d C F B).b x * X.rho.b x * dot (X.u.b x) (c.base.M.nB x)) = 0 :=
    Finset.sum_eq_zero fun x _ => by rw [hw.2 x]; ring
  rw [h1, h2, add_zero] at hd
  rw [← hd]
  unfold contCells
  refine Finset.sum_congr rfl fun x _ => ?_
  have : dot ((Sc.const 1 : Sc ℝ d C F B).g x) (X.u.c x) = 0 := by simp [Sc.const, dot]
  rw [this]; simp only [Sc.const]; ring

/-- Without vapour and liquid water the moist factor vanishes. -/
theorem moistFactor_dry (P : Parameters) (hcp : P.cp ≠ 0) : moistFactor P 0 0 = 0 := by
  unfold moistFactor Rm cvml cpml
  simp only [zero_mul, add_zero]
  rcases eq_or_ne P.cv 0 with h | h
  · simp [h]
  · field_simp; ring

/-- All tracers are zero. -/
def Dry (c : ECfg d C F B) (X : EuSt d C F B) : Prop := ∀ t ∈ c.tracers, X.tr t.name = Sc.const 0

theorem mrTotal_dry (c : ECfg d C F B) (X : EuSt d C F B) (h : Dry c X) : mrTotal c.tracers X = Sc.const 0 := by
  unfold mrTotal
  have : ∀ (l : List MTracer), (∀ t ∈ l, X.tr t.name = Sc.const 0) →
      l.foldl (fun a t => Sc.add a (X.tr t.name)) (Sc.const 0) = Sc.const 0 := by
    intro l
    induction l with
    | nil => intro _; rfl
    | cons t ts ih =>
      intro hl
      rw [List.foldl_cons, hl t (by simp)]
      rw [show (Sc.add (Sc.const 0) (Sc.const 0) : Sc ℝ d C F B) = Sc.const 0 by simp [Sc.add, Sc.const]]
      exact ih fun t' ht' => hl t' (by simp [ht'])
  exact this _ fun t ht => h t (List.mem_filter.1 ht).1

theorem mrPhase_dry (c : ECfg d C F B) (X : EuSt d C F B) (h : Dry c X) (ph : Phase) (x : C) :
    mrPhase ph c.tracers X x = 0 := by
  unfold mrPhase
  apply List.sum_eq_zero
  intro y hy
  obtain ⟨t, ht, rfl⟩ := List.mem_map.1 hy
  rw [h t (List.mem_filter.1 ht).1]; rfl

/-- C100, dry limit: where all tracers vanish the moist equations are the dry ones. -/
theorem C100_dry_limit (c : ECfg d C F B) (hcp : c.P.cp ≠ 0) (p : ET d C F B → Bool) (Xref X v : EuSt d C F B)
    (res dry : List (ET d C F B)) (h : euler c p Xref = .ok res) (hdry : euler { c with tracers := [] } p Xref = .ok dry)
    (hX : Dry c X) : spatialE res X v = spatialE dry X v := by
  obtain ⟨ut, op, sp, hut, ho, hs, _⟩ := builtE c p Xref res h
  rw [euler_spatial c p Xref X v res h op ho, euler_spatial _ p Xref X v dry hdry op ho]
  have h1 : thetaV c.tracers X = thetaV [] X := by
    unfold thetaV mrOne
    rw [mrTotal_dry c X hX]; rfl
  have h2 : moistE c X v = 0 := by
    unfold moistE
    split_ifs
    · rfl
    · refine Finset.sum_eq_zero fun x _ => ?_
      unfold moistAt
      rw [mrPhase_dry c X hX, mrPhase_dry c X hX, moistFactor_dry c.P hcp]; ring
  rw [h1, h2]
  rfl

/-- With the default constants, vapour is felt. -/
example : moistFactor defaults (1 / 100) 0 ≠ 0 := by
  norm_num [moistFactor, Rm, cvml, cpml, defaults]

/-! ### Linearisation -/

theorem toSt_axpy (X h : EuSt d C F B) (e : ℝ) : toSt (X.axpy e h) = SWProps.axpy (toSt X) e (toSt h) := by
  simp [toSt, EuSt.axpy, SWProps.axpy, St.add, St.smul, Sc.add, Sc.smul, Sc.const]

/-- `form` has the derivative `L` at `X` in every direction. -/
def DerivAt (form : EuSt d C F B → EuSt d C F B → ℝ) (X : EuSt d C F B) (L : EuSt d C F B → EuSt d C F B → ℝ) : Prop :=
  ∀ h v, HasDerivAt (fun e : ℝ => form (X.axpy e h) v) (L h v) 0

/-- A quadratic expansion gives the derivative. -/
theorem quadratic (f : ℝ → ℝ) (a b q : ℝ) (h : ∀ e, f e = a + e * b + e ^ 2 * q) : HasDerivAt f b 0 := by
  have h1 : HasDerivAt (fun e : ℝ => a + e * b + e ^ 2 * q) (0 + 1 * b + (2 : ℕ) * (0 : ℝ) ^ (2 - 1) * 1 * q) 0 := by
    have i := hasDerivAt_id (0 : ℝ)
    exact ((hasDerivAt_const (0 : ℝ) a).add (i.mul_const b)).add ((i.pow 2).mul_const q)
  have h2 : f = fun e : ℝ => a + e * b + e ^ 2 * q := funext h
  rw [h2]
  simpa using h1

theorem lin_path (a b : ℝ) : HasDerivAt (fun e : ℝ => a + e * b) b 0 :=
  quadratic _ a b 0 fun e => by ring

theorem mrTotal_axpy (ts : List MTracer) (X h : EuSt d C F B) (e : ℝ) :
    mrTotal ts (X.axpy e h) = Sc.add (mrTotal ts X) (Sc.smul e (mrTotal ts h)) := by
  unfold mrTotal
  have : ∀ (l : List MTracer) (a b : Sc ℝ d C F B),
      l.foldl (fun a t => Sc.add a ((X.axpy e h).tr t.name)) (Sc.add a (Sc.smul e b)) =
        Sc.add (l.foldl (fun a t => Sc.add a (X.tr t.name)) a) (Sc.smul e (l.foldl (fun a t => Sc.add a (h.tr t.name)) b)) := by
    intro l
    induction l with
    | nil => intro a b; rfl
    | cons t ts ih =>
      intro a b
      simp only [List.foldl_cons]
      rw [← ih]
      congr 1
      simp only [EuSt.axpy, Sc.add, Sc.smul, Sc.mk.injEq]
      refine ⟨?_, ?_, ?_, ?_, ?_, ?_, ?_⟩ <;> (first | (funext x i; ring) | (funext x; ring))
  rw [← this]
  congr 1
  simp [Sc.add, Sc.smul, Sc.const]

theorem mrOne_axpy (ts : List MTracer) (X h : EuSt d C F B) (e : ℝ) :
    mrOne ts (X.axpy e h) = Sc.add (mrOne ts X) (Sc.smul e (mrTotal ts h)) := by
  unfold mrOne
  rw [mrTotal_axpy]
  simp only [Sc.add, Sc.smul, Sc.const, Sc.mk.injEq]
  refine ⟨?_, ?_, ?_, ?_, ?_, ?_, ?_⟩ <;> (first | (funext x i; ring) | (funext x; ring))

theorem mrPhase_axpy (ph : Phase) (ts : List MTracer) (X h : EuSt d C F B) (e : ℝ) (x : C) :
    mrPhase ph ts (X.axpy e h) x = mrPhase ph ts X x + e * mrPhase ph ts h x := by
  unfold mrPhase
  generalize ts.filter _ = l
  induction l with
  | nil => simp
  | cons t ts ih =>
    simp only [List.map_cons, List.sum_cons, ih]
    simp only [EuSt.axpy, Sc.add, Sc.smul]; ring

/-- The derivative of a quotient along a line. -/
theorem quot_path (a a' m s : ℝ) (hm : 0 < m) :
    HasDerivAt (fun e : ℝ => (a + e * a') / (m + e * s)) (a' / m - a / m * (s / m)) 0 := by
  have := (lin_path a a').div (lin_path m s) (by simpa using hm.ne')
  refine HasDerivAt.congr_deriv this ?_
  have := hm.ne'
  simp only [zero_mul, add_zero]
  field_simp

/-- The derivative of the gradient of a quotient along a line. -/
theorem quot_grad_path (a a' m s ag ag' mg sg : ℝ) (hm : 0 < m) :
    HasDerivAt (fun e : ℝ => ((ag + e * ag') * (m + e * s) - (a + e * a') * (mg + e * sg)) / (m + e * s) ^ 2)
      ((ag' * m - a' * mg) / m ^ 2 - ((ag * m - a * mg) / m ^ 2 * (s / m) + a / m * ((sg * m - s * mg) / m ^ 2))) 0 := by
  have := (((lin_path ag ag').mul (lin_path m s)).sub ((lin_path a a').mul (lin_path mg sg))).div
    ((lin_path m s).pow 2) (by simpa using hm.ne')
  refine HasDerivAt.congr_deriv this ?_
  have := hm.ne'
  simp only [zero_mul, add_zero, Pi.mul_apply, Pi.sub_apply, Pi.pow_apply]
  field_simp
  ring

/-- The derivative of the Exner pressure along a line. -/
theorem exner_path {P : Parameters} (hP : ThermoProps.Good P) (r t r' t' : ℝ) (hr : 0 < r) (ht : 0 < t) :
    HasDerivAt (fun e : ℝ => exnerPressure P (r + e * r') (t + e * t'))
      (dexnerDrho P r t * r' + dexnerDtheta P r t * t') 0 := by
  have hb := base_pos hP hr ht
  unfold exnerPressure dexnerDrho dexnerDtheta
  have h : HasDerivAt (fun e : ℝ => (r + e * r') * P.Rd * (t + e * t') / P.p0)
      ((r' * P.Rd * t + r * P.Rd * t') / P.p0) 0 := by
    have := ((((lin_path r r').mul_const P.Rd).mul (lin_path t t'))).div_const P.p0
    simpa using this
  have h' := h.rpow_const (p := P.kappa / (1 - P.kappa)) (Or.inl (by simpa using hb.ne'))
  convert h' using 1
  simp only [zero_mul, add_zero]
  rw [Real.rpow_sub_one hb.ne']
  have h1 := hP.p0.ne'
  have h2 := hP.Rd.ne'
  field_simp

theorem dot_path {n : ℕ} (f : ℝ → Fin n → ℝ) (f' : Fin n → ℝ) (w : Fin n → ℝ)
    (h : ∀ i, HasDerivAt (fun e => f e i) (f' i) 0) : HasDerivAt (fun e => dot (f e) w) (dot f' w) 0 := by
  unfold dot
  exact HasDerivAt.fun_sum fun i _ => (h i).mul_const (w i)

/-- The derivative of the pressure gradient form along a path. -/
theorem pgf_path (M : Mesh ℝ d C F B) (vert : F → Bool) (cp : ℝ) (w : Ve ℝ d C F B) (a b : ℝ → Sc ℝ d C F B)
    (a' b' : Sc ℝ d C F B)
    (hac : ∀ x, HasDerivAt (fun e => (a e).c x) (a'.c x) 0) (hag : ∀ x i, HasDerivAt (fun e => (a e).g x i) (a'.g x i) 0)
    (hap : ∀ x, HasDerivAt (fun e => (a e).p x) (a'.p x) 0) (ham : ∀ x, HasDerivAt (fun e => (a e).m x) (a'.m x) 0)
    (hbc : ∀ x, HasDerivAt (fun e => (b e).c x) (b'.c x) 0)
    (hbp : ∀ x, HasDerivAt (fun e => (b e).p x) (b'.p x) 0) (hbm : ∀ x, HasDerivAt (fun e => (b e).m x) (b'.m x) 0) :
    HasDerivAt (fun e => pgf M vert cp w (a e) (b e)) (pgf M vert cp w a' (b 0) + pgf M vert cp w (a 0) b') 0 := by
  unfold pgf
  have h1 : HasDerivAt (fun e => ∑ x, M.wC x * ((dot ((a e).g x) (w.c x) + (a e).c x * w.div x) * (b e).c x))
      (∑ x, M.wC x * ((dot (a'.g x) (w.c x) + a'.c x * w.div x) * (b 0).c x +
        (dot ((a 0).g x) (w.c x) + (a 0).c x * w.div x) * b'.c x)) 0 :=
    HasDerivAt.fun_sum fun x _ => ((((dot_path _ _ _ (hag x)).add ((hac x).mul_const _)).mul (hbc x)).const_mul _)
  have h2 : HasDerivAt (fun e => ∑ x, if vert x then M.wF x * (((a e).p x * dot (w.p x) (M.nP x) +
        (a e).m x * dot (w.m x) (M.nM x)) * (1 / 2 * ((b e).p x + (b e).m x))) else 0)
      (∑ x, if vert x then M.wF x * ((a'.p x * dot (w.p x) (M.nP x) + a'.m x * dot (w.m x) (M.nM x)) *
        (1 / 2 * ((b 0).p x + (b 0).m x)) + ((a 0).p x * dot (w.p x) (M.nP x) + (a 0).m x * dot (w.m x) (M.nM x)) *
        (1 / 2 * (b'.p x + b'.m x))) else 0) 0 := by
    refine HasDerivAt.fun_sum fun x _ => ?_
    cases vert x with
    | false => simpa using hasDerivAt_const (0 : ℝ) (0 : ℝ)
    | true =>
      simp only [if_true]
      exact (((((hap x).mul_const _).add ((ham x).mul_const _)).mul (((hbp x).add (hbm x)).const_mul _)).const_mul _)
  refine HasDerivAt.congr_deriv ((h1.const_mul (-cp)).add (h2.const_mul cp)) ?_
  have e1 : (∑ x, M.wC x * ((dot (a'.g x) (w.c x) + a'.c x * w.div x) * (b 0).c x +
        (dot ((a 0).g x) (w.c x) + (a 0).c x * w.div x) * b'.c x)) =
      (∑ x, M.wC x * ((dot (a'.g x) (w.c x) + a'.c x * w.div x) * (b 0).c x)) +
      ∑ x, M.wC x * ((dot ((a 0).g x) (w.c x) + (a 0).c x * w.div x) * b'.c x) := by
    rw [← Finset.sum_add_distrib]; exact Finset.sum_congr rfl fun x _ => by ring
  have e2 : (∑ x, if vert x then M.wF x * ((a'.p x * dot (w.p x) (M.nP x) + a'.m x * dot (w.m x) (M.nM x)) *
        (1 / 2 * ((b 0).p x + (b 0).m x)) + ((a 0).p x * dot (w.p x) (M.nP x) + (a 0).m x * dot (w.m x) (M.nM x)) *
        (1 / 2 * (b'.p x + b'.m x))) else 0) =
      (∑ x, if vert x then M.wF x * ((a'.p x * dot (w.p x) (M.nP x) + a'.m x * dot (w.m x) (M.nM x)) *
        (1 / 2 * ((b 0).p x + (b 0).m x))) else 0) +
      ∑ x, if vert x then M.wF x * (((a 0).p x * dot (w.p x) (M.nP x) + (a 0).m x * dot (w.m x) (M.nM x)) *
        (1 / 2 * (b'.p x + b'.m x))) else 0 := by
    rw [← Finset.sum_add_distrib]
    refine Finset.sum_congr rfl fun x _ => ?_
    split_ifs <;> ring
  rw [e1, e2]; ring

theorem axpy_zero_th (X h : EuSt d C F B) (ts : List MTracer) : thetaV ts (X.axpy 0 h) = thetaV ts X := by
  unfold thetaV
  rw [mrOne_axpy]
  simp only [EuSt.axpy, Sc.add, Sc.smul, zero_mul, add_zero]
theorem axpy_zero_ex (X h : EuSt d C F B) (P : Parameters) : exnerF P (X.axpy 0 h) = exnerF P X := by
  unfold exnerF
  simp only [EuSt.axpy, Sc.add, Sc.smul, zero_mul, add_zero]

theorem pg_deriv (c : ECfg d C F B) (hP : ThermoProps.Good c.P) (X : EuSt d C F B) (hX : Positive c X) :
    DerivAt (pg c).form X ((pg c).dform X) := by
  intro h v
  simp only [pg]
  have := pgf_path c.base.M c.vert c.P.cp v.u (fun e => thetaV c.tracers (X.axpy e h)) (fun e => exnerF c.P (X.axpy e h))
    (dThetaV c.tracers X h) (dExner c.P X h) ?_ ?_ ?_ ?_ ?_ ?_ ?_
  · beta_reduce at this
    rwa [axpy_zero_th, axpy_zero_ex] at this
  · intro x
    simp only [thetaV, mrOne_axpy]
    exact quot_path _ _ _ _ (hX.mc x)
  · intro x i
    simp only [thetaV, mrOne_axpy]
    exact quot_grad_path _ _ _ _ _ _ _ _ (hX.mc x)
  · intro x
    simp only [thetaV, mrOne_axpy]
    exact quot_path _ _ _ _ (hX.mp x)
  · intro x
    simp only [thetaV, mrOne_axpy]
    exact quot_path _ _ _ _ (hX.mm x)
  · exact fun x => exner_path hP _ _ _ _ (hX.rc x) (hX.tc x)
  · exact fun x => exner_path hP _ _ _ _ (hX.rp x) (hX.tp x)
  · exact fun x => exner_path hP _ _ _ _ (hX.rm x) (hX.tm x)

theorem moistFactor_path (P : Parameters) (hcp : P.cp ≠ 0) (rv rl sv sl : ℝ) (hc : 0 < cvml P rv rl) :
    HasDerivAt (fun e : ℝ => moistFactor P (rv + e * sv) (rl + e * sl)) (dMoistFactor P rv rl sv sl) 0 := by
  have h1 : HasDerivAt (fun e : ℝ => Rm P (rv + e * sv)) (sv * P.Rv) 0 :=
    quadratic _ (Rm P rv) _ 0 fun e => by unfold Rm; ring
  have h2 : HasDerivAt (fun e : ℝ => cvml P (rv + e * sv) (rl + e * sl)) (sv * P.cvv + sl * P.cpl) 0 :=
    quadratic _ (cvml P rv rl) _ 0 fun e => by unfold cvml; ring
  have h3 : HasDerivAt (fun e : ℝ => cpml P (rv + e * sv) (rl + e * sl)) (sv * P.cpv + sl * P.cpl) 0 :=
    quadratic _ (cpml P rv rl) _ 0 fun e => by unfold cpml; ring
  have hc' : cvml P (rv + 0 * sv) (rl + 0 * sl) ≠ 0 := by simpa using hc.ne'
  have hc'' : P.cp * cvml P (rv + 0 * sv) (rl + 0 * sl) ≠ 0 := mul_ne_zero hcp hc'
  have := (h1.div h2 hc').sub ((h3.const_mul P.Rd).div (h2.const_mul P.cp) hc'')
  refine HasDerivAt.congr_deriv this ?_
  unfold dMoistFactor
  simp only [zero_mul, add_zero]

theorem moist_deriv (c : ECfg d C F B) (hcp : c.P.cp ≠ 0) (X : EuSt d C F B) (hX : Positive c X) :
    DerivAt (moist c).form X ((moist c).dform X) := by
  intro h v
  simp only [moist, moistForm, cells]
  have : ∀ x, HasDerivAt (fun e : ℝ => c.base.M.wC x * (v.th.c x * (X.axpy e h).th.c x * (X.axpy e h).u.div x *
      moistAt c (X.axpy e h) x)) (c.base.M.wC x * ((v.th.c x * h.th.c x * X.u.div x + v.th.c x * X.th.c x * h.u.div x) *
        moistAt c X x + v.th.c x * X.th.c x * X.u.div x * dMoistAt c X h x)) 0 := fun x => by
    have e1 : ∀ e, (X.axpy e h).u.div x = X.u.div x + e * h.u.div x := fun e => div_axpy _ _ _ _
    have hm : HasDerivAt (fun e : ℝ => moistAt c (X.axpy e h) x) (dMoistAt c X h x) 0 := by
      unfold moistAt
      simp only [mrPhase_axpy]
      exact moistFactor_path c.P hcp _ _ _ _ (hX.cv x)
    have hm0 : moistAt c (X.axpy 0 h) x = moistAt c X x := by
      unfold moistAt; simp only [mrPhase_axpy, zero_mul, add_zero]
    simp only [e1]
    have := ((((lin_path (X.th.c x) (h.th.c x)).const_mul (v.th.c x)).mul (lin_path (X.u.div x) (h.u.div x))).mul hm).const_mul
      (c.base.M.wC x)
    refine HasDerivAt.congr_deriv this ?_
    simp only [zero_mul, add_zero, hm0, Pi.mul_apply]
  refine HasDerivAt.congr_deriv (HasDerivAt.fun_sum fun x _ => this x) ?_
  rw [← Finset.sum_add_distrib, ← Finset.sum_add_distrib]
  exact Finset.sum_congr rfl fun x _ => by ring

theorem lift_deriv (c : ECfg d C F B) (hR : GoodC c.base.R) (Xref : EuSt d C F B) (ut : List (T ℝ d C F B))
    (hu : Bou.uTransport c.base (fun _ => true) (toSt Xref) = .ok ut) :
    ∀ t ∈ ut, DerivAt (lift t).form Xref (effE Xref (lift t)) := by
  intro t ht h v
  have := terms_deriv { c.base with Omega := none } hR (toSt Xref) ut none hu rfl t
    (by simp [BouProps.terms, ht]) (toSt h) (toSt v)
  obtain ⟨Q, hQ⟩ := this
  refine quadratic _ ((lift t).form Xref v) _ Q fun e => ?_
  have := hQ e
  rw [← toSt_axpy] at this
  refine this.trans ?_
  congr 2
  unfold effE eff lift
  cases t.lin <;> rfl

theorem termsE_deriv (c : ECfg d C F B) (hR : GoodC c.base.R) (hP : ThermoProps.Good c.P) (hcp : c.P.cp ≠ 0)
    (Xref : EuSt d C F B) (hX : Positive c Xref) (ut : List (T ℝ d C F B))
    (op : Option ((Fin d → ℝ) → Fin d → ℝ)) (sp : List (ET d C F B))
    (hu : Bou.uTransport c.base (fun _ => true) (toSt Xref) = .ok ut)
    (ho : corOp c.base = .ok op) (hs : spongeTerms c = .ok sp) :
    ∀ t ∈ termsE c (fun _ => true) Xref ut op sp, DerivAt t.form Xref (effE Xref t) := by
  intro t ht
  unfold termsE at ht
  simp only [List.mem_append] at ht
  rcases ht with ((((ht | ht) | ht) | ht) | ht) | ht
  · simp only [List.mem_cons, List.not_mem_nil, or_false] at ht
    rcases ht with ht | ht | ht <;> subst ht
    · exact fun h v => quadratic _ ((Euler.massU c.base.M).form Xref v) _ 0 fun e => by
        simp only [effE, Euler.massU, EuSt.axpy]
        simp only [Bool.false_eq_true, if_false]
        rw [cells_axpy c.base.M _ (fun x => dot (Xref.u.c x) (v.u.c x)) (fun x => dot (h.u.c x) (v.u.c x)) e
          fun x => by simp only [vc, dot_axpy_left]]
        ring
    · exact fun h v => quadratic _ ((massRho c.base.M).form Xref v) _ 0 fun e => by
        simp only [effE, massRho, EuSt.axpy]
        simp only [Bool.false_eq_true, if_false]
        rw [cells_axpy c.base.M _ (fun x => Xref.rho.c x * v.rho.c x) (fun x => h.rho.c x * v.rho.c x) e
          fun x => by simp only [scc]; ring]
        ring
    · exact fun h v => quadratic _ ((massTh c.base.M).form Xref v) _ 0 fun e => by
        simp only [effE, massTh, EuSt.axpy]
        simp only [Bool.false_eq_true, if_false]
        rw [cells_axpy c.base.M _ (fun x => Xref.th.c x * v.th.c x) (fun x => h.th.c x * v.th.c x) e
          fun x => by simp only [scc]; ring]
        ring
  · obtain ⟨t', ht', rfl⟩ := List.mem_map.1 ht
    exact lift_deriv c hR Xref ut hu t' ht'
  · simp only [List.mem_cons, List.not_mem_nil, or_false] at ht
    rcases ht with ht | ht | ht | ht <;> subst ht
    · exact fun h v => quadratic _ (contCells c.base.M v.rho Xref.rho Xref.u) _ (contCells c.base.M v.rho h.rho h.u) fun e => by
        simp only [rhoAdv, attachE, if_true, effE, EuSt.axpy]
        rw [cont_q, cont_u, cont_u]; ring
    · exact fun h v => quadratic _ (advCells c.base.M v.th Xref.th Xref.u) _ (advCells c.base.M v.th h.th h.u) fun e => by
        simp only [thAdv, attachE, if_true, effE, EuSt.axpy]
        rw [adv_q, adv_u, adv_u]; ring
    · exact pg_deriv c hP Xref hX
    · exact fun h v => by
        simp only [effE, Euler.grav]
        simpa using hasDerivAt_const (0 : ℝ) (gravForm c v.u)
  · unfold moistTerms at ht
    split_ifs at ht
    · simp at ht
    · simp only [List.mem_singleton] at ht; subst ht
      exact moist_deriv c hcp Xref hX
  · cases op with
    | none => simp [Euler.corTerms] at ht
    | some f =>
      simp only [Euler.corTerms, List.mem_singleton] at ht; subst ht
      exact fun h v => quadratic _ (bcor c.base f Xref.u v.u) _ 0 fun e => by
        simp only [effE, EuSt.axpy]
        simp only [Bool.false_eq_true, if_false]; rw [bcor_u c.base f (corOp_good c.base f ho).1]; ring
  · unfold spongeTerms at hs
    cases hc : c.sponge with
    | none => rw [hc] at hs; cases hs; simp at ht
    | some s =>
      rw [hc] at hs
      simp only at hs
      split_ifs at hs
      cases hs
      simp only [List.mem_singleton] at ht; subst ht
      exact fun h v => quadratic _ (spongeForm c.base.M c.base.k s.mu v.u Xref.u) _ 0 fun e => by
        simp only [effE, EuSt.axpy]
        simp only [Bool.false_eq_true, if_false]
        unfold spongeForm
        rw [cells_axpy c.base.M _ (fun x => s.mu x * dot (v.u.c x) (c.base.k x) * dot (Xref.u.c x) (c.base.k x))
          (fun x => s.mu x * dot (v.u.c x) (c.base.k x) * dot (h.u.c x) (c.base.k x)) e
          fun x => by simp only [vc, dot_axpy_left]; ring]
        ring

/-- C100, linearisation: with the default linearisation map, at a reference state at which the thermodynamics makes sense,
the linearised residual is the derivative of the residual, for every option, direction and test function. -/
theorem C100_linear_is_derivative (c : ECfg d C F B) (hR : GoodC c.base.R) (hP : ThermoProps.Good c.P) (hcp : c.P.cp ≠ 0)
    (Xref : EuSt d C F B) (hX : Positive c Xref) (res : List (ET d C F B)) (h : euler c (fun _ => true) Xref = .ok res)
    (X' v : EuSt d C F B) :
    HasDerivAt (fun e : ℝ => value res (Xref.axpy e X') v) (value (lineariseSet res) X' v) 0 := by
  obtain ⟨ut, op, sp, hu, ho, hs, rfl⟩ := builtE c _ Xref res h
  rw [value_linearE]
  simp only [gen_valueE]
  have hd := termsE_deriv c hR hP hcp Xref hX ut op sp hu ho hs
  revert hd
  generalize termsE c (fun _ => true) Xref ut op sp = l
  intro hd
  induction l with
  | nil => simpa using hasDerivAt_const (0 : ℝ) (0 : ℝ)
  | cons t ts ih =>
    simp only [List.map_cons, List.sum_cons]
    exact (hd t (by simp) X' v).add (ih fun t' ht' => hd t' (by simp [ht']))

/-! ### The sponge -/

/-- C100, sponge profile: it is between zero and `mubar`, zero up to the sponge level, positive above it and `mubar` at the
top. -/
theorem C100_sponge_profile (H zc mubar z : ℝ) (hz : zc < H) (hm : 0 < mubar) :
    0 ≤ muExpr H zc mubar z ∧ muExpr H zc mubar z ≤ mubar ∧ (z ≤ zc → muExpr H zc mubar z = 0) ∧
      (zc < z → z ≤ H → 0 < muExpr H zc mubar z) ∧ muExpr H zc mubar H = mubar := by
  have hH : 0 < H - zc := by linarith
  refine ⟨?_, ?_, fun h => by unfold muExpr; rw [if_pos h], fun h1 h2 => ?_, ?_⟩
  · unfold muExpr; split_ifs
    · exact le_refl _
    · positivity
  · unfold muExpr; split_ifs
    · exact hm.le
    · have := Real.sin_sq_le_one (Real.pi / 2 * (z - zc) / (H - zc))
      nlinarith
  · unfold muExpr
    rw [if_neg (not_le.2 h1)]
    have h3 : 0 < Real.sin (Real.pi / 2 * (z - zc) / (H - zc)) := by
      apply Real.sin_pos_of_pos_of_lt_pi
      · have := Real.pi_pos
        have : 0 < z - zc := by linarith
        positivity
      · rw [div_lt_iff₀ hH]
        have := Real.pi_pos
        nlinarith
    positivity
  · unfold muExpr
    rw [if_neg (not_le.2 hz), mul_div_assoc, div_self hH.ne', mul_one, Real.sin_pi_div_two]
    ring

/-- C100, sponge: where the interpolated coefficient is not negative the sponge takes energy out of the vertical velocity.
Its force depends on the vertical velocity only. -/
theorem C100_sponge_dissipates (c : ECfg d C F B) (s : Sponge d C) (hs : c.sponge = some s) (X v : EuSt d C F B)
    (hv : v.u = X.u) (hw : ∀ x, 0 ≤ c.base.M.wC x) (hmu : ∀ x, 0 ≤ s.mu x) : 0 ≤ spongeE c X v := by
  unfold spongeE
  rw [hs]
  refine Finset.sum_nonneg fun x _ => ?_
  rw [hv]
  have := mul_self_nonneg (dot (X.u.c x) (c.base.k x))
  have h1 := hw x
  have h2 := hmu x
  rw [mul_assoc]
  positivity

/-- The quadratic Lagrange basis on three nodes. -/
noncomputable def lagrange3 (z0 z1 z2 z : ℝ) : Fin 3 → ℝ :=
  ![(z - z1) * (z - z2) / ((z0 - z1) * (z0 - z2)), (z - z0) * (z - z2) / ((z1 - z0) * (z1 - z2)),
    (z - z0) * (z - z1) / ((z2 - z0) * (z2 - z1))]

/-- C100, refuted: the interpolation in DG2 makes the coefficient negative, so that the sponge feeds energy to the flow: in
every cell of a column whose lower two nodes are below the sponge level and whose upper node is above it, between the two
lower nodes. -/
theorem C100_sponge_negative_refuted (H zc mubar z0 z1 z2 z : ℝ) (hm : 0 < mubar) (h0 : z0 < z)
    (h1 : z < z1) (h2 : z1 ≤ zc) (h3 : zc < z2) (h4 : z2 ≤ H) :
    (⟨H, zc, mubar, 3, fun _ i _ => ![z0, z1, z2] i, fun _ => lagrange3 z0 z1 z2 z⟩ : Sponge (d + 1) Unit).mu () < 0 := by
  have hz : zc < H := by linarith
  have hp := (C100_sponge_profile H zc mubar z2 hz hm).2.2.2.1 h3 h4
  have e0 := (C100_sponge_profile H zc mubar z0 hz hm).2.2.1 (by linarith)
  have e1 := (C100_sponge_profile H zc mubar z1 hz hm).2.2.1 h2
  unfold Sponge.mu
  simp only [Fin.sum_univ_three, lastCoord, lagrange3]
  simp only [Matrix.cons_val_zero, Matrix.cons_val_one, Matrix.cons_val, e0, e1, mul_zero, zero_add]
  have : (z - z0) * (z - z1) / ((z2 - z0) * (z2 - z1)) < 0 := by
    apply div_neg_of_neg_of_pos
    · nlinarith
    · have : 0 < z2 - z0 := by linarith
      have : 0 < z2 - z1 := by linarith
      positivity
  nlinarith

/-- C100, refuted: the height in the sponge profile is the last Cartesian coordinate, so on a sphere with a sponge level
that is not negative there is no sponge in the southern hemisphere, at any height. -/
theorem C100_sponge_sphere_refuted (s : Sponge 3 C) (hz : 0 ≤ s.zc) (x : C) (hs : ∀ i, s.nodes x i 2 ≤ 0) : s.mu x = 0 := by
  unfold Sponge.mu
  refine Finset.sum_eq_zero fun i _ => ?_
  have : lastCoord (s.nodes x i) = s.nodes x i 2 := rfl
  rw [this]
  unfold muExpr
  rw [if_pos ((hs i).trans hz), mul_zero]

/-- A node at the top of the atmosphere at the south pole. -/
example : (⟨12, 8, 1, 1, fun _ _ => ![0, 0, -12], fun _ _ => 1⟩ : Sponge 3 Unit).mu () = 0 ∧
    muExpr 12 8 1 12 = 1 :=
  ⟨C100_sponge_sphere_refuted _ (by norm_num) () fun i => by simp, (C100_sponge_profile 12 8 1 12 (by norm_num) one_pos).2.2.2.2⟩

/-! ### A moist atmosphere at rest -/

/-- Two cells of size one on top of each other, periodic in the horizontal: the facet `0` is horizontal, the facets `1` and
`2` are vertical. -/
noncomputable def colM : Mesh ℝ 2 (Fin 2) (Fin 3) (Fin 2) where
  wC _ := 1
  wF _ := 1
  wB _ := 1
  nP x := ![![0, 1], ![1, 0], ![1, 0]] x
  nM x := ![![0, -1], ![-1, 0], ![-1, 0]] x
  nB x := ![![0, -1], ![0, 1]] x
/-- The heights of the points. -/
noncomputable def zC : Fin 2 → ℝ := ![1 / 2, 3 / 2]
noncomputable def zF : Fin 3 → ℝ := ![1, 1 / 2, 3 / 2]
noncomputable def zB : Fin 2 → ℝ := ![0, 2]
/-- The equations with the default constants, water vapour and a sponge. -/
noncomputable def colCfg (uopt : UOpt) : ECfg 2 (Fin 2) (Fin 3) (Fin 2) where
  base := { M := colM, R := circ2, k := fun _ => ![0, 1], cs := 0, Omega := none, compressible := true, uopt := uopt
            tracersGiven := true }
  vert x := decide (x ≠ 0)
  P := defaults
  g := 10
  tracers := [⟨"water_vapour", true, true, .gas⟩]
  sponge := some ⟨2, 1, 1, 1, fun x _ => ![0, zC x], fun _ _ => 1⟩
/-- The Exner pressure of the atmosphere, `d Pi / d z = -g / (c_p theta_v)`. -/
noncomputable def colPi (z : ℝ) : ℝ := 1 - 10 / (1004.5 * 300) * z
/-- An atmosphere with one per cent of vapour and the virtual potential temperature 300. -/
noncomputable def colSt : EuSt 2 (Fin 2) (Fin 3) (Fin 2) where
  u := Ve.zero
  rho := { c := fun x => density defaults 303 (colPi (zC x))
           g := fun x => ![0, -(10 / (1004.5 * 300)) / dexnerDrho defaults (density defaults 303 (colPi (zC x))) 303]
           p := fun x => density defaults 303 (colPi (zF x))
           m := fun x => density defaults 303 (colPi (zF x))
           b := fun x => density defaults 303 (colPi (zB x))
           gp := fun _ _ => 0
           gm := fun _ _ => 0 }
  th := Sc.const 303
  tr _ := Sc.const (1 / 100)
/-- A velocity that is largest in the middle and vanishes at the top and at the bottom. -/
noncomputable def hat : Ve ℝ 2 (Fin 2) (Fin 3) (Fin 2) where
  c _ := ![0, 1 / 2]
  j x := ![![0, 0], ![0, ![1, -1] x]]
  p x := ![![0, 1], ![0, 1 / 2], ![0, 1 / 2]] x
  m x := ![![0, 1], ![0, 1 / 2], ![0, 1 / 2]] x
  b _ := ![0, 0]

theorem col_density (z : ℝ) (h0 : 0 ≤ z) (h2 : z ≤ 2) :
    0 < density defaults 303 (colPi z) ∧ exnerPressure defaults (density defaults 303 (colPi z)) 303 = colPi z := by
  have hp : 0 < colPi z := by unfold colPi; norm_num; linarith
  refine ⟨?_, C40_exner_of_density defaults_good 303 _ (by norm_num) hp⟩
  have h1 : 0 < colPi z ^ ((1 - defaults.kappa) / defaults.kappa) := Real.rpow_pos_of_pos hp _
  unfold density
  norm_num [defaults] at h1 ⊢
  positivity

theorem zC_mem (x : Fin 2) : 0 ≤ zC x ∧ zC x ≤ 2 := by fin_cases x <;> norm_num [zC]
theorem zF_mem (x : Fin 3) : 0 ≤ zF x ∧ zF x ≤ 2 := by fin_cases x <;> norm_num [zF]
theorem zB_mem (x : Fin 2) : 0 ≤ zB x ∧ zB x ≤ 2 := by fin_cases x <;> norm_num [zB]

theorem col_mr : mrOne (colCfg .circulation).tracers colSt = Sc.const (101 / 100) := by
  simp [mrOne, mrTotal, colCfg, colSt, Sc.add, Sc.const]; norm_num
theorem col_thetaV : thetaV (colCfg .circulation).tracers colSt = Sc.const 300 := by
  unfold thetaV
  rw [col_mr]
  simp [quot, colSt, Sc.const]; norm_num
theorem col_exner : (∀ x, (exnerF defaults colSt).c x = colPi (zC x)) ∧
    (∀ x, (exnerF defaults colSt).g x = ![0, -(10 / (1004.5 * 300))]) ∧
    (∀ x, (exnerF defaults colSt).p x = colPi (zF x)) ∧ (∀ x, (exnerF defaults colSt).m x = colPi (zF x)) ∧
    ∀ x, (exnerF defaults colSt).b x = colPi (zB x) := by
  refine ⟨fun x => (col_density _ (zC_mem x).1 (zC_mem x).2).2, fun x => ?_, fun x => (col_density _ (zF_mem x).1 (zF_mem x).2).2,
    fun x => (col_density _ (zF_mem x).1 (zF_mem x).2).2, fun x => (col_density _ (zB_mem x).1 (zB_mem x).2).2⟩
  obtain ⟨hd, he⟩ := col_density _ (zC_mem x).1 (zC_mem x).2
  have hne : dexnerDrho defaults (density defaults 303 (colPi (zC x))) 303 ≠ 0 := by
    have h1 : dexnerDrho defaults (density defaults 303 (colPi (zC x))) 303 = defaults.kappa / (1 - defaults.kappa) *
        exnerPressure defaults (density defaults 303 (colPi (zC x))) 303 / density defaults 303 (colPi (zC x)) := rfl
    rw [h1, he]
    have hp : 0 < colPi (zC x) := by unfold colPi; have := zC_mem x; norm_num; linarith
    have hk : 0 < defaults.kappa / (1 - defaults.kappa) := by norm_num [defaults]
    positivity
  funext i
  simp only [exnerF, colSt, Sc.const]
  fin_cases i
  · simp
  · simp only [Fin.mk_one, Matrix.cons_val_one, mul_zero, add_zero]
    simp only [Matrix.cons_val_fin_one]
    field_simp

theorem col_positive : Positive (colCfg .circulation) colSt where
  rc x := (col_density _ (zC_mem x).1 (zC_mem x).2).1
  rp x := (col_density _ (zF_mem x).1 (zF_mem x).2).1
  rm x := (col_density _ (zF_mem x).1 (zF_mem x).2).1
  tc x := by simp [colSt, Sc.const]
  tp x := by simp [colSt, Sc.const]
  tm x := by simp [colSt, Sc.const]
  mc x := by rw [col_mr]; norm_num [Sc.const]
  mp x := by rw [col_mr]; norm_num [Sc.const]
  mm x := by rw [col_mr]; norm_num [Sc.const]
  cv x := by
    simp [cvml, mrPhase, colCfg, colSt, Sc.const]
    norm_num [defaults]

/-- The hypotheses of the theorems hold for a moist atmosphere at rest, with a test velocity that feels both the pressure
gradient and gravity. -/
example : ∃ res, euler (colCfg .circulation) (fun _ => true) colSt = .ok res ∧ Flow (colCfg .circulation).base.M hat ∧
    spatialE res colSt ⟨hat, Sc.const 1, Sc.const 1, fun _ => Sc.const 0⟩ = 0 ∧
    gravForm (colCfg .circulation) hat = 10 ∧ Positive (colCfg .circulation) colSt := by
  obtain ⟨res, hres⟩ := (C100_accepts (colCfg .circulation) (fun _ => true) colSt).2
    ⟨by simp [colCfg], Or.inl rfl, fun s hs => by simp [colCfg] at hs; subst hs; norm_num⟩
  have hF : Flow (colCfg .circulation).base.M hat := by
    refine ⟨fun x => ?_, fun x => ?_⟩
    · fin_cases x <;> simp [colCfg, colM, hat, dot, Fin.sum_univ_two]
    · fin_cases x <;> simp [colCfg, colM, hat, dot, Fin.sum_univ_two]
  obtain ⟨e1, e2, e3, e4, e5⟩ := col_exner
  have hP : (colCfg .circulation).P = defaults := rfl
  refine ⟨res, hres, hF, ?_, by norm_num [gravForm, cells, colCfg, colM, hat, dot, Fin.sum_univ_two], col_positive⟩
  refine C100_hydrostatic_rest (colCfg .circulation) C97_slice_good _ colSt colSt _ res hres rfl ?_ hF ?_ ?_ ?_
  · intro x i
    rw [col_thetaV, hP, e2]
    fin_cases i <;> simp [colCfg, Sc.const, defaults] <;> norm_num
  · intro x
    rw [hP, e3, e4]
  · intro x _
    rw [col_thetaV]; rfl
  · unfold DivThm
    rw [col_thetaV, hP]
    simp only [e1, e2, e3, e4, e5]
    simp [Fin.sum_univ_two, Fin.sum_univ_three, colCfg, colM, hat, dot, DG.Ve.div, Sc.const, colPi, zC, zF, zB]
    norm_num

end Gusto.Props.EulerProps
