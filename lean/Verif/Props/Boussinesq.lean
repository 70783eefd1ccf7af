import Verif.Model.Boussinesq
import Verif.Props.ShallowWater

set_option autoImplicit false
set_option linter.unusedSectionVars false
set_option linter.unusedSimpArgs false

/-!
# C97: the Boussinesq equations
-/

namespace Gusto.Props.BouProps
open Gusto.DG Gusto.EqSet Gusto.SW Gusto.Bou
open Gusto.Props.DGProps Gusto.Props.SWProps

variable {K : Type*} [Field K] [LinearOrder K] [IsStrictOrderedRing K] {d : ℕ} {C F B : Type*}
variable [Fintype C] [Fintype F] [Fintype B]

/-! ### Specification -/

/-- The circulation is bilinear. -/
structure GoodC (R : Circ K d C F B) : Prop where
  lin : ∀ (q : Ve K d C F B) x (a b : Fin d → K) (e : K),
    R.at' q x (fun i => a i + e * b i) = fun i => R.at' q x a i + e * R.at' q x b i
  qlin : ∀ (a b : Ve K d C F B) (e : K) x v,
    R.at' (Ve.add a (Ve.smul e b)) x v = fun i => R.at' a x v i + e * R.at' b x v i

/-- The velocity transport form of the option. -/
def uFormB (c : BCfg K d C F B) (X v : St K d C F B) : K :=
  match c.uopt with
  | .vectorInvariant | .circulation => bcirc c v.u X.u X.u + kinE c.M v.u X.u X.u
  | .vectorAdvection => advVec c.M v.u X.u X.u
  | .invalid => 0
/-- The Coriolis force. -/
def corF (c : BCfg K d C F B) (op : Option ((Fin d → K) → Fin d → K)) (X v : St K d C F B) : K :=
  match op with
  | none => 0
  | some f => ∑ x, c.M.wC x * dot (v.u.c x) (f (X.u.c x))

/-! ### Both geometries are good -/

theorem C97_space_good : GoodC (circ3 : Circ K 3 C F B) where
  lin q x a b e := by
    funext i; fin_cases i <;> simp [circ3, DG.cross] <;> ring
  qlin a b e x v := by
    funext i; fin_cases i <;> simp [circ3, DG.cross, curlJ, SW.Ve.add, SW.Ve.smul] <;> ring
theorem C97_slice_good : GoodC (circ2 : Circ K 2 C F B) where
  lin q x a b e := by
    funext i; fin_cases i <;> simp [circ2, DG.perp] <;> ring
  qlin a b e x v := by
    funext i; fin_cases i <;> simp [circ2, DG.perp, SW.Ve.add, SW.Ve.smul] <;> ring

theorem corOp_good (c : BCfg K d C F B) (f : (Fin d → K) → Fin d → K) (h : corOp c = .ok (some f)) :
    (∀ (a b : Fin d → K) (e : K), f (fun i => a i + e * b i) = fun i => f a i + e * f b i) ∧ ∀ a, dot a (f a) = 0 := by
  unfold corOp at h
  cases hO : c.Omega with
  | none => rw [hO] at h; cases h
  | some Om =>
    rw [hO] at h
    simp only at h
    match d, c, f, h with
    | 0, _, _, h => simp [crossOmega] at h
    | 1, _, _, h => simp [crossOmega] at h
    | 2, _, _, h => simp [crossOmega] at h
    | 3, _, f, h =>
      simp only [crossOmega] at h
      cases h
      refine ⟨fun a b e => ?_, fun a => ?_⟩
      · funext i; fin_cases i <;> simp [DG.cross] <;> ring
      · simp [DG.cross, dot, Fin.sum_univ_three]; ring
    | n + 4, _, _, h => simp [crossOmega] at h

/-! ### Linearity -/

section Lin
variable (c : BCfg K d C F B) (hR : GoodC c.R)
include hR
theorem bcirc_q (w q q' u : Ve K d C F B) (e : K) :
    bcirc c w (Ve.add q (Ve.smul e q')) u = bcirc c w q u + e * bcirc c w q' u :=
  cells_axpy c.M _ _ _ e fun x => by rw [hR.qlin, dot_axpy_right]
theorem bcirc_u (w q u u' : Ve K d C F B) (e : K) :
    bcirc c w q (Ve.add u (Ve.smul e u')) = bcirc c w q u + e * bcirc c w q u' :=
  cells_axpy c.M _ _ _ e fun x => by rw [vc, hR.lin, dot_axpy_right]
theorem bcirc_zero_q (w u : Ve K d C F B) : bcirc c w Ve.zero u = 0 := by
  have := bcirc_q c hR w Ve.zero Ve.zero u 1
  rw [zero_axpy] at this; linear_combination -this
theorem bcirc_zero_u (w q : Ve K d C F B) : bcirc c w q Ve.zero = 0 := by
  have := bcirc_u c hR w q Ve.zero Ve.zero 1
  rw [zero_axpy] at this; linear_combination -this
end Lin

section Lin2
variable (c : BCfg K d C F B)
theorem bpg_p (w : Ve K d C F B) (p p' : Sc K d C F B) (e : K) :
    bpg c.M w (Sc.add p (Sc.smul e p')) = bpg c.M w p + e * bpg c.M w p' := by
  unfold bpg
  rw [cells_axpy c.M _ (fun x => w.div x * p.c x) (fun x => w.div x * p'.c x) e fun x => by simp only [scc]; ring]
  ring
theorem grav_b (w : Ve K d C F B) (b b' : Sc K d C F B) (e : K) :
    grav c w (Sc.add b (Sc.smul e b')) = grav c w b + e * grav c w b' := by
  unfold grav
  rw [cells_axpy c.M _ (fun x => b.c x * dot (w.c x) (c.k x)) (fun x => b'.c x * dot (w.c x) (c.k x)) e
    fun x => by simp only [scc]; ring]
  ring
theorem divForm_u (φ : Sc K d C F B) (u u' : Ve K d C F B) (e : K) :
    divForm c φ (Ve.add u (Ve.smul e u')) = divForm c φ u + e * divForm c φ u' := by
  unfold divForm
  rw [cells_axpy c.M _ (fun x => φ.c x * u.div x) (fun x => φ.c x * u'.div x) e fun x => by rw [div_axpy]; ring]
  ring
theorem incForm_pu (φ p p' : Sc K d C F B) (u u' : Ve K d C F B) (e : K) :
    incForm c φ (Sc.add p (Sc.smul e p')) (Ve.add u (Ve.smul e u')) = incForm c φ p u + e * incForm c φ p' u' := by
  unfold incForm
  rw [cells_axpy c.M _ (fun x => φ.c x * (p.c x - u.div x)) (fun x => φ.c x * (p'.c x - u'.div x)) e
    fun x => by rw [div_axpy, scc]; ring]
theorem bcor_u (f : (Fin d → K) → Fin d → K)
    (hf : ∀ (a b : Fin d → K) (e : K), f (fun i => a i + e * b i) = fun i => f a i + e * f b i)
    (u u' w : Ve K d C F B) (e : K) :
    bcor c f (Ve.add u (Ve.smul e u')) w = bcor c f u w + e * bcor c f u' w :=
  cells_axpy c.M _ _ _ e fun x => by rw [vc, hf, dot_axpy_right]
end Lin2

/-! ### What is built -/

/-- The terms of the residual. -/
def terms (c : BCfg K d C F B) (p : T K d C F B → Bool) (Xref : St K d C F B) (ut : List (T K d C F B))
    (op : Option ((Fin d → K) → Fin d → K)) : List (T K d C F B) :=
  [massU c.M, massP c.M, massB c.M] ++ ut ++ (if c.compressible then [pAdv c p Xref] else []) ++
        [bAdv c p Xref, divT c, pgT c, gravT c] ++ corTerms c op

theorem built (c : BCfg K d C F B) (p : T K d C F B → Bool) (Xref : St K d C F B) (res : List (T K d C F B))
    (h : boussinesq c p Xref = .ok res) : ∃ ut op, Bou.uTransport c p Xref = .ok ut ∧ corOp c = .ok op ∧
      res = generateLinear Xref p (terms c p Xref ut op) := by
  unfold boussinesq at h
  split_ifs at h
  unfold Bou.setupResidual at h
  cases hu : Bou.uTransport c p Xref with
  | error e => rw [hu] at h; cases h
  | ok ut =>
    cases ho : corOp c with
    | error e => rw [hu, ho] at h; cases h
    | ok op =>
      rw [hu, ho] at h
      exact ⟨ut, op, rfl, rfl, by cases h; rfl⟩

theorem builtLin (c : BCfg K d C F B) (p : T K d C F B → Bool) (Xref : St K d C F B) (lin : List (T K d C F B))
    (h : linearBoussinesq c p Xref = .ok lin) : ∃ ut op, Bou.uTransport c p Xref = .ok ut ∧ corOp c = .ok op ∧
      lin = lineariseSet (generateLinear Xref p (terms c p Xref ut op)) := by
  unfold linearBoussinesq at h
  cases hb : boussinesq c p Xref with
  | error e => rw [hb] at h; cases h
  | ok res =>
    obtain ⟨ut, op, h1, h2, h3⟩ := built c p Xref res hb
    rw [hb] at h
    cases h
    exact ⟨ut, op, h1, h2, by rw [h3]⟩

theorem utr_notTD (c : BCfg K d C F B) (p : T K d C F B → Bool) (Xref : St K d C F B) (ut : List (T K d C F B))
    (h : Bou.uTransport c p Xref = .ok ut) : ∀ t ∈ ut, notTD t = true := by
  intro t ht
  unfold Bou.uTransport at h
  have hl : t.labels = ["transport", "u"] ∨ t.labels = ["u"] := by
    cases ho : c.uopt <;> rw [ho] at h <;> cases h
    · simp only [List.mem_singleton] at ht; subst ht; exact Or.inl (attach_labels _ _ _)
    · simp only [List.mem_cons, List.not_mem_nil, or_false] at ht
      rcases ht with ht | ht <;> subst ht
      · exact Or.inl (attach_labels _ _ _)
      · exact Or.inr rfl
    · simp only [List.mem_singleton] at ht; subst ht; exact Or.inl rfl
  unfold notTD
  rcases hl with hl | hl <;> rw [hl] <;> decide

theorem terms_spatial (c : BCfg K d C F B) (p : T K d C F B → Bool) (Xref : St K d C F B) (ut : List (T K d C F B))
    (op : Option ((Fin d → K) → Fin d → K)) (h : Bou.uTransport c p Xref = .ok ut) :
    (terms c p Xref ut op).filter notTD = ut ++ (if c.compressible then [pAdv c p Xref] else []) ++
        [bAdv c p Xref, divT c, pgT c, gravT c] ++ corTerms c op := by
  have h1 : ut.filter notTD = ut := List.filter_eq_self.2 (utr_notTD c p Xref ut h)
  have h2 : notTD (pAdv c p Xref) = true := by
    unfold notTD pAdv; rw [attach_labels]; rfl
  have h3 : notTD (bAdv c p Xref) = true := by
    unfold notTD bAdv; rw [attach_labels]; rfl
  have h4 : notTD (divT c) = true := by
    unfold notTD divT; split_ifs <;> rfl
  have h5 : notTD (pgT c) = true := rfl
  have h6 : notTD (gravT c) = true := rfl
  have h7 : ∀ f, notTD (corT c f) = true := fun _ => rfl
  have h8 : notTD (massU c.M) = false ∧ notTD (massP c.M) = false ∧ notTD (massB c.M) = false := ⟨rfl, rfl, rfl⟩
  unfold terms
  simp only [List.filter_append, h1, List.filter_cons, h3, h4, h5, h6, h8.1, h8.2.1, h8.2.2, if_true, List.filter_nil,
    Bool.false_eq_true, if_false, List.nil_append]
  congr 1
  · congr 1
    congr 1
    split_ifs
    · simp [h2]
    · rfl
  · cases op with
    | none => rfl
    | some f => simp [corTerms, h7]

/-- The value of the residual without time derivatives. -/
theorem bou_spatial (c : BCfg K d C F B) (p : T K d C F B → Bool) (Xref X v : St K d C F B) (res : List (T K d C F B))
    (h : boussinesq c p Xref = .ok res) (op : Option ((Fin d → K) → Fin d → K)) (ho : corOp c = .ok op) :
    spatial res X v = uFormB c X v + (if c.compressible then advCells c.M v.D X.D X.u else 0)
      + advCells c.M v.b X.b X.u + (if c.compressible then divForm c v.D X.u else incForm c v.D X.D X.u)
      + bpg c.M v.u X.D + grav c v.u X.b + corF c op X v := by
  obtain ⟨ut, op', hu, ho', rfl⟩ := built c p Xref res h
  rw [ho] at ho'; cases ho'
  rw [spatial_gen, terms_spatial c p Xref ut op hu]
  have e1 : (ut.map fun t => t.form X v).sum = uFormB c X v := by
    unfold Bou.uTransport at hu
    unfold uFormB
    cases hc : c.uopt <;> rw [hc] at hu <;> cases hu <;> simp [attach_form]
  have e2 : ((if c.compressible then [pAdv c p Xref] else []).map fun t => t.form X v).sum =
      if c.compressible then advCells c.M v.D X.D X.u else 0 := by
    split_ifs <;> simp [pAdv, attach_form]
  have e3 : (bAdv c p Xref).form X v = advCells c.M v.b X.b X.u := by unfold bAdv; rw [attach_form]
  have e4 : (divT c).form X v = if c.compressible then divForm c v.D X.u else incForm c v.D X.D X.u := by
    unfold divT; split_ifs <;> rfl
  have e5 : ((corTerms c op).map fun t => t.form X v).sum
      = corF c op X v := by
    cases op with
    | none => rfl
    | some f => simp [corTerms, corT, corF, bcor, cells]
  simp only [List.map_append, List.sum_append, e1, e2, e5, List.map_cons, List.map_nil, List.sum_cons, List.sum_nil, e3, e4]
  simp only [pgT, gravT]
  ring

/-- The value of the linear equations without time derivatives, at any reference state. -/
theorem lin_value (c : BCfg K d C F B) (Xref X v : St K d C F B) (lin : List (T K d C F B))
    (h : linearBoussinesq c (fun _ => true) Xref = .ok lin) (op : Option ((Fin d → K) → Fin d → K))
    (ho : corOp c = .ok op) : ∃ ut, Bou.uTransport c (fun _ => true) Xref = .ok ut ∧
    spatial lin X v = (ut.map fun t => eff Xref t X v).sum
      + (if c.compressible then advCells c.M v.D X.D Xref.u + advCells c.M v.D Xref.D X.u else 0)
      + (advCells c.M v.b X.b Xref.u + advCells c.M v.b Xref.b X.u)
      + (if c.compressible then divForm c v.D X.u else incForm c v.D X.D X.u)
      + bpg c.M v.u X.D + grav c v.u X.b + corF c op X v := by
  obtain ⟨ut, op', hu, ho', rfl⟩ := builtLin c _ Xref lin h
  rw [ho] at ho'; cases ho'
  refine ⟨ut, hu, ?_⟩
  rw [spatial_lin, terms_spatial c _ Xref ut op hu]
  have e2 : ((if c.compressible then [pAdv c (fun _ => true) Xref] else []).map fun t => eff Xref t X v).sum =
      if c.compressible then advCells c.M v.D X.D Xref.u + advCells c.M v.D Xref.D X.u else 0 := by
    split_ifs <;> simp [pAdv, attach, eff]
  have e3 : eff Xref (bAdv c (fun _ => true) Xref) X v = advCells c.M v.b X.b Xref.u + advCells c.M v.b Xref.b X.u := by
    simp [bAdv, attach, eff]
  have e4 : eff Xref (divT c) X v = if c.compressible then divForm c v.D X.u else incForm c v.D X.D X.u := by
    unfold divT; split_ifs <;> rfl
  have e5 : ((corTerms c op).map fun t => eff Xref t X v).sum
      = corF c op X v := by
    cases op with
    | none => rfl
    | some f => simp [corTerms, corT, corF, bcor, cells, eff]
  have e6 : eff Xref (pgT c) X v = bpg c.M v.u X.D := rfl
  have e7 : eff Xref (gravT c) X v = grav c v.u X.b := rfl
  simp only [List.map_append, List.sum_append, e2, e5, List.map_cons, List.map_nil, List.sum_cons, List.sum_nil, e3, e4,
    e6, e7]
  ring

/-- About a state of rest. -/
theorem lin_rest (c : BCfg K d C F B) (hR : GoodC c.R) (Xref X v : St K d C F B) (hu : Xref.u = Ve.zero)
    (lin : List (T K d C F B)) (h : linearBoussinesq c (fun _ => true) Xref = .ok lin)
    (op : Option ((Fin d → K) → Fin d → K)) (ho : corOp c = .ok op) :
    spatial lin X v = (if c.compressible then advCells c.M v.D Xref.D X.u else 0)
      + advCells c.M v.b Xref.b X.u + (if c.compressible then divForm c v.D X.u else incForm c v.D X.D X.u)
      + bpg c.M v.u X.D + grav c v.u X.b + corF c op X v := by
  obtain ⟨ut, hut, e⟩ := lin_value c Xref X v lin h op ho
  rw [e]
  have e0 : (ut.map fun t => eff Xref t X v).sum = 0 := by
    have hd : (cells c.M fun x => v.u.div x * dot (X.u.c x) ((Ve.zero : Ve K d C F B).c x)) = 0 := by
      unfold cells
      exact Finset.sum_eq_zero fun x _ => by simp [Ve.zero, dot]
    unfold Bou.uTransport at hut
    cases hc : c.uopt <;> rw [hc] at hut <;> cases hut
    · simp [attach, eff, hu, bcirc_zero_q c hR, bcirc_zero_u c hR, hd]
    · have : kinE c.M v.u X.u (Ve.zero : Ve K d C F B) = 0 := by rw [kinE_comm, kin_zero]
      simp [attach, eff, hu, bcirc_zero_q c hR, bcirc_zero_u c hR, kin_zero, this]
    · simp [eff, hu, adv_zero_q, adv_zero_u]
  rw [e0, hu]
  simp only [advs_zero]
  split_ifs <;> ring

/-! ### The theorems -/

/-- C97, options: the equations are built exactly for a supported velocity option, without a list of tracers (not even the
empty one), and with rotation only in three dimensions. -/
theorem C97_accepts (c : BCfg K d C F B) (p : T K d C F B → Bool) (Xref : St K d C F B) :
    (∃ res, boussinesq c p Xref = .ok res) ↔
      c.uopt ≠ .invalid ∧ c.tracersGiven = false ∧ (c.Omega = none ∨ d = 3) := by
  have hcr : (crossOmega (K := K) d).isSome ↔ d = 3 := by
    match d with
    | 0 => simp [crossOmega]
    | 1 => simp [crossOmega]
    | 2 => simp [crossOmega]
    | 3 => simp [crossOmega]
    | n + 4 => simp [crossOmega]
  unfold boussinesq Bou.setupResidual Bou.uTransport corOp
  rw [← hcr]
  cases c.tracersGiven <;> cases c.Omega <;> cases c.uopt <;> cases crossOmega (K := K) d <;> simp [Except.map]

/-- C97, Coriolis: the Coriolis term does no work, in the nonlinear and in the linear equations. -/
theorem C97_coriolis_no_work (c : BCfg K d C F B) (op : Option ((Fin d → K) → Fin d → K)) (ho : corOp c = .ok op)
    (X v : St K d C F B) (hv : v.u = X.u) : corF c op X v = 0 := by
  unfold corF
  cases op with
  | none => rfl
  | some f => exact Finset.sum_eq_zero fun x _ => by rw [hv, (corOp_good c f ho).2]; ring

/-- C97, Coriolis: in three dimensions the force is `2 Omega (-v, u, 0)`. -/
theorem C97_coriolis_values (c : BCfg K 3 C F B) (Om : K) (h : c.Omega = some Om) :
    ∃ f, corOp c = .ok (some f) ∧ ∀ a, f a = ![-2 * Om * a 1, 2 * Om * a 0, 0] := by
  refine ⟨_, by unfold corOp; rw [h]; rfl, fun a => ?_⟩
  funext i; fin_cases i <;> simp [DG.cross]

/-- C97, momentum and tendencies: for continuous pressure, tested with a velocity, a scalar and a buoyancy, the residual
of the compressible equations is transport plus `2 Omega x u + grad p - b k`, `u . grad p + cs^2 div u` and
`u . grad b`. -/
theorem C97_compressible_form (c : BCfg K d C F B) (p : T K d C F B → Bool) (Xref X v : St K d C F B)
    (res : List (T K d C F B)) (h : boussinesq c p Xref = .ok res) (hc : c.compressible = true)
    (f : (Fin d → K) → Fin d → K) (ho : corOp c = .ok (some f))
    (hw : Flow c.M v.u) (hp : Continuous X.D) (hd : DivThm c.M (Sc.const 1) X.D v.u) :
    spatial res X v = uFormB c X v
      + (∑ x, c.M.wC x * dot (v.u.c x) (fun i => f (X.u.c x) i + X.D.g x i - X.b.c x * c.k x i))
      + (∑ x, c.M.wC x * (v.D.c x * (dot (X.u.c x) (X.D.g x) + c.cs ^ 2 * X.u.div x)))
      + ∑ x, c.M.wC x * (v.b.c x * dot (X.u.c x) (X.b.g x)) := by
  rw [bou_spatial c p Xref X v res h _ ho, if_pos hc, if_pos hc]
  have h1 : bpg c.M v.u X.D = ∑ x, c.M.wC x * dot (v.u.c x) (X.D.g x) := by
    have := press_parts c.M 1 v.u X.D hw hp hd
    unfold pressGrad cells at this
    unfold bpg cells
    rw [show -∑ x, c.M.wC x * (v.u.div x * X.D.c x) = -1 * ∑ x, c.M.wC x * (v.u.div x * X.D.c x) by ring, this]
    simp only [one_mul, mul_one]
  rw [h1]
  unfold advCells grav divForm corF cells
  rw [Finset.mul_sum, ← Finset.sum_neg_distrib, add_assoc, add_assoc, add_assoc, add_assoc, add_assoc, add_assoc]
  simp only [add_assoc, ← Finset.sum_add_distrib]
  congr 1
  refine Finset.sum_congr rfl fun x _ => ?_
  have e : dot (v.u.c x) (fun i => f (X.u.c x) i + X.D.g x i - X.b.c x * c.k x i) =
      dot (v.u.c x) (f (X.u.c x)) + dot (v.u.c x) (X.D.g x) - X.b.c x * dot (v.u.c x) (c.k x) := by
    unfold dot
    rw [Finset.mul_sum, ← Finset.sum_add_distrib, ← Finset.sum_sub_distrib]
    exact Finset.sum_congr rfl fun i _ => by ring
  rw [e, dot_comm (X.u.c x) (X.D.g x), dot_comm (X.u.c x) (X.b.g x)]
  ring

/-! ### Linearisation -/

theorem terms_deriv (c : BCfg K d C F B) (hR : GoodC c.R) (Xref : St K d C F B) (ut : List (T K d C F B))
    (op : Option ((Fin d → K) → Fin d → K)) (hu : Bou.uTransport c (fun _ => true) Xref = .ok ut)
    (ho : corOp c = .ok op) : ∀ t ∈ terms c (fun _ => true) Xref ut op, IsDeriv t.form Xref (eff Xref t) := by
  intro t ht
  unfold terms at ht
  simp only [List.mem_append] at ht
  rcases ht with (((ht | ht) | ht) | ht) | ht
  · simp only [List.mem_cons, List.not_mem_nil, or_false] at ht
    rcases ht with ht | ht | ht <;> subst ht
    · exact fun h v => ⟨0, fun e => by
        simp only [eff, massU, axpy, St.add, St.smul]
        simp only [Bool.false_eq_true, if_false]
        rw [cells_axpy c.M _ (fun x => dot (Xref.u.c x) (v.u.c x)) (fun x => dot (h.u.c x) (v.u.c x)) e
          fun x => by simp only [vc, dot_axpy_left]]
        ring⟩
    · exact fun h v => ⟨0, fun e => by
        simp only [eff, massP, axpy, St.add, St.smul]
        simp only [Bool.false_eq_true, if_false]
        rw [cells_axpy c.M _ (fun x => Xref.D.c x * v.D.c x) (fun x => h.D.c x * v.D.c x) e
          fun x => by simp only [scc]; ring]
        ring⟩
    · exact fun h v => ⟨0, fun e => by
        simp only [eff, massB, axpy, St.add, St.smul]
        simp only [Bool.false_eq_true, if_false]
        rw [cells_axpy c.M _ (fun x => Xref.b.c x * v.b.c x) (fun x => h.b.c x * v.b.c x) e
          fun x => by simp only [scc]; ring]
        ring⟩
  · unfold Bou.uTransport at hu
    cases hc : c.uopt <;> rw [hc] at hu <;> cases hu
    · simp only [List.mem_singleton] at ht; subst ht
      exact fun h v => ⟨bcirc c v.u h.u h.u + kinE c.M v.u h.u h.u, fun e => by
        have hk : kinE c.M v.u h.u Xref.u + kinE c.M v.u Xref.u h.u =
            -cells c.M fun x => v.u.div x * dot (h.u.c x) (Xref.u.c x) := by
          unfold kinE kineticCells cells
          rw [← neg_add, ← Finset.sum_add_distrib]
          congr 1
          exact Finset.sum_congr rfl fun x _ => by rw [dot_comm (Xref.u.c x) (h.u.c x)]; ring
        simp only [attach, if_true, eff, axpy, St.add, St.smul]
        rw [bcirc_q c hR, bcirc_u c hR, bcirc_u c hR, kinE_q, kinE_comm c.M v.u Xref.u (Ve.add _ _),
          kinE_comm c.M v.u h.u (Ve.add _ _), kinE_q, kinE_q]
        rw [kinE_comm c.M v.u Xref.u h.u] at hk ⊢
        linear_combination e * hk⟩
    · simp only [List.mem_cons, List.not_mem_nil, or_false] at ht
      rcases ht with ht | ht <;> subst ht
      · exact fun h v => ⟨bcirc c v.u h.u h.u, fun e => by
          simp only [attach, if_true, eff, axpy, St.add, St.smul]
          rw [bcirc_q c hR, bcirc_u c hR, bcirc_u c hR]; ring⟩
      · exact fun h v => ⟨kinE c.M v.u h.u h.u, fun e => by
          simp only [eff, axpy, St.add, St.smul]
          simp only [Bool.false_eq_true, if_false]
          rw [kinE_q, kinE_comm c.M v.u Xref.u (Ve.add _ _), kinE_comm c.M v.u h.u (Ve.add _ _), kinE_q, kinE_q,
            kinE_comm c.M v.u h.u Xref.u]
          ring⟩
    · simp only [List.mem_singleton] at ht; subst ht
      exact fun h v => ⟨advVec c.M v.u h.u h.u, fun e => by
        simp only [eff, axpy, St.add, St.smul]
        simp only [Bool.false_eq_true, if_false]
        rw [advVec_q, advVec_u, advVec_u]; ring⟩
  · split_ifs at ht
    · simp only [List.mem_singleton] at ht; subst ht
      exact fun h v => ⟨advCells c.M v.D h.D h.u, fun e => by
        simp only [pAdv, attach, if_true, eff, axpy, St.add, St.smul]
        rw [adv_q, adv_u, adv_u]; ring⟩
    · simp at ht
  · simp only [List.mem_cons, List.not_mem_nil, or_false] at ht
    rcases ht with ht | ht | ht | ht <;> subst ht
    · exact fun h v => ⟨advCells c.M v.b h.b h.u, fun e => by
        simp only [bAdv, attach, if_true, eff, axpy, St.add, St.smul]
        rw [adv_q, adv_u, adv_u]; ring⟩
    · unfold divT
      split_ifs
      · exact fun h v => ⟨0, fun e => by
          simp only [eff, axpy, St.add, St.smul]; rw [divForm_u]; ring⟩
      · exact fun h v => ⟨0, fun e => by
          simp only [eff, axpy, St.add, St.smul]; rw [incForm_pu]; ring⟩
    · exact fun h v => ⟨0, fun e => by
        simp only [pgT, eff, axpy, St.add, St.smul]
        simp only [Bool.false_eq_true, if_false]; rw [bpg_p]; ring⟩
    · exact fun h v => ⟨0, fun e => by
        simp only [gravT, eff, axpy, St.add, St.smul]
        simp only [Bool.false_eq_true, if_false]; rw [grav_b]; ring⟩
  · cases op with
    | none => simp [corTerms] at ht
    | some f =>
      simp only [corTerms, List.mem_singleton] at ht; subst ht
      exact fun h v => ⟨0, fun e => by
        simp only [corT, eff, axpy, St.add, St.smul]
        simp only [Bool.false_eq_true, if_false]; rw [bcor_u c f (corOp_good c f ho).1]; ring⟩

/-- C97, linearisation: with the default linearisation map the linear Boussinesq equations are the derivative of the
Boussinesq equations at the reference state, compressible or not, for every option, reference state and perturbation. -/
theorem C97_linear_is_derivative (c : BCfg K d C F B) (hR : GoodC c.R) (Xref : St K d C F B) (res lin : List (T K d C F B))
    (hres : boussinesq c (fun _ => true) Xref = .ok res) (hlin : linearBoussinesq c (fun _ => true) Xref = .ok lin) :
    IsDeriv (value res) Xref (value lin) := by
  have hl : lin = lineariseSet res := by
    unfold linearBoussinesq at hlin; rw [hres] at hlin; cases hlin; rfl
  obtain ⟨ut, op, hu, ho, rfl⟩ := built c _ Xref res hres
  intro h v
  obtain ⟨Q, hQ⟩ := isDeriv_list _ Xref (eff Xref) (terms_deriv c hR Xref ut op hu ho) h v
  refine ⟨Q, fun e => ?_⟩
  rw [hl, gen_value, gen_value, value_linear]
  exact hQ e

/-- C97, refuted: the divergence term gets a linearisation even if the linearisation map rejects every term. -/
theorem C97_map_ignored_refuted (c : BCfg K d C F B) (Xref : St K d C F B) (res : List (T K d C F B))
    (h : boussinesq c (fun _ => false) Xref = .ok res) : ∃ t ∈ res, t.lin.isSome = true := by
  obtain ⟨ut, op, hu, ho, rfl⟩ := built c _ Xref res h
  have hd : (divT c).lin.isSome = true := by unfold divT; split_ifs <;> rfl
  refine ⟨divT c, ?_, hd⟩
  unfold generateLinear
  refine List.mem_map.2 ⟨divT c, ?_, ?_⟩
  · simp [terms]
  · simp

/-! ### Balance -/

/-- C97, hydrostatic balance: fluid at rest with continuous pressure in hydrostatic balance, `grad p = b k`, is a steady
state of the compressible equations, for every option, rotation and velocity test function. -/
theorem C97_hydrostatic_rest (c : BCfg K d C F B) (hR : GoodC c.R) (p : T K d C F B → Bool) (Xref X v : St K d C F B)
    (res : List (T K d C F B)) (h : boussinesq c p Xref = .ok res) (hc : c.compressible = true)
    (hu : X.u = Ve.zero) (hb : ∀ x i, X.D.g x i = X.b.c x * c.k x i)
    (hw : Flow c.M v.u) (hp : Continuous X.D) (hd : DivThm c.M (Sc.const 1) X.D v.u) : spatial res X v = 0 := by
  obtain ⟨ut, op, hut, ho, _⟩ := built c p Xref res h
  rw [bou_spatial c p Xref X v res h op ho, if_pos hc, if_pos hc]
  have h1 : bpg c.M v.u X.D = ∑ x, c.M.wC x * dot (v.u.c x) (X.D.g x) := by
    have := press_parts c.M 1 v.u X.D hw hp hd
    unfold pressGrad cells at this
    unfold bpg cells
    rw [show -∑ x, c.M.wC x * (v.u.div x * X.D.c x) = -1 * ∑ x, c.M.wC x * (v.u.div x * X.D.c x) by ring, this]
    simp only [one_mul, mul_one]
  have h2 : uFormB c X v = 0 := by
    unfold uFormB
    rw [hu]
    cases c.uopt <;> simp [bcirc_zero_q c hR, kin_zero, adv_zero_q]
  have h3 : corF c op X v = 0 := by
    unfold corF
    cases op with
    | none => rfl
    | some f =>
      have : f (fun _ => 0) = fun _ => 0 := by
        have := (corOp_good c f ho).1 (fun _ => 0) (fun _ => 0) 1
        simp only [mul_zero, add_zero, one_mul] at this
        funext i
        have := congrFun this i
        linear_combination -this
      refine Finset.sum_eq_zero fun x _ => ?_
      rw [hu]
      simp only [SW.Ve.zero]
      rw [this]; simp [dot]
  have h4 : divForm c v.D X.u = 0 := by
    unfold divForm cells
    rw [hu]
    have : ∀ x, (Ve.zero : Ve K d C F B).div x = 0 := fun x => by simp [SW.Ve.zero, DG.Ve.div]
    simp [this]
  rw [h2, h3, h4, h1, hu, advs_zero, advs_zero]
  have h5 : (∑ x, c.M.wC x * dot (v.u.c x) (X.D.g x)) + grav c v.u X.b = 0 := by
    unfold grav cells
    rw [← sub_eq_add_neg, ← Finset.sum_sub_distrib]
    refine Finset.sum_eq_zero fun x _ => ?_
    have : dot (v.u.c x) (X.D.g x) = X.b.c x * dot (v.u.c x) (c.k x) := by
      unfold dot
      rw [Finset.mul_sum]
      exact Finset.sum_congr rfl fun i _ => by rw [hb]; ring
    rw [this]; ring
  linear_combination h5

/-! ### Incompressible equations -/

/-- The test function that sees only the pressure equation. -/
def onlyP (φ : Sc K d C F B) : St K d C F B := ⟨Ve.zero, φ, Sc.const 0, Sc.const 0⟩

theorem onlyP_spatial (c : BCfg K d C F B) (hR : GoodC c.R) (p : T K d C F B → Bool) (Xref X : St K d C F B)
    (φ : Sc K d C F B) (res : List (T K d C F B)) (h : boussinesq c p Xref = .ok res) (hc : c.compressible = false) :
    spatial res X (onlyP φ) = ∑ x, c.M.wC x * (φ.c x * (X.D.c x - X.u.div x)) := by
  obtain ⟨ut, op, hut, ho, _⟩ := built c p Xref res h
  rw [bou_spatial c p Xref X _ res h op ho]
  have hz : ∀ a : Fin d → K, dot (fun _ => (0 : K)) a = 0 := fun a => by simp [dot]
  have h2 : uFormB c X (onlyP φ) = 0 := by
    unfold uFormB onlyP bcirc kinE kineticCells advVec cells
    cases c.uopt <;> simp [SW.Ve.zero, hz, DG.Ve.div]
  have h3 : corF c op X (onlyP φ) = 0 := by
    unfold corF onlyP
    cases op <;> simp [SW.Ve.zero, hz]
  simp only [hc, Bool.false_eq_true, if_false, h2, h3]
  simp [onlyP, bpg, grav, advCells, incForm, cells, SW.Ve.zero, hz, DG.Ve.div, Sc.const]

theorem terms_td (c : BCfg K d C F B) (p : T K d C F B → Bool) (Xref : St K d C F B) (ut : List (T K d C F B))
    (op : Option ((Fin d → K) → Fin d → K)) (hut : Bou.uTransport c p Xref = .ok ut) :
    (terms c p Xref ut op).filter (fun t => decide ("time_derivative" ∈ t.labels)) =
      [massU c.M, massP c.M, massB c.M] := by
  have h1 : ∀ t : T K d C F B, notTD t = true → decide ("time_derivative" ∈ t.labels) = false := by
    intro t ht; unfold notTD at ht; simpa using ht
  have h2 := fun t (ht : t ∈ ut) => h1 t (utr_notTD c p Xref ut hut t ht)
  have h3 : ut.filter (fun t => decide ("time_derivative" ∈ t.labels)) = [] :=
    List.filter_eq_nil_iff.2 fun t ht => by simpa using h2 t ht
  have hp : "time_derivative" ∉ (pAdv c p Xref).labels := by unfold pAdv; rw [attach_labels]; simp
  have hb : "time_derivative" ∉ (bAdv c p Xref).labels := by unfold bAdv; rw [attach_labels]; simp
  have hd : "time_derivative" ∉ (divT c).labels := by unfold divT; split_ifs <;> simp
  unfold terms
  simp only [List.filter_append, h3]
  have e1 : (if c.compressible = true then [pAdv c p Xref] else []).filter
      (fun t => decide ("time_derivative" ∈ t.labels)) = [] := by split_ifs <;> simp [hp]
  have e2 : (corTerms c op).filter (fun t => decide ("time_derivative" ∈ t.labels)) = [] := by
    cases op <;> simp [corTerms, corT]
  rw [e1, e2]
  simp [List.filter_cons, hb, hd, massU, massP, massB, pgT, gravT]

theorem onlyP_temporal (c : BCfg K d C F B) (p : T K d C F B → Bool) (Xref X : St K d C F B)
    (φ : Sc K d C F B) (res : List (T K d C F B)) (h : boussinesq c p Xref = .ok res) :
    temporal res X (onlyP φ) = ∑ x, c.M.wC x * (X.D.c x * φ.c x) := by
  obtain ⟨ut, op, hut, ho, rfl⟩ := built c p Xref res h
  unfold temporal
  rw [gen_filter _ (fun _ _ => rfl), gen_value, terms_td c p Xref ut op hut]
  have hz : ∀ a : Fin d → K, dot a (fun _ => (0 : K)) = 0 := fun a => by simp [dot]
  simp [massU, massP, massB, onlyP, cells, SW.Ve.zero, hz, Sc.const]

/-- C97, refuted: the incompressible equations keep the time derivative of the pressure, so that no time discretisation
enforces the documented `div u = p`, nor `div u = 0`: whenever the implicit Euler method steps them from `X` to `Y`,
for every timestep, `div u = p + dp/dt`. -/
theorem C97_incompressible_refuted (c : BCfg K d C F B) (hR : GoodC c.R) (p : T K d C F B → Bool)
    (Xref X0 X Y : St K d C F B) (res : List (T K d C F B)) (h : boussinesq c p Xref = .ok res)
    (hc : c.compressible = false) (V : Set (St K d C F B)) (dt : K) (hdt : dt ≠ 0)
    (hstep : (Gusto.TimeDisc.thetaRes (labelled V X0 res) dt 1 Y X).eval = 0) (φ : Sc K d C F B) (hφ : onlyP φ ∈ V) :
    ∑ x, c.M.wC x * (φ.c x * Y.u.div x) =
      (∑ x, c.M.wC x * (φ.c x * Y.D.c x)) + ((∑ x, c.M.wC x * (φ.c x * Y.D.c x)) - ∑ x, c.M.wC x * (φ.c x * X.D.c x)) / dt := by
  rw [Gusto.Props.C07_theta] at hstep
  have hs := congrFun hstep ⟨onlyP φ, hφ⟩
  simp only [Pi.add_apply, Pi.sub_apply, Pi.smul_apply, smul_eq_mul, labelled_mass, labelled_rest, Pi.zero_apply] at hs
  rw [onlyP_spatial c hR p Xref Y φ res h hc, onlyP_temporal c p Xref Y φ res h, onlyP_temporal c p Xref X φ res h] at hs
  have e1 : ∀ Z : St K d C F B, ∑ x, c.M.wC x * (Z.D.c x * φ.c x) = ∑ x, c.M.wC x * (φ.c x * Z.D.c x) :=
    fun Z => Finset.sum_congr rfl fun x _ => by ring
  have e2 : ∑ x, c.M.wC x * (φ.c x * (Y.D.c x - Y.u.div x)) =
      (∑ x, c.M.wC x * (φ.c x * Y.D.c x)) - ∑ x, c.M.wC x * (φ.c x * Y.u.div x) := by
    rw [← Finset.sum_sub_distrib]; exact Finset.sum_congr rfl fun x _ => by ring
  rw [e1, e1, e2] at hs
  generalize (∑ x, c.M.wC x * (φ.c x * Y.D.c x)) = PY at hs ⊢
  generalize (∑ x, c.M.wC x * (φ.c x * X.D.c x)) = PX at hs ⊢
  generalize (∑ x, c.M.wC x * (φ.c x * Y.u.div x)) = DY at hs ⊢
  field_simp
  linear_combination -hs

/-- C97, refuted: fluid at rest in hydrostatic balance is not a steady state of the incompressible equations: the
residual of the pressure equation is the pressure itself, so that only states of zero pressure are steady. -/
theorem C97_incompressible_rest_refuted (c : BCfg K d C F B) (hR : GoodC c.R) (p : T K d C F B → Bool)
    (Xref X : St K d C F B) (res : List (T K d C F B)) (h : boussinesq c p Xref = .ok res) (hc : c.compressible = false)
    (hu : X.u = Ve.zero) (φ : Sc K d C F B) :
    spatial res X (onlyP φ) = ∑ x, c.M.wC x * (φ.c x * X.D.c x) := by
  rw [onlyP_spatial c hR p Xref X φ res h hc]
  refine Finset.sum_congr rfl fun x _ => ?_
  have : (Ve.zero : Ve K d C F B).div x = 0 := by simp [SW.Ve.zero, DG.Ve.div]
  rw [hu, this, sub_zero]

/-! ### Energy of the linear compressible equations -/

/-- The energy of linear compressible motion about a state of rest with buoyancy frequency squared `N2` and speed of sound
`cs`: kinetic, elastic and available potential energy. -/
def lenergy (M : Mesh K d C F B) (cs N2 : K) (X : St K d C F B) : K :=
  1 / 2 * ∑ x, M.wC x * (dot (X.u.c x) (X.u.c x) + X.D.c x ^ 2 / cs ^ 2 + X.b.c x ^ 2 / N2)

/-- Its derivative. -/
def dlenergy (cs N2 : K) (X : St K d C F B) : St K d C F B :=
  { X with D := Sc.smul (cs ^ 2)⁻¹ X.D, b := Sc.smul N2⁻¹ X.b }

/-- The reference state of rest: uniform pressure and buoyancy gradient `N2 k`. -/
structure Rest (c : BCfg K d C F B) (N2 : K) (Xref : St K d C F B) : Prop where
  u : Xref.u = Ve.zero
  p : ∀ x i, Xref.D.g x i = 0
  b : ∀ x i, Xref.b.g x i = N2 * c.k x i

/-- The linear compressible equations about a state of rest. -/
theorem lin_form (c : BCfg K d C F B) (hR : GoodC c.R) (Xref X v : St K d C F B) (N2 : K) (hr : Rest c N2 Xref)
    (lin : List (T K d C F B)) (h : linearBoussinesq c (fun _ => true) Xref = .ok lin) (hc : c.compressible = true)
    (op : Option ((Fin d → K) → Fin d → K)) (ho : corOp c = .ok op) :
    spatial lin X v = (∑ x, c.M.wC x * (v.b.c x * (N2 * dot (X.u.c x) (c.k x)) + c.cs ^ 2 * (v.D.c x * X.u.div x)
      - v.u.div x * X.D.c x - X.b.c x * dot (v.u.c x) (c.k x))) + corF c op X v := by
  rw [lin_rest c hR Xref X v hr.u lin h op ho, if_pos hc, if_pos hc]
  have h1 : advCells c.M v.D Xref.D X.u = 0 := by
    unfold advCells
    refine Finset.sum_eq_zero fun x _ => ?_
    have : dot (X.u.c x) (Xref.D.g x) = 0 := by unfold dot; exact Finset.sum_eq_zero fun i _ => by rw [hr.p]; ring
    rw [this]; ring
  have h2 : advCells c.M v.b Xref.b X.u = ∑ x, c.M.wC x * (v.b.c x * (N2 * dot (X.u.c x) (c.k x))) := by
    unfold advCells
    refine Finset.sum_congr rfl fun x _ => ?_
    have : dot (X.u.c x) (Xref.b.g x) = N2 * dot (X.u.c x) (c.k x) := by
      unfold dot; rw [Finset.mul_sum]; exact Finset.sum_congr rfl fun i _ => by rw [hr.b]; ring
    rw [this]
  rw [h1, h2]
  unfold divForm bpg grav cells
  rw [zero_add, Finset.mul_sum, ← Finset.sum_neg_distrib, ← Finset.sum_neg_distrib, ← Finset.sum_add_distrib,
    ← Finset.sum_add_distrib, ← Finset.sum_add_distrib]
  congr 1
  exact Finset.sum_congr rfl fun x _ => by ring

/-- C97, energy: the linear compressible equations about a stratified state of rest do no work, for every state, mesh,
rotation and velocity option. -/
theorem C97_energy (c : BCfg K d C F B) (hR : GoodC c.R) (Xref X : St K d C F B) (N2 : K) (hr : Rest c N2 Xref)
    (hN : N2 ≠ 0) (hcs : c.cs ≠ 0)
    (lin : List (T K d C F B)) (h : linearBoussinesq c (fun _ => true) Xref = .ok lin) (hc : c.compressible = true) :
    spatial lin X (dlenergy c.cs N2 X) = 0 := by
  obtain ⟨ut, op, _, ho, _⟩ := builtLin c _ Xref lin h
  rw [lin_form c hR Xref X _ N2 hr lin h hc op ho, C97_coriolis_no_work c op ho X (dlenergy c.cs N2 X) rfl, add_zero]
  refine Finset.sum_eq_zero fun x _ => ?_
  simp only [dlenergy, SW.Sc.smul]
  field_simp
  ring

theorem corF_u (c : BCfg K d C F B) (op : Option ((Fin d → K) → Fin d → K)) (ho : corOp c = .ok op) (X Y v : St K d C F B)
    (e : K) : corF c op (axpy X e Y) v = corF c op X v + e * corF c op Y v := by
  unfold corF
  cases op with
  | none => simp
  | some f =>
    have := bcor_u c f (corOp_good c f ho).1 X.u Y.u v.u e
    unfold bcor cells at this
    exact this

theorem blin_spatial_axpy (c : BCfg K d C F B) (hR : GoodC c.R) (Xref X Y v : St K d C F B) (N2 e : K)
    (hr : Rest c N2 Xref) (lin : List (T K d C F B)) (h : linearBoussinesq c (fun _ => true) Xref = .ok lin)
    (hc : c.compressible = true) :
    spatial lin (axpy X e Y) v = spatial lin X v + e * spatial lin Y v := by
  obtain ⟨ut, op, _, ho, _⟩ := builtLin c _ Xref lin h
  rw [lin_form c hR Xref _ _ N2 hr lin h hc op ho, lin_form c hR Xref _ _ N2 hr lin h hc op ho,
    lin_form c hR Xref _ _ N2 hr lin h hc op ho, corF_u c op ho]
  have : (∑ x, c.M.wC x * (v.b.c x * (N2 * dot ((axpy X e Y).u.c x) (c.k x)) + c.cs ^ 2 * (v.D.c x * (axpy X e Y).u.div x)
      - v.u.div x * (axpy X e Y).D.c x - (axpy X e Y).b.c x * dot (v.u.c x) (c.k x))) =
      (∑ x, c.M.wC x * (v.b.c x * (N2 * dot (X.u.c x) (c.k x)) + c.cs ^ 2 * (v.D.c x * X.u.div x)
        - v.u.div x * X.D.c x - X.b.c x * dot (v.u.c x) (c.k x))) +
      e * ∑ x, c.M.wC x * (v.b.c x * (N2 * dot (Y.u.c x) (c.k x)) + c.cs ^ 2 * (v.D.c x * Y.u.div x)
        - v.u.div x * Y.D.c x - Y.b.c x * dot (v.u.c x) (c.k x)) := by
    rw [Finset.mul_sum, ← Finset.sum_add_distrib]
    refine Finset.sum_congr rfl fun x _ => ?_
    simp only [axpy, St.add, St.smul]
    rw [vc, div_axpy, dot_axpy_left, scc, scc]
    ring
  rw [this]; ring

theorem blin_temporal (c : BCfg K d C F B) (Xref X v : St K d C F B) (lin : List (T K d C F B))
    (h : linearBoussinesq c (fun _ => true) Xref = .ok lin) :
    temporal lin X v = ∑ x, c.M.wC x * (dot (X.u.c x) (v.u.c x) + X.D.c x * v.D.c x + X.b.c x * v.b.c x) := by
  obtain ⟨ut, op, hut, ho, rfl⟩ := builtLin c _ Xref lin h
  unfold temporal
  rw [lin_filter _ (fun _ _ => rfl), gen_filter _ (fun _ _ => rfl), value_linear, terms_td c _ Xref ut op hut]
  simp only [List.map_cons, List.map_nil, List.sum_cons, List.sum_nil, add_zero]
  simp only [eff, massU, massP, massB, cells]
  simp only [Bool.false_eq_true, if_false]
  rw [← Finset.sum_add_distrib, ← Finset.sum_add_distrib]
  exact Finset.sum_congr rfl fun x _ => by ring

/-- A product of a velocity space, a pressure space and a buoyancy space: combinations of each component. -/
def ProductSpace3 (V : Set (St K d C F B)) : Prop :=
  ∀ X ∈ V, ∀ Y ∈ V, ∀ a a' b b' e e' : K,
    ({ X with u := Ve.add (Ve.smul a X.u) (Ve.smul a' Y.u), D := Sc.add (Sc.smul b X.D) (Sc.smul b' Y.D),
              b := Sc.add (Sc.smul e X.b) (Sc.smul e' Y.b) } : St K d C F B) ∈ V

/-- C97, energy of a step: if the theta method steps the linear compressible equations from `X` to `Y`, the energy
changes by `(1 - 2 theta)` times the energy of the increment, for every timestep, state and mesh. -/
theorem C97_theta_energy (c : BCfg K d C F B) (hR : GoodC c.R) (Xref X0 X Y : St K d C F B) (N2 dt th : K)
    (hr : Rest c N2 Xref) (hN : N2 ≠ 0) (hcs : c.cs ≠ 0) (lin : List (T K d C F B))
    (h : linearBoussinesq c (fun _ => true) Xref = .ok lin) (hc : c.compressible = true)
    (V : Set (St K d C F B)) (hV : ProductSpace3 V) (hX : X ∈ V) (hY : Y ∈ V)
    (hstep : (Gusto.TimeDisc.thetaRes (labelled V X0 lin) dt th Y X).eval = 0) :
    lenergy c.M c.cs N2 Y - lenergy c.M c.cs N2 X = (1 - 2 * th) * lenergy c.M c.cs N2 (axpy Y (-1) X) := by
  obtain ⟨ut, op, _, ho, _⟩ := builtLin c _ Xref lin h
  rw [Gusto.Props.C07_theta] at hstep
  let Z : St K d C F B := axpy (St.smul th Y) (1 - th) X
  let v : St K d C F B := { Y with u := Ve.add (Ve.smul th Y.u) (Ve.smul (1 - th) X.u),
                                   D := Sc.add (Sc.smul ((c.cs ^ 2)⁻¹ * th) Y.D) (Sc.smul ((c.cs ^ 2)⁻¹ * (1 - th)) X.D),
                                   b := Sc.add (Sc.smul (N2⁻¹ * th) Y.b) (Sc.smul (N2⁻¹ * (1 - th)) X.b) }
  have hv : v ∈ V := hV Y hY X hX _ _ _ _ _ _
  have hs := congrFun hstep ⟨v, hv⟩
  simp only [Pi.add_apply, Pi.sub_apply, Pi.smul_apply, smul_eq_mul, labelled_mass, labelled_rest] at hs
  have hZ : spatial lin Z v = 0 := by
    have := C97_energy c hR Xref Z N2 hr hN hcs lin h hc
    rw [lin_form c hR Xref Z _ N2 hr lin h hc op ho] at this ⊢
    have e1 : (dlenergy c.cs N2 Z).u = v.u := rfl
    have e2 : (dlenergy c.cs N2 Z).D = v.D := by
      simp only [dlenergy, Z, v, axpy, St.add, St.smul, SW.Sc.add, SW.Sc.smul]
      congr 1 <;> (funext; ring)
    have e4 : (dlenergy c.cs N2 Z).b = v.b := by
      simp only [dlenergy, Z, v, axpy, St.add, St.smul, SW.Sc.add, SW.Sc.smul]
      congr 1 <;> (funext; ring)
    have e3 : ∀ A A' : St K d C F B, A.u = A'.u → corF c op Z A = corF c op Z A' := by
      intro A A' hA; unfold corF; cases op <;> simp [hA]
    rw [e1, e2, e4, e3 _ v e1] at this
    exact this
  have hZlin : spatial lin Z v = th * spatial lin Y v + (1 - th) * spatial lin X v := by
    have hzero : spatial lin (axpy Y (th - 1) Y) v = spatial lin Y v + (th - 1) * spatial lin Y v :=
      blin_spatial_axpy c hR Xref Y Y v N2 (th - 1) hr lin h hc
    have e : axpy Y (th - 1) Y = St.smul th Y := by
      simp only [axpy, St.add, St.smul, SW.Ve.add, SW.Ve.smul, SW.Sc.add, SW.Sc.smul]
      congr 2 <;> (funext; ring)
    rw [e] at hzero
    rw [blin_spatial_axpy c hR Xref (St.smul th Y) X v N2 (1 - th) hr lin h hc, hzero]; ring
  rw [hZ] at hZlin
  have hmass : temporal lin Y v = temporal lin X v := by linear_combination hs + dt * hZlin
  rw [blin_temporal c Xref Y v lin h, blin_temporal c Xref X v lin h] at hmass
  have key : lenergy c.M c.cs N2 Y - lenergy c.M c.cs N2 X - (1 - 2 * th) * lenergy c.M c.cs N2 (axpy Y (-1) X) =
      (∑ x, c.M.wC x * (dot (Y.u.c x) (v.u.c x) + Y.D.c x * v.D.c x + Y.b.c x * v.b.c x)) -
        ∑ x, c.M.wC x * (dot (X.u.c x) (v.u.c x) + X.D.c x * v.D.c x + X.b.c x * v.b.c x) := by
    unfold lenergy
    simp only [Finset.mul_sum]
    rw [← Finset.sum_sub_distrib, ← Finset.sum_sub_distrib, ← Finset.sum_sub_distrib]
    refine Finset.sum_congr rfl fun x _ => ?_
    have d1 : ∀ a : Fin d → K, dot a (v.u.c x) = th * dot a (Y.u.c x) + (1 - th) * dot a (X.u.c x) := by
      intro a
      have : v.u.c x = fun i => th * Y.u.c x i + (1 - th) * X.u.c x i := rfl
      rw [this, dot_add, dot_smul, dot_smul]
    have d2 : v.D.c x = (c.cs ^ 2)⁻¹ * th * Y.D.c x + (c.cs ^ 2)⁻¹ * (1 - th) * X.D.c x := rfl
    have d5 : v.b.c x = N2⁻¹ * th * Y.b.c x + N2⁻¹ * (1 - th) * X.b.c x := rfl
    have d3 : (axpy Y (-1) X).u.c x = fun i => Y.u.c x i + (-1) * X.u.c x i := rfl
    have d4 : (axpy Y (-1) X).D.c x = Y.D.c x + (-1) * X.D.c x := rfl
    have d6 : (axpy Y (-1) X).b.c x = Y.b.c x + (-1) * X.b.c x := rfl
    rw [d1, d1, d2, d3, d4, d5, d6, dot_axpy_left, dot_axpy_right, dot_axpy_right, dot_comm (X.u.c x) (Y.u.c x)]
    simp only [div_eq_mul_inv]
    ring
  rw [hmass, sub_self] at key
  linear_combination key

/-- C97, consequences: the trapezium rule conserves the energy exactly and, with positive weights and a stable
stratification, `theta ≥ 1/2` never increases it, whatever the timestep. -/
theorem C97_trapezium_energy (c : BCfg K d C F B) (hR : GoodC c.R) (Xref X0 X Y : St K d C F B) (N2 dt th : K)
    (hr : Rest c N2 Xref) (hN : 0 < N2) (hcs : c.cs ≠ 0) (hw : ∀ x, 0 ≤ c.M.wC x) (lin : List (T K d C F B))
    (h : linearBoussinesq c (fun _ => true) Xref = .ok lin) (hc : c.compressible = true)
    (V : Set (St K d C F B)) (hV : ProductSpace3 V) (hX : X ∈ V) (hY : Y ∈ V) :
    ((Gusto.TimeDisc.thetaRes (labelled V X0 lin) dt (1 / 2) Y X).eval = 0 →
      lenergy c.M c.cs N2 Y = lenergy c.M c.cs N2 X) ∧
    (1 / 2 ≤ th → (Gusto.TimeDisc.thetaRes (labelled V X0 lin) dt th Y X).eval = 0 →
      lenergy c.M c.cs N2 Y ≤ lenergy c.M c.cs N2 X) := by
  constructor
  · intro hs
    have := C97_theta_energy c hR Xref X0 X Y N2 dt (1 / 2) hr hN.ne' hcs lin h hc V hV hX hY hs
    linear_combination this
  · intro hth hs
    have := C97_theta_energy c hR Xref X0 X Y N2 dt th hr hN.ne' hcs lin h hc V hV hX hY hs
    have hE : 0 ≤ lenergy c.M c.cs N2 (axpy Y (-1) X) := by
      unfold lenergy
      apply mul_nonneg (by norm_num)
      refine Finset.sum_nonneg fun x _ => mul_nonneg (hw x) (add_nonneg (add_nonneg ?_ ?_) ?_)
      · exact Finset.sum_nonneg fun i _ => mul_self_nonneg _
      · exact div_nonneg (sq_nonneg _) (sq_nonneg _)
      · exact div_nonneg (sq_nonneg _) hN.le
    nlinarith

/-! ### A concrete case -/

/-- A vertical slice on the mesh `SWProps.box`; `k` is the first direction of that mesh. -/
def sliceCfg (cs : ℚ) (compressible : Bool) (uopt : UOpt) : BCfg ℚ 2 (Fin 2) (Fin 4) (Fin 0) where
  M := SWProps.box
  R := circ2
  k _ i := if i = 0 then 1 else 0
  cs := cs
  Omega := none
  compressible := compressible
  uopt := uopt
  tracersGiven := false

/-- The hypotheses of the energy theorems hold for a buoyancy oscillation: `N dt = 1`, the vertical velocity and the
buoyancy turn from `(1, 0)` to `(3/5, -4/5)` in a step of the trapezium rule; the energy is not zero. -/
example : ∃ lin, linearBoussinesq (sliceCfg 2 true .vectorInvariant) (fun _ => true)
      ⟨Ve.zero, Sc.const 3, bsc 0 1, Sc.const 0⟩ = .ok lin ∧
    (Gusto.TimeDisc.thetaRes (labelled Set.univ (boxSt 0 0 0 0 0 0) lin) (1 : ℚ) (1 / 2)
      (boxSt (fun _ => 3 / 5) 0 0 0 (fun _ => -4 / 5) (fun _ => -4 / 5)) (boxSt (fun _ => 1) 0 0 0 0 0)).eval = 0 ∧
    Rest (sliceCfg 2 true .vectorInvariant) 1 ⟨Ve.zero, Sc.const 3, bsc 0 1, Sc.const 0⟩ ∧
    ProductSpace3 (Set.univ : Set (St ℚ 2 (Fin 2) (Fin 4) (Fin 0))) ∧
    lenergy SWProps.box 2 1 (boxSt (fun _ => 1) 0 0 0 0 0) = 1 := by
  obtain ⟨res, hres⟩ := (C97_accepts (sliceCfg 2 true .vectorInvariant) (fun _ => true)
    ⟨Ve.zero, Sc.const 3, bsc 0 1, Sc.const 0⟩).2 ⟨by decide, rfl, Or.inl rfl⟩
  have hlin : linearBoussinesq (sliceCfg 2 true .vectorInvariant) (fun _ => true)
      ⟨Ve.zero, Sc.const 3, bsc 0 1, Sc.const 0⟩ = .ok (lineariseSet res) := by
    unfold linearBoussinesq; rw [hres]; rfl
  have hr : Rest (sliceCfg 2 true .vectorInvariant) 1 ⟨Ve.zero, Sc.const 3, bsc 0 1, Sc.const 0⟩ := by
    refine ⟨rfl, fun x i => rfl, fun x i => ?_⟩
    simp [bsc, sliceCfg]
  refine ⟨lineariseSet res, hlin, ?_, hr, fun _ _ _ _ _ _ _ _ _ _ => trivial, ?_⟩
  · rw [Gusto.Props.C07_theta]
    funext v
    simp only [Pi.add_apply, Pi.sub_apply, Pi.smul_apply, smul_eq_mul, labelled_mass, labelled_rest]
    rw [blin_temporal _ _ _ _ _ hlin, blin_temporal _ _ _ _ _ hlin,
      lin_form _ C97_slice_good _ _ _ 1 hr _ hlin rfl none rfl, lin_form _ C97_slice_good _ _ _ 1 hr _ hlin rfl none rfl]
    simp [sliceCfg, boxSt, SWProps.box, bve, bsc, corF, dot, DG.Ve.div, Fin.sum_univ_two, Sc.const]
    ring
  · simp [lenergy, boxSt, SWProps.box, bve, bsc, dot, Fin.sum_univ_two]

/-- The incompressible equations are built, and the hypotheses of `C97_incompressible_refuted` are met by a step from
`p = 1` to `p = 1/2` of fluid at rest: the divergence is `p + dp/dt = 0`. -/
example : ∃ res, boussinesq (sliceCfg 2 false .circulation) (fun _ => true) (boxSt 0 0 0 0 0 0) = .ok res ∧
    (Gusto.TimeDisc.thetaRes (labelled (Set.range onlyP) (boxSt 0 0 0 0 0 0) res) (1 : ℚ) 1
      (boxSt 0 0 (fun _ => 1 / 2) (fun _ => 1 / 2) 0 0) (boxSt 0 0 1 1 0 0)).eval = 0 := by
  obtain ⟨res, hres⟩ := (C97_accepts (sliceCfg 2 false .circulation) (fun _ => true) (boxSt 0 0 0 0 0 0)).2
    ⟨by decide, rfl, Or.inl rfl⟩
  refine ⟨res, hres, ?_⟩
  rw [Gusto.Props.C07_theta]
  funext ⟨_, φ, rfl⟩
  simp only [Pi.add_apply, Pi.sub_apply, Pi.smul_apply, smul_eq_mul, labelled_mass, labelled_rest]
  rw [onlyP_temporal _ _ _ _ _ _ hres, onlyP_temporal _ _ _ _ _ _ hres,
    onlyP_spatial _ C97_slice_good _ _ _ _ _ hres rfl, onlyP_spatial _ C97_slice_good _ _ _ _ _ hres rfl]
  simp [sliceCfg, boxSt, SWProps.box, bve, bsc, dot, DG.Ve.div, Fin.sum_univ_two, Sc.const]
  ring

/-- The hypotheses of `C97_hydrostatic_rest` hold on that mesh, for every velocity test function of the space. -/
example (a : Fin 2 → ℚ) (s : ℚ) :
    let X := boxSt 0 0 ![0, 1] ![1, 0] (fun i => if i = 0 then 1 else -1) (fun i => if i = 0 then 1 else -1)
    X.u = Ve.zero ∧ (∀ x i, X.D.g x i = X.b.c x * (sliceCfg 2 true .circulation).k x i) ∧ Flow SWProps.box (bve a s) ∧
      Continuous X.D ∧ DivThm SWProps.box (Sc.const 1) X.D (bve a s) := by
  refine ⟨?_, ?_, (box_ok 0 0 a s).2, ?_, (box_ok _ _ a s).1⟩
  · simp only [boxSt, bve, Ve.zero]
    congr 1 <;> (funext; simp)
  · intro x i
    fin_cases x <;> simp [boxSt, bsc, sliceCfg]
  · intro x
    fin_cases x <;> simp [boxSt, bsc]

end Gusto.Props.BouProps
