import Verif.Model.ShallowWater
import Verif.Model.TimeDisc
import Verif.Props.DGForms
import Verif.Props.OneStep
import Mathlib.Tactic.Ring
import Mathlib.Tactic.Linarith
import Mathlib.Tactic.FieldSimp
import Mathlib.Tactic.LinearCombination
import Mathlib.Tactic.FinCases
import Mathlib.Tactic.NormNum

set_option autoImplicit false
set_option linter.unusedSectionVars false
set_option linter.unusedSimpArgs false

/-!
# C95, C96: the shallow-water equation sets
-/

namespace Gusto.Props.SWProps
open Gusto.DG Gusto.EqSet Gusto.SW
open Gusto.Props.DGProps
open Gusto.EqnDiag (pgf)

variable {K : Type*} [Field K] [LinearOrder K] [IsStrictOrderedRing K] {d : ℕ} {C F B : Type*}
variable [Fintype C] [Fintype F] [Fintype B]

/-! ### Specification -/

/-- What is used of `perp`: it is linear, does no work, and `div(perp(.))` is linear. -/
structure Good (G : Geom K d C F B) : Prop where
  lin : ∀ x (a b : Fin d → K) (e : K), G.perp x (fun i => a i + e * b i) = fun i => G.perp x a i + e * G.perp x b i
  skew : ∀ x v, dot (G.perp x v) v = 0
  dlin : ∀ (a b : Ve K d C F B) (e : K) x, G.divPerp (Ve.add a (Ve.smul e b)) x = G.divPerp a x + e * G.divPerp b x

/-- The part of a residual without time derivatives. -/
def spatial (res : List (T K d C F B)) (X v : St K d C F B) : K :=
  value (res.filter fun t => !decide ("time_derivative" ∈ t.labels)) X v
/-- The part of a residual with time derivatives. -/
def temporal (res : List (T K d C F B)) (X v : St K d C F B) : K :=
  value (res.filter fun t => decide ("time_derivative" ∈ t.labels)) X v

/-- `X + e h`. -/
def axpy (X : St K d C F B) (e : K) (h : St K d C F B) : St K d C F B := St.add X (St.smul e h)

/-- `L` is the derivative of `N` at `X`: `N (X + e h) = N X + e L h + e² Q` for all `e`. -/
def IsDeriv (N : St K d C F B → St K d C F B → K) (X : St K d C F B) (L : St K d C F B → St K d C F B → K) : Prop :=
  ∀ h v, ∃ Q, ∀ e : K, N (axpy X e h) v = N X v + e * L h v + e ^ 2 * Q

/-- `w` is a velocity test function: continuous normal component, no normal flow through the boundary. -/
def Flow (M : Mesh K d C F B) (w : Ve K d C F B) : Prop := FluxCont M w ∧ NoFlow M w

/-! ### Both geometries are good -/

theorem C95_plane_good : Good (plane : Geom K 2 C F B) where
  lin x a b e := by
    funext i; fin_cases i <;> simp [plane, DG.perp] <;> ring
  skew x v := by simp [plane, dot, DG.perp, Fin.sum_univ_two]; ring
  dlin a b e x := by simp [plane, SW.Ve.add, SW.Ve.smul]; ring

theorem C95_sphere_good (k : C → Fin 3 → K) (jk : C → Fin 3 → Fin 3 → K) :
    Good (SW.sphere k jk : Geom K 3 C F B) where
  lin x a b e := by
    funext i; fin_cases i <;> simp [SW.sphere, DG.cross] <;> ring
  skew x v := by simp [SW.sphere, dot, DG.cross, Fin.sum_univ_three]; ring
  dlin a b e x := by simp [SW.sphere, SW.Ve.add, SW.Ve.smul, dot, curlJ, Fin.sum_univ_three]; ring

/-! ### Linearity of the forms -/

theorem dot_axpy_left (a b c : Fin d → K) (e : K) : dot (fun i => a i + e * b i) c = dot a c + e * dot b c := by
  unfold dot; rw [Finset.mul_sum, ← Finset.sum_add_distrib]; exact Finset.sum_congr rfl fun i _ => by ring
theorem dot_axpy_right (a b c : Fin d → K) (e : K) : dot c (fun i => a i + e * b i) = dot c a + e * dot c b := by
  unfold dot; rw [Finset.mul_sum, ← Finset.sum_add_distrib]; exact Finset.sum_congr rfl fun i _ => by ring
theorem div_axpy (a b : Ve K d C F B) (e : K) (x : C) :
    (Ve.add a (Ve.smul e b)).div x = a.div x + e * b.div x := by
  unfold DG.Ve.div; rw [Finset.mul_sum, ← Finset.sum_add_distrib]; rfl
theorem cells_axpy (M : Mesh K d C F B) (f g h : C → K) (e : K) (hf : ∀ x, f x = g x + e * h x) :
    cells M f = cells M g + e * cells M h := by
  unfold cells; rw [Finset.mul_sum, ← Finset.sum_add_distrib]
  exact Finset.sum_congr rfl fun x _ => by rw [hf]; ring

theorem vc (a b : Ve K d C F B) (e : K) (x : C) :
    (Ve.add a (Ve.smul e b)).c x = fun i => a.c x i + e * b.c x i := rfl
theorem sg (a b : Sc K d C F B) (e : K) (x : C) :
    (Sc.add a (Sc.smul e b)).g x = fun i => a.g x i + e * b.g x i := rfl
theorem scc (a b : Sc K d C F B) (e : K) (x : C) : (Sc.add a (Sc.smul e b)).c x = a.c x + e * b.c x := rfl
theorem scp (a b : Sc K d C F B) (e : K) (x : F) : (Sc.add a (Sc.smul e b)).p x = a.p x + e * b.p x := rfl
theorem scm (a b : Sc K d C F B) (e : K) (x : F) : (Sc.add a (Sc.smul e b)).m x = a.m x + e * b.m x := rfl

section Lin
variable (M : Mesh K d C F B)

theorem circ_q (G : Geom K d C F B) (hG : Good G) (w q q' u : Ve K d C F B) (e : K) :
    circ G M w (Ve.add q (Ve.smul e q')) u = circ G M w q u + e * circ G M w q' u := by
  unfold circ
  refine cells_axpy M _ _ _ e fun x => ?_
  simp only [hG.dlin, dot_smul]; ring
theorem circ_u (G : Geom K d C F B) (hG : Good G) (w q u u' : Ve K d C F B) (e : K) :
    circ G M w q (Ve.add u (Ve.smul e u')) = circ G M w q u + e * circ G M w q u' := by
  unfold circ
  refine cells_axpy M _ _ _ e fun x => ?_
  simp only [vc, hG.lin, dot_smul, dot_axpy_right]; ring
theorem kinE_q (w q q' u : Ve K d C F B) (e : K) :
    kinE M w (Ve.add q (Ve.smul e q')) u = kinE M w q u + e * kinE M w q' u := by
  have := cells_axpy M (fun x => 1 / 2 * w.div x * dot ((Ve.add q (Ve.smul e q')).c x) (u.c x))
    (fun x => 1 / 2 * w.div x * dot (q.c x) (u.c x)) (fun x => 1 / 2 * w.div x * dot (q'.c x) (u.c x)) e
    (fun x => by simp only [vc, dot_axpy_left]; ring)
  unfold kinE kineticCells
  unfold cells at this
  rw [this]; ring
theorem kinE_comm (w q u : Ve K d C F B) : kinE M w q u = kinE M w u q := by
  unfold kinE kineticCells
  simp only [dot_comm (q.c _) (u.c _)]
theorem advVec_q (w q q' u : Ve K d C F B) (e : K) :
    advVec M w (Ve.add q (Ve.smul e q')) u = advVec M w q u + e * advVec M w q' u := by
  unfold advVec
  refine cells_axpy M _ _ _ e fun x => ?_
  rw [← dot_axpy_right]
  congr 1
  funext j
  rw [Finset.mul_sum, ← Finset.sum_add_distrib]
  exact Finset.sum_congr rfl fun i _ => by simp only [SW.Ve.add, SW.Ve.smul]; ring
theorem advVec_u (w q u u' : Ve K d C F B) (e : K) :
    advVec M w q (Ve.add u (Ve.smul e u')) = advVec M w q u + e * advVec M w q u' := by
  unfold advVec
  refine cells_axpy M _ _ _ e fun x => ?_
  rw [← dot_axpy_right]
  congr 1
  funext j
  rw [Finset.mul_sum, ← Finset.sum_add_distrib]
  exact Finset.sum_congr rfl fun i _ => by simp only [SW.Ve.add, SW.Ve.smul]; ring
theorem cont_q (φ q q' : Sc K d C F B) (u : Ve K d C F B) (e : K) :
    contCells M φ (Sc.add q (Sc.smul e q')) u = contCells M φ q u + e * contCells M φ q' u := by
  exact cells_axpy M _ _ _ e fun x => by simp only [sg, scc, dot_axpy_left]; ring
theorem cont_u (φ q : Sc K d C F B) (u u' : Ve K d C F B) (e : K) :
    contCells M φ q (Ve.add u (Ve.smul e u')) = contCells M φ q u + e * contCells M φ q u' := by
  exact cells_axpy M _ _ _ e fun x => by simp only [vc, div_axpy, dot_axpy_right]; ring
theorem adv_q (φ q q' : Sc K d C F B) (u : Ve K d C F B) (e : K) :
    advCells M φ (Sc.add q (Sc.smul e q')) u = advCells M φ q u + e * advCells M φ q' u := by
  exact cells_axpy M _ _ _ e fun x => by simp only [sg, dot_axpy_right]; ring
theorem adv_u (φ q : Sc K d C F B) (u u' : Ve K d C F B) (e : K) :
    advCells M φ q (Ve.add u (Ve.smul e u')) = advCells M φ q u + e * advCells M φ q u' := by
  exact cells_axpy M _ _ _ e fun x => by simp only [vc, dot_axpy_left]; ring
theorem press_D (g : K) (w : Ve K d C F B) (D D' : Sc K d C F B) (e : K) :
    pressGrad M g w (Sc.add D (Sc.smul e D')).c = pressGrad M g w D.c + e * pressGrad M g w D'.c := by
  unfold pressGrad
  rw [cells_axpy M _ (fun x => w.div x * D.c x) (fun x => w.div x * D'.c x) e fun x => by simp only [scc]; ring]
  ring
theorem cor_u (G : Geom K d C F B) (hG : Good G) (f : C → K) (u u' w : Ve K d C F B) (e : K) :
    corForm G M f (Ve.add u (Ve.smul e u')) w = corForm G M f u w + e * corForm G M f u' w := by
  exact cells_axpy M _ _ _ e fun x => by simp only [vc, hG.lin, dot_axpy_left]; ring
theorem grad1_b (w : Ve K d C F B) (b b' D : Sc K d C F B) (e : K) :
    grad1 M w (Sc.add b (Sc.smul e b')) D = grad1 M w b D + e * grad1 M w b' D := by
  unfold grad1 pgf
  have h1 := cells_axpy M (fun x => (dot ((Sc.add b (Sc.smul e b')).g x) (w.c x) +
    (Sc.add b (Sc.smul e b')).c x * w.div x) * D.c x) (fun x => (dot (b.g x) (w.c x) + b.c x * w.div x) * D.c x)
    (fun x => (dot (b'.g x) (w.c x) + b'.c x * w.div x) * D.c x) e
    (fun x => by simp only [sg, scc, dot_axpy_left]; ring)
  unfold cells at h1
  rw [h1]
  simp only [if_true]
  have h2 : ∑ x, M.wF x * (((Sc.add b (Sc.smul e b')).p x * dot (w.p x) (M.nP x) +
      (Sc.add b (Sc.smul e b')).m x * dot (w.m x) (M.nM x)) * (1 / 2 * (D.p x + D.m x))) =
      (∑ x, M.wF x * ((b.p x * dot (w.p x) (M.nP x) + b.m x * dot (w.m x) (M.nM x)) * (1 / 2 * (D.p x + D.m x)))) +
      e * ∑ x, M.wF x * ((b'.p x * dot (w.p x) (M.nP x) + b'.m x * dot (w.m x) (M.nM x)) *
        (1 / 2 * (D.p x + D.m x))) := by
    rw [Finset.mul_sum, ← Finset.sum_add_distrib]
    exact Finset.sum_congr rfl fun x _ => by simp only [scp, scm]; ring
  rw [h2]; ring
theorem grad1_D (w : Ve K d C F B) (b D D' : Sc K d C F B) (e : K) :
    grad1 M w b (Sc.add D (Sc.smul e D')) = grad1 M w b D + e * grad1 M w b D' := by
  unfold grad1 pgf
  have h1 := cells_axpy M (fun x => (dot (b.g x) (w.c x) + b.c x * w.div x) * (Sc.add D (Sc.smul e D')).c x)
    (fun x => (dot (b.g x) (w.c x) + b.c x * w.div x) * D.c x)
    (fun x => (dot (b.g x) (w.c x) + b.c x * w.div x) * D'.c x) e
    (fun x => by simp only [scc]; ring)
  unfold cells at h1
  rw [h1]
  simp only [if_true]
  have h2 : ∑ x, M.wF x * ((b.p x * dot (w.p x) (M.nP x) + b.m x * dot (w.m x) (M.nM x)) *
      (1 / 2 * ((Sc.add D (Sc.smul e D')).p x + (Sc.add D (Sc.smul e D')).m x))) =
      (∑ x, M.wF x * ((b.p x * dot (w.p x) (M.nP x) + b.m x * dot (w.m x) (M.nM x)) * (1 / 2 * (D.p x + D.m x)))) +
      e * ∑ x, M.wF x * ((b.p x * dot (w.p x) (M.nP x) + b.m x * dot (w.m x) (M.nM x)) *
        (1 / 2 * (D'.p x + D'.m x))) := by
    rw [Finset.mul_sum, ← Finset.sum_add_distrib]
    exact Finset.sum_congr rfl fun x _ => by simp only [scp, scm]; ring
  rw [h2]; ring
end Lin

/-! ### Values of residuals -/

theorem value_apply (res : List (T K d C F B)) (X v : St K d C F B) :
    value res X v = (res.map fun t => t.form X v).sum := by
  unfold value
  induction res with
  | nil => rfl
  | cons t ts ih =>
    simp only [List.map_cons, List.sum_cons, Pi.add_apply]
    rw [ih]

/-- The linearisation a term ends up with when the map accepts every term. -/
def eff (Xref : St K d C F B) (t : T K d C F B) (h v : St K d C F B) : K :=
  match t.lin with
  | some l => l h v
  | none => if t.empty then 0 else t.dform Xref h v

theorem value_linear (res : List (T K d C F B)) (Xref h v : St K d C F B) :
    value (lineariseSet (generateLinear Xref (fun _ => true) res)) h v = (res.map fun t => eff Xref t h v).sum := by
  rw [value_apply]
  induction res with
  | nil => rfl
  | cons t ts ih =>
    simp only [generateLinear, lineariseSet, List.map_cons, List.flatMap_cons, List.map_append, List.sum_append,
      List.sum_cons] at ih ⊢
    rw [ih]
    congr 1
    unfold eff
    cases hl : t.lin with
    | some l => simp [hl]
    | none =>
      cases he : t.empty <;> simp [hl, he, linearise]

theorem isDeriv_list (res : List (T K d C F B)) (Xref : St K d C F B) (L : T K d C F B → St K d C F B → St K d C F B → K)
    (hd : ∀ t ∈ res, IsDeriv t.form Xref (L t)) :
    IsDeriv (fun X v => (res.map fun t => t.form X v).sum) Xref (fun h v => (res.map fun t => L t h v).sum) := by
  intro h v
  induction res with
  | nil => exact ⟨0, fun e => by simp⟩
  | cons t ts ih =>
    obtain ⟨Q, hQ⟩ := hd t (by simp) h v
    obtain ⟨Q', hQ'⟩ := ih fun t' ht' => hd t' (by simp [ht'])
    refine ⟨Q + Q', fun e => ?_⟩
    simp only [List.map_cons, List.sum_cons] at hQ' ⊢
    rw [hQ e, hQ' e]; ring

/-! ### Derivatives of the terms -/

section Terms
variable (c : Cfg K d C F B) (hG : Good c.G) (Xref : St K d C F B)
include hG

theorem massU_deriv : IsDeriv (massU c.M).form Xref ((massU c.M).dform Xref) := fun h v => ⟨0, fun e => by
  simp only [massU, axpy, St.add, St.smul]
  rw [cells_axpy c.M _ (fun x => dot (Xref.u.c x) (v.u.c x)) (fun x => dot (h.u.c x) (v.u.c x)) e
    fun x => by simp only [vc, dot_axpy_left]]
  ring⟩
theorem massD_deriv : IsDeriv (massD c.M).form Xref ((massD c.M).dform Xref) := fun h v => ⟨0, fun e => by
  simp only [massD, axpy, St.add, St.smul]
  rw [cells_axpy c.M _ (fun x => Xref.D.c x * v.D.c x) (fun x => h.D.c x * v.D.c x) e
    fun x => by simp only [scc]; ring]
  ring⟩
theorem massB_deriv : IsDeriv (massB c.M).form Xref ((massB c.M).dform Xref) := fun h v => ⟨0, fun e => by
  simp only [massB, axpy, St.add, St.smul]
  rw [cells_axpy c.M _ (fun x => Xref.b.c x * v.b.c x) (fun x => h.b.c x * v.b.c x) e
    fun x => by simp only [scc]; ring]
  ring⟩

theorem vi_deriv : IsDeriv (fun X v => circ c.G c.M v.u X.u X.u + kinE c.M v.u X.u X.u) Xref
    (fun h v => circ c.G c.M v.u h.u Xref.u + circ c.G c.M v.u Xref.u h.u
      + (kinE c.M v.u h.u Xref.u + kinE c.M v.u Xref.u h.u)) := fun h v =>
  ⟨circ c.G c.M v.u h.u h.u + kinE c.M v.u h.u h.u, fun e => by
    simp only [axpy, St.add, St.smul]
    rw [circ_q c.M c.G hG, circ_u c.M c.G hG, circ_u c.M c.G hG, kinE_q, kinE_comm c.M v.u Xref.u (Ve.add _ _),
      kinE_comm c.M v.u h.u (Ve.add _ _), kinE_q, kinE_q, kinE_comm c.M v.u h.u Xref.u]
    ring⟩
theorem circ_deriv : IsDeriv (fun X v => circ c.G c.M v.u X.u X.u) Xref
    (fun h v => circ c.G c.M v.u h.u Xref.u + circ c.G c.M v.u Xref.u h.u) := fun h v =>
  ⟨circ c.G c.M v.u h.u h.u, fun e => by
    simp only [axpy, St.add, St.smul]
    rw [circ_q c.M c.G hG, circ_u c.M c.G hG, circ_u c.M c.G hG]
    ring⟩
omit hG in
theorem kin_deriv : IsDeriv (fun X v => kinE c.M v.u X.u X.u) Xref
    (fun h v => kinE c.M v.u h.u Xref.u + kinE c.M v.u Xref.u h.u) := fun h v =>
  ⟨kinE c.M v.u h.u h.u, fun e => by
    simp only [axpy, St.add, St.smul]
    rw [kinE_q, kinE_comm c.M v.u Xref.u (Ve.add _ _), kinE_comm c.M v.u h.u (Ve.add _ _), kinE_q, kinE_q,
      kinE_comm c.M v.u h.u Xref.u]
    ring⟩
omit hG in
theorem av_deriv : IsDeriv (fun X v => advVec c.M v.u X.u X.u) Xref
    (fun h v => advVec c.M v.u h.u Xref.u + advVec c.M v.u Xref.u h.u) := fun h v =>
  ⟨advVec c.M v.u h.u h.u, fun e => by
    simp only [axpy, St.add, St.smul]
    rw [advVec_q, advVec_u, advVec_u]
    ring⟩
omit hG in
theorem dt_deriv : IsDeriv (fun X v => contCells c.M v.D X.D X.u) Xref
    (fun h v => contCells c.M v.D h.D Xref.u + contCells c.M v.D Xref.D h.u) := fun h v =>
  ⟨contCells c.M v.D h.D h.u, fun e => by
    simp only [axpy, St.add, St.smul]
    rw [cont_q, cont_u, cont_u]
    ring⟩
omit hG in
theorem bt_deriv : IsDeriv (fun X v => advCells c.M v.b X.b X.u) Xref
    (fun h v => advCells c.M v.b h.b Xref.u + advCells c.M v.b Xref.b h.u) := fun h v =>
  ⟨advCells c.M v.b h.b h.u, fun e => by
    simp only [axpy, St.add, St.smul]
    rw [adv_q, adv_u, adv_u]
    ring⟩
omit hG in
theorem pg_deriv : IsDeriv (pgTerm c).form Xref ((pgTerm c).dform Xref) := fun h v => ⟨0, fun e => by
  simp only [pgTerm, axpy, St.add, St.smul]
  rw [press_D]; ring⟩
theorem cor_deriv (f : C → K) : IsDeriv (fun X v => corForm c.G c.M f X.u v.u) Xref
    (fun h v => corForm c.G c.M f h.u v.u) := fun h v => ⟨0, fun e => by
  simp only [axpy, St.add, St.smul]
  rw [cor_u c.M c.G hG]; ring⟩
omit hG in
theorem topog_deriv (B' : C → K) : IsDeriv (topogTerm c B').form Xref (fun _ _ => 0) := fun h v => ⟨0, fun e => by
  simp only [topogTerm]; ring⟩
omit hG in
theorem source_deriv : IsDeriv (thermalSourceTerm c Xref).form Xref ((thermalSourceTerm c Xref).dform Xref) := fun h v =>
  ⟨thermalSource c.M v.u h.D h.b, fun e => by
    simp only [thermalSourceTerm, axpy, St.add, St.smul, thermalSource]
    rw [grad1_b, grad1_D, grad1_D, grad1_b, grad1_D, grad1_D]
    ring⟩
omit hG in
theorem ttopog_deriv : IsDeriv (thermalTopogTerm c).form Xref ((thermalTopogTerm c).dform Xref) := fun h v =>
  ⟨0, fun e => by
    simp only [thermalTopogTerm, axpy, St.add, St.smul]
    rw [grad1_b]
    ring⟩

/-- Every term of the shallow-water residual, with the linearisation it ends up with. -/
theorem setup_deriv (masses res : List (T K d C F B)) (hm : ∀ t ∈ masses, IsDeriv t.form Xref (eff Xref t))
    (hres : setupResidual c (fun _ => true) Xref masses = .ok res) :
    ∀ t ∈ res, IsDeriv t.form Xref (eff Xref t) := by
  have hpg : IsDeriv (pgTerm c).form Xref (eff Xref (pgTerm c)) := pg_deriv c Xref
  have hD : IsDeriv (dTransport c (fun _ => true) Xref).form Xref (eff Xref (dTransport c (fun _ => true) Xref)) :=
    dt_deriv c Xref
  have hcor : ∀ f, IsDeriv (corTerm c (fun _ => true) f).form Xref (eff Xref (corTerm c (fun _ => true) f)) :=
    fun f => cor_deriv c hG Xref f
  have htop : ∀ B', IsDeriv (topogTerm c B').form Xref (eff Xref (topogTerm c B')) := fun B' => topog_deriv c Xref B'
  have hut : ∀ ut, uTransport c (fun _ => true) Xref = .ok ut → ∀ t ∈ ut, IsDeriv t.form Xref (eff Xref t) := by
    intro ut hu
    unfold uTransport at hu
    cases h : c.uopt <;> simp only [h] at hu
    · cases hu
      intro t ht
      simp only [List.mem_singleton] at ht
      subst ht
      have := vi_deriv c hG Xref
      intro h' v
      obtain ⟨Q, hQ⟩ := this h' v
      refine ⟨Q, fun e => ?_⟩
      have e1 := hQ e
      simp only [attach, if_true, eff] at e1 ⊢
      rw [e1]
      have e2 : kinE c.M v.u h'.u Xref.u + kinE c.M v.u Xref.u h'.u =
          -cells c.M fun x => v.u.div x * dot (h'.u.c x) (Xref.u.c x) := by
        rw [kinE_comm c.M v.u Xref.u h'.u]
        unfold kinE kineticCells cells
        rw [← Finset.sum_neg_distrib, ← Finset.sum_neg_distrib, ← Finset.sum_add_distrib]
        exact Finset.sum_congr rfl fun x _ => by ring
      rw [e2]; ring
    · cases hu
      intro t ht
      simp only [List.mem_cons, List.not_mem_nil, or_false] at ht
      rcases ht with ht | ht <;> subst ht
      · exact circ_deriv c hG Xref
      · exact kin_deriv c Xref
    · cases hu
      intro t ht
      simp only [List.mem_singleton] at ht
      subst ht
      exact av_deriv c Xref
    · cases hu
  unfold setupResidual at hres
  cases hu : uTransport c (fun _ => true) Xref with
  | error e => rw [hu] at hres; cases hres
  | ok ut =>
    rw [hu] at hres
    simp only at hres
    have hu' := hut ut hu
    have hbase : ∀ t ∈ masses ++ ut ++ [dTransport c (fun _ => true) Xref, pgTerm c],
        IsDeriv t.form Xref (eff Xref t) := by
      intro t ht
      simp only [List.mem_append, List.mem_cons, List.not_mem_nil, or_false] at ht
      rcases ht with (ht | ht) | ht | ht
      · exact hm t ht
      · exact hu' t ht
      · subst ht; exact hD
      · subst ht; exact hpg
    have htopl : ∀ t ∈ topogTerms c,
        IsDeriv t.form Xref (eff Xref t) := by
      intro t ht
      unfold topogTerms at ht
      cases hc : c.topog with
      | none => simp [hc] at ht
      | some B' => simp [hc] at ht; subst ht; exact htop B'
    split_ifs at hres with hr
    · cases hres
      intro t ht
      rcases List.mem_append.1 ht with ht | ht
      · exact hbase t ht
      · exact htopl t ht
    · cases hf : fexpr c with
      | error e => rw [hf] at hres; cases hres
      | ok f =>
        rw [hf] at hres
        cases hres
        intro t ht
        rcases List.mem_append.1 ht with ht | ht
        · rcases List.mem_append.1 ht with ht | ht
          · exact hbase t ht
          · simp only [List.mem_singleton] at ht; subst ht; exact hcor f
        · exact htopl t ht

/-- C95, linearisation: with the default linearisation map the linear shallow-water equations are the derivative of the
shallow-water equations at the reference state, for every option, reference state and perturbation. -/
theorem C95_linear_is_derivative (res lin : List (T K d C F B)) (hres : shallowWater c (fun _ => true) Xref = .ok res)
    (hlin : linearShallowWater c (fun _ => true) Xref = .ok lin) : IsDeriv (value res) Xref (value lin) := by
  unfold shallowWater at hres
  unfold linearShallowWater shallowWater at hlin
  cases hs : setupResidual c (fun _ => true) Xref [massU c.M, massD c.M] with
  | error e => rw [hs] at hres; cases hres
  | ok r =>
    rw [hs] at hres hlin
    cases hres
    cases hlin
    have hd := setup_deriv c hG Xref _ r (by
      intro t ht
      simp only [List.mem_cons, List.not_mem_nil, or_false] at ht
      rcases ht with ht | ht <;> subst ht
      · exact massU_deriv c hG Xref
      · exact massD_deriv c hG Xref) hs
    have := isDeriv_list r Xref (eff Xref) hd
    intro h v
    obtain ⟨Q, hQ⟩ := this h v
    refine ⟨Q, fun e => ?_⟩
    have hg : ∀ X, value (generateLinear Xref (fun _ => true) r) X v = (r.map fun t => t.form X v).sum := by
      intro X
      rw [value_apply, generateLinear, List.map_map]
      congr 1
      apply List.map_congr_left
      intro t _
      simp only [Function.comp]
      split_ifs
      · unfold linearise; split_ifs <;> rfl
      · rfl
    rw [hg, hg, value_linear]
    exact hQ e

end Terms

/-! ### The spatial part -/

/-- The label test of `spatial`. -/
def notTD (t : T K d C F B) : Bool := !decide ("time_derivative" ∈ t.labels)

theorem gen_filter (q : T K d C F B → Bool) (hq : ∀ t l, q { t with lin := l } = q t) (Xref : St K d C F B)
    (p : T K d C F B → Bool) (res : List (T K d C F B)) :
    (generateLinear Xref p res).filter q = generateLinear Xref p (res.filter q) := by
  induction res with
  | nil => rfl
  | cons t ts ih =>
    simp only [generateLinear, List.map_cons, List.filter_cons] at ih ⊢
    have : q (if (t.lin.isNone && p t) = true then linearise Xref t else t) = q t := by
      split_ifs
      · unfold linearise; split_ifs
        · rfl
        · exact hq _ _
      · rfl
    rw [this, ih]
    by_cases h : q t = true <;> simp [h]

theorem lin_filter (q : T K d C F B → Bool) (hq : ∀ t l, q { t with form := l } = q t) (res : List (T K d C F B)) :
    (lineariseSet res).filter q = lineariseSet (res.filter q) := by
  induction res with
  | nil => rfl
  | cons t ts ih =>
    simp only [lineariseSet, List.flatMap_cons, List.filter_append, List.filter_cons] at ih ⊢
    rw [ih]
    by_cases h : q t = true
    · cases hl : t.lin with
      | none => simp [h, hl]
      | some l => have hh := hq t l; rw [hl, h] at hh; simp [h, hl, List.filter_cons, hh]
    · cases hl : t.lin with
      | none => simp [h, hl]
      | some l =>
        have hh := hq t l
        rw [hl, Bool.eq_false_iff.2 h] at hh
        simp [h, hl, List.filter_cons, hh]

theorem gen_value (Xref : St K d C F B) (p : T K d C F B → Bool) (res : List (T K d C F B)) (X v : St K d C F B) :
    value (generateLinear Xref p res) X v = (res.map fun t => t.form X v).sum := by
  rw [value_apply, generateLinear, List.map_map]
  congr 1
  apply List.map_congr_left
  intro t _
  simp only [Function.comp]
  split_ifs
  · unfold linearise; split_ifs <;> rfl
  · rfl

theorem spatial_gen (Xref : St K d C F B) (p : T K d C F B → Bool) (res : List (T K d C F B)) (X v : St K d C F B) :
    spatial (generateLinear Xref p res) X v = ((res.filter notTD).map fun t => t.form X v).sum := by
  unfold spatial
  rw [gen_filter _ (fun _ _ => rfl), gen_value]; rfl

theorem spatial_lin (Xref : St K d C F B) (res : List (T K d C F B)) (X v : St K d C F B) :
    spatial (lineariseSet (generateLinear Xref (fun _ => true) res)) X v =
      ((res.filter notTD).map fun t => eff Xref t X v).sum := by
  unfold spatial
  rw [lin_filter _ (fun _ _ => rfl), gen_filter _ (fun _ _ => rfl), value_linear]; rfl

/-- The velocity transport form of the option. -/
def uForm (c : Cfg K d C F B) (X v : St K d C F B) : K :=
  match c.uopt with
  | .vectorInvariant => circ c.G c.M v.u X.u X.u + kinE c.M v.u X.u X.u
  | .circulation => circ c.G c.M v.u X.u X.u + kinE c.M v.u X.u X.u
  | .vectorAdvection => advVec c.M v.u X.u X.u
  | .invalid => 0
/-- The Coriolis form of the option. -/
def cForm (c : Cfg K d C F B) (X v : St K d C F B) : K :=
  match fexpr c with
  | .ok f => corForm c.G c.M f X.u v.u
  | .error _ => 0
/-- The topography form. -/
def tForm (c : Cfg K d C F B) (v : St K d C F B) : K :=
  match c.topog with
  | none => 0
  | some B' => pressGrad c.M c.g v.u B'

theorem attach_labels (p : T K d C F B → Bool) (t : T K d C F B) (l : St K d C F B → St K d C F B → K) :
    (attach p t l).labels = t.labels := by unfold attach; split_ifs <;> rfl
theorem attach_form (p : T K d C F B → Bool) (t : T K d C F B) (l : St K d C F B → St K d C F B → K) :
    (attach p t l).form = t.form := by unfold attach; split_ifs <;> rfl

theorem uTransport_value (c : Cfg K d C F B) (p : T K d C F B → Bool) (Xref X v : St K d C F B)
    (ut : List (T K d C F B)) (h : uTransport c p Xref = .ok ut) (q : T K d C F B → Bool)
    (hq : ∀ t : T K d C F B, (t.labels = ["transport", "u"] ∨ t.labels = ["u"]) → q t = true) :
    ((ut.filter q).map fun t => t.form X v).sum = uForm c X v ∧ ut.filter q = ut := by
  have : ut.filter q = ut := by
    apply List.filter_eq_self.2
    intro t ht
    unfold uTransport at h
    cases ho : c.uopt <;> rw [ho] at h <;> cases h
    · simp only [List.mem_singleton] at ht; subst ht; exact hq _ (Or.inl (attach_labels _ _ _))
    · simp only [List.mem_cons, List.not_mem_nil, or_false] at ht
      rcases ht with ht | ht <;> subst ht
      · exact hq _ (Or.inl (attach_labels _ _ _))
      · exact hq _ (Or.inr rfl)
    · simp only [List.mem_singleton] at ht; subst ht; exact hq _ (Or.inl rfl)
  refine ⟨?_, this⟩
  rw [this]
  unfold uTransport at h
  unfold uForm
  cases ho : c.uopt <;> rw [ho] at h <;> cases h
  · simp [attach_form]
  · simp [attach_form]
  · simp

/-- The value of the residual of the super class, restricted to terms accepted by a test of the labels. -/
theorem setup_value (c : Cfg K d C F B) (p : T K d C F B → Bool) (Xref X v : St K d C F B)
    (masses res : List (T K d C F B)) (h : setupResidual c p Xref masses = .ok res) (q : T K d C F B → Bool)
    (hq : ∀ t : T K d C F B, (t.labels = ["transport", "u"] ∨ t.labels = ["u"] ∨ t.labels = ["transport", "D"] ∨
      t.labels = ["coriolis", "u"]) → q t = true) (hm : ∀ t ∈ masses, q t = false) :
    ((res.filter q).map fun t => t.form X v).sum = uForm c X v + contCells c.M v.D X.D X.u
      + (if q (pgTerm c) then pressGrad c.M c.g v.u X.D.c else 0)
      + (if c.rot = .nonrotating then 0 else cForm c X v) + tForm c v := by
  unfold setupResidual at h
  cases hu : uTransport c p Xref with
  | error e => rw [hu] at h; cases h
  | ok ut =>
    rw [hu] at h
    simp only at h
    have hm' : masses.filter q = [] := List.filter_eq_nil_iff.2 fun t ht => by simp [hm t ht]
    obtain ⟨e1, e2⟩ := uTransport_value c p Xref X v ut hu q fun t ht => hq t (by tauto)
    rw [e2] at e1
    have hD : q (dTransport c p Xref) = true := hq _ (Or.inr (Or.inr (Or.inl (attach_labels _ _ _))))
    have htop : (((topogTerms c).filter q).map
        fun t => t.form X v).sum = tForm c v := by
      unfold tForm topogTerms
      cases hc : c.topog with
      | none => simp
      | some B' =>
        have : q (topogTerm c B') = true := hq _ (Or.inr (Or.inl rfl))
        rw [List.filter_cons, if_pos this]
        simp only [List.filter_nil, List.map_cons, List.map_nil, List.sum_cons, List.sum_nil, add_zero]
        rfl
    have hDf : (dTransport c p Xref).form X v = contCells c.M v.D X.D X.u := by
      unfold dTransport; rw [attach_form]
    have hpf : (pgTerm c).form X v = pressGrad c.M c.g v.u X.D.c := rfl
    have hbase : (((masses ++ ut ++ [dTransport c p Xref, pgTerm c]).filter q).map fun t => t.form X v).sum =
        uForm c X v + contCells c.M v.D X.D X.u + (if q (pgTerm c) then pressGrad c.M c.g v.u X.D.c else 0) := by
      simp only [List.filter_append, List.map_append, List.sum_append, hm', e2, e1, List.filter_cons, hD, if_true,
        List.filter_nil]
      by_cases hp : q (pgTerm c) = true
      · rw [if_pos hp, if_pos hp]
        simp only [List.map_cons, List.map_nil, List.sum_cons, List.sum_nil, List.map_append, hDf, hpf]; simp; ring
      · rw [if_neg hp, if_neg hp]
        simp only [List.map_cons, List.map_nil, List.sum_cons, List.sum_nil, List.map_append, hDf, hpf]; simp
    split_ifs at h with hr
    · cases h
      rw [List.filter_append, List.map_append, List.sum_append, htop, hbase, if_pos hr]; ring
    · cases hf : fexpr c with
      | error e => rw [hf] at h; cases h
      | ok f =>
        rw [hf] at h
        cases h
        have hcq : q (corTerm c p f) = true := hq _ (Or.inr (Or.inr (Or.inr (attach_labels _ _ _))))
        rw [List.filter_append, List.map_append, List.sum_append, htop, List.filter_append, List.map_append,
          List.sum_append, hbase, if_neg hr]
        have hcf : (corTerm c p f).form X v = corForm c.G c.M f X.u v.u := by unfold corTerm; rw [attach_form]
        rw [List.filter_cons, if_pos hcq]
        simp only [List.filter_nil, List.map_cons, List.map_nil, List.sum_cons, List.sum_nil, add_zero, hcf, cForm, hf]

theorem sw_spatial (c : Cfg K d C F B) (p : T K d C F B → Bool) (Xref X v : St K d C F B) (res : List (T K d C F B))
    (h : shallowWater c p Xref = .ok res) :
    spatial res X v = uForm c X v + contCells c.M v.D X.D X.u + pressGrad c.M c.g v.u X.D.c
      + (if c.rot = .nonrotating then 0 else cForm c X v) + tForm c v := by
  unfold shallowWater at h
  cases hs : setupResidual c p Xref [massU c.M, massD c.M] with
  | error e => rw [hs] at h; cases h
  | ok r =>
    rw [hs] at h
    cases h
    rw [spatial_gen, setup_value c p Xref X v _ r hs notTD
      (by intro t ht; unfold notTD; rcases ht with ht | ht | ht | ht <;> rw [ht] <;> decide)
      (by intro t ht; simp only [List.mem_cons, List.not_mem_nil, or_false] at ht
          rcases ht with ht | ht <;> subst ht <;> rfl)]
    have : notTD (pgTerm c) = true := rfl
    rw [if_pos this]

/-! ### C95: acceptance -/

/-- C95, options: the equations are built exactly for a supported velocity option and a supported rotation. -/
theorem C95_accepts (c : Cfg K d C F B) (p : T K d C F B → Bool) (Xref : St K d C F B) :
    (∃ res, shallowWater c p Xref = .ok res) ↔ c.uopt ≠ .invalid ∧
      (c.rot = .nonrotating ∨ c.rot = .fplane ∨ c.rot = .betaplane ∨ (c.rot = .sphere ∧ c.onSphere = true)) := by
  unfold shallowWater setupResidual uTransport fexpr
  cases ho : c.uopt <;> cases hr : c.rot <;> cases hs : c.onSphere <;> simp [Except.map]

/-- C95, refuted: an unknown velocity option is reported as `AttributeError`, not as the `ValueError` of the message. -/
theorem C95_option_error_refuted (c : Cfg K d C F B) (p : T K d C F B → Bool) (Xref : St K d C F B)
    (h : c.uopt = .invalid) : shallowWater c p Xref = .error .attributeError := by
  unfold shallowWater setupResidual uTransport
  rw [h]; rfl

/-! ### C95: Coriolis -/

theorem corForm_work (M : Mesh K d C F B) (G : Geom K d C F B) (hG : Good G) (f : C → K) (u : Ve K d C F B) :
    corForm G M f u u = 0 := by
  unfold corForm cells
  exact Finset.sum_eq_zero fun x _ => by simp only [hG.skew, mul_zero]

/-- C95, Coriolis: the Coriolis term does no work, whatever the rotation, the state and the linearisation map, in the
nonlinear and in the linear equations. -/
theorem C95_coriolis_no_work (c : Cfg K d C F B) (hG : Good c.G) (p : T K d C F B → Bool) (Xref X v : St K d C F B)
    (hv : v.u = X.u) (res lin : List (T K d C F B)) (h : shallowWater c p Xref = .ok res)
    (h' : linearShallowWater c p Xref = .ok lin) :
    (∀ t ∈ res, "coriolis" ∈ t.labels → t.form X v = 0) ∧ (∀ t ∈ lin, "coriolis" ∈ t.labels → t.form X v = 0) := by
  unfold shallowWater at h
  unfold linearShallowWater shallowWater at h'
  cases hs : setupResidual c p Xref [massU c.M, massD c.M] with
  | error e => rw [hs] at h; cases h
  | ok r =>
    rw [hs] at h h'
    cases h
    cases h'
    have key : ∀ t ∈ r, "coriolis" ∈ t.labels → ∃ f, t = corTerm c p f := by
      intro t ht hl
      unfold setupResidual at hs
      cases hu : uTransport c p Xref with
      | error e => rw [hu] at hs; cases hs
      | ok ut =>
        rw [hu] at hs
        simp only at hs
        have hut : ∀ t ∈ ut, "coriolis" ∉ t.labels := by
          intro t ht
          unfold uTransport at hu
          cases ho : c.uopt <;> rw [ho] at hu <;> cases hu
          · simp only [List.mem_singleton] at ht; subst ht; rw [attach_labels]; simp
          · simp only [List.mem_cons, List.not_mem_nil, or_false] at ht
            rcases ht with ht | ht <;> subst ht
            · rw [attach_labels]; simp
            · simp
          · simp only [List.mem_singleton] at ht; subst ht; simp
        have hbase : t ∉ [massU c.M, massD c.M] ++ ut ++ [dTransport c p Xref, pgTerm c] := by
          intro hm
          simp only [List.mem_append, List.mem_cons, List.not_mem_nil, or_false] at hm
          rcases hm with ((hm | hm) | hm) | hm | hm
          · subst hm; simp [massU] at hl
          · subst hm; simp [massD] at hl
          · exact hut t hm hl
          · subst hm; simp [dTransport, attach_labels] at hl
          · subst hm; simp [pgTerm] at hl
        have htop : t ∉ topogTerms c := by
          unfold topogTerms
          intro hm
          cases hc : c.topog with
          | none => simp [hc] at hm
          | some B' => simp [hc] at hm; subst hm; simp [topogTerm] at hl
        split_ifs at hs with hr
        · cases hs
          rcases List.mem_append.1 ht with h | h
          · exact (hbase h).elim
          · exact (htop h).elim
        · cases hf : fexpr c with
          | error e => rw [hf] at hs; cases hs
          | ok f =>
            rw [hf] at hs
            cases hs
            rcases List.mem_append.1 ht with h | h
            · rcases List.mem_append.1 h with h | h
              · exact (hbase h).elim
              · exact ⟨f, by simpa using h⟩
            · exact (htop h).elim
    have hw : ∀ f, (corTerm c p f).form X v = 0 := by
      intro f
      unfold corTerm
      rw [attach_form]
      simp only [hv]
      exact corForm_work c.M c.G hG f X.u
    have hgen : ∀ t ∈ generateLinear Xref p r, "coriolis" ∈ t.labels → ∃ f, t.form = (corTerm c p f).form ∧
        (t.lin = none ∨ t.lin = some fun h v => corForm c.G c.M f h.u v.u) := by
      intro t ht hl
      unfold generateLinear at ht
      obtain ⟨t0, ht0, rfl⟩ := List.mem_map.1 ht
      have hl0 : "coriolis" ∈ t0.labels := by
        revert hl
        split_ifs
        · unfold linearise; split_ifs <;> exact id
        · exact id
      obtain ⟨f, rfl⟩ := key t0 ht0 hl0
      refine ⟨f, ?_, ?_⟩
      · split_ifs
        · unfold linearise; split_ifs <;> rfl
        · rfl
      · split_ifs with hc
        · unfold linearise
          split_ifs
          · simp only [Bool.and_eq_true, Option.isNone_iff_eq_none] at hc
            exact Or.inl hc.1
          · right
            simp only [Option.some.injEq]
            unfold corTerm attach
            split_ifs <;> rfl
        · unfold corTerm attach
          split_ifs
          · exact Or.inr rfl
          · exact Or.inl rfl
    constructor
    · intro t ht hl
      obtain ⟨f, hf, _⟩ := hgen t ht hl
      rw [hf]; exact hw f
    · intro t ht hl
      unfold lineariseSet at ht
      obtain ⟨t0, ht0, hm⟩ := List.mem_flatMap.1 ht
      cases hl0 : t0.lin with
      | none => rw [hl0] at hm; simp at hm
      | some l =>
        rw [hl0] at hm
        simp only [List.mem_singleton] at hm
        subst hm
        obtain ⟨f, _, hf⟩ := hgen t0 ht0 hl
        rcases hf with hf | hf
        · rw [hl0] at hf; cases hf
        · rw [hl0] at hf
          cases hf
          simp only [hv]
          exact corForm_work c.M c.G hG f X.u

/-- C95, Coriolis parameter: `f0` on the f-plane, `f0 + beta y` on the beta-plane, and on a sphere of the radius used
`2 Omega sin(latitude)`, so that it vanishes at the equator, is opposite on the two hemispheres and at most
`2 |Omega|`. -/
theorem C95_coriolis_values (c : Cfg K d C F B) (f : C → K) (h : fexpr c = .ok f) :
    (c.rot = .fplane → ∀ x, f x = c.f0) ∧ (c.rot = .betaplane → ∀ x, f x = c.f0 + c.beta * c.xyz x 1) ∧
    (c.rot = .sphere → c.radius ≠ 0 → ∀ x s, c.xyz x 2 = c.radius * s → f x = 2 * c.Omega * s) ∧
    (c.rot = .sphere → 0 < c.radius → ∀ x, c.xyz x 0 ^ 2 + c.xyz x 1 ^ 2 + c.xyz x 2 ^ 2 = c.radius ^ 2 →
      |f x| ≤ 2 * |c.Omega|) := by
  unfold fexpr at h
  refine ⟨fun hr => ?_, fun hr => ?_, fun hr hR x s hs => ?_, fun hr hR x hx => ?_⟩ <;> rw [hr] at h
  · cases h; exact fun _ => rfl
  · cases h; exact fun _ => rfl
  · simp only at h
    split_ifs at h
    cases h
    beta_reduce
    rw [hs]; field_simp
  · simp only at h
    split_ifs at h
    cases h
    beta_reduce
    rw [abs_div, abs_mul, abs_mul, abs_of_pos hR, abs_two, div_le_iff₀ hR]
    have hz : |c.xyz x 2| ≤ c.radius := by
      apply abs_le_of_sq_le_sq _ hR.le
      nlinarith [sq_nonneg (c.xyz x 0), sq_nonneg (c.xyz x 1)]
    exact mul_le_mul_of_nonneg_left hz (by positivity)

/-! ### C95: strong form -/

theorem press_parts (M : Mesh K d C F B) (g : K) (w : Ve K d C F B) (D : Sc K d C F B) (hw : Flow M w)
    (hD : Continuous D) (hd : DivThm M (Sc.const 1) D w) :
    pressGrad M g w D.c = cells M fun x => g * dot (w.c x) (D.g x) := by
  unfold DivThm at hd
  have h1 : ∑ x, M.wF x * ((Sc.const 1 : Sc K d C F B).p x * D.p x * dot (w.p x) (M.nP x) +
      (Sc.const 1 : Sc K d C F B).m x * D.m x * dot (w.m x) (M.nM x)) = 0 :=
    Finset.sum_eq_zero fun x _ => by rw [hw.1 x, hD x]; simp [Sc.const]
  have h2 : ∑ x, M.wB x * ((Sc.const 1 : Sc K d C F B).b x * D.b x * dot (w.b x) (M.nB x)) = 0 :=
    Finset.sum_eq_zero fun x _ => by rw [hw.2 x]; ring
  rw [h1, h2, add_zero] at hd
  unfold pressGrad cells
  have : ∑ x, M.wC x * (g * dot (w.c x) (D.g x)) - (-g * ∑ x, M.wC x * (w.div x * D.c x)) =
      g * ∑ x, M.wC x * (dot ((Sc.const 1 : Sc K d C F B).g x) (w.c x) * D.c x +
        (Sc.const 1 : Sc K d C F B).c x * dot (D.g x) (w.c x) + (Sc.const 1 : Sc K d C F B).c x * D.c x * w.div x) := by
    rw [neg_mul, sub_neg_eq_add, Finset.mul_sum, Finset.mul_sum, ← Finset.sum_add_distrib]
    refine Finset.sum_congr rfl fun x _ => ?_
    have e : dot ((Sc.const 1 : Sc K d C F B).g x) (w.c x) = 0 := by simp [Sc.const, dot]
    rw [e, dot_comm (D.g x)]
    simp [Sc.const]; ring
  rw [hd, mul_zero] at this
  linear_combination -this

/-- C95, momentum: for continuous depth and topography, tested with a velocity, the residual is the transport term plus
`f u^perp + g grad(D + B)`; tested with a scalar it is `div(D u)`. -/
theorem C95_momentum (c : Cfg K d C F B) (p : T K d C F B → Bool) (Xref X v : St K d C F B) (Bt : Sc K d C F B)
    (res : List (T K d C F B)) (h : shallowWater c p Xref = .ok res) (hB : c.topog = some Bt.c) (f : C → K)
    (hf : fexpr c = .ok f) (hr : c.rot ≠ .nonrotating)
    (hw : Flow c.M v.u) (hD : Continuous X.D) (hBc : Continuous Bt) (hdD : DivThm c.M (Sc.const 1) X.D v.u)
    (hdB : DivThm c.M (Sc.const 1) Bt v.u) :
    spatial res X v = uForm c X v
      + (∑ x, c.M.wC x * dot (v.u.c x) (fun i => f x * c.G.perp x (X.u.c x) i + c.g * (X.D.g x i + Bt.g x i)))
      + ∑ x, c.M.wC x * (v.D.c x * ∑ i, (X.D.g x i * X.u.c x i + X.D.c x * X.u.j x i i)) := by
  rw [sw_spatial c p Xref X v res h, if_neg hr, press_parts c.M c.g v.u X.D hw hD hdD]
  unfold tForm cForm
  rw [hB, hf]
  simp only
  rw [press_parts c.M c.g v.u Bt hw hBc hdB]
  unfold corForm cells contCells
  have e1 : ∑ x, c.M.wC x * (v.D.c x * (dot (X.D.g x) (X.u.c x) + X.D.c x * X.u.div x)) =
      ∑ x, c.M.wC x * (v.D.c x * ∑ i, (X.D.g x i * X.u.c x i + X.D.c x * X.u.j x i i)) := by
    refine Finset.sum_congr rfl fun x _ => ?_
    rw [Finset.sum_add_distrib, ← Finset.mul_sum]; rfl
  have e2 : (∑ x, c.M.wC x * (c.g * dot (v.u.c x) (X.D.g x))) + (∑ x, c.M.wC x * (f x * dot (c.G.perp x (X.u.c x)) (v.u.c x)))
      + ∑ x, c.M.wC x * (c.g * dot (v.u.c x) (Bt.g x)) =
      ∑ x, c.M.wC x * dot (v.u.c x) (fun i => f x * c.G.perp x (X.u.c x) i + c.g * (X.D.g x i + Bt.g x i)) := by
    rw [← Finset.sum_add_distrib, ← Finset.sum_add_distrib]
    refine Finset.sum_congr rfl fun x _ => ?_
    rw [dot_comm (c.G.perp x (X.u.c x))]
    have : dot (v.u.c x) (fun i => f x * c.G.perp x (X.u.c x) i + c.g * (X.D.g x i + Bt.g x i)) =
        f x * dot (v.u.c x) (c.G.perp x (X.u.c x)) + c.g * (dot (v.u.c x) (X.D.g x) + dot (v.u.c x) (Bt.g x)) := by
      rw [dot_add, dot_smul, dot_smul, dot_add]
    rw [this]; ring
  rw [e1, ← e2]; ring

/-! ### C95: a fluid at rest -/

theorem zero_axpy (e : K) : (Ve.add (Ve.zero : Ve K d C F B) (Ve.smul e Ve.zero)) = Ve.zero := by
  simp [Ve.add, Ve.smul, Ve.zero]

section Rest
variable (M : Mesh K d C F B)
theorem circ_zero_q (G : Geom K d C F B) (hG : Good G) (w u : Ve K d C F B) : circ G M w Ve.zero u = 0 := by
  have := circ_q M G hG w Ve.zero Ve.zero u 1
  rw [zero_axpy] at this; linarith
theorem circ_zero_u (G : Geom K d C F B) (hG : Good G) (w q : Ve K d C F B) : circ G M w q Ve.zero = 0 := by
  have := circ_u M G hG w q Ve.zero Ve.zero 1
  rw [zero_axpy] at this; linarith
theorem kin_zero (w u : Ve K d C F B) : kinE M w Ve.zero u = 0 := by
  have := kinE_q M w Ve.zero Ve.zero u 1
  rw [zero_axpy] at this; linarith
theorem adv_zero_q (w u : Ve K d C F B) : advVec M w Ve.zero u = 0 := by
  have := advVec_q M w Ve.zero Ve.zero u 1
  rw [zero_axpy] at this; linarith
theorem adv_zero_u (w q : Ve K d C F B) : advVec M w q Ve.zero = 0 := by
  have := advVec_u M w q Ve.zero Ve.zero 1
  rw [zero_axpy] at this; linarith
theorem cont_zero (φ q : Sc K d C F B) : contCells M φ q Ve.zero = 0 := by
  have := cont_u M φ q Ve.zero Ve.zero 1
  rw [zero_axpy] at this; linarith
theorem advs_zero (φ q : Sc K d C F B) : advCells M φ q Ve.zero = 0 := by
  have := adv_u M φ q Ve.zero Ve.zero 1
  rw [zero_axpy] at this; linarith
theorem cor_zero (G : Geom K d C F B) (hG : Good G) (f : C → K) (w : Ve K d C F B) : corForm G M f Ve.zero w = 0 := by
  have := cor_u M G hG f Ve.zero Ve.zero w 1
  rw [zero_axpy] at this; linarith
end Rest

theorem uForm_rest (c : Cfg K d C F B) (hG : Good c.G) (X v : St K d C F B) (hu : X.u = Ve.zero) : uForm c X v = 0 := by
  unfold uForm
  rw [hu]
  cases c.uopt <;> simp [circ_zero_u c.M c.G hG, kin_zero, adv_zero_u]

theorem cForm_rest (c : Cfg K d C F B) (hG : Good c.G) (X v : St K d C F B) (hu : X.u = Ve.zero) : cForm c X v = 0 := by
  unfold cForm
  rw [hu]
  cases fexpr c <;> simp [cor_zero c.M c.G hG]

/-- C95, lake at rest: a fluid at rest whose depth is a constant minus the projected topography is a steady state of the
discrete equations, for every velocity option and every rotation, although the residual contains the unprojected
topography: the divergence of a velocity is in the depth space, so that it does not see what the projection loses. -/
theorem C95_lake_at_rest (c : Cfg K d C F B) (hG : Good c.G) (p : T K d C F B → Bool) (Xref X v : St K d C F B)
    (res : List (T K d C F B)) (h : shallowWater c p Xref = .ok res) (Bt : C → K) (hB : c.topog = some Bt) (H : K)
    (hu : X.u = Ve.zero) (hD : ∀ x, X.D.c x = H - c.topogDG.c x)
    (hproj : ∑ x, c.M.wC x * (v.u.div x * (Bt x - c.topogDG.c x)) = 0)
    (hdiv : ∑ x, c.M.wC x * v.u.div x = 0) : spatial res X v = 0 := by
  rw [sw_spatial c p Xref X v res h, uForm_rest c hG X v hu, cForm_rest c hG X v hu, hu, cont_zero]
  unfold tForm
  rw [hB]
  simp only [ite_self]
  unfold pressGrad cells
  have : (∑ x, c.M.wC x * (v.u.div x * X.D.c x)) + ∑ x, c.M.wC x * (v.u.div x * Bt x) =
      H * (∑ x, c.M.wC x * v.u.div x) + ∑ x, c.M.wC x * (v.u.div x * (Bt x - c.topogDG.c x)) := by
    rw [Finset.mul_sum, ← Finset.sum_add_distrib, ← Finset.sum_add_distrib]
    exact Finset.sum_congr rfl fun x _ => by rw [hD]; ring
  rw [hproj, hdiv] at this
  linear_combination (-c.g) * this

/-! ### C95: the linear equations -/

theorem isDeriv_unique (N : St K d C F B → St K d C F B → K) (X : St K d C F B)
    (L L' : St K d C F B → St K d C F B → K) (h : IsDeriv N X L) (h' : IsDeriv N X L') (y v : St K d C F B) :
    L y v = L' y v := by
  obtain ⟨Q, hQ⟩ := h y v
  obtain ⟨Q', hQ'⟩ := h' y v
  have a := hQ 1
  have b := hQ (-1)
  have a' := hQ' 1
  have b' := hQ' (-1)
  have e1 : (2 : K) * (L y v - L' y v) = 0 := by linear_combination (-1) * a + b + a' - b'
  have := mul_eq_zero.1 e1
  rcases this with h2 | h2
  · norm_num at h2
  · linear_combination h2

theorem isDeriv_add (N N' : St K d C F B → St K d C F B → K) (X : St K d C F B)
    (L L' : St K d C F B → St K d C F B → K) (h : IsDeriv N X L) (h' : IsDeriv N' X L') :
    IsDeriv (fun X v => N X v + N' X v) X (fun h v => L h v + L' h v) := by
  intro y v
  obtain ⟨Q, hQ⟩ := h y v
  obtain ⟨Q', hQ'⟩ := h' y v
  exact ⟨Q + Q', fun e => by beta_reduce; rw [hQ e, hQ' e]; ring⟩

/-- The linear equations about a resting reference state. -/
theorem lin_spatial (c : Cfg K d C F B) (hG : Good c.G) (Xref X v : St K d C F B) (hu : Xref.u = Ve.zero)
    (lin : List (T K d C F B)) (h : linearShallowWater c (fun _ => true) Xref = .ok lin) :
    spatial lin X v = contCells c.M v.D Xref.D X.u + pressGrad c.M c.g v.u X.D.c
      + (if c.rot = .nonrotating then 0 else cForm c X v) := by
  unfold linearShallowWater shallowWater at h
  cases hs : setupResidual c (fun _ => true) Xref [massU c.M, massD c.M] with
  | error e => rw [hs] at h; cases h
  | ok r =>
    rw [hs] at h
    cases h
    rw [spatial_lin]
    have hd := setup_deriv c hG Xref _ r (by
      intro t ht
      simp only [List.mem_cons, List.not_mem_nil, or_false] at ht
      rcases ht with ht | ht <;> subst ht
      · exact massU_deriv c hG Xref
      · exact massD_deriv c hG Xref) hs
    have h1 := isDeriv_list (r.filter notTD) Xref (eff Xref) fun t ht => hd t (List.mem_of_mem_filter ht)
    have hval : ∀ X v, ((r.filter notTD).map fun t => t.form X v).sum = uForm c X v + contCells c.M v.D X.D X.u
        + pressGrad c.M c.g v.u X.D.c + (if c.rot = .nonrotating then 0 else cForm c X v) + tForm c v := by
      intro X v
      rw [setup_value c _ Xref X v _ r hs notTD
        (by intro t ht; unfold notTD; rcases ht with ht | ht | ht | ht <;> rw [ht] <;> decide)
        (by intro t ht; simp only [List.mem_cons, List.not_mem_nil, or_false] at ht
            rcases ht with ht | ht <;> subst ht <;> rfl)]
      have : notTD (pgTerm c) = true := rfl
      rw [if_pos this]
    have h2 : IsDeriv (fun X v => ((r.filter notTD).map fun t => t.form X v).sum) Xref
        (fun X v => contCells c.M v.D Xref.D X.u + pressGrad c.M c.g v.u X.D.c
          + (if c.rot = .nonrotating then 0 else cForm c X v)) := by
      have hu1 : IsDeriv (uForm c) Xref (fun _ _ => 0) := by
        intro y w
        have hvi := vi_deriv c hG Xref y w
        have hav := av_deriv c Xref y w
        simp only [hu, circ_zero_u c.M c.G hG, circ_zero_q c.M c.G hG, kin_zero, adv_zero_u, adv_zero_q,
          kinE_comm c.M w.u y.u Ve.zero] at hvi hav
        unfold uForm
        cases c.uopt
        · obtain ⟨Q, hQ⟩ := hvi; exact ⟨Q, fun e => by simp only [hu, hQ e, circ_zero_u c.M c.G hG, kin_zero]; ring⟩
        · obtain ⟨Q, hQ⟩ := hvi; exact ⟨Q, fun e => by simp only [hu, hQ e, circ_zero_u c.M c.G hG, kin_zero]; ring⟩
        · obtain ⟨Q, hQ⟩ := hav; exact ⟨Q, fun e => by simp only [hu, hQ e, adv_zero_u]; ring⟩
        · exact ⟨0, fun e => by ring⟩
      have hdt : IsDeriv (fun X v => contCells c.M v.D X.D X.u) Xref (fun h v => contCells c.M v.D Xref.D h.u) := by
        intro y w
        obtain ⟨Q, hQ⟩ := dt_deriv c Xref y w
        exact ⟨Q, fun e => by rw [hQ e, hu]; beta_reduce; rw [cont_zero]; ring⟩
      have hcor : IsDeriv (fun X v => if c.rot = .nonrotating then 0 else cForm c X v) Xref
          (fun X v => if c.rot = .nonrotating then 0 else cForm c X v) := by
        split_ifs
        · exact fun _ _ => ⟨0, fun e => by ring⟩
        · unfold cForm
          cases fexpr c with
          | error _ => exact fun _ _ => ⟨0, fun e => by ring⟩
          | ok f => exact cor_deriv c hG Xref f
      have htf : IsDeriv (fun _ v => tForm c v) Xref (fun _ _ => 0) := fun _ _ => ⟨0, fun e => by ring⟩
      have := isDeriv_add _ _ _ _ _ (isDeriv_add _ _ _ _ _ (isDeriv_add _ _ _ _ _ (isDeriv_add _ _ _ _ _ hu1 hdt)
        (pg_deriv c Xref)) hcor) htf
      intro y w
      obtain ⟨Q, hQ⟩ := this y w
      refine ⟨Q, fun e => ?_⟩
      have := hQ e
      simp only [hval]
      simp only [pgTerm] at this
      rw [this]; ring
    exact isDeriv_unique _ Xref _ _ h1 h2 X v

/-- C95, linear equations: about a resting state of constant depth `H` they are `f u^perp + g grad D` and `H div u`, for
every velocity option; the test against every velocity and every scalar. -/
theorem C95_linear_form (c : Cfg K d C F B) (hG : Good c.G) (Xref X v : St K d C F B) (H : K) (hu : Xref.u = Ve.zero)
    (hH : Xref.D = Sc.const H) (f : C → K) (hf : fexpr c = .ok f) (hr : c.rot ≠ .nonrotating)
    (lin : List (T K d C F B)) (h : linearShallowWater c (fun _ => true) Xref = .ok lin) :
    spatial lin X v = (∑ x, c.M.wC x * (f x * dot (c.G.perp x (X.u.c x)) (v.u.c x)))
      - c.g * (∑ x, c.M.wC x * (v.u.div x * X.D.c x)) + H * ∑ x, c.M.wC x * (v.D.c x * X.u.div x) := by
  rw [lin_spatial c hG Xref X v hu lin h, if_neg hr, hH]
  unfold cForm
  rw [hf]
  simp only
  have : contCells c.M v.D (Sc.const H) X.u = H * ∑ x, c.M.wC x * (v.D.c x * X.u.div x) := by
    unfold contCells
    rw [Finset.mul_sum]
    refine Finset.sum_congr rfl fun x _ => ?_
    have : dot ((Sc.const H : Sc K d C F B).g x) (X.u.c x) = 0 := by simp [Sc.const, dot]
    rw [this]; simp only [Sc.const]; ring
  rw [this]
  unfold corForm pressGrad cells
  ring

/-- C95, refuted: the linear equations are documented with the pressure gradient `g grad(D + B)`, but the topography,
which does not contain the state, is dropped with the terms that have no linearisation: the linear equations are the same
with every topography and with none. -/
theorem C95_linear_topography_refuted (c : Cfg K d C F B) (p : T K d C F B → Bool) (Xref : St K d C F B)
    (Bt : C → K) : linearShallowWater { c with topog := some Bt } p Xref = linearShallowWater { c with topog := none } p Xref := by
  have hl : ∀ a b : List (T K d C F B), lineariseSet (a ++ b) = lineariseSet a ++ lineariseSet b := by
    intro a b; simp [lineariseSet]
  have hg : ∀ a b : List (T K d C F B), generateLinear Xref p (a ++ b) = generateLinear Xref p a ++ generateLinear Xref p b := by
    intro a b; simp [generateLinear]
  have ht : lineariseSet (generateLinear Xref p (topogTerms { c with topog := some Bt })) = [] := by
    by_cases hp : p (topogTerm { c with topog := some Bt } Bt) = true
    · simp [topogTerms, generateLinear, lineariseSet, hp]
      simp [topogTerm, linearise]
    · simp [topogTerms, generateLinear, lineariseSet, hp]
      simp [topogTerm]
  have hn : lineariseSet (generateLinear Xref p (topogTerms { c with topog := none })) = [] := rfl
  unfold linearShallowWater shallowWater setupResidual
  have hu : uTransport { c with topog := some Bt } p Xref = uTransport { c with topog := none } p Xref := rfl
  have hf : fexpr { c with topog := some Bt } = fexpr { c with topog := none } := rfl
  rw [hu, hf]
  cases uTransport { c with topog := none } p Xref with
  | error e => rfl
  | ok ut =>
    simp only
    split_ifs
    · simp only [Except.map, hg, hl, ht, hn]; rfl
    · cases fexpr { c with topog := none } with
      | error e => rfl
      | ok f => simp only [Except.map, hg, hl, ht, hn]; rfl

/-! ### C95: energy of the linear equations -/

/-- The energy of the linear equations with mean depth `H`. -/
def energy (M : Mesh K d C F B) (H g : K) (X : St K d C F B) : K :=
  1 / 2 * ∑ x, M.wC x * (H * dot (X.u.c x) (X.u.c x) + g * X.D.c x ^ 2)

/-- `(H u, g D)`, the derivative of the energy. -/
def dEnergy (H g : K) (X : St K d C F B) : St K d C F B := { X with u := Ve.smul H X.u, D := Sc.smul g X.D }

/-- C95, energy: the spatial part of the linear equations about a resting state of constant depth, tested with the
derivative of the energy, vanishes for every state: the semi-discrete equations conserve energy exactly. -/
theorem C95_energy (c : Cfg K d C F B) (hG : Good c.G) (Xref X : St K d C F B) (H : K) (hu : Xref.u = Ve.zero)
    (hH : Xref.D = Sc.const H) (lin : List (T K d C F B))
    (h : linearShallowWater c (fun _ => true) Xref = .ok lin) : spatial lin X (dEnergy H c.g X) = 0 := by
  rw [lin_spatial c hG Xref X _ hu lin h, hH]
  have h1 : (if c.rot = .nonrotating then 0 else cForm c X (dEnergy H c.g X)) = 0 := by
    split_ifs
    · rfl
    · unfold cForm
      cases fexpr c with
      | error _ => rfl
      | ok f =>
        simp only [corForm, cells, dEnergy, SW.Ve.smul]
        exact Finset.sum_eq_zero fun x _ => by rw [dot_smul, hG.skew]; ring
  rw [h1, add_zero]
  unfold contCells pressGrad cells
  rw [Finset.mul_sum, ← Finset.sum_add_distrib]
  refine Finset.sum_eq_zero fun x _ => ?_
  have e1 : dot ((Sc.const H : Sc K d C F B).g x) (X.u.c x) = 0 := by simp [Sc.const, dot]
  have e2 : (dEnergy H c.g X).u.div x = H * X.u.div x := by
    simp only [dEnergy, DG.Ve.div, SW.Ve.smul, Finset.mul_sum]
  beta_reduce
  rw [e1, e2]
  simp only [dEnergy, Sc.const, SW.Sc.smul]; ring

/-- A product of a velocity space and a scalar space: combinations of each component. -/
def ProductSpace (V : Set (St K d C F B)) : Prop :=
  ∀ X ∈ V, ∀ Y ∈ V, ∀ a b a' b' : K,
    ({ X with u := Ve.add (Ve.smul a X.u) (Ve.smul b Y.u), D := Sc.add (Sc.smul a' X.D) (Sc.smul b' Y.D) } : St K d C F B) ∈ V

/-- The residual as the labelled form that the time discretisations use, tested with the functions of `V`. -/
def labelled (V : Set (St K d C F B)) (X0 : St K d C F B) (res : List (T K d C F B)) :
    Gusto.LForm (St K d C F B) (V → K) :=
  res.map fun t => { labels := if "time_derivative" ∈ t.labels then [.timeDerivative] else [],
                     op := fun X v => t.form X v, subj := X0 }

theorem labelled_mass (V : Set (St K d C F B)) (X0 X : St K d C F B) (res : List (T K d C F B)) (v : V) :
    Gusto.Spec.mass (labelled V X0 res) X v = temporal res X v := by
  unfold Gusto.Spec.mass Gusto.Spec.part temporal labelled
  rw [value_apply]
  induction res with
  | nil => rfl
  | cons t ts ih =>
    simp only [List.map_cons, List.filter_cons]
    by_cases h : "time_derivative" ∈ t.labels
    · simp only [h, if_true, List.mem_singleton, decide_true, List.map_cons, List.sum_cons, Pi.add_apply]
      rw [ih]
    · simp only [h, if_false, List.not_mem_nil, decide_false, Bool.false_eq_true]
      exact ih

theorem labelled_rest (V : Set (St K d C F B)) (X0 X : St K d C F B) (res : List (T K d C F B)) (v : V) :
    Gusto.Spec.rest (labelled V X0 res) X v = spatial res X v := by
  unfold Gusto.Spec.rest Gusto.Spec.part spatial labelled
  rw [value_apply]
  induction res with
  | nil => rfl
  | cons t ts ih =>
    simp only [List.map_cons, List.filter_cons]
    by_cases h : "time_derivative" ∈ t.labels
    · simp only [h, if_true, List.mem_singleton, not_true_eq_false, decide_false, decide_true, Bool.not_true,
        Bool.false_eq_true, if_false]
      exact ih
    · simp only [h, if_false, List.not_mem_nil, decide_false, Bool.not_false, not_false_eq_true, decide_true,
        if_true, List.map_cons, List.sum_cons, Pi.add_apply]
      rw [ih]

theorem setup_td (c : Cfg K d C F B) (p : T K d C F B → Bool) (Xref : St K d C F B)
    (masses res : List (T K d C F B)) (h : setupResidual c p Xref masses = .ok res)
    (hm : ∀ t ∈ masses, "time_derivative" ∈ t.labels) :
    res.filter (fun t => decide ("time_derivative" ∈ t.labels)) = masses := by
  unfold setupResidual at h
  cases hu : uTransport c p Xref with
  | error e => rw [hu] at h; cases h
  | ok ut =>
    rw [hu] at h
    simp only at h
    have hut : ut.filter (fun t => decide ("time_derivative" ∈ t.labels)) = [] := by
      apply List.filter_eq_nil_iff.2
      intro t ht
      unfold uTransport at hu
      cases ho : c.uopt <;> rw [ho] at hu <;> cases hu
      · simp only [List.mem_singleton] at ht; subst ht; rw [attach_labels]; simp
      · simp only [List.mem_cons, List.not_mem_nil, or_false] at ht
        rcases ht with ht | ht <;> subst ht
        · rw [attach_labels]; simp
        · simp
      · simp only [List.mem_singleton] at ht; subst ht; simp
    have hm' : masses.filter (fun t => decide ("time_derivative" ∈ t.labels)) = masses :=
      List.filter_eq_self.2 fun t ht => by simp [hm t ht]
    have htop : (topogTerms c).filter (fun t => decide ("time_derivative" ∈ t.labels)) = [] := by
      apply List.filter_eq_nil_iff.2
      intro t ht
      unfold topogTerms at ht
      cases hc : c.topog with
      | none => simp [hc] at ht
      | some B' => simp [hc] at ht; subst ht; simp [topogTerm]
    have hD : "time_derivative" ∉ (dTransport c p Xref).labels := by
      unfold dTransport; rw [attach_labels]; simp
    have hP : "time_derivative" ∉ (pgTerm c).labels := by simp [pgTerm]
    split_ifs at h with hr
    · cases h
      simp only [List.filter_append, hm', hut, htop, List.filter_cons, hD, hP, decide_false, List.filter_nil]
      simp
    · cases hf : fexpr c with
      | error e => rw [hf] at h; cases h
      | ok f =>
        rw [hf] at h
        cases h
        have hC : "time_derivative" ∉ (corTerm c p f).labels := by
          unfold corTerm; rw [attach_labels]; simp
        simp only [List.filter_append, hm', hut, htop, List.filter_cons, hD, hP, hC, decide_false, List.filter_nil]
        simp

theorem lin_temporal (c : Cfg K d C F B) (Xref X v : St K d C F B) (lin : List (T K d C F B))
    (h : linearShallowWater c (fun _ => true) Xref = .ok lin) :
    temporal lin X v = ∑ x, c.M.wC x * (dot (X.u.c x) (v.u.c x) + X.D.c x * v.D.c x) := by
  unfold linearShallowWater shallowWater at h
  cases hs : setupResidual c (fun _ => true) Xref [massU c.M, massD c.M] with
  | error e => rw [hs] at h; cases h
  | ok r =>
    rw [hs] at h
    cases h
    unfold temporal
    rw [lin_filter _ (fun _ _ => rfl), gen_filter _ (fun _ _ => rfl), value_linear,
      setup_td c _ Xref _ r hs (by simp [massU, massD])]
    simp only [List.map_cons, List.map_nil, List.sum_cons, List.sum_nil, add_zero]
    simp only [eff, massU, massD, cells]
    simp only [Bool.false_eq_true, if_false]
    rw [← Finset.sum_add_distrib]
    exact Finset.sum_congr rfl fun x _ => by ring

/-- The spatial part of the linear equations is linear in the state. -/
theorem lin_spatial_axpy (c : Cfg K d C F B) (hG : Good c.G) (Xref X Y v : St K d C F B) (e : K)
    (hu : Xref.u = Ve.zero) (lin : List (T K d C F B)) (h : linearShallowWater c (fun _ => true) Xref = .ok lin) :
    spatial lin (axpy X e Y) v = spatial lin X v + e * spatial lin Y v := by
  rw [lin_spatial c hG Xref _ v hu lin h, lin_spatial c hG Xref _ v hu lin h, lin_spatial c hG Xref _ v hu lin h]
  simp only [axpy, St.add, St.smul, cont_u, press_D]
  by_cases hr : c.rot = .nonrotating
  · simp only [hr, if_true]; ring
  · simp only [hr, if_false, cForm]
    cases fexpr c with
    | error _ => simp only; ring
    | ok f => simp only [cor_u c.M c.G hG]; ring

/-- C95, energy of a step: if the theta method steps the linear equations from `X` to `Y`, the energy changes by
`(1 - 2 theta)` times the energy of the increment, for every timestep, state and mesh: the trapezium rule conserves it
exactly, and with positive weights, depth and gravity `theta > 1/2` never increases it. -/
theorem C95_theta_energy (c : Cfg K d C F B) (hG : Good c.G) (Xref X0 X Y : St K d C F B) (H dt th : K)
    (hu : Xref.u = Ve.zero) (hH : Xref.D = Sc.const H) (lin : List (T K d C F B))
    (h : linearShallowWater c (fun _ => true) Xref = .ok lin) (V : Set (St K d C F B)) (hV : ProductSpace V)
    (hX : X ∈ V) (hY : Y ∈ V)
    (hstep : (Gusto.TimeDisc.thetaRes (labelled V X0 lin) dt th Y X).eval = 0) :
    energy c.M H c.g Y - energy c.M H c.g X = (1 - 2 * th) * energy c.M H c.g (axpy Y (-1) X) := by
  rw [Gusto.Props.C07_theta] at hstep
  -- the state at which the tendency is evaluated, and its derivative of energy
  let Z : St K d C F B := axpy (St.smul th Y) (1 - th) X
  let v : St K d C F B := { Y with u := Ve.add (Ve.smul (H * th) Y.u) (Ve.smul (H * (1 - th)) X.u),
                                   D := Sc.add (Sc.smul (c.g * th) Y.D) (Sc.smul (c.g * (1 - th)) X.D) }
  have hv : v ∈ V := hV Y hY X hX _ _ _ _
  have hs := congrFun hstep ⟨v, hv⟩
  simp only [Pi.add_apply, Pi.sub_apply, Pi.smul_apply, smul_eq_mul, labelled_mass, labelled_rest] at hs
  -- the tendency does no work
  have hZ : spatial lin Z v = 0 := by
    have := C95_energy c hG Xref Z H hu hH lin h
    rw [lin_spatial c hG Xref Z _ hu lin h] at this ⊢
    have e1 : (dEnergy H c.g Z).u = v.u := by
      simp only [dEnergy, Z, v, axpy, St.add, St.smul, SW.Ve.add, SW.Ve.smul]
      congr 1 <;> (funext; ring)
    have e2 : (dEnergy H c.g Z).D = v.D := by
      simp only [dEnergy, Z, v, axpy, St.add, St.smul, SW.Sc.add, SW.Sc.smul]
      congr 1 <;> (funext; ring)
    have e3 : ∀ A A' : St K d C F B, A.u = A'.u → cForm c Z A = cForm c Z A' := by
      intro A A' hA; unfold cForm; cases fexpr c <;> simp [hA]
    rw [e1, e2, e3 _ v e1] at this
    exact this
  have hZlin : spatial lin Z v = th * spatial lin Y v + (1 - th) * spatial lin X v := by
    have hzero : spatial lin (axpy Y (th - 1) Y) v = spatial lin Y v + (th - 1) * spatial lin Y v :=
      lin_spatial_axpy c hG Xref Y Y v (th - 1) hu lin h
    have e : axpy Y (th - 1) Y = St.smul th Y := by
      simp only [axpy, St.add, St.smul, SW.Ve.add, SW.Ve.smul, SW.Sc.add, SW.Sc.smul]
      congr 2 <;> (funext; ring)
    rw [e] at hzero
    rw [lin_spatial_axpy c hG Xref (St.smul th Y) X v (1 - th) hu lin h, hzero]; ring
  rw [hZ] at hZlin
  have hmass : temporal lin Y v = temporal lin X v := by linear_combination hs + dt * hZlin
  rw [lin_temporal c Xref Y v lin h, lin_temporal c Xref X v lin h] at hmass
  have key : energy c.M H c.g Y - energy c.M H c.g X - (1 - 2 * th) * energy c.M H c.g (axpy Y (-1) X) =
      (∑ x, c.M.wC x * (dot (Y.u.c x) (v.u.c x) + Y.D.c x * v.D.c x)) -
        ∑ x, c.M.wC x * (dot (X.u.c x) (v.u.c x) + X.D.c x * v.D.c x) := by
    unfold energy
    simp only [Finset.mul_sum]
    rw [← Finset.sum_sub_distrib, ← Finset.sum_sub_distrib, ← Finset.sum_sub_distrib]
    refine Finset.sum_congr rfl fun x _ => ?_
    have d1 : ∀ a : Fin d → K, dot a (v.u.c x) = H * th * dot a (Y.u.c x) + H * (1 - th) * dot a (X.u.c x) := by
      intro a
      have : v.u.c x = fun i => H * th * Y.u.c x i + H * (1 - th) * X.u.c x i := rfl
      rw [this, dot_add, dot_smul, dot_smul]
    have d2 : v.D.c x = c.g * th * Y.D.c x + c.g * (1 - th) * X.D.c x := rfl
    have d3 : (axpy Y (-1) X).u.c x = fun i => Y.u.c x i + (-1) * X.u.c x i := rfl
    have d4 : (axpy Y (-1) X).D.c x = Y.D.c x + (-1) * X.D.c x := rfl
    rw [d1, d1, d2, d3, d4, dot_axpy_left, dot_axpy_right, dot_axpy_right, dot_comm (X.u.c x) (Y.u.c x)]
    ring
  rw [hmass, sub_self] at key
  linear_combination key

/-- C95, consequences for the trapezium rule and for off-centred schemes. -/
theorem C95_trapezium_energy (c : Cfg K d C F B) (hG : Good c.G) (Xref X0 X Y : St K d C F B) (H dt th : K)
    (hu : Xref.u = Ve.zero) (hH : Xref.D = Sc.const H) (lin : List (T K d C F B))
    (h : linearShallowWater c (fun _ => true) Xref = .ok lin) (V : Set (St K d C F B)) (hV : ProductSpace V)
    (hX : X ∈ V) (hY : Y ∈ V) (hw : ∀ x, 0 ≤ c.M.wC x) (hH0 : 0 ≤ H) (hg : 0 ≤ c.g) :
    ((Gusto.TimeDisc.trapeziumRes (labelled V X0 lin) dt Y X).eval = 0 →
      energy c.M H c.g Y = energy c.M H c.g X) ∧
    (1 / 2 ≤ th → (Gusto.TimeDisc.thetaRes (labelled V X0 lin) dt th Y X).eval = 0 →
      energy c.M H c.g Y ≤ energy c.M H c.g X) := by
  constructor
  · intro hs
    have := C95_theta_energy c hG Xref X0 X Y H dt (1 / 2) hu hH lin h V hV hX hY hs
    linear_combination this
  · intro hth hs
    have := C95_theta_energy c hG Xref X0 X Y H dt th hu hH lin h V hV hX hY hs
    have hE : 0 ≤ energy c.M H c.g (axpy Y (-1) X) := by
      unfold energy
      apply mul_nonneg (by norm_num)
      refine Finset.sum_nonneg fun x _ => mul_nonneg (hw x) (add_nonneg (mul_nonneg hH0 ?_) (mul_nonneg hg (sq_nonneg _)))
      exact Finset.sum_nonneg fun i _ => mul_self_nonneg _
    nlinarith

/-! ### A concrete mesh: two square cells of a doubly periodic box, functions of `x`, midpoint rule -/

/-- The facets `0` and `1` are between the cells, `2` and `3` are the horizontal facets of the cells `0` and `1`. -/
def box : Mesh ℚ 2 (Fin 2) (Fin 4) (Fin 0) where
  wC _ := 1
  wF _ := 1
  wB _ := 1
  nP f i := if f.1 < 2 then (if i = 0 then 1 else 0) else (if i = 0 then 0 else 1)
  nM f i := -(if f.1 < 2 then (if i = 0 then 1 else 0) else (if i = 0 then 0 else 1))
  nB _ _ := 0

/-- The scalar that is linear in each cell, with values `l`, `r` at its left and right ends. -/
def bsc (l r : Fin 2 → ℚ) : Sc ℚ 2 (Fin 2) (Fin 4) (Fin 0) where
  c x := (l x + r x) / 2
  g x i := if i = 0 then r x - l x else 0
  p f := if f = 0 then r 0 else if f = 1 then r 1 else if f = 2 then (l 0 + r 0) / 2 else (l 1 + r 1) / 2
  m f := if f = 0 then l 1 else if f = 1 then l 0 else if f = 2 then (l 0 + r 0) / 2 else (l 1 + r 1) / 2
  b _ := 0
  gp f i := if i = 0 then (if f = 0 ∨ f = 2 then r 0 - l 0 else r 1 - l 1) else 0
  gm f i := if i = 0 then (if f = 1 ∨ f = 2 then r 0 - l 0 else r 1 - l 1) else 0

/-- The velocity whose first component is continuous with values `a 0`, `a 1` at the facets between the cells and whose
second component is `s`. -/
def bve (a : Fin 2 → ℚ) (s : ℚ) : Ve ℚ 2 (Fin 2) (Fin 4) (Fin 0) where
  c _ i := if i = 0 then (a 0 + a 1) / 2 else s
  j x i k := if i = 0 ∧ k = 0 then (if x = 0 then a 0 - a 1 else a 1 - a 0) else 0
  p f i := if i = 0 then (if f = 0 then a 0 else if f = 1 then a 1 else (a 0 + a 1) / 2) else s
  m f i := if i = 0 then (if f = 0 then a 0 else if f = 1 then a 1 else (a 0 + a 1) / 2) else s
  b _ _ := 0

theorem box_ok (l r a : Fin 2 → ℚ) (s : ℚ) : DivThm box (Sc.const 1) (bsc l r) (bve a s) ∧ Flow box (bve a s) := by
  refine ⟨?_, ?_, fun x => x.elim0⟩
  · simp [DivThm, box, bsc, bve, dot, DG.Ve.div, Fin.sum_univ_two, Fin.sum_univ_four, Sc.const]; ring
  · intro x
    fin_cases x <;> simp [box, bve, dot, Fin.sum_univ_two]

/-- A configuration on that mesh. -/
def boxCfg (g f0 : ℚ) (uopt : UOpt) (topog : Option (Fin 2 → ℚ)) (topogDG : Sc ℚ 2 (Fin 2) (Fin 4) (Fin 0)) :
    Cfg ℚ 2 (Fin 2) (Fin 4) (Fin 0) where
  M := box
  G := plane
  onSphere := false
  g := g
  f0 := f0
  beta := 0
  Omega := 0
  xyz _ _ := 0
  radius := 1
  rot := .fplane
  uopt := uopt
  topog := topog
  topogDG := topogDG

/-- A state on that mesh. -/
def boxSt (a : Fin 2 → ℚ) (s : ℚ) (Dl Dr bl br : Fin 2 → ℚ) : St ℚ 2 (Fin 2) (Fin 4) (Fin 0) :=
  ⟨bve a s, bsc Dl Dr, bsc bl br, Sc.const 0⟩

/-- The hypotheses of `C95_theta_energy` hold for an inertial oscillation: `f dt = 1`, the velocity turns from `(1, 0)` to
`(3/5, -4/5)` in a step of the trapezium rule; its energy is not zero. -/
example : ∃ lin, linearShallowWater (boxCfg 10 1 .vectorInvariant none (Sc.const 0)) (fun _ => true)
      ⟨Ve.zero, Sc.const 3, Sc.const 0, Sc.const 0⟩ = .ok lin ∧
    (Gusto.TimeDisc.trapeziumRes (labelled Set.univ (boxSt 0 0 0 0 0 0) lin) (1 : ℚ)
      (boxSt (fun _ => 3 / 5) (-4 / 5) 0 0 0 0) (boxSt (fun _ => 1) 0 0 0 0 0)).eval = 0 ∧
    ProductSpace (Set.univ : Set (St ℚ 2 (Fin 2) (Fin 4) (Fin 0))) ∧
    energy box 3 10 (boxSt (fun _ => 1) 0 0 0 0 0) = 3 := by
  have hacc := (C95_accepts (boxCfg 10 1 .vectorInvariant none (Sc.const 0)) (fun _ => true)
    ⟨Ve.zero, Sc.const 3, Sc.const 0, Sc.const 0⟩).2 ⟨by decide, by right; left; rfl⟩
  obtain ⟨res, hres⟩ := hacc
  have hlin : linearShallowWater (boxCfg 10 1 .vectorInvariant none (Sc.const 0)) (fun _ => true)
      ⟨Ve.zero, Sc.const 3, Sc.const 0, Sc.const 0⟩ = .ok (lineariseSet res) := by
    unfold linearShallowWater; rw [hres]; rfl
  refine ⟨lineariseSet res, hlin, ?_, fun _ _ _ _ _ _ _ _ => trivial, ?_⟩
  · rw [Gusto.Props.C07_trapezium _ _ (by norm_num)]
    funext v
    simp only [Pi.add_apply, Pi.sub_apply, Pi.smul_apply, smul_eq_mul, labelled_mass, labelled_rest]
    rw [lin_temporal _ _ _ _ _ hlin, lin_temporal _ _ _ _ _ hlin,
      lin_spatial _ C95_plane_good _ _ _ rfl _ hlin, lin_spatial _ C95_plane_good _ _ _ rfl _ hlin]
    simp [boxCfg, boxSt, box, bve, bsc, cForm, fexpr, corForm, cells, plane, DG.perp, contCells, pressGrad, dot,
      DG.Ve.div, Fin.sum_univ_two, Sc.const]
    ring
  · simp [energy, boxSt, box, bve, bsc, dot, Fin.sum_univ_two]

/-- The hypotheses of `C95_lake_at_rest` and `C95_momentum` hold on that mesh for every velocity test function. -/
example (a l r : Fin 2 → ℚ) (s H : ℚ) : (∑ x, box.wC x * (bve a s).div x = 0) ∧
    (∑ x, box.wC x * ((bve a s).div x * ((bsc l r).c x - (bsc (fun i => (l i + r i) / 2) (fun i => (l i + r i) / 2)).c x)) = 0) ∧
    (∀ x, (bsc (fun i => H - (l i + r i) / 2) (fun i => H - (l i + r i) / 2)).c x =
      H - (bsc (fun i => (l i + r i) / 2) (fun i => (l i + r i) / 2)).c x) := by
  refine ⟨?_, ?_, fun x => ?_⟩
  · simp [box, bve, DG.Ve.div, Fin.sum_univ_two]
  · simp [box, bve, bsc, DG.Ve.div, Fin.sum_univ_two]
  · simp only [bsc]; ring

/-- C95, refuted: the advection form of a vector is not `(u . grad) u`: UFL contracts the components, which gives the
gradient of the kinetic energy (`u_i d_j u_i`) for every velocity, and no advection at all of a shear flow. -/
theorem C95_vector_advection_refuted (M : Mesh K d C F B) (w u : Ve K d C F B) :
    (advVec M w u u = ∑ x, M.wC x * ∑ j, w.c x j * ∑ i, u.c x i * u.j x i j) ∧
    ∃ (M : Mesh ℚ 2 Unit Empty Empty) (w u : Ve ℚ 2 Unit Empty Empty),
      (∑ x, M.wC x * ∑ i, w.c x i * ∑ j, u.c x j * u.j x i j) = 1 ∧ advVec M w u u = 0 := by
  refine ⟨rfl, ⟨fun _ => 1, fun _ => 1, fun _ => 1, nofun, nofun, nofun⟩,
    ⟨fun _ i => if i = 0 then 1 else 0, fun _ _ _ => 0, nofun, nofun, nofun⟩,
    ⟨fun _ i => if i = 0 then 0 else 1, fun _ i k => if i = 0 ∧ k = 1 then 1 else 0, nofun, nofun, nofun⟩, ?_, ?_⟩
  · simp [Fin.sum_univ_two]
  · simp [advVec, cells, dot, Fin.sum_univ_two]

/-! ### C96: thermal shallow water -/

/-- The label test of the thermal equations on the terms of the super class, without time derivatives. -/
def keepT (t : T K d C F B) : Bool := notTD t && !decide ("pressure_gradient" ∈ t.labels)

theorem thermal_spatial (c : Cfg K d C F B) (p : T K d C F B → Bool) (Xref X v : St K d C F B)
    (res : List (T K d C F B)) (h : thermalShallowWater c p Xref = .ok res) :
    spatial res X v = uForm c X v + contCells c.M v.D X.D X.u
      + (if c.rot = .nonrotating then 0 else cForm c X v) + tForm c v + thermalSource c.M v.u X.D X.b
      + advCells c.M v.b X.b X.u + (if c.topog.isSome then grad1 c.M v.u X.b c.topogDG else 0) := by
  unfold thermalShallowWater at h
  cases hs : setupResidual c p Xref [massU c.M, massD c.M, massB c.M] with
  | error e => rw [hs] at h; cases h
  | ok r =>
    rw [hs] at h
    cases h
    rw [spatial_gen, List.filter_append, List.filter_append, List.map_append, List.map_append, List.sum_append,
      List.sum_append, List.filter_filter]
    have h1 : r.filter (fun t => notTD t && !decide ("pressure_gradient" ∈ t.labels)) = r.filter keepT := rfl
    rw [h1, setup_value c p Xref X v _ r hs keepT
      (by intro t ht; unfold keepT notTD; rcases ht with ht | ht | ht | ht <;> rw [ht] <;> decide)
      (by intro t ht; simp only [List.mem_cons, List.not_mem_nil, or_false] at ht
          rcases ht with ht | ht | ht <;> subst ht <;> rfl)]
    have h2 : keepT (pgTerm c) = false := rfl
    have h3 : notTD (thermalSourceTerm c Xref) = true := rfl
    have h4 : notTD (bTransport c p Xref) = true := by
      unfold notTD bTransport; rw [attach_labels]; rfl
    have h5 : notTD (thermalTopogTerm c) = true := rfl
    have h6 : (bTransport c p Xref).form X v = advCells c.M v.b X.b X.u := by
      unfold bTransport; rw [attach_form]
    simp only [h2, Bool.false_eq_true, if_false, List.filter_cons, h3, h4, if_true, List.filter_nil, List.map_cons,
      List.map_nil, List.sum_cons, List.sum_nil, h6, add_zero]
    by_cases ht : c.topog.isSome = true
    · simp only [ht, if_true, List.filter_cons, h5, List.filter_nil, List.map_cons, List.map_nil, List.sum_cons,
        List.sum_nil, add_zero]
      simp only [thermalSourceTerm, thermalTopogTerm]; ring
    · simp only [ht, if_false, List.filter_nil, List.map_nil, List.sum_nil, Bool.false_eq_true]
      simp only [thermalSourceTerm]; ring

theorem grad1_const_left (M : Mesh K d C F B) (w : Ve K d C F B) (D : Sc K d C F B) (k : K) (hw : FluxCont M w) :
    grad1 M w (Sc.const k) D = pressGrad M k w D.c := by
  unfold grad1 pgf pressGrad cells
  have h1 : ∑ x, (if (true : Bool) = true then M.wF x * (((Sc.const k : Sc K d C F B).p x * dot (w.p x) (M.nP x) +
      (Sc.const k : Sc K d C F B).m x * dot (w.m x) (M.nM x)) * (1 / 2 * (D.p x + D.m x))) else 0) = 0 :=
    Finset.sum_eq_zero fun x _ => by rw [if_pos rfl, hw x]; simp [Sc.const]
  rw [h1]
  have h2 : ∑ x, M.wC x * ((dot ((Sc.const k : Sc K d C F B).g x) (w.c x) +
      (Sc.const k : Sc K d C F B).c x * w.div x) * D.c x) = k * ∑ x, M.wC x * (w.div x * D.c x) := by
    rw [Finset.mul_sum]
    refine Finset.sum_congr rfl fun x _ => ?_
    have : dot ((Sc.const k : Sc K d C F B).g x) (w.c x) = 0 := by simp [Sc.const, dot]
    rw [this]; simp only [Sc.const]; ring
  rw [h2]; ring

theorem grad1_const_right (M : Mesh K d C F B) (w : Ve K d C F B) (D : Sc K d C F B) (k : K) (hw : NoFlow M w)
    (hd : DivThm M (Sc.const 1) D w) : grad1 M w D (Sc.const k) = 0 := by
  unfold DivThm at hd
  have h2 : ∑ x, M.wB x * ((Sc.const 1 : Sc K d C F B).b x * D.b x * dot (w.b x) (M.nB x)) = 0 :=
    Finset.sum_eq_zero fun x _ => by rw [hw x]; ring
  rw [h2, add_zero] at hd
  have e1 : ∑ x, M.wC x * ((dot (D.g x) (w.c x) + D.c x * w.div x) * (Sc.const k : Sc K d C F B).c x) =
      k * ∑ x, M.wC x * (dot ((Sc.const 1 : Sc K d C F B).g x) (w.c x) * D.c x +
        (Sc.const 1 : Sc K d C F B).c x * dot (D.g x) (w.c x) + (Sc.const 1 : Sc K d C F B).c x * D.c x * w.div x) := by
    rw [Finset.mul_sum]
    refine Finset.sum_congr rfl fun x _ => ?_
    have : dot ((Sc.const 1 : Sc K d C F B).g x) (w.c x) = 0 := by simp [Sc.const, dot]
    rw [this]; simp only [Sc.const]; ring
  have e2 : ∑ x, M.wF x * ((D.p x * dot (w.p x) (M.nP x) + D.m x * dot (w.m x) (M.nM x)) *
      (1 / 2 * ((Sc.const k : Sc K d C F B).p x + (Sc.const k : Sc K d C F B).m x))) =
      k * ∑ x, M.wF x * ((Sc.const 1 : Sc K d C F B).p x * D.p x * dot (w.p x) (M.nP x) +
        (Sc.const 1 : Sc K d C F B).m x * D.m x * dot (w.m x) (M.nM x)) := by
    rw [Finset.mul_sum]
    exact Finset.sum_congr rfl fun x _ => by simp only [Sc.const]; ring
  unfold grad1 pgf
  simp only [if_true]
  rw [e1, e2, hd]; ring

theorem advCells_const (M : Mesh K d C F B) (φ : Sc K d C F B) (k : K) (u : Ve K d C F B) :
    advCells M φ (Sc.const k) u = 0 :=
  Finset.sum_eq_zero fun x _ => by simp [Sc.const, dot]

/-- C96, thermal equations with the buoyancy of uniform fluid: for `b = g` and no topography the thermal equations have
the residual of the shallow-water equations, for every state, test function and option. -/
theorem C96_uniform_buoyancy (c : Cfg K d C F B) (p : T K d C F B → Bool) (Xref X v : St K d C F B)
    (res res' : List (T K d C F B)) (h : shallowWater c p Xref = .ok res) (h' : thermalShallowWater c p Xref = .ok res')
    (hb : X.b = Sc.const c.g) (hw : Flow c.M v.u) (hd : DivThm c.M (Sc.const 1) X.D v.u) (ht : c.topog = none) :
    spatial res' X v = spatial res X v := by
  rw [thermal_spatial c p Xref X v res' h', sw_spatial c p Xref X v res h, hb, ht, advCells_const]
  unfold thermalSource
  rw [grad1_const_left c.M v.u X.D c.g hw.1, grad1_const_right c.M v.u X.D c.g hw.2 hd]
  simp; ring

/-- C96, refuted: the topography is counted twice: the residual of the super class already contains it (only the terms
labelled `pressure_gradient` are dropped), so that for `b = g` the thermal residual is that of the shallow-water
equations plus the force of the (projected) topography once more. -/
theorem C96_topography_twice_refuted (c : Cfg K d C F B) (p : T K d C F B → Bool) (Xref X v : St K d C F B)
    (res res' : List (T K d C F B)) (h : shallowWater c p Xref = .ok res) (h' : thermalShallowWater c p Xref = .ok res')
    (hb : X.b = Sc.const c.g) (hw : Flow c.M v.u) (hd : DivThm c.M (Sc.const 1) X.D v.u) (ht : c.topog.isSome = true) :
    spatial res' X v = spatial res X v + pressGrad c.M c.g v.u c.topogDG.c := by
  rw [thermal_spatial c p Xref X v res' h', sw_spatial c p Xref X v res h, hb, if_pos ht, advCells_const]
  unfold thermalSource
  rw [grad1_const_left c.M v.u X.D c.g hw.1, grad1_const_right c.M v.u X.D c.g hw.2 hd,
    grad1_const_left c.M v.u c.topogDG c.g hw.1]
  ring

/-- C96, refuted: the lake at rest (`u = 0`, `b = g`, `D + B` constant), a steady state of the equations as documented
and of the shallow-water equations, is not a steady state of the thermal equations; `D + 2 B` constant is. -/
theorem C96_lake_at_rest_refuted :
    let B' : Sc ℚ 2 (Fin 2) (Fin 4) (Fin 0) := bsc (fun i => if i = 0 then 1 else 0) (fun i => if i = 0 then 1 else 0)
    let c := boxCfg 10 1 .vectorInvariant (some B'.c) B'
    let w : St ℚ 2 (Fin 2) (Fin 4) (Fin 0) := boxSt (fun i => if i = 0 then 1 else 0) 0 0 0 0 0
    let rest (k : ℚ) : St ℚ 2 (Fin 2) (Fin 4) (Fin 0) :=
      ⟨Ve.zero, bsc (fun i => 5 - k * B'.c i) (fun i => 5 - k * B'.c i), Sc.const 10, Sc.const 0⟩
    ∀ Xref res res', shallowWater c (fun _ => true) Xref = .ok res → thermalShallowWater c (fun _ => true) Xref = .ok res' →
      spatial res (rest 1) w = 0 ∧ spatial res' (rest 1) w = -10 ∧ spatial res' (rest 2) w = 0 := by
  intro B' c w rest Xref res res' h h'
  have e : ∀ k : ℚ, spatial res' (rest k) w = 10 * k - 20 ∧ spatial res (rest k) w = 10 * k - 10 := by
    intro k
    have hs : spatial res (rest k) w = 10 * k - 10 := by
      rw [sw_spatial c _ Xref _ w res h, uForm_rest c C95_plane_good _ w rfl, cForm_rest c C95_plane_good _ w rfl]
      have : contCells c.M w.D (rest k).D (rest k).u = 0 := cont_zero _ _ _
      rw [this]
      simp [tForm, c, boxCfg, w, boxSt, rest, B', pressGrad, cells, box, bve, bsc, DG.Ve.div, Fin.sum_univ_two]
      ring
    refine ⟨?_, hs⟩
    have hflow : Flow c.M w.u := (box_ok 0 0 (fun i => if i = 0 then 1 else 0) 0).2
    have hdiv : DivThm c.M (Sc.const 1) (rest k).D w.u :=
      (box_ok (fun i => 5 - k * B'.c i) (fun i => 5 - k * B'.c i) (fun i => if i = 0 then 1 else 0) 0).1
    have hbb : (rest k).b = Sc.const c.g := rfl
    have htt : c.topog.isSome = true := rfl
    rw [C96_topography_twice_refuted c _ Xref (rest k) w res res' h h' hbb hflow hdiv htt, hs]
    simp [c, boxCfg, w, boxSt, rest, B', pressGrad, cells, box, bve, bsc, DG.Ve.div, Fin.sum_univ_two]
    ring
  refine ⟨by rw [(e 1).2]; norm_num, by rw [(e 1).1]; norm_num, by rw [(e 2).1]; norm_num⟩

example : ∃ res res', shallowWater (boxCfg 10 1 .vectorInvariant (some fun _ => 1) (Sc.const 1)) (fun _ => true)
      (boxSt 0 0 0 0 0 0) = .ok res ∧
    thermalShallowWater (boxCfg 10 1 .vectorInvariant (some fun _ => 1) (Sc.const 1)) (fun _ => true)
      (boxSt 0 0 0 0 0 0) = .ok res' := ⟨_, _, rfl, rfl⟩

/-! ### C96: linearisation of the thermal equations -/

/-- The derivative of the source, and what the hand-coded linearisation lacks. -/
theorem source_missing (c : Cfg K d C F B) (Xref : St K d C F B) :
    IsDeriv (thermalSourceTerm c Xref).form Xref
      (fun h v => eff Xref (thermalSourceTerm c Xref) h v + grad1 c.M v.u h.b Xref.D) := by
  intro h v
  obtain ⟨Q, hQ⟩ := source_deriv c Xref h v
  refine ⟨Q, fun e => ?_⟩
  rw [hQ e]
  simp only [thermalSourceTerm, eff, thermalSource, thermalLinear]
  ring

theorem sum_filter_split (l : List (T K d C F B)) (q : T K d C F B → Bool) (g : T K d C F B → K) :
    (l.map g).sum = ((l.filter q).map g).sum + ((l.filter fun t => !q t).map g).sum := by
  induction l with
  | nil => simp
  | cons t ts ih =>
    simp only [List.map_cons, List.sum_cons, List.filter_cons, ih]
    cases h : q t <;> simp [h] <;> ring

/-- C96, linearisation: the derivative of the thermal equations at any reference state is their linearisation plus
`b' grad(Dbar)`, which the hand-coded linearisation of the source lacks. -/
theorem C96_linear_missing (c : Cfg K d C F B) (hG : Good c.G) (Xref : St K d C F B) (res lin : List (T K d C F B))
    (hres : thermalShallowWater c (fun _ => true) Xref = .ok res)
    (hlin : linearThermalShallowWater c (fun _ => true) Xref = .ok lin) :
    IsDeriv (value res) Xref (fun h v => value lin h v + grad1 c.M v.u h.b Xref.D) := by
  unfold thermalShallowWater at hres
  unfold linearThermalShallowWater thermalShallowWater at hlin
  cases hs : setupResidual c (fun _ => true) Xref [massU c.M, massD c.M, massB c.M] with
  | error e => rw [hs] at hres; cases hres
  | ok r =>
    rw [hs] at hres hlin
    cases hres
    cases hlin
    have hd := setup_deriv c hG Xref _ r (by
      intro t ht
      simp only [List.mem_cons, List.not_mem_nil, or_false] at ht
      rcases ht with ht | ht | ht <;> subst ht
      · exact massU_deriv c hG Xref
      · exact massD_deriv c hG Xref
      · exact massB_deriv c hG Xref) hs
    have h1 := isDeriv_list (r.filter fun t => !decide ("pressure_gradient" ∈ t.labels)) Xref (eff Xref)
      fun t ht => hd t (List.mem_of_mem_filter ht)
    have hb : IsDeriv (bTransport c (fun _ => true) Xref).form Xref (eff Xref (bTransport c (fun _ => true) Xref)) :=
      bt_deriv c Xref
    have htop := isDeriv_list (if c.topog.isSome then [thermalTopogTerm c] else []) Xref (eff Xref) (by
      intro t ht
      split_ifs at ht
      · simp only [List.mem_singleton] at ht; subst ht; exact ttopog_deriv c Xref
      · simp at ht)
    have := isDeriv_add _ _ _ _ _ (isDeriv_add _ _ _ _ _ (isDeriv_add _ _ _ _ _ h1 (source_missing c Xref)) hb) htop
    intro h v
    obtain ⟨Q, hQ⟩ := this h v
    refine ⟨Q, fun e => ?_⟩
    have he := hQ e
    rw [gen_value, gen_value]
    beta_reduce
    rw [value_linear]
    beta_reduce at he ⊢
    simp only [List.map_append, List.sum_append, List.map_cons, List.map_nil, List.sum_cons, List.sum_nil, add_zero] at he ⊢
    linear_combination he

/-- C96, linearisation: about a reference state of uniform depth the linear thermal equations are the derivative of the
thermal equations. -/
theorem C96_linear_flat (c : Cfg K d C F B) (hG : Good c.G) (Xref : St K d C F B) (res lin : List (T K d C F B))
    (hres : thermalShallowWater c (fun _ => true) Xref = .ok res)
    (hlin : linearThermalShallowWater c (fun _ => true) Xref = .ok lin) (H : K) (hH : Xref.D = Sc.const H)
    (h v : St K d C F B) (hw : NoFlow c.M v.u) (hd : DivThm c.M (Sc.const 1) h.b v.u) :
    ∃ Q, ∀ e : K, value res (axpy Xref e h) v = value res Xref v + e * value lin h v + e ^ 2 * Q := by
  obtain ⟨Q, hQ⟩ := C96_linear_missing c hG Xref res lin hres hlin h v
  refine ⟨Q, fun e => ?_⟩
  rw [hQ e]; beta_reduce; rw [hH, grad1_const_right c.M v.u h.b H hw hd]; ring

/-- C96, refuted: about a reference state whose depth varies the linear thermal equations are not the derivative of the
thermal equations: no second-order remainder explains the difference. -/
theorem C96_linear_refuted :
    let Xref : St ℚ 2 (Fin 2) (Fin 4) (Fin 0) :=
      ⟨Ve.zero, bsc (fun i => if i = 0 then 3 else 2) (fun i => if i = 0 then 3 else 2), Sc.const 10, Sc.const 0⟩
    let h : St ℚ 2 (Fin 2) (Fin 4) (Fin 0) :=
      ⟨Ve.zero, Sc.const 0, bsc (fun i => if i = 0 then 1 else 0) (fun i => if i = 0 then 1 else 0), Sc.const 0⟩
    let v : St ℚ 2 (Fin 2) (Fin 4) (Fin 0) := boxSt (fun i => if i = 0 then 1 else 0) 0 0 0 0 0
    let c := boxCfg 10 1 .vectorInvariant none (Sc.const 0)
    ∀ res lin, thermalShallowWater c (fun _ => true) Xref = .ok res →
      linearThermalShallowWater c (fun _ => true) Xref = .ok lin →
      ¬ ∃ Q, ∀ e : ℚ, value res (axpy Xref e h) v = value res Xref v + e * value lin h v + e ^ 2 * Q := by
  intro Xref h v c res lin hres hlin ⟨Q, hQ⟩
  obtain ⟨Q', hQ'⟩ := C96_linear_missing c C95_plane_good Xref res lin hres hlin h v
  have hm : grad1 c.M v.u h.b Xref.D = -1 / 2 := by
    simp [grad1, Gusto.EqnDiag.pgf, c, v, h, Xref, boxCfg, boxSt, box, bve, bsc, dot, DG.Ve.div, Fin.sum_univ_two,
      Fin.sum_univ_four]
    norm_num
  have a := hQ 1
  have b := hQ (-1)
  have a' := hQ' 1
  have b' := hQ' (-1)
  beta_reduce at a' b'
  rw [hm] at a' b'
  have : (1 : ℚ) = 0 := by linear_combination (-1) * a + b + a' - b'
  norm_num at this

example : ∃ res lin, thermalShallowWater (boxCfg 10 1 .vectorInvariant none (Sc.const 0)) (fun _ => true)
      (boxSt 0 0 0 0 0 0) = .ok res ∧
    linearThermalShallowWater (boxCfg 10 1 .vectorInvariant none (Sc.const 0)) (fun _ => true)
      (boxSt 0 0 0 0 0 0) = .ok lin := ⟨_, _, rfl, rfl⟩

/-- C96, refuted: the thermal source gets a linearisation even if the linearisation map rejects every term. -/
theorem C96_map_ignored_refuted (c : Cfg K d C F B) (Xref : St K d C F B) (res : List (T K d C F B))
    (h : thermalShallowWater c (fun _ => false) Xref = .ok res) : ∃ t ∈ res, t.lin.isSome = true := by
  unfold thermalShallowWater at h
  cases hs : setupResidual c (fun _ => false) Xref [massU c.M, massD c.M, massB c.M] with
  | error e => rw [hs] at h; cases h
  | ok r =>
    rw [hs] at h
    cases h
    refine ⟨thermalSourceTerm c Xref, ?_, rfl⟩
    unfold generateLinear
    refine List.mem_map.2 ⟨thermalSourceTerm c Xref, ?_, ?_⟩
    · simp
    · simp

/-- The linearisation map is respected by the shallow-water equations. -/
theorem C95_map_respected (c : Cfg K d C F B) (Xref : St K d C F B) (res : List (T K d C F B))
    (h : shallowWater c (fun _ => false) Xref = .ok res) : ∀ t ∈ res, t.lin = none := by
  unfold shallowWater setupResidual at h
  have hg : ∀ l : List (T K d C F B), (∀ t ∈ l, t.lin = none) → ∀ t ∈ generateLinear Xref (fun _ => false) l, t.lin = none := by
    intro l hl t ht
    unfold generateLinear at ht
    obtain ⟨t0, ht0, rfl⟩ := List.mem_map.1 ht
    simp [hl t0 ht0]
  have htop : ∀ t ∈ topogTerms c, t.lin = none := by
    intro t ht
    unfold topogTerms at ht
    cases hc : c.topog with
    | none => simp [hc] at ht
    | some B' => simp [hc] at ht; subst ht; rfl
  cases hu : uTransport c (fun _ => false) Xref with
  | error e => rw [hu] at h; cases h
  | ok ut =>
    rw [hu] at h
    have hut : ∀ t ∈ ut, t.lin = none := by
      intro t ht
      unfold uTransport at hu
      cases ho : c.uopt <;> rw [ho] at hu <;> cases hu
      · simp only [List.mem_singleton] at ht; subst ht; rfl
      · simp only [List.mem_cons, List.not_mem_nil, or_false] at ht
        rcases ht with ht | ht <;> subst ht <;> rfl
      · simp only [List.mem_singleton] at ht; subst ht; rfl
    have hbase : ∀ t ∈ [massU c.M, massD c.M] ++ ut ++ [dTransport c (fun _ => false) Xref, pgTerm c], t.lin = none := by
      intro t ht
      simp only [List.mem_append, List.mem_cons, List.not_mem_nil, or_false] at ht
      rcases ht with ((ht | ht) | ht) | ht | ht
      · subst ht; rfl
      · subst ht; rfl
      · exact hut t ht
      · subst ht; rfl
      · subst ht; rfl
    simp only at h
    split_ifs at h
    · cases h
      exact hg _ fun t ht => (List.mem_append.1 ht).elim (hbase t) (htop t)
    · cases hf : fexpr c with
      | error e => rw [hf] at h; cases h
      | ok f =>
        rw [hf] at h
        cases h
        apply hg
        intro t ht
        rcases List.mem_append.1 ht with ht | ht
        · rcases List.mem_append.1 ht with ht | ht
          · exact hbase t ht
          · simp only [List.mem_singleton] at ht; subst ht; rfl
        · exact htop t ht

/-! ### C96: equivalent buoyancy -/

/-- All the water is vapour at the state `X`. -/
def Unsaturated (q s : Sc K d C F B) : Prop := (∀ x, q.c x < s.c x) ∧ (∀ x, q.p x < s.p x) ∧ ∀ x, q.m x < s.m x
/-- The water reaches saturation everywhere. -/
def Saturated (q s : Sc K d C F B) : Prop := (∀ x, s.c x ≤ q.c x) ∧ (∀ x, s.p x ≤ q.p x) ∧ ∀ x, s.m x ≤ q.m x

theorem grad1_congr_left (M : Mesh K d C F B) (w : Ve K d C F B) (a b D : Sc K d C F B) (h1 : a.c = b.c) (h2 : a.g = b.g)
    (h3 : a.p = b.p) (h4 : a.m = b.m) : grad1 M w a D = grad1 M w b D := by
  unfold grad1 pgf; rw [h1, h2, h3, h4]
theorem grad1_congr_right (M : Mesh K d C F B) (w : Ve K d C F B) (a b D : Sc K d C F B) (h1 : a.c = b.c)
    (h3 : a.p = b.p) (h4 : a.m = b.m) : grad1 M w D a = grad1 M w D b := by
  unfold grad1 pgf; rw [h1, h3, h4]

theorem satCond_unsat (M : Mesh K d C F B) (w : Ve K d C F B) (D q s : Sc K d C F B) (h : Unsaturated q s) :
    grad1 M w (satCond q s) D = grad1 M w q D ∧ grad1 M w D (satCond q s) = grad1 M w D q := by
  have e1 : (satCond q s).c = q.c := by funext x; simp [satCond, h.1 x]
  have e2 : (satCond q s).g = q.g := by funext x i; simp [satCond, h.1 x]
  have e3 : (satCond q s).p = q.p := by funext x; simp [satCond, h.2.1 x]
  have e4 : (satCond q s).m = q.m := by funext x; simp [satCond, h.2.2 x]
  exact ⟨grad1_congr_left M w _ _ D e1 e2 e3 e4, grad1_congr_right M w _ _ D e1 e3 e4⟩

theorem satCond_sat (M : Mesh K d C F B) (w : Ve K d C F B) (D q s : Sc K d C F B) (h : Saturated q s) :
    grad1 M w (satCond q s) D = grad1 M w s D ∧ grad1 M w D (satCond q s) = grad1 M w D s := by
  have e1 : (satCond q s).c = s.c := by funext x; simp [satCond, not_lt.2 (h.1 x)]
  have e2 : (satCond q s).g = s.g := by funext x i; simp [satCond, not_lt.2 (h.1 x)]
  have e3 : (satCond q s).p = s.p := by funext x; simp [satCond, not_lt.2 (h.2.1 x)]
  have e4 : (satCond q s).m = s.m := by funext x; simp [satCond, not_lt.2 (h.2.2 x)]
  exact ⟨grad1_congr_left M w _ _ D e1 e2 e3 e4, grad1_congr_right M w _ _ D e1 e3 e4⟩

/-- C96, equivalent buoyancy: the source is the thermal source with the buoyancy `b_e + beta2 q_v`, `q_v` being the
total water where it is below saturation and the saturation value where it is not. -/
theorem C96_equivalent_source (M : Mesh K d C F B) (beta2 : K) (sat : St K d C F B → Sc K d C F B) (w : Ve K d C F B)
    (X : St K d C F B) :
    (Unsaturated X.qt (sat X) → equivSource M beta2 sat w X = thermalSource M w X.D (Sc.add X.b (Sc.smul beta2 X.qt))) ∧
    (Saturated X.qt (sat X) → equivSource M beta2 sat w X = thermalSource M w X.D (Sc.add X.b (Sc.smul beta2 (sat X)))) := by
  unfold equivSource thermalSource
  constructor <;> intro h
  · obtain ⟨h1, h2⟩ := satCond_unsat M w X.D X.qt (sat X) h
    rw [h1, h2, grad1_b, grad1_D]; ring
  · obtain ⟨h1, h2⟩ := satCond_sat M w X.D X.qt (sat X) h
    rw [h1, h2, grad1_b, grad1_D]; ring

/-- C96, refuted: the linearisation of the equivalent-buoyancy source is not a function of the perturbation and the
reference state: at a saturated reference it contains the saturation of the current state, so that the "linear" equations
depend nonlinearly on the state. -/
theorem C96_equivalent_linear_refuted (M : Mesh K d C F B) (beta2 : K) (sat : St K d C F B → Sc K d C F B)
    (w : Ve K d C F B) (Xref X X' h : St K d C F B) (hs : Saturated Xref.qt (sat X)) (hs' : Saturated Xref.qt (sat X')) :
    equivLinear M beta2 sat w Xref X h - equivLinear M beta2 sat w Xref X' h =
      beta2 * (thermalSource M w h.D (sat X) - thermalSource M w h.D (sat X')) := by
  unfold equivLinear thermalSource
  obtain ⟨h1, h2⟩ := satCond_sat M w h.D Xref.qt (sat X) hs
  obtain ⟨h3, h4⟩ := satCond_sat M w h.D Xref.qt (sat X') hs'
  rw [h1, h2, h3, h4]; ring

/-- The difference is not zero for a saturation that decreases with depth. -/
example : let sat : St ℚ 2 (Fin 2) (Fin 4) (Fin 0) → Sc ℚ 2 (Fin 2) (Fin 4) (Fin 0) := fun X => Sc.add (Sc.const 9) (Sc.smul (-1) X.D)
    let h : St ℚ 2 (Fin 2) (Fin 4) (Fin 0) := boxSt 0 0 (fun i => if i = 0 then 1 else 0) (fun i => if i = 0 then 1 else 0) 0 0
    let X (k : ℚ) : St ℚ 2 (Fin 2) (Fin 4) (Fin 0) := ⟨Ve.zero, Sc.const k, Sc.const 0, Sc.const 10⟩
    let w := bve (fun i => if i = 0 then 1 else 0) 0
    Saturated (X 0).qt (sat (X 1)) ∧ Saturated (X 0).qt (sat (X 2)) ∧
      equivLinear box 1 sat w (X 0) (X 1) h - equivLinear box 1 sat w (X 0) (X 2) h = -1 := by
  intro sat h X w
  have s1 : Saturated (X 0).qt (sat (X 1)) := by
    refine ⟨fun x => ?_, fun x => ?_, fun x => ?_⟩ <;> simp [sat, X, Sc.const, SW.Sc.add, SW.Sc.smul] <;> norm_num
  have s2 : Saturated (X 0).qt (sat (X 2)) := by
    refine ⟨fun x => ?_, fun x => ?_, fun x => ?_⟩ <;> simp [sat, X, Sc.const, SW.Sc.add, SW.Sc.smul] <;> norm_num
  refine ⟨s1, s2, ?_⟩
  rw [C96_equivalent_linear_refuted box 1 sat w (X 0) (X 1) (X 2) h s1 s2]
  simp [thermalSource, grad1, Gusto.EqnDiag.pgf, w, h, sat, X, boxSt, box, bve, bsc, dot, DG.Ve.div, Fin.sum_univ_two,
      Fin.sum_univ_four, Sc.const, SW.Sc.add, SW.Sc.smul]
  norm_num

/-- C96, refuted: at a saturated reference state whose saturation does not depend on `q_t`, a change of `q_t` alone does
not change the source, but its linearisation has the term `beta2 Dbar/2 grad(q_t')`. -/
theorem C96_equivalent_water_refuted (M : Mesh K d C F B) (beta2 : K) (sat : St K d C F B → Sc K d C F B)
    (w : Ve K d C F B) (Xref h : St K d C F B) (hsat : ∀ q, sat { Xref with qt := q } = sat Xref) (e : K)
    (hs : Saturated Xref.qt (sat Xref)) (hs' : Saturated (Sc.add Xref.qt (Sc.smul e h.qt)) (sat Xref))
    (hD : h.D = Sc.const 0) (hb : h.b = Sc.const 0) :
    equivSource M beta2 sat w { Xref with qt := Sc.add Xref.qt (Sc.smul e h.qt) } = equivSource M beta2 sat w Xref ∧
    equivLinear M beta2 sat w Xref Xref h = beta2 * (1 / 2 * grad1 M w Xref.D h.qt) := by
  constructor
  · unfold equivSource thermalSource
    simp only [hsat]
    obtain ⟨h1, h2⟩ := satCond_sat M w Xref.D _ _ hs'
    obtain ⟨h3, h4⟩ := satCond_sat M w Xref.D _ _ hs
    rw [h1, h2, h3, h4]
  · have z1 : ∀ D, grad1 M w D (Sc.const 0) = 0 := by
      intro D; unfold grad1 pgf; simp [Sc.const]
    have z2 : ∀ D, grad1 M w (Sc.const 0) D = 0 := by
      intro D; unfold grad1 pgf; simp [Sc.const, dot]
    unfold equivLinear thermalLinear
    rw [hD, hb, z1, z1, z1, z2, z2]; ring

end Gusto.Props.SWProps
