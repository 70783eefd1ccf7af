import Verif.Props.SSP
import Verif.Props.ImplicitRK
import Mathlib.LinearAlgebra.FiniteDimensional.Lemmas

set_option autoImplicit false
set_option linter.unusedSectionVars false
set_option linter.unusedSimpArgs false

/-!
# C145: the implicit schemes keep the bounds of a transported field
-/

namespace Gusto.Props.ImplicitBoundsProps
open Gusto LForm TimeDisc Spec Finset Gusto.Props Gusto.Diag Gusto.DG Gusto.Props.DGProps Gusto.Props.DiagProps
open Gusto.Props.SSPProps (TransportDG0 box_convex lineR lineR_transport)

variable {K C F B : Type*} {d : ℕ} [Field K] [LinearOrder K] [IsStrictOrderedRing K] [Fintype C] [Fintype F] [Fintype B]
  {I : Type*} [DecidableEq I] [Fintype I]

/-- The situation of C145: a DG0 field on finitely many cells of positive volume, the upwind advection form, a wind whose flux is
continuous, and nothing flowing in through the boundary (spec). -/
structure Upwind (M : Mesh K d C F B) (E : Cells C F B I) (u : Ve K d C F B) (outflow : Bool) (R : LForm (I → K) (I → K)) : Prop where
  wF : ∀ x, 0 ≤ M.wF x
  wB : ∀ x, 0 ≤ M.wB x
  vol : ∀ i, 0 < vol M E i
  div : ∀ i, DivThm M (ind E i) (Sc.const 1) u
  flux : FluxCont M u
  bd : BoundaryOk M u outflow
  eqn : TransportDG0 M E u outflow R

/-- All values of `Q` lie between `lo` and `hi` (spec). -/
def Within (lo hi : K) (Q : I → K) : Prop := ∀ i, lo ≤ Q i ∧ Q i ≤ hi

section facts
variable {M : Mesh K d C F B} {E : Cells C F B I} {u : Ve K d C F B} {outflow : Bool} {R : LForm (I → K) (I → K)}

theorem rest_eq (h : Upwind M E u outflow R) (Q : I → K) (i : I) : rest R Q i =
    ∑ x, M.wF x * ((if E.cP x = i then un (-M.aP u x) * (Q i - Q (E.cM x)) else 0) +
        (if E.cM x = i then un (-M.aM u x) * (Q i - Q (E.cP x)) else 0)) := by
  have := h.eqn.form Q i
  rw [dg0_form M E u outflow Q i (h.div i) h.flux h.bd] at this
  injection this with this
  exact this.symm

theorem rest_linear (h : Upwind M E u outflow R) : IsLinearMap K (rest R) := by
  constructor
  · intro P Q
    funext i
    simp only [Pi.add_apply, rest_eq h]
    rw [← sum_add_distrib]
    refine sum_congr rfl fun x _ => ?_
    split_ifs <;> ring
  · intro c Q
    funext i
    simp only [Pi.smul_apply, smul_eq_mul, rest_eq h]
    rw [mul_sum]
    refine sum_congr rfl fun x _ => ?_
    split_ifs <;> ring

/-- Where the field is largest, nothing larger flows in. -/
theorem rest_max (h : Upwind M E u outflow R) (Q : I → K) (i : I) (hm : ∀ j, Q j ≤ Q i) : 0 ≤ rest R Q i := by
  rw [rest_eq h]
  refine sum_nonneg fun x _ => mul_nonneg (h.wF x) (add_nonneg ?_ ?_)
  · split_ifs
    · exact mul_nonneg (un_nonneg _) (sub_nonneg.2 (hm _))
    · exact le_rfl
  · split_ifs
    · exact mul_nonneg (un_nonneg _) (sub_nonneg.2 (hm _))
    · exact le_rfl

theorem rest_neg (h : Upwind M E u outflow R) (Q : I → K) : rest R (-Q) = -rest R Q := by
  have := (rest_linear h).map_smul (-1) Q
  simpa using this

/-- An implicit step does not exceed the values it starts from. -/
theorem implicit_le (h : Upwind M E u outflow R) (τ : K) (hτ : 0 ≤ τ) (P Q : I → K) (hi : K)
    (hs : ∀ i, vol M E i * Q i + τ * rest R Q i = vol M E i * P i) (hP : ∀ i, P i ≤ hi) (j : I) : Q j ≤ hi := by
  have : Nonempty I := ⟨j⟩
  obtain ⟨i, hmax⟩ := Finite.exists_max Q
  refine (hmax j).trans ?_
  have h1 := mul_nonneg hτ (rest_max h Q i hmax)
  have h2 := hs i
  have h3 : vol M E i * Q i ≤ vol M E i * P i := by linarith
  exact (le_of_mul_le_mul_left h3 (h.vol i)).trans (hP i)

theorem implicit_within (h : Upwind M E u outflow R) (τ : K) (hτ : 0 ≤ τ) (P Q : I → K) (lo hi : K)
    (hs : ∀ i, vol M E i * Q i + τ * rest R Q i = vol M E i * P i) (hP : Within lo hi P) : Within lo hi Q := by
  intro j
  refine ⟨?_, implicit_le h τ hτ P Q hi hs (fun i => (hP i).2) j⟩
  have := implicit_le h τ hτ (-P) (-Q) (-lo) (fun i => by
    have := hs i
    rw [rest_neg h]
    simp only [Pi.neg_apply]
    linarith) (fun i => by have := (hP i).1; simp only [Pi.neg_apply]; linarith) j
  simp only [Pi.neg_apply] at this
  linarith

/-- The system of an implicit step has exactly one solution, for every step length. -/
theorem implicit_unique (h : Upwind M E u outflow R) (τ : K) (hτ : 0 ≤ τ) (b : I → K) :
    ∃! Q : I → K, ∀ i, vol M E i * Q i + τ * rest R Q i = b i := by
  let L : (I → K) →ₗ[K] (I → K) :=
    { toFun := fun Q i => vol M E i * Q i + τ * rest R Q i
      map_add' := fun P Q => by
        funext i
        simp only [Pi.add_apply, (rest_linear h).map_add]
        ring
      map_smul' := fun c Q => by
        funext i
        simp only [Pi.smul_apply, smul_eq_mul, (rest_linear h).map_smul, RingHom.id_apply]
        ring }
  have hinj : Function.Injective L := by
    rw [injective_iff_map_eq_zero]
    intro Q hQ
    have := implicit_within h τ hτ 0 Q 0 0 (fun i => (congrFun hQ i).trans (by simp)) (fun i => by simp)
    funext i
    exact le_antisymm (this i).2 (this i).1
  obtain ⟨Q, hQ⟩ := (LinearMap.injective_iff_surjective.1 hinj) b
  refine ⟨Q, fun i => congrFun hQ i, fun Q' hQ' => hinj ?_⟩
  rw [hQ]
  exact funext hQ'

/-- An explicit step with Courant number at most one. -/
theorem explicit_within (h : Upwind M E u outflow R) (k : Fin d → K) (τ : K) (hτ : 0 ≤ τ) (P Q : I → K) (lo hi : K)
    (hs : ∀ i, vol M E i * Q i = vol M E i * P i - τ * rest R P i) (hC : ∀ i, courant M E k .whole u τ i ≤ 1)
    (hP : Within lo hi P) : Within lo hi Q :=
  C91_maximum_principle M h.wF h.wB E k u outflow τ lo hi P Q hτ h.vol h.div h.flux h.bd
    (fun i => ⟨_, h.eqn.form P i, by rw [mul_sub, hs i]; ring⟩) hC hP

/-- The state after an explicit step. -/
noncomputable def expl (M : Mesh K d C F B) (E : Cells C F B I) (R : LForm (I → K) (I → K)) (τ : K) (P : I → K) : I → K :=
  fun i => P i - τ * rest R P i / vol M E i

theorem expl_eq (h : Upwind M E u outflow R) (τ : K) (P : I → K) (i : I) :
    vol M E i * expl M E R τ P i = vol M E i * P i - τ * rest R P i := by
  have := (h.vol i).ne'
  unfold expl
  field_simp

theorem courant_scale (h : Upwind M E u outflow R) (k : Fin d → K) (dt c : K) (i : I) :
    courant M E k .whole u (c * dt) i = c * courant M E k .whole u dt i :=
  (C91_basic M h.wF h.wB E k .whole u dt c i (h.vol i)).2

theorem expl_within (h : Upwind M E u outflow R) (k : Fin d → K) (dt c : K) (hdt : 0 ≤ dt) (hc : 0 ≤ c) (P : I → K) (lo hi : K)
    (hC : ∀ i, c * courant M E k .whole u dt i ≤ 1) (hP : Within lo hi P) : Within lo hi (expl M E R (c * dt) P) :=
  explicit_within h k (c * dt) (mul_nonneg hc hdt) P _ lo hi (expl_eq h _ P) (fun i => by rw [courant_scale h]; exact hC i) hP

/-- What an exact solver returns for a residual that is the left hand side of an implicit step. -/
theorem solved (h : Upwind M E u outflow R) (solve : Solver (I → K) (I → K)) (hs : ExactSolver solve) (τ : K) (hτ : 0 ≤ τ)
    (res : (I → K) → (I → K)) (b g : I → K) (hres : ∀ y i, res y i = vol M E i * y i + τ * rest R y i - b i) :
    ∀ i, vol M E i * solve res g i + τ * rest R (solve res g) i = b i := by
  have hiff : ∀ y, res y = 0 ↔ ∀ i, vol M E i * y i + τ * rest R y i = b i := fun y => by
    rw [funext_iff]
    exact forall_congr' fun i => by rw [hres]; simp [sub_eq_zero]
  rw [← hiff]
  apply hs
  obtain ⟨y, h1, h2⟩ := implicit_unique h τ hτ b
  exact ⟨y, (hiff y).2 h1, fun z hz => h2 z ((hiff z).1 hz)⟩

end facts

/-! ## The one-step schemes -/

section schemes
variable {M : Mesh K d C F B} {E : Cells C F B I} {u : Ve K d C F B} {outflow : Bool} {R : LForm (I → K) (I → K)}

/-- C145: a step of `BackwardEuler` keeps the bounds, whatever the time step. -/
theorem C145_backward_euler (h : Upwind M E u outflow R) (solve : Solver (I → K) (I → K)) (hs : ExactSolver solve)
    (dt : K) (hdt : 0 ≤ dt) (lo hi : K) (Q : I → K) (hQ : Within lo hi Q) :
    Within lo hi (implicitCycle solve (backwardEulerRes R dt) Q) := by
  refine implicit_within h dt hdt Q _ lo hi ?_ hQ
  refine solved h solve hs dt hdt _ (fun i => vol M E i * Q i) Q fun y i => ?_
  rw [eval_backwardEulerRes]
  simp [h.eqn.mass]

/-- C145: a step of `ThetaMethod` keeps the bounds when `(1 - θ)` times the Courant number is at most one in every cell. -/
theorem C145_theta (h : Upwind M E u outflow R) (solve : Solver (I → K) (I → K)) (hs : ExactSolver solve)
    (k : Fin d → K) (dt th : K) (hdt : 0 ≤ dt) (hth : offCentringAccepted th = true)
    (hC : ∀ i, (1 - th) * courant M E k .whole u dt i ≤ 1) (lo hi : K) (Q : I → K) (hQ : Within lo hi Q) :
    Within lo hi (implicitCycle solve (thetaRes R dt th) Q) := by
  obtain ⟨h0, h1⟩ := (C07_parameter_guard th).1 hth
  refine implicit_within h (th * dt) (mul_nonneg h0 hdt) (expl M E R ((1 - th) * dt) Q) _ lo hi ?_
    (expl_within h k dt (1 - th) hdt (by linarith) Q lo hi hC hQ)
  refine solved h solve hs (th * dt) (mul_nonneg h0 hdt) _ _ Q fun y i => ?_
  rw [eval_thetaRes, expl_eq h]
  simp [h.eqn.mass]

/-- C145: a step of `TrapeziumRule` keeps the bounds up to Courant number two. -/
theorem C145_trapezium (h : Upwind M E u outflow R) (solve : Solver (I → K) (I → K)) (hs : ExactSolver solve)
    (k : Fin d → K) (dt : K) (hdt : 0 ≤ dt) (hC : ∀ i, courant M E k .whole u dt i ≤ 2) (lo hi : K) (Q : I → K)
    (hQ : Within lo hi Q) : Within lo hi (implicitCycle solve (trapeziumRes R dt) Q) :=
  C145_theta h solve hs k dt (1 / 2) hdt ((C07_parameter_guard _).2 ⟨by norm_num, by norm_num⟩)
    (fun i => by have := hC i; linarith) lo hi Q hQ

/-- C145: a step of `TR_BDF2` keeps the bounds up to Courant number `2(2-γ)/(1+(1-γ)²)`, for every `γ` in `(0, 1]`. -/
theorem C145_tr_bdf2 (h : Upwind M E u outflow R) (solve : Solver (I → K) (I → K)) (hs : ExactSolver solve)
    (k : Fin d → K) (dt g : K) (hdt : 0 ≤ dt) (hg0 : 0 < g) (hg : offCentringAccepted g = true)
    (hC : ∀ i, (1 + (1 - g) ^ 2) * courant M E k .whole u dt i ≤ 2 * (2 - g)) (lo hi : K) (Q : I → K)
    (hQ : Within lo hi Q) : Within lo hi (trBdf2Apply solve R dt g Q) := by
  obtain ⟨-, hg1⟩ := (C07_parameter_guard g).1 hg
  have h2g : 0 < 2 - g := by linarith
  have hcn : ∀ i, 0 ≤ courant M E k .whole u dt i := fun i => (C91_basic M h.wF h.wB E k .whole u dt 1 i (h.vol i)).1 hdt
  -- the trapezium stage
  set G := solve (fun y => (trRes R dt g y Q).eval) Q with hGdef
  have hG : ∀ i, vol M E i * G i + (g / 2 * dt) * rest R G i = vol M E i * expl M E R (g / 2 * dt) Q i := by
    refine solved h solve hs (g / 2 * dt) (by positivity) _ _ Q fun y i => ?_
    rw [eval_trRes, expl_eq h]
    simp [h.eqn.mass]
    ring
  have hCg : ∀ i, g / 2 * courant M E k .whole u dt i ≤ 1 := by
    intro i
    have h1 := hC i
    have h2 := hcn i
    have h3 : 0 ≤ (1 - g) ^ 2 * courant M E k .whole u dt i := by positivity
    have h4 : g * (2 - g) * courant M E k .whole u dt i ≤ (1 + (1 - g) ^ 2) * courant M E k .whole u dt i := by
      nlinarith
    have h5 : (2 - g) * (g * courant M E k .whole u dt i) ≤ (2 - g) * 2 := by linarith
    have := le_of_mul_le_mul_left h5 h2g
    linarith
  have hGw : Within lo hi G := implicit_within h _ (by positivity) _ G lo hi hG
    (expl_within h k dt (g / 2) hdt (by positivity) Q lo hi hCg hQ)
  -- the second stage
  set Y := solve (fun y => (bdf2StageRes R dt g y G Q).eval) G with hYdef
  change Within lo hi Y
  set b := (1 - g) / (2 - g) * dt with hb
  have hb0 : 0 ≤ b := mul_nonneg (div_nonneg (by linarith) h2g.le) hdt
  set c1 := 1 / (g * (2 - g)) with hc1
  set c2 := (1 - g) ^ 2 / (g * (2 - g)) with hc2
  have hY : ∀ i, vol M E i * Y i + b * rest R Y i = vol M E i * (c1 * G i - c2 * Q i) := by
    refine solved h solve hs b hb0 _ _ G fun y i => ?_
    rw [eval_bdf2StageRes]
    simp [h.eqn.mass, hc1, hc2, hb]
    ring
  refine implicit_within h b hb0 (fun i => c1 * G i - c2 * Q i) Y lo hi hY ?_
  have hd : c1 - c2 = 1 := by
    rw [hc1, hc2]
    field_simp
    ring
  set κ := (c1 + c2) / 2 with hκ
  have hκg : κ * g = (1 + (1 - g) ^ 2) / (2 * (2 - g)) := by
    rw [hκ, hc1, hc2]
    field_simp
  have hκ0 : 0 ≤ κ := by rw [hκ, hc1, hc2]; positivity
  have hCk : ∀ i, (κ * g) * courant M E k .whole u dt i ≤ 1 := by
    intro i
    rw [hκg, div_mul_eq_mul_div, div_le_one (by positivity)]
    exact hC i
  have hA := expl_within h k dt (κ * g) hdt (by positivity) G lo hi hCk hGw
  have hB := expl_within h k dt (κ * g) hdt (by positivity) Q lo hi hCk hQ
  have key : (fun i => c1 * G i - c2 * Q i) =
      (1 / 2 : K) • expl M E R (κ * g * dt) G + (1 / 2 : K) • expl M E R (κ * g * dt) Q := by
    funext i
    have hv := (h.vol i).ne'
    apply mul_left_cancel₀ hv
    have e1 := expl_eq h (κ * g * dt) G i
    have e2 := expl_eq h (κ * g * dt) Q i
    have e3 := hG i
    rw [expl_eq h] at e3
    have e4 : c1 = κ + 1 / 2 := by rw [hκ]; linarith
    have e5 : c2 = κ - 1 / 2 := by rw [hκ]; linarith
    simp only [Pi.add_apply, Pi.smul_apply, smul_eq_mul]
    rw [e4, e5]
    linear_combination -(1 / 2 : K) * e1 - (1 / 2 : K) * e2 + κ * e3
  rw [key]
  exact box_convex lo hi hA hB (by norm_num) (by norm_num) (by norm_num)

/-- C145, histories: any number of steps of `BackwardEuler`, of any lengths, keeps the bounds. -/
theorem C145_backward_euler_run (h : Upwind M E u outflow R) (solve : Solver (I → K) (I → K)) (hs : ExactSolver solve)
    (dts : List K) (hdt : ∀ dt ∈ dts, 0 ≤ dt) (lo hi : K) (Q : I → K) (hQ : Within lo hi Q) :
    Within lo hi (dts.foldl (fun Q dt => implicitCycle solve (backwardEulerRes R dt) Q) Q) := by
  induction dts generalizing Q with
  | nil => exact hQ
  | cons dt l ih =>
    exact ih (fun t ht => hdt t (List.mem_cons_of_mem _ ht)) _
      (C145_backward_euler h solve hs dt (hdt dt List.mem_cons_self) lo hi Q hQ)

/-- C145, histories: any number of steps of the one-step schemes. -/
theorem C145_runs (h : Upwind M E u outflow R) (solve : Solver (I → K) (I → K)) (hs : ExactSolver solve)
    (k : Fin d → K) (dt : K) (hdt : 0 ≤ dt) (lo hi : K) (Q : I → K) (hQ : Within lo hi Q) (n : ℕ) :
    (∀ th, offCentringAccepted th = true → (∀ i, (1 - th) * courant M E k .whole u dt i ≤ 1) →
      Within lo hi ((implicitCycle solve (thetaRes R dt th))^[n] Q)) ∧
    ((∀ i, courant M E k .whole u dt i ≤ 2) → Within lo hi ((implicitCycle solve (trapeziumRes R dt))^[n] Q)) ∧
    (∀ g, 0 < g → offCentringAccepted g = true →
      (∀ i, (1 + (1 - g) ^ 2) * courant M E k .whole u dt i ≤ 2 * (2 - g)) →
      Within lo hi ((trBdf2Apply solve R dt g)^[n] Q)) := by
  have it : ∀ f : (I → K) → (I → K), (∀ P, Within lo hi P → Within lo hi (f P)) → Within lo hi (f^[n] Q) := by
    intro f hf
    induction n with
    | zero => exact hQ
    | succ n ih => rw [Function.iterate_succ_apply']; exact hf _ ih
  exact ⟨fun th a b => it _ fun P hP => C145_theta h solve hs k dt th hdt a b lo hi P hP,
    fun a => it _ fun P hP => C145_trapezium h solve hs k dt hdt a lo hi P hP,
    fun g a b c => it _ fun P hP => C145_tr_bdf2 h solve hs k dt g hdt a b c lo hi P hP⟩

end schemes

/-! ## The implicit Runge-Kutta schemes -/

section irk
open Gusto.IRK Gusto.Props.IRKProps
variable {M : Mesh K d C F B} {E : Cells C F B I} {u : Ve K d C F B} {outflow : Bool} {R : LForm (I → K) (I → K)}

/-- The stages of a diagonally implicit scheme can be solved. -/
theorem stage_unique (h : Upwind M E u outflow R) (τ : K) (hτ : 0 ≤ τ) (x1 : I → K) :
    ∃! y, mass R y + rest R (x1 + τ • y) = 0 := by
  have e : ∀ y, (mass R y + rest R (x1 + τ • y) = 0) ↔ ∀ i, vol M E i * y i + τ * rest R y i = -rest R x1 i := by
    intro y
    rw [funext_iff]
    refine forall_congr' fun i => ?_
    rw [Pi.add_apply, h.eqn.mass, (rest_linear h).map_add, (rest_linear h).map_smul]
    simp only [Pi.add_apply, Pi.smul_apply, smul_eq_mul, Pi.zero_apply]
    constructor <;> intro a <;> linarith
  obtain ⟨y, a, b⟩ := implicit_unique h τ hτ fun i => -rest R x1 i
  exact ⟨y, (e y).2 a, fun z hz => b z ((e z).1 hz)⟩

/-- Half a step implicitly and half a step explicitly: the midpoint rule. -/
theorem midpoint_within (h : Upwind M E u outflow R) (kk : Fin d → K) (dt c : K) (hdt : 0 ≤ dt) (hc : 0 ≤ c)
    (hC : ∀ i, c * courant M E kk .whole u dt i ≤ 1) (lo hi : K) (x k : I → K) (hx : Within lo hi x)
    (hk : mass R k = -rest R (x + (c * dt) • k)) : Within lo hi (x + (2 * (c * dt)) • k) := by
  have hm : ∀ i, vol M E i * k i = -rest R (x + (c * dt) • k) i := fun i => by
    rw [← h.eqn.mass, hk]; rfl
  have hy : Within lo hi (x + (c * dt) • k) := by
    refine implicit_within h (c * dt) (mul_nonneg hc hdt) x _ lo hi (fun i => ?_) hx
    have := hm i
    simp only [Pi.add_apply, Pi.smul_apply, smul_eq_mul] at this ⊢
    linear_combination (c * dt) * this
  refine explicit_within h kk (c * dt) (mul_nonneg hc hdt) (x + (c * dt) • k) _ lo hi (fun i => ?_)
    (fun i => by rw [courant_scale h]; exact hC i) hy
  have := hm i
  simp only [Pi.add_apply, Pi.smul_apply, smul_eq_mul] at this ⊢
  linear_combination (c * dt) * this

/-- C145: every call of `ImplicitMidpoint` keeps the bounds of its input up to Courant number two, whatever the earlier calls were. -/
theorem C145_implicit_midpoint (h : Upwind M E u outflow R) (solve : Solver (I → K) (I → K)) (hs : ExactSolver solve)
    (k : Fin d → K) (dt : K) (hdt : 0 ≤ dt) (hC : ∀ i, courant M E k .whole u dt i ≤ 2) (lo hi : K)
    (st : State K (I → K)) (hst : st.cachedDiag = none) (xin : ℕ → I → K) (n : ℕ) (hQ : Within lo hi (xin n)) :
    let S : Scheme K (I → K) (I → K) := ofTable implicitMidpoint 1 R dt solve
    Within lo hi (applyInc S (stateAfter S xin st n) (xin n)).1 := by
  intro S
  have h00 : S.A 0 0 = 1 / 2 := by
    change ((tab implicitMidpoint 0 0 : ℚ) : K) = _
    have : tab implicitMidpoint 0 0 = 1 / 2 := by decide +kernel
    rw [this]; norm_num
  have h10 : S.A 1 0 = 1 := by
    change ((tab implicitMidpoint 1 0 : ℚ) : K) = _
    have : tab implicitMidpoint 1 0 = 1 := by decide +kernel
    rw [this]; norm_num
  obtain ⟨y, h1, h2⟩ := C11_increment_partial S hs st hst xin n
    (fun i hi => by
      have : i = 0 := by simp only [S, ofTable] at hi; omega
      rw [this]) (by rw [h00]; exact fun x1 => stage_unique h (1 / 2 * dt) (by positivity) x1)
  have h1' := h1 0 (by simp [S, ofTable])
  simp only [zero_add, sum_range_one, h00] at h1'
  have h2' : (applyInc S (stateAfter S xin st n) (xin n)).1 = xin n + dt • ∑ j ∈ range 1, S.A 1 j • y j := h2
  rw [h2', sum_range_one, h10, one_smul]
  have := midpoint_within h k dt (1 / 2) hdt (by norm_num) (fun i => by have := hC i; linarith) lo hi (xin n) (y 0) hQ
    (h1'.trans (by
      change -rest R (xin n + dt • _) = _
      rw [smul_smul, mul_comm dt]))
  rwa [show (2 : K) * (1 / 2 * dt) = dt by ring] at this

/-- C145: every call of `QinZhang` keeps the bounds of its input up to Courant number four, whatever the earlier calls were. -/
theorem C145_qin_zhang (h : Upwind M E u outflow R) (solve : Solver (I → K) (I → K)) (hs : ExactSolver solve)
    (k : Fin d → K) (dt : K) (hdt : 0 ≤ dt) (hC : ∀ i, courant M E k .whole u dt i ≤ 4) (lo hi : K)
    (st : State K (I → K)) (hst : st.cachedDiag = none) (xin : ℕ → I → K) (n : ℕ) (hQ : Within lo hi (xin n)) :
    let S : Scheme K (I → K) (I → K) := ofTable qinZhang 2 R dt solve
    Within lo hi (applyInc S (stateAfter S xin st n) (xin n)).1 := by
  intro S
  have q : ∀ i j (v : ℚ), tab qinZhang i j = v → S.A i j = (v : K) := fun i j v h => by
    change ((tab qinZhang i j : ℚ) : K) = _
    rw [h]
  have h00 := q 0 0 (1 / 4) (by decide +kernel)
  have h10 := q 1 0 (1 / 2) (by decide +kernel)
  have h11 := q 1 1 (1 / 4) (by decide +kernel)
  have h20 := q 2 0 (1 / 2) (by decide +kernel)
  have h21 := q 2 1 (1 / 2) (by decide +kernel)
  push_cast at h00 h10 h11 h20 h21
  obtain ⟨y, h1, h2⟩ := C11_increment_partial S hs st hst xin n
    (fun i hi => by
      have : i < 2 := hi
      rcases (by omega : i = 0 ∨ i = 1) with rfl | rfl
      · rfl
      · rw [h11, h00]) (by rw [h00]; exact fun x1 => stage_unique h (1 / 4 * dt) (by positivity) x1)
  have k0 := h1 0 (by simp [S, ofTable])
  have k1 := h1 1 (by simp [S, ofTable])
  simp only [zero_add, sum_range_one, h00] at k0
  simp only [sum_range_succ, sum_range_zero, zero_add, h10, h11] at k1
  have h2' : (applyInc S (stateAfter S xin st n) (xin n)).1 = xin n + dt • ∑ j ∈ range 2, S.A 2 j • y j := h2
  have hc : ∀ i, 1 / 4 * courant M E k .whole u dt i ≤ 1 := fun i => by have := hC i; linarith
  have a := midpoint_within h k dt (1 / 4) hdt (by norm_num) hc lo hi (xin n) (y 0) hQ (k0.trans (by
      change -rest R (xin n + dt • _) = _
      rw [smul_smul, mul_comm dt]))
  have b := midpoint_within h k dt (1 / 4) hdt (by norm_num) hc lo hi _ (y 1) a (k1.trans (by
      change -rest R (xin n + dt • _) = _
      congr 2
      module))
  have e : xin n + dt • ∑ j ∈ range 2, S.A 2 j • y j =
      xin n + (2 * (1 / 4 * dt)) • y 0 + (2 * (1 / 4 * dt)) • y 1 := by
    simp only [sum_range_succ, sum_range_zero, zero_add, h20, h21]
    module
  rw [h2', e]
  exact b

end irk

/-! ## Densities -/

section density
variable {M : Mesh K d C F B} {E : Cells C F B I} {u : Ve K d C F B} {R : LForm (I → K) (I → K)}

/-- The situation for a density: the upwind continuity form; the wind may diverge (spec). -/
structure UpwindDensity (M : Mesh K d C F B) (E : Cells C F B I) (u : Ve K d C F B) (R : LForm (I → K) (I → K)) : Prop where
  wF : ∀ x, 0 ≤ M.wF x
  wB : ∀ x, 0 ≤ M.wB x
  vol : ∀ i, 0 < vol M E i
  flux : FluxCont M u
  mass : ∀ Q i, Spec.mass R Q i = Diag.vol M E i * Q i
  form : ∀ Q i, upwindContinuity M (ind E i) (dg0 E Q) u .once true = .ok (rest R Q i)

theorem rest_eq' (h : UpwindDensity M E u R) (Q : I → K) (i : I) : rest R Q i =
      (∑ x, M.wF x * ((if E.cP x = i then un (M.aP u x) * Q i - un (-M.aP u x) * Q (E.cM x) else 0) +
        (if E.cM x = i then un (M.aM u x) * Q i - un (-M.aM u x) * Q (E.cP x) else 0))) +
      ∑ x, M.wB x * (if E.cB x = i then un (M.aB u x) * Q i else 0) := by
  have := h.form Q i
  rw [dg0_continuity M E u Q i h.flux] at this
  injection this with this
  exact this.symm

theorem rest_linear' (h : UpwindDensity M E u R) : IsLinearMap K (rest R) := by
  constructor
  · intro P Q
    funext i
    simp only [Pi.add_apply, rest_eq' h]
    rw [add_add_add_comm, ← sum_add_distrib, ← sum_add_distrib]
    congr 1 <;> refine sum_congr rfl fun x _ => ?_ <;> split_ifs <;> ring
  · intro c Q
    funext i
    simp only [Pi.smul_apply, smul_eq_mul, rest_eq' h]
    rw [mul_add, mul_sum, mul_sum]
    congr 1 <;> refine sum_congr rfl fun x _ => ?_ <;> split_ifs <;> ring

/-- The cells with negative values lose nothing negative. -/
theorem rest_negative (h : UpwindDensity M E u R) (Q : I → K) : ∑ i with Q i < 0, rest R Q i ≤ 0 := by
  simp only [rest_eq' h]
  rw [sum_add_distrib, sum_comm, sum_comm (s := univ.filter fun i => Q i < 0) (t := univ) (f := fun i x => M.wB x * _)]
  have hM : ∀ x, M.aM u x = -M.aP u x := h.flux
  have pick : ∀ (j : I) (f : I → K), ∑ i with Q i < 0, (if j = i then f i else 0) = if Q j < 0 then f j else 0 := by
    intro j f
    rw [Finset.sum_ite_eq]
    simp
  refine add_nonpos (sum_nonpos fun x _ => ?_) (sum_nonpos fun x _ => ?_)
  · rw [← mul_sum, sum_add_distrib, pick, pick, hM x, neg_neg]
    refine mul_nonpos_of_nonneg_of_nonpos (h.wF x) ?_
    have a := un_nonneg (M.aP u x)
    have b := un_nonneg (-M.aP u x)
    split_ifs with h1 h2 h2
    · linarith
    · have := mul_nonpos_of_nonneg_of_nonpos a h1.le
      have := mul_nonneg b (not_lt.1 h2)
      linarith
    · have := mul_nonpos_of_nonneg_of_nonpos b h2.le
      have := mul_nonneg a (not_lt.1 h1)
      linarith
    · simp
  · rw [← mul_sum, pick]
    refine mul_nonpos_of_nonneg_of_nonpos (h.wB x) ?_
    split_ifs with h1
    · exact mul_nonpos_of_nonneg_of_nonpos (un_nonneg _) h1.le
    · exact le_rfl

theorem implicit_nonneg (h : UpwindDensity M E u R) (τ : K) (hτ : 0 ≤ τ) (P Q : I → K)
    (hs : ∀ i, vol M E i * Q i + τ * rest R Q i = vol M E i * P i) (hP : ∀ i, 0 ≤ P i) (j : I) : 0 ≤ Q j := by
  by_contra hj
  have h1 : ∑ i with Q i < 0, (vol M E i * Q i + τ * rest R Q i) = ∑ i with Q i < 0, vol M E i * P i :=
    sum_congr rfl fun i _ => hs i
  have h2 : 0 ≤ ∑ i with Q i < 0, vol M E i * P i := sum_nonneg fun i _ => mul_nonneg (h.vol i).le (hP i)
  have h3 : ∑ i with Q i < 0, vol M E i * Q i < 0 := by
    refine sum_neg (fun i hi => mul_neg_of_pos_of_neg (h.vol i) (mem_filter.1 hi).2) ⟨j, by simpa using hj⟩
  rw [sum_add_distrib, ← mul_sum] at h1
  have h4 := mul_nonpos_of_nonneg_of_nonpos hτ (rest_negative h Q)
  linarith

theorem implicit_unique' (h : UpwindDensity M E u R) (τ : K) (hτ : 0 ≤ τ) (b : I → K) :
    ∃! Q : I → K, ∀ i, vol M E i * Q i + τ * rest R Q i = b i := by
  let L : (I → K) →ₗ[K] (I → K) :=
    { toFun := fun Q i => vol M E i * Q i + τ * rest R Q i
      map_add' := fun P Q => by
        funext i
        simp only [Pi.add_apply, (rest_linear' h).map_add]
        ring
      map_smul' := fun c Q => by
        funext i
        simp only [Pi.smul_apply, smul_eq_mul, (rest_linear' h).map_smul, RingHom.id_apply]
        ring }
  have hinj : Function.Injective L := by
    rw [injective_iff_map_eq_zero]
    intro Q hQ
    have h1 := implicit_nonneg h τ hτ 0 Q (fun i => (congrFun hQ i).trans (by simp)) (fun i => by simp)
    have hneg : L (-Q) = 0 := by rw [map_neg, hQ, neg_zero]
    have h2 := implicit_nonneg h τ hτ 0 (-Q) (fun i => (congrFun hneg i).trans (by simp)) (fun i => by simp)
    funext i
    have := h2 i
    simp only [Pi.neg_apply] at this
    exact le_antisymm (by simpa using this) (h1 i)
  obtain ⟨Q, hQ⟩ := (LinearMap.injective_iff_surjective.1 hinj) b
  refine ⟨Q, fun i => congrFun hQ i, fun Q' hQ' => hinj ?_⟩
  rw [hQ]
  exact funext hQ'

/-- C145: a density transported with the continuity form and `BackwardEuler` stays non-negative, whatever the time step and however
the wind diverges or converges; any number of steps of any lengths. -/
theorem C145_density (h : UpwindDensity M E u R) (solve : Solver (I → K) (I → K)) (hs : ExactSolver solve)
    (dts : List K) (hdt : ∀ dt ∈ dts, 0 ≤ dt) (Q : I → K) (hQ : ∀ i, 0 ≤ Q i) :
    ∀ i, 0 ≤ dts.foldl (fun Q dt => implicitCycle solve (backwardEulerRes R dt) Q) Q i := by
  induction dts generalizing Q with
  | nil => exact hQ
  | cons dt l ih =>
    refine ih (fun t ht => hdt t (List.mem_cons_of_mem _ ht)) _ fun i => ?_
    have hd := hdt dt List.mem_cons_self
    refine implicit_nonneg h dt hd Q _ ?_ hQ i
    have hiff : ∀ y, (backwardEulerRes R dt y Q).eval = 0 ↔
        ∀ i, vol M E i * y i + dt * rest R y i = vol M E i * Q i := fun y => by
      rw [eval_backwardEulerRes, funext_iff]
      exact forall_congr' fun i => by simp [h.mass, sub_eq_zero]
    refine (hiff _).1 (hs (fun y => (backwardEulerRes R dt y Q).eval) Q ?_)
    obtain ⟨y, h1, h2⟩ := implicit_unique' h dt hd fun i => vol M E i * Q i
    exact ⟨y, (hiff y).2 h1, fun z hz => h2 z ((hiff z).1 hz)⟩

end density

/-! ## The limits cannot be improved -/

section sharp
open Gusto.Props.IRKProps (ofTable)

/-- Two cells with closed ends. -/
def duct : Mesh ℚ 1 (Fin 2) (Fin 1) (Fin 0) where
  wC _ := 1
  wF _ := 1
  wB _ := 1
  nP _ _ := 1
  nM _ _ := -1
  nB _ _ := 1

/-- The cells of `duct`. -/
def ductCells : Cells (Fin 2) (Fin 1) (Fin 0) (Fin 2) where
  cC x := x
  cP _ := 0
  cM _ := 1
  cB x := x.elim0

/-- A wind `a` from the first cell to the second, which vanishes at the ends. -/
def blow (a : ℚ) : Ve ℚ 1 (Fin 2) (Fin 1) (Fin 0) where
  c _ _ := a / 2
  j x _ _ := if x = 0 then a else -a
  p _ _ := a
  m _ _ := a
  b x := x.elim0

/-- Upwind transport in the duct, as a residual. -/
def ductR (a : ℚ) : LForm (Fin 2 → ℚ) (Fin 2 → ℚ) :=
  [ { labels := [.timeDerivative], op := fun Q => Q, subj := 0 },
    { labels := [.transport], op := fun Q => ![0, a * (Q 1 - Q 0)], subj := 0 } ]

/-- Upwind continuity in the duct, as a residual. -/
def ductD (a : ℚ) : LForm (Fin 2 → ℚ) (Fin 2 → ℚ) :=
  [ { labels := [.timeDerivative], op := fun Q => Q, subj := 0 },
    { labels := [.transport], op := fun Q => ![a * Q 0, -a * Q 0], subj := 0 } ]

theorem duct_vol (i : Fin 2) : vol duct ductCells i = 1 := by
  fin_cases i <;> simp [vol, duct, ductCells, Fin.sum_univ_two]

theorem duct_flux (a : ℚ) : FluxCont duct (blow a) := by
  intro x; simp [duct, blow, dot]

theorem duct_div (a : ℚ) (i : Fin 2) : DivThm duct (ind ductCells i) (Sc.const 1) (blow a) := by
  fin_cases i <;> simp [DivThm, duct, ductCells, ind, dg0, Sc.const, blow, dot, Ve.div, Fin.sum_univ_two]

theorem duct_upwind (a : ℚ) (ha : 0 ≤ a) : Upwind duct ductCells (blow a) false (ductR a) where
  wF _ := by norm_num [duct]
  wB x := x.elim0
  vol i := by rw [duct_vol]; norm_num
  div := duct_div a
  flux := duct_flux a
  bd := Or.inr fun x => x.elim0
  eqn :=
    { mass := fun Q i => by rw [duct_vol]; simp [Spec.mass, part, ductR]
      form := fun Q i => by
        rw [dg0_form duct ductCells (blow a) false Q i (duct_div a i) (duct_flux a) (Or.inr fun x => x.elim0)]
        congr 1
        have h1 : un (-a) = 0 := un_neg (by linarith)
        have h2 : un a = a := un_pos ha
        fin_cases i <;> simp [rest, part, ductR, ductCells, duct, blow, dot, Mesh.aP, Mesh.aM, h1, h2] }

theorem duct_density (a : ℚ) (ha : 0 ≤ a) : UpwindDensity duct ductCells (blow a) (ductD a) where
  wF _ := by norm_num [duct]
  wB x := x.elim0
  vol i := by rw [duct_vol]; norm_num
  flux := duct_flux a
  mass Q i := by rw [duct_vol]; simp [Spec.mass, part, ductD]
  form Q i := by
    rw [dg0_continuity duct ductCells (blow a) Q i (duct_flux a)]
    congr 1
    have h1 : un (-a) = 0 := un_neg (by linarith)
    have h2 : un a = a := un_pos ha
    fin_cases i <;> simp [rest, part, ductD, ductCells, duct, blow, dot, Mesh.aP, Mesh.aM, h1, h2]

theorem duct_courant (a dt : ℚ) (ha : 0 ≤ a) (k : Fin 1 → ℚ) :
    courant duct ductCells k .whole (blow a) dt 0 = 0 ∧ courant duct ductCells k .whole (blow a) dt 1 = a * dt := by
  have h1 : un (-a) = 0 := un_neg (by linarith)
  have h2 : un a = a := un_pos ha
  unfold courant
  rw [duct_vol, duct_vol]
  constructor <;> simp [cellFlux, compOf, ind, dg0, ductCells, duct, blow, dot, Mesh.aP, Mesh.aM, h1, h2]

/-- C145, sharp: for every `θ` and every Courant number above `1/(1-θ)` there is a field with values in `[0, 1]` of which a step of
`ThetaMethod` makes a negative value. -/
theorem C145_theta_sharp (th c : ℚ) (hth : offCentringAccepted th = true) (hc0 : 0 ≤ c) (hc : 1 < (1 - th) * c)
    (solve : Solver (Fin 2 → ℚ) (Fin 2 → ℚ)) (hs : ExactSolver solve) :
    Upwind duct ductCells (blow c) false (ductR c) ∧ (∀ k i, courant duct ductCells k .whole (blow c) 1 i ≤ c) ∧
    Within 0 1 (![0, 1] : Fin 2 → ℚ) ∧ implicitCycle solve (thetaRes (ductR c) 1 th) ![0, 1] 1 < 0 := by
  obtain ⟨h0, h1⟩ := (C07_parameter_guard th).1 hth
  have hu := duct_upwind c hc0
  refine ⟨hu, fun k i => ?_, fun i => by fin_cases i <;> simp, ?_⟩
  · obtain ⟨a, b⟩ := duct_courant c 1 hc0 k
    fin_cases i
    · exact a.le.trans hc0
    · exact (b.trans (mul_one c)).le
  · have hsol := solved hu solve hs (th * 1) (by linarith) (fun y => (thetaRes (ductR c) 1 th y ![0, 1]).eval)
      (fun i => vol duct ductCells i * expl duct ductCells (ductR c) ((1 - th) * 1) ![0, 1] i) ![0, 1] (fun y i => by
        rw [eval_thetaRes, expl_eq hu]
        simp [hu.eqn.mass])
    change solve (fun y => (thetaRes (ductR c) 1 th y ![0, 1]).eval) ![0, 1] 1 < 0
    set y := solve (fun y => (thetaRes (ductR c) 1 th y ![0, 1]).eval) ![0, 1]
    have e0 := hsol 0
    have e1 := hsol 1
    rw [expl_eq hu, duct_vol] at e0 e1
    simp [rest, part, ductR] at e0 e1
    rw [e0] at e1
    have hth : 0 ≤ th * c := mul_nonneg h0 hc0
    by_contra hy
    nlinarith [mul_nonneg hth (not_lt.1 hy)]

/-- C145, sharp: for every `γ` in `(0, 1]` and every Courant number above `2(2-γ)/(1+(1-γ)²)` there is a field with values in `[0, 1]`
of which a step of `TR_BDF2` makes a negative value. -/
theorem C145_tr_bdf2_sharp (g c : ℚ) (hg0 : 0 < g) (hg : offCentringAccepted g = true) (hc0 : 0 ≤ c)
    (hc : 2 * (2 - g) < (1 + (1 - g) ^ 2) * c) (solve : Solver (Fin 2 → ℚ) (Fin 2 → ℚ)) (hs : ExactSolver solve) :
    Upwind duct ductCells (blow c) false (ductR c) ∧ (∀ k i, courant duct ductCells k .whole (blow c) 1 i ≤ c) ∧
    Within 0 1 (![0, 1] : Fin 2 → ℚ) ∧ trBdf2Apply solve (ductR c) 1 g ![0, 1] 1 < 0 := by
  obtain ⟨-, hg1⟩ := (C07_parameter_guard g).1 hg
  have h2g : 0 < 2 - g := by linarith
  have hu := duct_upwind c hc0
  refine ⟨hu, fun k i => ?_, fun i => by fin_cases i <;> simp, ?_⟩
  · obtain ⟨a, b⟩ := duct_courant c 1 hc0 k
    fin_cases i
    · exact a.le.trans hc0
    · exact (b.trans (mul_one c)).le
  · set G := solve (fun y => (trRes (ductR c) 1 g y ![0, 1]).eval) ![0, 1] with hG
    have h1 := solved hu solve hs (g / 2 * 1) (by positivity) (fun y => (trRes (ductR c) 1 g y ![0, 1]).eval)
      (fun i => vol duct ductCells i * expl duct ductCells (ductR c) (g / 2 * 1) ![0, 1] i) ![0, 1] (fun y i => by
        rw [eval_trRes, expl_eq hu]
        simp [hu.eqn.mass]
        ring)
    rw [← hG] at h1
    have h2 := solved hu solve hs ((1 - g) / (2 - g) * 1) (by have : 0 ≤ 1 - g := by linarith
                                                              positivity)
      (fun y => (bdf2StageRes (ductR c) 1 g y G ![0, 1]).eval)
      (fun i => vol duct ductCells i * (1 / (g * (2 - g)) * G i - (1 - g) ^ 2 / (g * (2 - g)) * (![0, 1] : Fin 2 → ℚ) i)) G
      (fun y i => by
        rw [eval_bdf2StageRes]
        simp [hu.eqn.mass]
        ring)
    change solve (fun y => (bdf2StageRes (ductR c) 1 g y G ![0, 1]).eval) G 1 < 0
    set Y := solve (fun y => (bdf2StageRes (ductR c) 1 g y G ![0, 1]).eval) G
    have e0 := h1 0
    have e1 := h1 1
    have f0 := h2 0
    have f1 := h2 1
    rw [expl_eq hu] at e0 e1
    rw [duct_vol] at e0 e1 f0 f1
    simp [rest, part, ductR] at e0 e1 f0 f1
    rw [e0] at e1 f0
    have hY0 : Y 0 = 0 := by simpa using f0
    rw [hY0, sub_zero] at f1
    by_contra hy
    have hy' := not_lt.1 hy
    have hb : 0 ≤ (1 - g) / (2 - g) := div_nonneg (by linarith) h2g.le
    have hpos : 0 ≤ Y 1 + (1 - g) / (2 - g) * (c * Y 1) := by positivity
    rw [f1] at hpos
    have hG1 : G 1 * (1 + g / 2 * c) = 1 - g / 2 * c := by linarith
    have hd : 0 < 1 + g / 2 * c := by positivity
    have e : (2 - g)⁻¹ * g⁻¹ * G 1 - (1 - g) ^ 2 / (g * (2 - g)) = (G 1 - (1 - g) ^ 2) / (g * (2 - g)) := by field_simp
    rw [e] at hpos
    have hn : 0 ≤ G 1 - (1 - g) ^ 2 := by
      by_contra hneg
      exact absurd hpos (not_le.2 (div_neg_of_neg_of_pos (not_le.1 hneg) (by positivity)))
    have hm := mul_nonneg hn hd.le
    have hm' : 0 ≤ (1 - g / 2 * c) - (1 - g) ^ 2 * (1 + g / 2 * c) := by rw [← hG1]; linarith
    have hk := mul_lt_mul_of_pos_left hc hg0
    nlinarith

/-- Not vacuous: a step a thousand times too long for an explicit scheme. -/
example (solve : Solver (Fin 2 → ℚ) (Fin 2 → ℚ)) (hs : ExactSolver solve) (n : ℕ) (i : Fin 2) :
    2 ≤ (List.replicate n (1000 : ℚ)).foldl (fun Q dt => implicitCycle solve (backwardEulerRes (ductR 1) dt) Q) ![2, 5] i :=
  (C145_backward_euler_run (duct_upwind 1 (by norm_num)) solve hs (List.replicate n (1000 : ℚ))
    (fun t ht => by rw [List.eq_of_mem_replicate ht]; norm_num) 2 5 ![2, 5]
    (fun i => by fin_cases i <;> norm_num) i).1

/-- Not vacuous: the other schemes at their limits. -/
example (st : IRK.State ℚ (Fin 2 → ℚ)) (hst : st.cachedDiag = none) (i : Fin 2) :
    0 ≤ implicitCycle choiceSolve (trapeziumRes (ductR 2) (1 : ℚ)) ![0, 1] i ∧
    0 ≤ trBdf2Apply choiceSolve (ductR (12 / 5)) (1 : ℚ) (1 / 2) ![0, 1] i ∧
    0 ≤ (IRK.applyInc (ofTable IRK.qinZhang 2 (ductR 4) (1 : ℚ) choiceSolve) st ![0, 1]).1 i := by
  have w : Within 0 1 (![0, 1] : Fin 2 → ℚ) := fun i => by fin_cases i <;> simp
  have c : ∀ (a : ℚ), 0 ≤ a → ∀ i, courant duct ductCells (fun _ => 0) .whole (blow a) 1 i ≤ a := by
    intro a ha i
    obtain ⟨h0, h1⟩ := duct_courant a 1 ha (fun _ => 0)
    fin_cases i
    · exact h0.le.trans ha
    · exact (h1.trans (mul_one a)).le
  refine ⟨(C145_trapezium (duct_upwind 2 (by norm_num)) choiceSolve choiceSolve_exact (fun _ => 0) 1 zero_le_one
      (c 2 (by norm_num)) 0 1 _ w i).1,
    (C145_tr_bdf2 (duct_upwind (12 / 5) (by norm_num)) choiceSolve choiceSolve_exact (fun _ => 0) 1 (1 / 2) zero_le_one
      (by norm_num) ((C07_parameter_guard _).2 ⟨by norm_num, by norm_num⟩) (fun i => ?_) 0 1 _ w i).1,
    (C145_qin_zhang (duct_upwind 4 (by norm_num)) choiceSolve choiceSolve_exact (fun _ => 0) 1 zero_le_one
      (c 4 (by norm_num)) 0 1 st hst (fun _ => ![0, 1]) 0 w i).1⟩
  have := c (12 / 5) (by norm_num) i
  linarith

/-- Not vacuous: a density in the converging wind. -/
example (solve : Solver (Fin 2 → ℚ) (Fin 2 → ℚ)) (hs : ExactSolver solve) (i : Fin 2) :
    0 ≤ [(1000 : ℚ), 1/10, 77].foldl (fun Q dt => implicitCycle solve (backwardEulerRes (ductD 3) dt) Q) ![2, 5] i :=
  C145_density (duct_density 3 (by norm_num)) solve hs _ (by simp) ![2, 5] (fun i => by fin_cases i <;> norm_num) i

end sharp
end Gusto.Props.ImplicitBoundsProps
