import Verif.Model.BoussinesqBalance
import Verif.Props.ShallowWater1d
import Mathlib.LinearAlgebra.Dual.Lemmas
import Mathlib.LinearAlgebra.FiniteDimensional.Lemmas
import Mathlib.RingTheory.Polynomial.DegreeLT
import Mathlib.Algebra.Polynomial.Roots

set_option autoImplicit false
set_option linter.unusedSectionVars false
set_option linter.unusedSimpArgs false

/-!
# C106: hydrostatic balance of the Boussinesq equations
-/

namespace Gusto.Props.BouBalanceProps
open Gusto.BouBalance Gusto.SW1 Gusto.Props.SW1Props Polynomial

section Abstract
variable {V Q : Type*} [AddCommGroup V] [Module ℝ V] [AddCommGroup Q] [Module ℝ Q]

/-- The vertical momentum residual of the Boussinesq equations at rest, `-div(w)*p*dx - b*inner(w, k)*dx`
(boussinesq_equations.py:171-179). -/
noncomputable def momentum (P : Forms V Q) (p : Q) (w : V) : ℝ := -P.divp w p - P.buoy w

/-- C106, balance on any mesh: if the divergence of vertical velocities with the boundary condition is injective (as seen
by the pressure space), the returned pressure makes the vertical momentum residual vanish for every vertical test function
with the boundary condition. -/
theorem C106_balance (P : Forms V Q) (hdiv : ∀ v, (∀ phi, P.divp v phi = 0) → v = 0) (p : Q) (h : Result P p) (w : V) :
    momentum P p w = 0 := by
  obtain ⟨F, v, hF, hm⟩ := h
  have h1 : ∀ w, P.mass w v + P.divp w p = 0 := fun w => by simpa using hm w 0
  have h2 : ∀ phi, P.divp v phi = P.divp F phi := fun phi => by simpa using hm 0 phi
  have hv : v = F := by
    have : v - F = 0 := hdiv _ fun phi => by simp [h2]
    exact sub_eq_zero.1 this
  have := h1 w
  rw [hv, hF w] at this
  unfold momentum
  linarith

/-- C106, solvability on any mesh: if moreover the pressure space is contained in the divergences and the mass form is
definite, there is exactly one result. -/
theorem C106_unique (P : Forms V Q) [FiniteDimensional ℝ V] [FiniteDimensional ℝ Q]
    (hdiv : ∀ v, (∀ phi, P.divp v phi = 0) → v = 0) (hp : ∀ p, (∀ w, P.divp w p = 0) → p = 0)
    (hmass : ∀ v, P.mass v v = 0 → v = 0) : ∃! p, Result P p := by
  have uniq : ∀ p p', Result P p → Result P p' → p = p' := by
    intro p p' h h'
    have : p - p' = 0 := hp _ fun w => by
      have h1 := C106_balance P hdiv p h w
      have h2 := C106_balance P hdiv p' h' w
      unfold momentum at h1 h2
      rw [map_sub]; linarith
    exact sub_eq_zero.1 this
  -- the solve for `F`
  have hs : Function.Surjective P.mass.flip := by
    have hinj : Function.Injective P.mass.flip := by
      rw [injective_iff_map_eq_zero]
      intro v hv
      apply hmass v
      have := LinearMap.congr_fun hv v
      simpa using this
    exact (LinearMap.injective_iff_surjective_of_finrank_eq_finrank (Subspace.dual_finrank_eq (K := ℝ) (V := V)).symm).1 hinj
  obtain ⟨F, hF⟩ := hs P.buoy
  have hF' : SolvesF P F := fun w => by rw [← hF]; rfl
  -- the pressure
  have hs2 : Function.Surjective P.divp.flip := by
    have hinj : Function.Injective P.divp.flip := by
      rw [injective_iff_map_eq_zero]
      intro p hv
      apply hp p
      intro w
      have := LinearMap.congr_fun hv w
      simpa using this
    have hinj2 : Function.Injective P.divp := by
      rw [injective_iff_map_eq_zero]
      intro v hv
      exact hdiv v fun phi => by rw [hv]; rfl
    have r1 := LinearMap.finrank_le_finrank_of_injective hinj
    have r2 := LinearMap.finrank_le_finrank_of_injective hinj2
    rw [Subspace.dual_finrank_eq] at r1 r2
    refine (LinearMap.injective_iff_surjective_of_finrank_eq_finrank ?_).1 hinj
    rw [Subspace.dual_finrank_eq]
    exact le_antisymm r1 r2
  obtain ⟨p, hpp⟩ := hs2 (-P.buoy)
  refine ⟨p, ⟨F, F, hF', fun w phi => ?_⟩, fun p' h' => uniq p' p h' ⟨F, F, hF', fun w phi => ?_⟩⟩ <;>
  · have := LinearMap.congr_fun hpp w
    simp only [LinearMap.flip_apply, LinearMap.neg_apply] at this
    rw [hF' w, this]; ring

end Abstract

/-! ### One column -/

/-- Cells of positive height, not periodic. -/
def Proper (M : Mesh1) : Prop := M.per = false ∧ ∀ i ≤ M.n, M.x i < M.x (i + 1)

/-- An antiderivative. -/
noncomputable def prim (p : ℝ[X]) : ℝ[X] := p.sum fun n a => C (a / (n + 1)) * X ^ (n + 1)

theorem prim_deriv (p : ℝ[X]) : derivative (prim p) = p := by
  unfold prim Polynomial.sum
  rw [derivative_sum]
  conv_rhs => rw [p.as_sum_support_C_mul_X_pow]
  refine Finset.sum_congr rfl fun n _ => ?_
  rw [derivative_C_mul_X_pow]
  have : (n : ℝ) + 1 ≠ 0 := by positivity
  congr 2
  push_cast
  field_simp

theorem prim_degree (p : ℝ[X]) (k : ℕ) (h : p ∈ degreeLT ℝ k) : prim p ∈ degreeLT ℝ (k + 1) := by
  unfold prim Polynomial.sum
  refine Submodule.sum_mem _ fun n hn => ?_
  rw [mem_degreeLT] at h ⊢
  have hn' : (n : WithBot ℕ) ≤ p.degree := le_degree_of_mem_supp n hn
  have : n < k := by exact_mod_cast lt_of_le_of_lt hn' h
  refine lt_of_le_of_lt (degree_C_mul_X_pow_le _ _) ?_
  exact_mod_cast (by omega : n + 1 < k + 1)

/-- The continuous antiderivative from the bottom. -/
noncomputable def rise (M : Mesh1) (q : Fn) : ℕ → ℝ[X]
  | 0 => prim (q 0) - C ((prim (q 0)).eval (M.x 0))
  | i + 1 => prim (q (i + 1)) - C ((prim (q (i + 1))).eval (M.x (i + 1))) + C ((rise M q i).eval (M.x (i + 1)))

theorem rise_deriv (M : Mesh1) (q : Fn) (i : ℕ) : derivative (rise M q i) = q i := by
  cases i <;> simp [rise, prim_deriv]

theorem C_degree (k : ℕ) (c : ℝ) : C c ∈ degreeLT ℝ (k + 1) := by
  rw [mem_degreeLT]
  refine lt_of_le_of_lt degree_C_le ?_
  exact_mod_cast Nat.succ_pos k

theorem rise_degree (M : Mesh1) (q : Fn) (k : ℕ) (h : ∀ i, q i ∈ degreeLT ℝ k) (i : ℕ) : rise M q i ∈ degreeLT ℝ (k + 1) := by
  cases i with
  | zero => exact Submodule.sub_mem _ (prim_degree _ _ (h 0)) (C_degree k _)
  | succ i =>
    exact Submodule.add_mem _ (Submodule.sub_mem _ (prim_degree _ _ (h _)) (C_degree k _)) (C_degree k _)

theorem rise_cont (M : Mesh1) (q : Fn) (i : ℕ) : (rise M q i).eval (M.x (i + 1)) = (rise M q (i + 1)).eval (M.x (i + 1)) := by
  simp [rise]

/-- The vertical velocity whose divergence is a given function. -/
noncomputable def vel (M : Mesh1) (top : Bool) (q : Fn) : Fn := fun i =>
  if i ≤ M.n then rise M q i - C (if top then (rise M q M.n).eval (M.x (M.n + 1)) else 0) else 0

theorem vel_mem (M : Mesh1) (k : ℕ) (top : Bool) (q : Fn) (h : q ∈ dgSpace M k) : vel M top q ∈ velSpace M k top := by
  refine ⟨⟨fun i => ?_, fun i hi => ?_⟩, fun i hi => ?_, ?_⟩
  · unfold vel
    split_ifs
    · exact Submodule.sub_mem _ (rise_degree M q (k + 1) h.1 i) (C_degree (k + 1) _)
    · exact Submodule.sub_mem _ (rise_degree M q (k + 1) h.1 i) (C_degree (k + 1) _)
    · exact Submodule.zero_mem _
  · unfold vel; rw [if_neg (by omega)]
  · simp only [Mesh1.atR, Mesh1.atL, vel]
    rw [if_pos (show i ≤ M.n by omega), if_pos (show i + 1 ≤ M.n by omega), eval_sub, eval_sub, eval_C,
      rise_cont M q i]
  · unfold bcValue
    cases top
    · simp [Mesh1.atR, Mesh1.atL, vel, rise]
    · simp [Mesh1.atR, Mesh1.atL, vel]

theorem vel_deriv (M : Mesh1) (top : Bool) (q : Fn) (i : ℕ) (hi : i ≤ M.n) : dx0 (vel M top q) i = q i := by
  unfold dx0 vel
  rw [if_pos hi, derivative_sub, rise_deriv, derivative_C, sub_zero]

/-- The integral of a square vanishes only for zero. -/
theorem square_zero (M : Mesh1) (hM : Proper M) (q : Fn) (h : integ M (fun i => q i * q i) = 0) : ∀ i ≤ M.n, q i = 0 := by
  have nn : ∀ i ∈ Finset.range (M.n + 1), 0 ≤ ∫ t in (M.x i)..(M.x (i + 1)), (q i * q i).eval t := by
    intro i hi
    refine intervalIntegral.integral_nonneg (hM.2 i (by simpa [Nat.lt_succ_iff] using hi)).le fun t _ => ?_
    rw [eval_mul]; exact mul_self_nonneg _
  have z := (Finset.sum_eq_zero_iff_of_nonneg nn).1 h
  intro i hi
  by_contra hne
  have hlt := hM.2 i hi
  obtain ⟨c, hc, hcne⟩ : ∃ c ∈ Set.Icc (M.x i) (M.x (i + 1)), (q i).eval c ≠ 0 := by
    by_contra hall
    push Not at hall
    exact hne (eq_zero_of_infinite_isRoot _ (Set.Infinite.mono (fun t ht => hall t ht) (Set.Icc_infinite hlt)))
  have := intervalIntegral.integral_pos (f := fun t => (q i * q i).eval t) hlt
    (q i * q i).continuous.continuousOn (fun t _ => by rw [eval_mul]; exact mul_self_nonneg _)
    ⟨c, hc, by rw [eval_mul]; exact mul_self_pos.2 hcne⟩
  rw [z i (Finset.mem_range.2 (by omega))] at this
  exact lt_irrefl _ this

theorem dx_mem (M : Mesh1) (k : ℕ) (q : Fn) (h : q ∈ dgSpace M (k + 1)) : dx0 q ∈ dgSpace M k := by
  refine ⟨fun i => ?_, fun i hi => by unfold dx0; rw [h.2 i hi, derivative_zero]⟩
  have hi := h.1 i
  rw [mem_degreeLT] at hi ⊢
  unfold dx0
  by_cases h0 : q i = 0
  · rw [h0, derivative_zero, degree_zero]; exact WithBot.bot_lt_coe _
  · have h1 := degree_derivative_lt h0
    rw [degree_eq_natDegree h0] at h1 hi
    have hi' : (q i).natDegree < k + 1 + 1 := by exact_mod_cast hi
    refine lt_of_lt_of_le h1 ?_
    exact_mod_cast (by omega : (q i).natDegree ≤ k + 1)

theorem vel_zero (M : Mesh1) (k : ℕ) (top : Bool) (v : Fn) (hv : v ∈ velSpace M k top)
    (h : ∀ i ≤ M.n, dx0 v i = 0) : v = 0 := by
  obtain ⟨hd, hc, hb⟩ := hv
  have hconst : ∀ i ≤ M.n, ∀ s t, (v i).eval s = (v i).eval t := by
    intro i hi s t
    have := h i hi
    unfold dx0 at this
    rw [natDegree_eq_zero_of_derivative_eq_zero this |> eq_C_of_natDegree_eq_zero]
    simp
  have hsame : ∀ i ≤ M.n, (v i).eval 0 = (v 0).eval 0 := by
    intro i
    induction i with
    | zero => intro _; rfl
    | succ i ih =>
      intro hi
      have := hc i (by omega)
      unfold Mesh1.atR Mesh1.atL at this
      rw [hconst (i + 1) hi 0 (M.x (i + 1)), ← this, hconst i (by omega) _ 0]
      exact ih (by omega)
  have h0 : (v 0).eval 0 = 0 := by
    unfold bcValue at hb
    cases top
    · simp only [Bool.false_eq_true, if_false, Mesh1.atL] at hb
      rw [hconst 0 (Nat.zero_le _) 0 (M.x 0)]; exact hb
    · simp only [if_true, Mesh1.atR] at hb
      rw [← hsame M.n le_rfl, hconst M.n le_rfl 0 (M.x (M.n + 1))]; exact hb
  funext i
  by_cases hi : i ≤ M.n
  · apply Polynomial.funext
    intro t
    rw [hconst i hi t 0, hsame i hi, h0]; simp
  · exact hd.2 i (by omega)

instance (M : Mesh1) (k : ℕ) : FiniteDimensional ℝ (dgSpace M k) := by
  have : FiniteDimensional ℝ (degreeLT ℝ (k + 1)) := (degreeLTEquiv ℝ (k + 1)).symm.finiteDimensional
  let T : dgSpace M k →ₗ[ℝ] (Fin (M.n + 1) → degreeLT ℝ (k + 1)) :=
    { toFun := fun q i => ⟨q.1 i, q.2.1 i⟩, map_add' := fun a b => rfl, map_smul' := fun c a => rfl }
  refine FiniteDimensional.of_injective T ?_
  intro a b hab
  apply Subtype.ext
  funext i
  by_cases hi : i ≤ M.n
  · have := congrFun hab ⟨i, by omega⟩
    exact congrArg Subtype.val this
  · rw [a.2.2 i (by omega), b.2.2 i (by omega)]

instance (M : Mesh1) (k : ℕ) (top : Bool) : FiniteDimensional ℝ (velSpace M k top) := by
  refine FiniteDimensional.of_injective (Submodule.inclusion (p := velSpace M k top) (p' := dgSpace M (k + 1))
    fun q hq => hq.1) (Submodule.inclusion_injective _)

section Column
variable {M : Mesh1} {k : ℕ} {top : Bool} {b0 : Fn} {P : Forms (velSpace M k top) (dgSpace M k)}

theorem col_div (hM : Proper M) (hP : IsColumn M k top b0 P) (v : velSpace M k top) (h : ∀ phi, P.divp v phi = 0) :
    v = 0 := by
  have := h ⟨dx0 v.1, dx_mem M k v.1 v.2.1⟩
  rw [hP.divp] at this
  exact Subtype.ext (vel_zero M k top v.1 v.2 (square_zero M hM _ this))

theorem col_press (hM : Proper M) (hP : IsColumn M k top b0 P) (p : dgSpace M k) (h : ∀ w, P.divp w p = 0) : p = 0 := by
  have := h ⟨vel M top p.1, vel_mem M k top p.1 p.2⟩
  rw [hP.divp, integ_congr M (b := fun i => p.1 i * p.1 i) fun i hi => by rw [vel_deriv M top p.1 i hi]] at this
  have hz := square_zero M hM _ this
  apply Subtype.ext
  funext i
  by_cases hi : i ≤ M.n
  · exact hz i hi
  · exact p.2.2 i (by omega)

theorem col_mass (hM : Proper M) (hP : IsColumn M k top b0 P) (v : velSpace M k top) (h : P.mass v v = 0) : v = 0 := by
  rw [hP.mass] at h
  have hz := square_zero M hM _ h
  apply Subtype.ext
  funext i
  by_cases hi : i ≤ M.n
  · exact hz i hi
  · exact v.2.1.2 i (by omega)

/-- C106, columns: over every column the solves have exactly one solution. -/
theorem C106_column_unique (hM : Proper M) (hP : IsColumn M k top b0 P) : ∃! p, Result P p :=
  C106_unique P (col_div hM hP) (col_press hM hP) (col_mass hM hP)

/-- C106, columns: the returned pressure balances the buoyancy: `-∫ w_z p - ∫ w b0 = 0` for every vertical test function
with the boundary condition. -/
theorem C106_column_balance (hM : Proper M) (hP : IsColumn M k top b0 P) (p : dgSpace M k) (h : Result P p) (w : Fn)
    (hw : w ∈ velSpace M k top) :
    -integ M (fun i => dx0 w i * p.1 i) - integ M (fun i => w i * b0 i) = 0 := by
  have := C106_balance P (col_div hM hP) p h ⟨w, hw⟩
  unfold momentum at this
  rw [hP.divp, hP.buoy] at this
  exact this

/-- The exact hydrostatic pressure of a column: continuous, with derivative `b0`, zero at the end without the boundary
condition on the flow. -/
def Exact (M : Mesh1) (top : Bool) (b0 pe : Fn) : Prop :=
  (∀ i < M.n, M.atR pe i = M.atL pe (i + 1)) ∧ (∀ i ≤ M.n, dx0 pe i = b0 i) ∧
    (if top then M.atL pe 0 else M.atR pe M.n) = 0

/-- C106, columns: the returned pressure is the `L2` projection of the exact hydrostatic pressure into the pressure
space. -/
theorem C106_projection (hM : Proper M) (hP : IsColumn M k top b0 P) (p : dgSpace M k) (h : Result P p) (pe : Fn)
    (he : Exact M top b0 pe) (phi : Fn) (hphi : phi ∈ dgSpace M k) :
    integ M (fun i => (p.1 i - pe i) * phi i) = 0 := by
  have hb := C106_column_balance hM hP p h (vel M top phi) (vel_mem M k top phi hphi)
  obtain ⟨hc, hd, h0⟩ := he
  obtain ⟨-, wc, wb⟩ := vel_mem M k top phi hphi
  have hibp := ibp M (vel M top phi) pe
  have hf : facetSum M (fun i j => M.atR (vel M top phi) i * M.atR pe i - M.atL (vel M top phi) j * M.atL pe j) = 0 :=
    facet_zero M _ (fun i hi => by rw [wc i hi, hc i hi]; ring) fun hp => by rw [hM.1] at hp; cases hp
  have hbd : bdry M (fun i => vel M top phi i * pe i) = 0 := by
    unfold bdry
    rw [hM.1, atR_mul, atL_mul]
    unfold bcValue at wb
    cases top
    · simp only [Bool.false_eq_true, if_false] at wb h0 ⊢
      rw [wb, h0]; ring
    · simp only [Bool.false_eq_true, if_false, if_true] at wb h0 ⊢
      rw [wb, h0]; ring
  rw [hf, hbd] at hibp
  have e1 : integ M (fun i => vel M top phi i * derivative (pe i)) = integ M (fun i => vel M top phi i * b0 i) :=
    integ_congr M fun i hi => by rw [← hd i hi]; rfl
  have e2 : integ M (fun i => dx0 (vel M top phi) i * p.1 i) = integ M (fun i => p.1 i * phi i) :=
    integ_congr M fun i hi => by rw [vel_deriv M top phi i hi]; ring
  have e3 : integ M (fun i => derivative (vel M top phi i) * pe i) = integ M (fun i => pe i * phi i) :=
    integ_congr M fun i hi => by
      have := vel_deriv M top phi i hi
      unfold dx0 at this
      rw [this]; ring
  rw [e1, e3] at hibp
  rw [e2] at hb
  have e4 : integ M (fun i => (p.1 i - pe i) * phi i) = integ M (fun i => p.1 i * phi i) - integ M (fun i => pe i * phi i) := by
    rw [sub_eq_add_neg, ← integ_neg, ← integ_add]
    exact integ_congr M fun i _ => by ring
  rw [e4]; linarith

/-- C106, columns: no function of the pressure space is closer to the exact hydrostatic pressure in the mean square. -/
theorem C106_best (hM : Proper M) (hP : IsColumn M k top b0 P) (p : dgSpace M k) (h : Result P p) (pe : Fn)
    (he : Exact M top b0 pe) (q : Fn) (hq : q ∈ dgSpace M k) :
    integ M (fun i => (p.1 i - pe i) ^ 2) ≤ integ M (fun i => (q i - pe i) ^ 2) := by
  have ho := C106_projection hM hP p h pe he (q - p.1) (Submodule.sub_mem _ hq p.2)
  have e : integ M (fun i => (q i - pe i) ^ 2) = integ M (fun i => (p.1 i - pe i) ^ 2) +
      2 * integ M (fun i => (p.1 i - pe i) * (q - p.1) i) + integ M (fun i => (q i - p.1 i) * (q i - p.1 i)) := by
    rw [← integ_smul, ← integ_add, ← integ_add]
    refine integ_congr M fun i _ => ?_
    simp only [Pi.sub_apply, map_ofNat]; ring
  have nn : 0 ≤ integ M (fun i => (q i - p.1 i) * (q i - p.1 i)) := by
    unfold integ
    refine Finset.sum_nonneg fun i hi => intervalIntegral.integral_nonneg
      (hM.2 i (by simpa [Nat.lt_succ_iff] using hi)).le fun t _ => ?_
    rw [eval_mul]; exact mul_self_nonneg _
  rw [e, ho]; linarith

/-- C106, columns: an exact hydrostatic pressure in the pressure space is returned. -/
theorem C106_exact (hM : Proper M) (hP : IsColumn M k top b0 P) (p : dgSpace M k) (h : Result P p) (pe : Fn)
    (he : Exact M top b0 pe) (hq : pe ∈ dgSpace M k) (i : ℕ) : p.1 i = pe i := by
  have ho := C106_projection hM hP p h pe he (p.1 - pe) (Submodule.sub_mem _ p.2 hq)
  have hz := square_zero M hM (fun i => p.1 i - pe i) ho
  by_cases hi : i ≤ M.n
  · exact sub_eq_zero.1 (hz i hi)
  · rw [p.2.2 i (by omega), hq.2 i (by omega)]

end Column

/-- The forms of a column. -/
noncomputable def columnForms (M : Mesh1) (k : ℕ) (top : Bool) (b0 : Fn) : Forms (velSpace M k top) (dgSpace M k) where
  mass := LinearMap.mk₂ ℝ (fun w v => integ M fun i => w.1 i * v.1 i)
    (fun a b c => by rw [← integ_add]; exact integ_congr M fun i _ => by simp [add_mul])
    (fun r a b => by
      rw [smul_eq_mul, ← integ_smul]; exact integ_congr M fun i _ => by simp [smul_eq_C_mul]; ring)
    (fun a b c => by rw [← integ_add]; exact integ_congr M fun i _ => by simp [mul_add])
    (fun r a b => by
      rw [smul_eq_mul, ← integ_smul]; exact integ_congr M fun i _ => by simp [smul_eq_C_mul]; ring)
  divp := LinearMap.mk₂ ℝ (fun w v => integ M fun i => dx0 w.1 i * v.1 i)
    (fun a b c => by rw [← integ_add]; exact integ_congr M fun i _ => by simp [dx0, add_mul])
    (fun r a b => by
      rw [smul_eq_mul, ← integ_smul]; exact integ_congr M fun i _ => by simp [dx0, smul_eq_C_mul]; ring)
    (fun a b c => by rw [← integ_add]; exact integ_congr M fun i _ => by simp [mul_add])
    (fun r a b => by
      rw [smul_eq_mul, ← integ_smul]; exact integ_congr M fun i _ => by simp [smul_eq_C_mul]; ring)
  buoy :=
    { toFun := fun w => integ M fun i => w.1 i * b0 i
      map_add' := fun a b => by rw [← integ_add]; exact integ_congr M fun i _ => by simp [add_mul]
      map_smul' := fun r a => by
        rw [RingHom.id_apply, smul_eq_mul, ← integ_smul]
        exact integ_congr M fun i _ => by simp [smul_eq_C_mul]; ring }

/-- The forms of every column exist, so the theorems above are not vacuous: every buoyancy gets a pressure. -/
theorem C106_forms (M : Mesh1) (k : ℕ) (top : Bool) (b0 : Fn) : IsColumn M k top b0 (columnForms M k top b0) :=
  ⟨fun _ _ => rfl, fun _ _ => rfl, fun _ => rfl⟩

/-- A column with two cells of different heights. -/
noncomputable def exM : Mesh1 := ⟨1, fun i => if i = 0 then 0 else if i = 1 then 1 else 3, false⟩
theorem exM_proper : Proper exM := by
  refine ⟨rfl, fun i hi => ?_⟩
  have : i = 0 ∨ i = 1 := by simp only [exM] at hi; omega
  rcases this with rfl | rfl <;> norm_num [exM]
example (b0 : Fn) : ∃! p, Result (columnForms exM 1 false b0) p := C106_column_unique exM_proper (C106_forms _ _ _ _)
/-- The exact pressure of the buoyancy `2 z` with zero pressure at the top (`z = 3`) is `z² - 9`. -/
example : Exact exM false (fun _ => C 2 * X) (fun _ => X ^ 2 - C 9) := by
  refine ⟨fun i hi => ?_, fun i hi => ?_, ?_⟩
  · simp [Mesh1.atR, Mesh1.atL]
  · simp only [dx0, derivative_sub, derivative_C, derivative_X_pow]; norm_num
  · simp [Mesh1.atR, exM]; norm_num

end Gusto.Props.BouBalanceProps
