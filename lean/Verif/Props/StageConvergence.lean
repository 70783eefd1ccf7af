import Verif.Lemmas.ConvergenceAdditive
import Verif.Props.Convergence
import Verif.Props.IMEX
import Verif.Props.ImplicitRK

set_option autoImplicit false
set_option linter.unusedSectionVars false
set_option linter.unusedSimpArgs false

/-!
# C124: the implicit and the IMEX Runge-Kutta schemes converge
-/

namespace Gusto.Props.StageConvergenceProps
open Gusto LForm TimeDisc Spec Finset Gusto.Props Gusto.Convergence
open Gusto.Props.ConvergenceProps (implicit_unique sineR sineM sine_mass sine_smooth sine_sol sine_tendency)

variable {E D : Type*} [NormedAddCommGroup E] [NormedSpace ℝ E] [AddCommGroup D] [Module ℝ D]

/-- The right-hand side that a part `F` of the equation `M x' + F(x) + … = 0` contributes. -/
noncomputable def rhs (M : E ≃ₗ[ℝ] D) (F : E → D) (x : E) : E := -M.symm (F x)

theorem rhs_eq (M : E ≃ₗ[ℝ] D) (F : E → D) (x : E) : F x = -M (rhs M F x) := by simp [rhs]

/-- A step of an IMEX scheme, without the mass operator. -/
theorem imex_additive {a d : ℕ → ℕ → ℝ} {b e : ℕ → ℝ} {s : ℕ} {m F G : E → D} (M : E ≃ₗ[ℝ] D) (hM : ∀ x, m x = M x)
    (hd : ∀ i < s, d i i = 0) {h : ℝ} {x x' : E} (hx : IsIMEXStep a b d e s m F G h x x') :
    AdditiveStep a d b e s (rhs M F) (rhs M G) h x x' := by
  obtain ⟨Y, h1, h2⟩ := hx
  refine ⟨Y, fun i hi => ?_, ?_⟩
  · have e := h1 i hi
    rw [hM, hM] at e
    rw [← M.injective.eq_iff, e, stageSum, Finset.sum_range_succ (fun j => d i j • rhs M G (Y j)), hd i hi, zero_smul, add_zero]
    simp only [rhs_eq M F, rhs_eq M G, map_add, map_smul, map_sum, smul_add, smul_neg, Finset.sum_neg_distrib]
    abel
  · rw [hM, hM] at h2
    rw [← M.injective.eq_iff, h2, finalSum]
    simp only [rhs_eq M F, rhs_eq M G, map_add, map_smul, map_sum, smul_add, smul_neg, Finset.sum_neg_distrib]
    abel

/-- The equations of the implicit stages have exactly one solution if the timestep is small. -/
theorem stage_unique [CompleteSpace E] {m F : E → D} (M : E ≃ₗ[ℝ] D) (hM : ∀ x, m x = M x) {L : ℝ} (hf : Lip (rhs M F) L) {c : ℝ}
    (hc : 0 ≤ c) (hcL : c * L ≤ 1 / 2) (k : D) : ∃! y, m y + c • F y = k := by
  have key : ∀ y, m y + c • F y = k ↔ y = M.symm k + c • rhs M F y := by
    intro y
    rw [hM, rhs_eq M F, ← M.injective.eq_iff]
    simp only [map_add, map_smul, smul_neg, LinearEquiv.apply_symm_apply]
    constructor
    · intro e; rw [← e]; abel
    · intro e; nth_rewrite 1 [e]; abel
  obtain ⟨y, hy, hu⟩ := implicit_unique hf hc hcL (M.symm k)
  exact ⟨y, (key y).2 hy, fun z hz => hu z ((key z).1 hz)⟩

/-! ### IMEX schemes -/

section imex
open IMEX IMEXProps

/-- The orders of the IMEX schemes: the last number in the name that their docstrings give them, ARS3(2,3,3), ARK2(2,3,2),
SSP3(3,3,2), Trap2(2+e,3,2) (imex_runge_kutta.py 290-520); IMEX Euler is of the first order.  The arguments are the two tables, the
number of stages and the order. -/
inductive AdvertisedIMEX : List (List ℝ) → List (List ℝ) → ℕ → ℕ → Prop
  | euler : AdvertisedIMEX eulerImp eulerExp 2 1
  | ars3 : AdvertisedIMEX ars3Imp ars3Exp 3 3
  | ark2 : AdvertisedIMEX ark2Imp ark2Exp 3 2
  | ssp3 : AdvertisedIMEX ssp3Imp ssp3Exp 3 2
  | trap2 : AdvertisedIMEX trap2Imp trap2Exp 4 2

/-- What is needed of a pair of tables. -/
structure GoodTables (I X : List (List ℝ)) (s p : ℕ) : Prop where
  pos : 0 < s
  tri : IMEXTriangular (tab I X) s
  diag : ∀ i < s, 0 ≤ entry I i i ∧ entry I i i ≤ 1
  order : (p = 1 ∧ AdditiveOrder1 (wts I X s) s) ∨ (p = 2 ∧ AdditiveOrder2 (tab I X) (wts I X s) s) ∨
    (p = 3 ∧ AdditiveOrder3 (tab I X) (wts I X s) s ∧ MatchingRowSums (tab I X) s ∧
      ∀ i < s, 0 ≤ absc (tab I X) s true i ∧ absc (tab I X) s true i ≤ 1)

theorem inv_sqrt2_bounds : 0 ≤ (√2)⁻¹ ∧ (√2)⁻¹ ≤ (1 : ℝ) := by
  refine ⟨by positivity, inv_le_one_of_one_le₀ ?_⟩
  rw [Real.one_le_sqrt]; norm_num

theorem ars3g_bounds : 1 / 2 ≤ ars3g ∧ ars3g ≤ 1 := by
  have h1 : (0 : ℝ) ≤ √3 := Real.sqrt_nonneg 3
  have h2 : √3 ≤ (3 : ℝ) := by
    rw [show (3 : ℝ) = √(3 * 3) by rw [Real.sqrt_mul_self (by norm_num)]]
    exact Real.sqrt_le_sqrt (by rw [Real.sqrt_mul_self (by norm_num)]; norm_num)
  unfold ars3g
  constructor <;> linarith

theorem advertised_good {I X : List (List ℝ)} {s p : ℕ} (h : AdvertisedIMEX I X s p) : GoodTables I X s p := by
  have hi := inv_sqrt2_bounds
  have hg := ars3g_bounds
  cases h with
  | euler =>
    refine ⟨by norm_num, C12_euler_order.2.2, fun i hi => ?_, Or.inl ⟨rfl, C12_euler_order.1⟩⟩
    interval_cases i <;> simp [entry, eulerImp]
  | ars3 =>
    refine ⟨by norm_num, C12_ars3_order.2.2, fun i hi => ?_, Or.inr (Or.inr ⟨rfl, C12_ars3_order.1, C12_ars3_order.2.1, fun i hi => ?_⟩)⟩
    · interval_cases i <;> simp [entry, ars3Imp] <;> constructor <;> linarith
    · interval_cases i <;> simp [absc, tab, entry, ars3Imp, sum_range_succ] <;> constructor <;> linarith
  | ark2 =>
    refine ⟨by norm_num, C12_ark2_order.2.2, fun i hi => ?_, Or.inr (Or.inl ⟨rfl, C12_ark2_order.1⟩)⟩
    interval_cases i <;> simp [entry, ark2Imp, ark2g] <;> linarith
  | ssp3 =>
    refine ⟨by norm_num, C12_ssp3_order.2, fun i hi => ?_, Or.inr (Or.inl ⟨rfl, C12_ssp3_order.1⟩)⟩
    interval_cases i <;> simp [entry, ssp3Imp, ssp3g] <;> linarith
  | trap2 =>
    refine ⟨by norm_num, C12_trap2_order.2, fun i hi => ?_, Or.inr (Or.inl ⟨rfl, C12_trap2_order.1⟩)⟩
    interval_cases i <;> simp [entry, trap2Imp] <;> norm_num

theorem absc_impl {I X : List (List ℝ)} {s : ℕ} (h : IMEXTriangular (tab I X) s) (i : ℕ) (hi : i < s) (k : ℕ → ℝ) :
    ∑ j ∈ range s, tab I X true i j * k j = ∑ j ∈ range (i + 1), entry I i j * k j := by
  symm
  refine Finset.sum_subset (Finset.range_mono (by omega)) fun j hj hj' => ?_
  have : tab I X true i j = 0 := h.1 i hi j (mem_range.1 hj) (by simpa using hj')
  change tab I X true i j * k j = 0
  rw [this, zero_mul]

theorem absc_expl {I X : List (List ℝ)} {s : ℕ} (h : IMEXTriangular (tab I X) s) (i : ℕ) (hi : i < s) (k : ℕ → ℝ) :
    ∑ j ∈ range s, tab I X false i j * k j = ∑ j ∈ range (i + 1), entry X i j * k j := by
  symm
  refine Finset.sum_subset (Finset.range_mono (by omega)) fun j hj hj' => ?_
  have hj'' : i < j := by simpa using hj'
  have : tab I X false i j = 0 := h.2 i hi j (mem_range.1 hj) hj''.le
  change tab I X false i j * k j = 0
  rw [this, zero_mul]

/-- Convergence of an additive method with good tables. -/
theorem good_converges {I X : List (List ℝ)} {s p : ℕ} (ht : GoodTables I X s p) {f g : E → E} {L L' : ℝ} (hf : SmoothRHS f p L)
    (hg : SmoothRHS g p L') {y : ℝ → E} {T : ℝ} (hT : 0 < T) (hy : IsSol (fun x => f x + g x) y T) :
    ∃ C, ∀ h, 0 ≤ h → h * L ≤ 1 / 2 → ∀ (x : ℕ → E) (N : ℕ), N * h ≤ T → x 0 = y 0 →
      (∀ n < N, AdditiveStep (entry I) (entry X) (entry I s) (entry X s) s f g h (x n) (x (n + 1))) →
      ‖x N - y (N * h)‖ ≤ C * h ^ p := by
  have hL := hf.lip.1
  have hd : ∀ i < s, entry X i i = 0 := fun i hi => ht.tri.2 i hi i hi le_rfl
  have hsmall : ∀ h, 0 ≤ h → h * L ≤ 1 / 2 → ∀ i < s, h * (|entry I i i| * L + |entry X i i| * L') ≤ 1 / 2 := by
    intro h hh hhL i hi
    have := ht.diag i hi
    rw [hd i hi, abs_zero, zero_mul, add_zero, abs_of_nonneg this.1]
    calc h * (entry I i i * L) = entry I i i * (h * L) := by ring
      _ ≤ 1 * (h * L) := mul_le_mul_of_nonneg_right this.2 (by positivity)
      _ ≤ _ := by linarith
  suffices fin : ∃ C, ∀ h, 0 ≤ h → (∀ i < s, h * (|entry I i i| * L + |entry X i i| * L') ≤ 1 / 2) → ∀ (x : ℕ → E) (N : ℕ), N * h ≤ T →
      x 0 = y 0 → (∀ n < N, AdditiveStep (entry I) (entry X) (entry I s) (entry X s) s f g h (x n) (x (n + 1))) →
      ‖x N - y (N * h)‖ ≤ C * h ^ p by
    obtain ⟨C, hC⟩ := fin
    exact ⟨C, fun h hh hhL => hC h hh (hsmall h hh hhL)⟩
  have cI : ∀ i < s, absc (tab I X) s true i = ∑ j ∈ range (i + 1), entry I i j := fun i hi => by
    simpa [absc] using absc_impl ht.tri i hi (fun _ => 1)
  have cX : ∀ i < s, absc (tab I X) s false i = ∑ j ∈ range (i + 1), entry X i j := fun i hi => by
    simpa [absc] using absc_expl ht.tri i hi (fun _ => 1)
  rcases ht.order with ⟨rfl, h1⟩ | ⟨rfl, h1, h2⟩ | ⟨rfl, ⟨⟨h1, h2⟩, h3, h4⟩, hm, h01⟩
  · exact additive_first _ _ _ _ s (h1 true) (h1 false) hf.lip hg.lip hT.le hy
  · obtain ⟨L2, hs⟩ := hf.smooth2 le_rfl
    obtain ⟨L2', hs'⟩ := hg.smooth2 le_rfl
    exact additive_second _ _ _ _ s (h1 true) (h1 false) (absc (tab I X) s true) (absc (tab I X) s false) cI cX
      (h2 true true) (h2 true false) (h2 false true) (h2 false false) hs hs' hT.le hy
  · set c := absc (tab I X) s true with hc
    have hal : ∀ ν μ, ∑ i ∈ range s, wts I X s ν i * (∑ j ∈ range s, tab I X μ i j * c j - c i ^ 2 / 2) = 0 := by
      intro ν μ
      have e1 := h3 ν true true
      have e2 := h4 ν μ true
      rw [← hc] at e1 e2
      have e3 : ∀ i ∈ range s, wts I X s ν i * (∑ j ∈ range s, tab I X μ i j * c j - c i ^ 2 / 2)
          = ∑ j ∈ range s, wts I X s ν i * tab I X μ i j * c j - (wts I X s ν i * c i * c i) * (1 / 2) := fun i _ => by
        rw [mul_sub, Finset.mul_sum]
        congr 1
        · exact Finset.sum_congr rfl fun j _ => (mul_assoc _ _ _).symm
        · ring
      rw [Finset.sum_congr rfl e3, Finset.sum_sub_distrib, e2, ← Finset.sum_mul, e1]
      norm_num
    have hcc : ∀ ν, ∑ i ∈ range s, wts I X s ν i * c i ^ 2 = 1 / 3 := fun ν => by
      rw [← h3 ν true true]
      exact Finset.sum_congr rfl fun i _ => by rw [← hc]; ring
    exact additive_third _ _ _ _ s (h1 true) (h1 false) c
      (fun i => ∑ j ∈ range s, tab I X true i j * c j - c i ^ 2 / 2) (fun i => ∑ j ∈ range s, tab I X false i j * c j - c i ^ 2 / 2)
      h01 cI (fun i hi => by rw [hc, hm i hi]; exact cX i hi)
      (fun i hi => by rw [absc_impl ht.tri i hi]) (fun i hi => by rw [absc_expl ht.tri i hi])
      (h2 true true) (h2 false true) (hcc true) (hcc false) (hal true true) (hal true false) (hal false true) (hal false false) hf hg hT hy

/-- `x 0, …, x N` are the states of a run of the IMEX scheme with the tables `I` (implicit) and `X` (explicit) and `s` stages on the
residual `R`, with the physics schemes `ev` evaluated at each stage and the timestep `h`: in every timestep, `apply` of a scheme
object, whatever its work arrays hold, with an exact solver.  (The constructors never set a limiter, `C12_limiter_ignored`.) -/
def IMEXRun (I X : List (List ℝ)) (s : ℕ) (R : LForm E D) (ev : List (E → E)) (h : ℝ) (x : ℕ → E) (N : ℕ) : Prop :=
  ∀ n < N, ∃ (solve : Solver E D) (limiterArg : Option (E → E)) (st : IMEX.State E), ExactSolver solve ∧
    x (n + 1) = IMEX.apply (IMEX.init R (entry I) (entry X) s h solve ev limiterArg) st (x n)

/-- **C124** (IMEX schemes).  IMEX_Euler converges with the first order, IMEX_ARK2, IMEX_SSP3 and IMEX_Trap2 with the second and
IMEX_ARS3 with the third, for every splitting of a smooth equation by the labels into an implicit and an explicit part.  The
restriction on the timestep only involves the implicit part, and only serves to make its equations uniquely solvable. -/
theorem C124_imex [CompleteSpace E] {I X : List (List ℝ)} {s p : ℕ} (hA : AdvertisedIMEX I X s p) (R : LForm E D) (M : E ≃ₗ[ℝ] D)
    (hM : ∀ x, mass R x = M x) (hR : TDClean R) (hK : ExactlyOneKind R) (hns : ∀ u ∈ R, Label.source ∉ u.labels)
    {L L' : ℝ} (hf : SmoothRHS (rhs M (implPart R)) p L) (hg : SmoothRHS (rhs M (explPart R)) p L')
    {y : ℝ → E} {T : ℝ} (hT : 0 < T) (hy : IsSol (tendency R M) y T) :
    ∃ C, ∀ h, 0 ≤ h → h * L ≤ 1 / 2 → ∀ (x : ℕ → E) (N : ℕ), N * h ≤ T → x 0 = y 0 → IMEXRun I X s R [] h x N →
      ‖x N - y (N * h)‖ ≤ C * h ^ p := by
  have ht := advertised_good hA
  have hL := hf.lip.1
  have hsum : tendency R M = fun x => rhs M (implPart R) x + rhs M (explPart R) x := by
    funext x
    have h0 : srcPart R x = 0 := by
      unfold srcPart part
      rw [List.filter_eq_nil_iff.2 (fun t ht => by simpa using hns t ht)]; rfl
    have := C12_split_complete R hR hK x
    rw [h0, add_zero] at this
    simp only [tendency, rhs, ← this, map_add, map_neg, neg_add]
  rw [hsum] at hy
  obtain ⟨C, hC⟩ := good_converges ht hf hg hT hy
  refine ⟨C, fun h hh hhL x N hN h0 hx => hC h hh hhL x N hN h0 fun n hn => ?_⟩
  obtain ⟨solve, l, st, hs, e⟩ := hx n hn
  refine imex_additive M hM (fun i hi => ht.tri.2 i hi i hi le_rfl) (G := explPart R) (m := mass R) (F := implPart R) ?_
  rw [e]
  refine C12_apply (IMEX.init R (entry I) (entry X) s h solve [] l) hR rfl hns hs st (x n) ht.pos (fun i hi _ c => ?_) (fun c => ?_)
  · refine stage_unique M hM hf.lip (mul_nonneg hh (ht.diag i hi).1) ?_ c
    calc h * entry I i i * L = entry I i i * (h * L) := by ring
      _ ≤ 1 * (h * L) := mul_le_mul_of_nonneg_right (ht.diag i hi).2 (by positivity)
      _ ≤ _ := by linarith
  · change ∃! y, mass R y = c
    simp only [hM]
    exact M.bijective.existsUnique c

/-- **C124** (IMEX schemes with a physics scheme).  With one physics scheme evaluated as a source, the limit is the solution of the
equation in which the source terms act on what the physics scheme returns for the current state. -/
theorem C124_imex_physics [CompleteSpace E] {I X : List (List ℝ)} {s p : ℕ} (hA : AdvertisedIMEX I X s p) (R : LForm E D) (M : E ≃ₗ[ℝ] D)
    (hM : ∀ x, mass R x = M x) (hR : TDClean R) (phys : E → E)
    {L L' : ℝ} (hf : SmoothRHS (rhs M (implPart R)) p L) (hg : SmoothRHS (rhs M fun z => explPart R z + srcPart R (phys z)) p L')
    {y : ℝ → E} {T : ℝ} (hT : 0 < T) (hy : IsSol (rhs M fun z => implPart R z + explPart R z + srcPart R (phys z)) y T) :
    ∃ C, ∀ h, 0 ≤ h → h * L ≤ 1 / 2 → ∀ (x : ℕ → E) (N : ℕ), N * h ≤ T → x 0 = y 0 → IMEXRun I X s R [phys] h x N →
      ‖x N - y (N * h)‖ ≤ C * h ^ p := by
  have ht := advertised_good hA
  have hL := hf.lip.1
  have hsum : (rhs M fun z => implPart R z + explPart R z + srcPart R (phys z))
      = fun x => rhs M (implPart R) x + rhs M (fun z => explPart R z + srcPart R (phys z)) x := by
    funext x
    simp only [rhs, map_add, neg_add, add_assoc]
  rw [hsum] at hy
  obtain ⟨C, hC⟩ := good_converges ht hf hg hT hy
  refine ⟨C, fun h hh hhL x N hN h0 hx => hC h hh hhL x N hN h0 fun n hn => ?_⟩
  obtain ⟨solve, l, st, hs, e⟩ := hx n hn
  refine imex_additive M hM (fun i hi => ht.tri.2 i hi i hi le_rfl) (G := fun z => explPart R z + srcPart R (phys z)) (m := mass R)
    (F := implPart R) ?_
  rw [e]
  refine C12_apply_source (IMEX.init R (entry I) (entry X) s h solve [phys] l) hR rfl phys rfl hs st (x n) ht.pos
    (fun i hi _ c => ?_) (fun c => ?_)
  · refine stage_unique M hM hf.lip (mul_nonneg hh (ht.diag i hi).1) ?_ c
    calc h * entry I i i * L = entry I i i * (h * L) := by ring
      _ ≤ 1 * (h * L) := mul_le_mul_of_nonneg_right (ht.diag i hi).2 (by positivity)
      _ ≤ _ := by linarith
  · change ∃! y, mass R y = c
    simp only [hM]
    exact M.bijective.existsUnique c

end imex

/-! ### Diagonally implicit schemes -/

section dirk
open IRK IRKProps

/-- ImplicitMidpoint and QinZhang: table and number of stages.  Both are of the second order (implicit_runge_kutta.py 265-345). -/
inductive BuiltinDIRK : List (List ℚ) → ℕ → Prop
  | implicitMidpoint : BuiltinDIRK implicitMidpoint 1
  | qinZhang : BuiltinDIRK qinZhang 2

/-- What is needed of the table. -/
def DIRKFacts (t : List (List ℚ)) (s : ℕ) : Prop :=
  0 < s ∧ (∀ i < s, IRKProps.tab t i i = IRKProps.tab t 0 0) ∧ (∀ i < s, 0 ≤ IRKProps.tab t i i ∧ IRKProps.tab t i i ≤ 1) ∧
  ∑ i ∈ range s, IRKProps.tab t s i = 1 ∧
  ∑ i ∈ range s, IRKProps.tab t s i * ∑ j ∈ range (i + 1), IRKProps.tab t i j = 1 / 2

instance (t : List (List ℚ)) (s : ℕ) : Decidable (DIRKFacts t s) := by unfold DIRKFacts; infer_instance

theorem BuiltinDIRK.facts {t : List (List ℚ)} {s : ℕ} (h : BuiltinDIRK t s) : DIRKFacts t s := by
  cases h <;> decide +kernel

/-- The table in the real numbers. -/
noncomputable def realTab (t : List (List ℚ)) (i j : ℕ) : ℝ := ((IRKProps.tab t i j : ℚ) : ℝ)

theorem smooth_zero : Smooth2 (fun _ : E => (0 : E)) (fun _ => (0 : E →L[ℝ] E)) 0 0 :=
  ⟨⟨le_rfl, fun x z => by simp⟩, fun x => hasFDerivAt_const _ _, fun x => by simp, le_rfl, fun x z => by simp⟩

/-- Second-order convergence of a diagonally implicit method. -/
theorem dirk_second {t : List (List ℚ)} {s : ℕ} (h : DIRKFacts t s) {f : E → E} {L : ℝ} (hf : SmoothRHS f 2 L) {y : ℝ → E} {T : ℝ}
    (hT : 0 ≤ T) (hy : IsSol f y T) :
    ∃ C, ∀ h, 0 ≤ h → h * L ≤ 1 / 2 → ∀ (x : ℕ → E) (N : ℕ), N * h ≤ T → x 0 = y 0 →
      (∀ n < N, AdditiveStep (realTab t) (realTab t) (realTab t s) (realTab t s) s f (fun _ => 0) h (x n) (x (n + 1))) →
      ‖x N - y (N * h)‖ ≤ C * h ^ 2 := by
  obtain ⟨L2, hs⟩ := hf.smooth2 le_rfl
  have hL := hf.lip.1
  obtain ⟨-, -, h01, h1, h2⟩ := h
  have e1 : ∑ i ∈ range s, realTab t s i = 1 := by
    unfold realTab; exact_mod_cast h1
  have e2 : ∑ i ∈ range s, realTab t s i * ∑ j ∈ range (i + 1), realTab t i j = 1 / 2 := by
    have := congrArg (Rat.cast (K := ℝ)) h2
    unfold realTab
    push_cast at this ⊢
    exact this
  have hy' : IsSol (fun x => f x + (fun _ => (0 : E)) x) y T := by simpa using hy
  obtain ⟨C, hC⟩ := additive_second (realTab t) (realTab t) (realTab t s) (realTab t s) s e1 e1
    (fun i => ∑ j ∈ range (i + 1), realTab t i j) (fun i => ∑ j ∈ range (i + 1), realTab t i j) (fun _ _ => rfl) (fun _ _ => rfl)
    e2 e2 e2 e2 hs smooth_zero hT hy'
  refine ⟨C, fun h hh hhL => hC h hh fun i hi => ?_⟩
  have h0 : 0 ≤ realTab t i i := by unfold realTab; exact_mod_cast (h01 i hi).1
  have h1 : realTab t i i ≤ 1 := by unfold realTab; exact_mod_cast (h01 i hi).2
  rw [mul_zero, add_zero, abs_of_nonneg h0]
  calc h * (realTab t i i * L) = realTab t i i * (h * L) := by ring
    _ ≤ 1 * (h * L) := mul_le_mul_of_nonneg_right h1 (by positivity)
    _ ≤ _ := by linarith

/-- A step in terms of tendencies. -/
theorem dirkK_additive {a : ℕ → ℕ → ℝ} {b : ℕ → ℝ} {s : ℕ} {m F : E → D} (M : E ≃ₗ[ℝ] D) (hM : ∀ x, m x = M x) {h : ℝ} {x x' : E}
    (hx : IsDIRKStepK a b s m F h x x') : AdditiveStep a a b b s (rhs M F) (fun _ => 0) h x x' := by
  obtain ⟨k, h1, h2⟩ := hx
  have hk : ∀ i < s, k i = rhs M F (x + h • ∑ j ∈ range (i + 1), a i j • k j) := fun i hi => by
    have := h1 i hi
    rw [hM] at this
    rw [← M.injective.eq_iff, this, rhs]; simp
  refine ⟨fun i => x + h • ∑ j ∈ range (i + 1), a i j • k j, fun i hi => ?_, ?_⟩
  · simp only [stageSum, smul_zero, Finset.sum_const_zero, add_zero]
    congr 2
    exact Finset.sum_congr rfl fun j hj => by rw [← hk j (by have := mem_range.1 hj; omega)]
  · rw [h2]
    simp only [finalSum, smul_zero, Finset.sum_const_zero, add_zero]
    congr 2
    exact Finset.sum_congr rfl fun j hj => by rw [← hk j (mem_range.1 hj)]

/-- A step in terms of stage values. -/
theorem dirkY_additive {a : ℕ → ℕ → ℝ} {b : ℕ → ℝ} {s : ℕ} {m F : E → D} (M : E ≃ₗ[ℝ] D) (hM : ∀ x, m x = M x) {h : ℝ} {x x' : E}
    (hx : IsDIRKStepY a b s m F h x x') : AdditiveStep a a b b s (rhs M F) (fun _ => 0) h x x' := by
  obtain ⟨Y, h1, h2⟩ := hx
  refine ⟨Y, fun i hi => ?_, ?_⟩
  · have e := h1 i hi
    rw [hM, hM] at e
    rw [← M.injective.eq_iff, e, stageSum]
    simp only [rhs_eq M F, map_add, map_smul, map_sum, smul_neg, Finset.sum_neg_distrib, smul_zero, Finset.sum_const_zero, add_zero,
      sub_neg_eq_add]
  · rw [hM, hM] at h2
    rw [← M.injective.eq_iff, h2, finalSum]
    simp only [rhs_eq M F, map_add, map_smul, map_sum, smul_neg, Finset.sum_neg_distrib, smul_zero, Finset.sum_const_zero, add_zero,
      sub_neg_eq_add]

/-- **C124** (ImplicitMidpoint and QinZhang, increment formulation): second order, over a run of one scheme object. -/
theorem C124_dirk_increment [CompleteSpace E] {t : List (List ℚ)} {s : ℕ} (ht : BuiltinDIRK t s) (R : LForm E D) (M : E ≃ₗ[ℝ] D)
    (hM : ∀ x, mass R x = M x) (solve : Solver E D) (hs : ExactSolver solve) {L : ℝ} (hf : SmoothRHS (tendency R M) 2 L)
    {y : ℝ → E} {T : ℝ} (hT : 0 ≤ T) (hy : IsSol (tendency R M) y T) :
    ∃ C, ∀ h, 0 ≤ h → h * L ≤ 1 / 2 → ∀ (st : IRK.State ℝ E), st.cachedDiag = none → ∀ (x : ℕ → E) (N : ℕ), N * h ≤ T → x 0 = y 0 →
      (∀ n < N, x (n + 1) = (applyInc (ofTable t s R h solve) (stateAfter (ofTable t s R h solve) x st n) (x n)).1) →
      ‖x N - y (N * h)‖ ≤ C * h ^ 2 := by
  obtain ⟨C, hC⟩ := dirk_second ht.facts hf hT hy
  have hL := hf.lip.1
  obtain ⟨h0, hdiag, h01, -, -⟩ := ht.facts
  have hfr : tendency R M = rhs M (rest R) := by funext x; simp [tendency, rhs]
  refine ⟨C, fun h hh hhL st hst x N hN hx0 hx => hC h hh hhL x N hN hx0 fun n hn => ?_⟩
  have key := C11_increment_partial (ofTable t s R h solve) hs st hst x n
    (fun i hi => by change ((IRKProps.tab t i i : ℚ) : ℝ) = _; rw [hdiag i hi]; rfl) (fun x1 => ?_)
  · rw [hfr]
    refine dirkK_additive M hM (m := mass R) ?_
    rw [hx n hn]
    exact key
  · change ∃! y, mass R y + rest R (x1 + (((IRKProps.tab t 0 0 : ℚ) : ℝ) * h) • y) = 0
    set a : ℝ := ((IRKProps.tab t 0 0 : ℚ) : ℝ) with ha
    have ha0 : 0 ≤ a := by rw [ha]; exact_mod_cast (h01 0 h0).1
    have ha1 : a ≤ 1 := by rw [ha]; exact_mod_cast (h01 0 h0).2
    have k1 : ∀ y, mass R y + rest R (x1 + (a * h) • y) = 0 ↔ y = tendency R M (x1 + (a * h) • y) := fun y => by
      rw [hM, hfr, rhs_eq M (rest R), ← M.injective.eq_iff, add_neg_eq_zero]
    obtain ⟨z, hz, hu⟩ := implicit_unique hf.lip (k := a * h) (by positivity) (by
      calc a * h * L = a * (h * L) := by ring
        _ ≤ 1 * (h * L) := mul_le_mul_of_nonneg_right ha1 (by positivity)
        _ ≤ _ := by linarith) x1
    refine ⟨tendency R M z, (k1 _).2 ?_, fun y' hy' => ?_⟩
    · have hz' : x1 + (a * h) • tendency R M z = z := hz.symm
      rw [hz']
    · have e1 := (k1 y').1 hy'
      have e2 := hu (x1 + (a * h) • y') (by show x1 + (a * h) • y' = _; rw [← e1])
      rw [← e2, ← e1]

/-- **C124** (ImplicitMidpoint and QinZhang, predictor formulation): second order. -/
theorem C124_dirk_predictor [CompleteSpace E] {t : List (List ℚ)} {s : ℕ} (ht : BuiltinDIRK t s) (R : LForm E D) (M : E ≃ₗ[ℝ] D)
    (hM : ∀ x, mass R x = M x) (solve : Solver E D) (hs : ExactSolver solve) {L : ℝ} (hf : SmoothRHS (tendency R M) 2 L)
    {y : ℝ → E} {T : ℝ} (hT : 0 ≤ T) (hy : IsSol (tendency R M) y T) :
    ∃ C, ∀ h, 0 ≤ h → h * L ≤ 1 / 2 → ∀ (x : ℕ → E) (N : ℕ), N * h ≤ T → x 0 = y 0 →
      (∀ n < N, ∃ st, x (n + 1) = (applyPred (ofTable t s R h solve) st (x n)).1) →
      ‖x N - y (N * h)‖ ≤ C * h ^ 2 := by
  obtain ⟨C, hC⟩ := dirk_second ht.facts hf hT hy
  have hL := hf.lip.1
  obtain ⟨h0, hdiag, h01, -, -⟩ := ht.facts
  have hfr : tendency R M = rhs M (rest R) := by funext x; simp [tendency, rhs]
  refine ⟨C, fun h hh hhL x N hN hx0 hx => hC h hh hhL x N hN hx0 fun n hn => ?_⟩
  obtain ⟨st, e⟩ := hx n hn
  rw [hfr]
  refine dirkY_additive M hM (m := mass R) ?_
  rw [e]
  refine C11_predictor (ofTable t s R h solve) hs st (x n) ?_ (fun i hi d => ?_)
  · change Function.Bijective (mass R)
    have : mass R = M := funext hM
    rw [this]; exact M.bijective
  · have hi' : i < s := hi
    have ha0 : 0 ≤ realTab t i i := by unfold realTab; exact_mod_cast (h01 i hi').1
    have ha1 : realTab t i i ≤ 1 := by unfold realTab; exact_mod_cast (h01 i hi').2
    change ∃! y, mass R y + (h * realTab t i i) • rest R y = d
    refine stage_unique M hM (by rw [← hfr]; exact hf.lip) (by positivity) ?_ d
    calc h * realTab t i i * L = realTab t i i * (h * L) := by ring
      _ ≤ 1 * (h * L) := mul_le_mul_of_nonneg_right ha1 (by positivity)
      _ ≤ _ := by linarith

end dirk

/-! ### Examples -/

/-- The residual of `2 x' = 4 sin x - 2 sin x`, the first term implicit, the second explicit. -/
noncomputable def splitR : LForm ℝ ℝ :=
  [ { labels := [.timeDerivative], op := fun x => 2 * x, subj := 0 },
    { labels := [.implicit, .transport], op := fun x => -4 * Real.sin x, subj := 0 },
    { labels := [.explicit, .transport], op := fun x => 2 * Real.sin x, subj := 0 } ]

theorem split_mass (x : ℝ) : mass splitR x = sineM x := by simp [mass, part, splitR, sineM]
theorem split_clean : TDClean splitR := by
  intro t ht; simp [splitR] at ht; rcases ht with rfl | rfl | rfl <;> simp
theorem split_kind : ExactlyOneKind splitR := by
  intro t ht; simp [splitR] at ht; rcases ht with rfl | rfl | rfl <;> simp
theorem split_impl : rhs sineM (implPart splitR) = fun x => (2 : ℝ) • Real.sin x := by
  funext x
  rw [rhs, neg_eq_iff_eq_neg, LinearEquiv.symm_apply_eq]
  simp [implPart, part, splitR, sineM]; ring
theorem split_expl : rhs sineM (explPart splitR) = fun x => (-1 : ℝ) • Real.sin x := by
  funext x
  rw [rhs, neg_eq_iff_eq_neg, LinearEquiv.symm_apply_eq]
  simp [explPart, part, splitR, sineM]
theorem split_tendency : tendency splitR sineM = Real.sin := by
  funext x
  rw [tendency, LinearEquiv.symm_apply_eq]
  simp [rest, part, splitR, sineM]; ring

theorem smooth_smul {f : E → E} {p : ℕ} {L : ℝ} (hf : SmoothRHS f p L) (c : ℝ) : SmoothRHS (fun x => c • f x) p (|c| * L) := by
  refine ⟨⟨mul_nonneg (abs_nonneg _) hf.lip.1, fun x z => ?_⟩, fun h => contDiff_const.smul (hf.diff h), fun h => ?_⟩
  · rw [← smul_sub, norm_smul, Real.norm_eq_abs, mul_assoc]
    exact mul_le_mul_of_nonneg_left (hf.lip.2 _ _) (abs_nonneg _)
  · obtain ⟨L2, h0, h1⟩ := hf.dlip h
    have hd : Differentiable ℝ f := (hf.diff h).differentiable (by
      have : (1 : WithTop ℕ∞) ≤ p := by exact_mod_cast (by omega : 1 ≤ p)
      exact ne_of_gt (lt_of_lt_of_le (by norm_num) this))
    refine ⟨|c| * L2, mul_nonneg (abs_nonneg _) h0, fun x z => ?_⟩
    rw [fderiv_fun_const_smul (hd x), fderiv_fun_const_smul (hd z), ← smul_sub, norm_smul, Real.norm_eq_abs, mul_assoc]
    exact mul_le_mul_of_nonneg_left (h1 _ _) (abs_nonneg _)

/-- A run of IMEX_ARS3. -/
noncomputable def splitRun (h : ℝ) (st : IMEX.State ℝ) : ℕ → ℝ
  | 0 => 2 * Real.arctan (Real.exp 0)
  | n + 1 => IMEX.apply (IMEX.init splitR (IMEX.entry IMEX.ars3Imp) (IMEX.entry IMEX.ars3Exp) 3 h choiceSolve [] none) st (splitRun h st n)

/-- IMEX_ARS3 on a split nonlinear equation: third order. -/
example (st : IMEX.State ℝ) : ∃ C, ∀ h : ℝ, 0 ≤ h → h ≤ 1 / 4 → ∀ N : ℕ, N * h ≤ 10 →
    ‖splitRun h st N - 2 * Real.arctan (Real.exp (N * h))‖ ≤ C * h ^ 3 := by
  have hsin := sine_smooth 3
  rw [sine_tendency] at hsin
  obtain ⟨C, hC⟩ := C124_imex .ars3 splitR sineM split_mass split_clean split_kind (by simp [splitR])
    (L := |2| * 1) (L' := |-1| * 1) (by rw [split_impl]; exact smooth_smul hsin 2) (by rw [split_expl]; exact smooth_smul hsin (-1))
    (T := 10) (y := fun t => 2 * Real.arctan (Real.exp t)) (by norm_num) (by
      have := sine_sol 10
      rw [sine_tendency] at this
      rw [split_tendency]; exact this)
  refine ⟨C, fun h hh h1 N hN => hC h hh (by norm_num; linarith) (splitRun h st) N hN rfl fun n _ => ?_⟩
  exact ⟨choiceSolve, none, st, choiceSolve_exact, rfl⟩

/-- A run of QinZhang in the predictor formulation. -/
noncomputable def qzRun (h : ℝ) (st : IRK.State ℝ ℝ) : ℕ → ℝ
  | 0 => 2 * Real.arctan (Real.exp 0)
  | n + 1 => (IRK.applyPred (IRKProps.ofTable IRK.qinZhang 2 sineR h choiceSolve) st (qzRun h st n)).1

example (st : IRK.State ℝ ℝ) : ∃ C, ∀ h : ℝ, 0 ≤ h → h ≤ 1 / 2 → ∀ N : ℕ, N * h ≤ 10 →
    ‖qzRun h st N - 2 * Real.arctan (Real.exp (N * h))‖ ≤ C * h ^ 2 := by
  obtain ⟨C, hC⟩ := C124_dirk_predictor .qinZhang sineR sineM sine_mass choiceSolve choiceSolve_exact (sine_smooth 2)
    (T := 10) (by norm_num) (sine_sol 10)
  exact ⟨C, fun h hh h1 N hN => hC h hh (by linarith) (qzRun h st) N hN rfl fun n _ => ⟨st, rfl⟩⟩

end Gusto.Props.StageConvergenceProps
