import Verif.Spec.SSP
import Verif.Props.ExplicitRK
import Verif.Props.OneStep
import Verif.Props.Diagnostics
import Mathlib.Analysis.Convex.Combination
import Mathlib.Tactic.Linarith
import Mathlib.Tactic.FieldSimp
import Mathlib.Tactic.IntervalCases

set_option autoImplicit false
set_option linter.unusedSectionVars false
set_option linter.unusedSimpArgs false

/-!
# C115: the strong-stability-preserving schemes keep the bounds that forward Euler keeps
-/

namespace Gusto.Props.SSPProps
open Gusto LForm TimeDisc Spec Finset Gusto.Props Gusto.Tableaux RK

section general
variable {K X : Type*} [Field K] [LinearOrder K] [IsStrictOrderedRing K] [AddCommGroup X] [Module K X]

/-- The Shu-Osher coefficients of a tableau: `α_ij = r a_ij - Σ_{j<l<i} α_il r a_lj`. -/
def shuOsher (a : ℕ → ℕ → ℚ) (r : ℚ) (i : ℕ) : ℕ → List ℚ
  | 0 => []
  | m + 1 =>
    let rest := shuOsher a r i m
    let j := i - (m + 1)
    (r * a i j - ((List.range m).map fun l => rest.getD l 0 * (r * a (j + 1 + l) j)).sum) :: rest

/-- `α_ij`. -/
def alpha (a : ℕ → ℕ → ℚ) (r : ℚ) (i j : ℕ) : ℚ := (shuOsher a r i i).getD j 0

/-- The Shu-Osher conditions with coefficient `r`: the coefficients reproduce the tableau, are not negative and add up to at most
one in every stage. -/
def ShuOsherOk (a : ℕ → ℕ → ℚ) (r : ℚ) (s : ℕ) (α : ℕ → ℕ → ℚ) : Prop :=
  ∀ i < s + 1, (∀ j < i, 0 ≤ α i j ∧ r * a i j = α i j + ∑ l ∈ range i, if j < l then α i l * (r * a l j) else 0) ∧
    ∑ j ∈ range i, α i j ≤ 1

instance (a : ℕ → ℕ → ℚ) (r : ℚ) (s : ℕ) (α : ℕ → ℕ → ℚ) : Decidable (ShuOsherOk a r s α) := by
  unfold ShuOsherOk; infer_instance

theorem table_ok {o : Option Table} {r : ℚ} (h : SSPCoeff o r) : ∃ t, o = some t ∧ 0 < r ∧ 0 < t.nStages ∧
    ShuOsherOk (stageCoeffs t.A) r t.nStages (alpha (stageCoeffs t.A) r) := by
  cases h <;> exact ⟨_, rfl, by norm_num, by decide, by decide +kernel⟩

/-- A stage of the method is a convex combination of the old state and of Euler steps from the earlier stages. -/
theorem stage_convex (a α : ℕ → ℕ → K) (r : K) (hr : 0 < r) (dt : K) (x : X) (k : ℕ → X) (i : ℕ)
    (hα : ∀ j < i, r * a i j = α i j + ∑ l ∈ range i, if j < l then α i l * (r * a l j) else 0) :
    x + dt • ∑ j ∈ range i, a i j • k j =
      (1 - ∑ j ∈ range i, α i j) • x +
        ∑ j ∈ range i, α i j • ((x + dt • ∑ l ∈ range j, a j l • k l) + (dt / r) • k j) := by
  have e1 : ∑ j ∈ range i, α i j • ∑ l ∈ range j, a j l • k l =
      ∑ j ∈ range i, (∑ l ∈ range i, if j < l then α i l * a l j else 0) • k j := by
    have : ∀ j ∈ range i, α i j • ∑ l ∈ range j, a j l • k l =
        ∑ l ∈ range i, (if l < j then α i j * a j l else 0) • k l := by
      intro j hj
      rw [smul_sum]
      have hsub : range j ⊆ range i := fun l hl => mem_range.2 ((mem_range.1 hl).trans (mem_range.1 hj))
      rw [← sum_subset hsub]
      · refine sum_congr rfl fun l hl => ?_
        rw [if_pos (mem_range.1 hl), smul_smul]
      · intro l _ hl
        rw [if_neg (fun h => hl (mem_range.2 h)), zero_smul]
    rw [sum_congr rfl this, sum_comm]
    exact sum_congr rfl fun j _ => by rw [sum_smul]
  have e2 : ∑ j ∈ range i, α i j • ((x + dt • ∑ l ∈ range j, a j l • k l) + (dt / r) • k j) =
      (∑ j ∈ range i, α i j) • x + dt • (∑ j ∈ range i, α i j • ∑ l ∈ range j, a j l • k l) +
        (dt / r) • ∑ j ∈ range i, α i j • k j := by
    rw [sum_smul, smul_sum, smul_sum, ← sum_add_distrib, ← sum_add_distrib]
    refine sum_congr rfl fun j _ => ?_
    rw [smul_add, smul_add, smul_comm (α i j) dt, smul_comm (α i j) (dt / r)]
  rw [e2, e1, sub_smul, one_smul]
  have e3 : dt • ∑ j ∈ range i, a i j • k j =
      dt • (∑ j ∈ range i, (∑ l ∈ range i, if j < l then α i l * a l j else 0) • k j) +
        (dt / r) • ∑ j ∈ range i, α i j • k j := by
    rw [smul_sum, smul_sum, smul_sum, ← sum_add_distrib]
    refine sum_congr rfl fun j hj => ?_
    rw [smul_smul, smul_smul, smul_smul, ← add_smul]
    congr 1
    have h := hα j (mem_range.1 hj)
    have h2 : ∑ l ∈ range i, (if j < l then α i l * (r * a l j) else 0) =
        r * ∑ l ∈ range i, (if j < l then α i l * a l j else 0) := by
      rw [mul_sum]; refine sum_congr rfl fun l _ => ?_
      split <;> ring
    rw [h2] at h
    field_simp
    linear_combination dt * h
  rw [e3]; abel

/-- Every stage of a method in Shu-Osher form stays in a convex set that Euler steps of length `dt / r` do not leave. -/
theorem rkStep_mem (a α : ℕ → ℕ → K) (b : ℕ → K) (r : K) (hr : 0 < r) (s : ℕ) (hb : ∀ j, b j = a s j)
    (hα : ∀ i < s + 1, (∀ j < i, 0 ≤ α i j ∧
      r * a i j = α i j + ∑ l ∈ range i, if j < l then α i l * (r * a l j) else 0) ∧ ∑ j ∈ range i, α i j ≤ 1)
    (f : X → X) (dt : K) (C : Set X) (hC : Convex K C) (hf : EulerKeeps f (dt / r) C) (x : X) (hx : x ∈ C) :
    rkStep a b s f dt x ∈ C := by
  have key : ∀ i < s + 1, x + dt • ∑ j ∈ range i, a i j • rkK a f dt x j ∈ C := by
    intro i
    induction i using Nat.strong_induction_on with
    | _ i ih =>
      intro hi
      obtain ⟨h1, h2⟩ := hα i hi
      rw [stage_convex a α r hr dt x _ i fun j hj => (h1 j hj).2]
      have := hC.sum_mem (t := range (i + 1)) (w := fun j => if j < i then α i j else 1 - ∑ j ∈ range i, α i j)
        (z := fun j => if j < i then (x + dt • ∑ l ∈ range j, a j l • rkK a f dt x l) + (dt / r) • rkK a f dt x j else x)
        ?_ ?_ ?_
      · rw [sum_range_succ] at this
        simp only [lt_irrefl, if_false] at this
        rw [add_comm]
        convert this using 2
        refine sum_congr rfl fun j hj => ?_
        rw [if_pos (mem_range.1 hj), if_pos (mem_range.1 hj)]
      · intro j _
        split
        · exact (h1 j ‹_›).1
        · linarith
      · rw [sum_range_succ]
        simp only [lt_irrefl, if_false]
        rw [sum_congr rfl (g := fun j => α i j) fun j hj => by rw [if_pos (mem_range.1 hj)]]
        ring
      · intro j _
        split
        · rename_i hj
          have hk : rkK a f dt x j = f (x + dt • ∑ l ∈ range j, a j l • rkK a f dt x l) := by
            rw [rkK, sum_range]
          rw [hk]
          exact hf _ (ih j hj (by omega))
        · exact hx
  have := key s (by omega)
  unfold rkStep
  simpa only [hb] using this

end general

section schemes
variable {K X D : Type*} [Field K] [LinearOrder K] [IsStrictOrderedRing K] [AddCommGroup X] [Module K X] [AddCommGroup D] [Module K D]

/-- The scheme `S` uses the table `t`. -/
structure Uses (S : RKScheme K X D) (t : Table) : Prop where
  A : ∀ i j, S.A i j = ((t.A i j : ℚ) : K)
  nStages : S.nStages = t.nStages

theorem textbook_mem {o : Option Table} {r : ℚ} (h : SSPCoeff o r) {t : Table} (ht : o = some t) (S : RKScheme K X D)
    (hS : Uses S t) (f : X → X) (C : Set X) (hC : Convex K C) (hf : EulerKeeps f (S.dt / r) C) (x : X) (hx : x ∈ C) :
    textbook S f x ∈ C := by
  obtain ⟨t', h1, hr, hs, hok⟩ := table_ok h
  obtain rfl : t = t' := Option.some.inj (ht.symm.trans h1)
  refine rkStep_mem (stageCoeffs S.A) (fun i j => ((alpha (stageCoeffs t.A) r i j : ℚ) : K)) _ (r : K) (by exact_mod_cast hr)
    S.nStages (fun j => rfl) ?_ f S.dt C hC hf x hx
  rw [hS.nStages]
  intro i hi
  obtain ⟨h2, h3⟩ := hok i hi
  refine ⟨fun j hj => ⟨by exact_mod_cast (h2 j hj).1, ?_⟩, by exact_mod_cast h3⟩
  have := congrArg (Rat.cast (K := K)) (h2 j hj).2
  simp only [stageCoeffs, hS.A] at this ⊢
  push_cast at this
  simpa [apply_ite] using this

theorem iterate_mem {Y : Type*} (Φ : Y → Y) (C : Set Y) (h : ∀ x ∈ C, Φ x ∈ C) (n : ℕ) (x : Y) (hx : x ∈ C) : Φ^[n] x ∈ C := by
  induction n with
  | zero => exact hx
  | succ n ih => rw [Function.iterate_succ_apply']; exact h _ ih

/-- C115: forward Euler, Heun and every SSPRK scheme that can be requested, in every formulation.  Take any equation `x' = f(x)`
(nonlinear for the increment and predictor formulations) and any convex set of states (bounds on the values, on a norm, on the
total variation …) which one Euler step of length `dt / r` does not leave, where `r` is the scheme's strong-stability coefficient
from the literature and `dt` the length of one cycle.  Then `apply`, with any number of subcycles and whatever the previous calls
left in the work arrays, does not leave the set. -/
theorem C115_strong_stability {o : Option Table} {r : ℚ} (h : SSPCoeff o r) {t : Table} (ht : o = some t)
    (S : RKScheme K X D) (hS : Uses S t) (M : X ≃ₗ[K] D) (hM : ∀ x, mass S.R x = M x) (hsolve : ExactSolver S.solve)
    (hns : ∀ u ∈ S.R, Label.source ∉ u.labels) (hl : S.limiter = none)
    (C : Set X) (hC : Convex K C) (hf : EulerKeeps (tendency S.R M) (S.dt / r) C)
    (n : ℕ) (hn : 0 < n) (st : RKState X) (x : X) (hx : x ∈ C) :
    RK.apply .increment S n st x ∈ C ∧ RK.apply .predictor S n st x ∈ C ∧
    ((∃ F : X →ₗ[K] D, ∀ x, rest S.R x = F x) → (∀ u ∈ S.R, Label.allButLast ∉ u.labels) → RK.apply .linear S 1 st x ∈ C) := by
  have hset : Setting S M := ⟨hM, hsolve, by
    obtain ⟨t', h1, _, hs, _⟩ := table_ok h
    obtain rfl : t = t' := Option.some.inj (ht.symm.trans h1)
    rw [hS.nStages]; exact hs⟩
  have key := textbook_mem h ht S hS (tendency S.R M) C hC hf
  refine ⟨?_, ?_, fun ⟨F, hF⟩ hA => ?_⟩
  · rw [C02_increment S M hset hl hns n hn]; exact iterate_mem _ C key n x hx
  · rw [C02_predictor S M hset hl hns n hn]; exact iterate_mem _ C key n x hx
  · rw [C02_linear S M F hset hF hA hl]; exact key x hx

/-- C115 for a measure `q` of the state whose sublevel sets are convex (a norm, the total variation, the largest value …): if no
Euler step of length at most `h` increases it, then no step of length at most `r·h` of the scheme increases it. -/
theorem C115_monotone {o : Option Table} {r : ℚ} (h : SSPCoeff o r) {t : Table} (ht : o = some t)
    (S : RKScheme K X D) (hS : Uses S t) (M : X ≃ₗ[K] D) (hM : ∀ x, mass S.R x = M x) (hsolve : ExactSolver S.solve)
    (hns : ∀ u ∈ S.R, Label.source ∉ u.labels) (hl : S.limiter = none)
    (q : X → K) (hq : ∀ c, Convex K {y | q y ≤ c}) (hmax : K)
    (hf : ∀ y, ∀ τ, 0 ≤ τ → τ ≤ hmax → q (y + τ • tendency S.R M y) ≤ q y) (hdt0 : 0 ≤ S.dt) (hdt : S.dt ≤ r * hmax)
    (n : ℕ) (hn : 0 < n) (st : RKState X) (x : X) :
    q (RK.apply .increment S n st x) ≤ q x ∧ q (RK.apply .predictor S n st x) ≤ q x := by
  have hr : (0 : K) < r := by obtain ⟨_, _, hr, _⟩ := table_ok h; exact_mod_cast hr
  have := C115_strong_stability h ht S hS M hM hsolve hns hl {y | q y ≤ q x} (hq _) (fun y hy =>
    (hf y _ (div_nonneg hdt0 hr.le) (by rw [div_le_iff₀ hr]; linarith)).trans hy) n hn st x (show q x ≤ q x from le_rfl)
  exact ⟨this.1, this.2.1⟩

end schemes

/-! ## Transport of a DG0 field with the upwind form -/

section transport
open Gusto.Diag Gusto.DG Gusto.Props.DGProps Gusto.Props.DiagProps
variable {K C F B : Type*} {d : ℕ} [Field K] [LinearOrder K] [IsStrictOrderedRing K] [Fintype C] [Fintype F] [Fintype B]
  {I : Type*} [DecidableEq I]

/-- The mass matrix of a DG0 field. -/
noncomputable def massDG0 (M : Mesh K d C F B) (E : Cells C F B I) (hv : ∀ i, 0 < vol M E i) : (I → K) ≃ₗ[K] (I → K) where
  toFun Q i := vol M E i * Q i
  invFun Q i := Q i / vol M E i
  map_add' Q Q' := funext fun i => by simp [mul_add]
  map_smul' c Q := funext fun i => by simp [mul_left_comm]
  left_inv Q := funext fun i => by have := (hv i).ne'; field_simp
  right_inv Q := funext fun i => by have := (hv i).ne'; field_simp

/-- The residual `R` is the upwind transport equation for a DG0 field: mass term and upwind advection form, tested in every cell. -/
structure TransportDG0 (M : Mesh K d C F B) (E : Cells C F B I) (u : Ve K d C F B) (outflow : Bool) (R : LForm (I → K) (I → K)) :
    Prop where
  mass : ∀ Q i, mass R Q i = vol M E i * Q i
  form : ∀ Q i, upwindAdvection M (ind E i) (dg0 E Q) u .once outflow = .ok (rest R Q i)

theorem transport_euler (M : Mesh K d C F B) (hF : ∀ x, 0 ≤ M.wF x) (hB : ∀ x, 0 ≤ M.wB x) (E : Cells C F B I)
    (k : Fin d → K) (u : Ve K d C F B) (outflow : Bool) (lo hi : K)
    (hv : ∀ i, 0 < vol M E i) (hdiv : ∀ i, DivThm M (ind E i) (Sc.const 1) u) (hflux : FluxCont M u)
    (hbd : BoundaryOk M u outflow) (R : LForm (I → K) (I → K)) (hR : TransportDG0 M E u outflow R) (τ : K) (hτ : 0 ≤ τ)
    (hC : ∀ i, courant M E k .whole u τ i ≤ 1) :
    EulerKeeps (tendency R (massDG0 M E hv)) τ {Q | ∀ i, lo ≤ Q i ∧ Q i ≤ hi} := by
  intro Q hQ
  refine C91_maximum_principle M hF hB E k u outflow τ lo hi Q _ hτ hv hdiv hflux hbd (fun i => ⟨_, hR.form Q i, ?_⟩) hC hQ
  have := (hv i).ne'
  simp [tendency, massDG0]
  field_simp

theorem box_convex (lo hi : K) : Convex K {Q : I → K | ∀ i, lo ≤ Q i ∧ Q i ≤ hi} := by
  intro Q hQ Q' hQ' a b ha hb hab i
  have h1 := hQ i
  have h2 := hQ' i
  simp only [Pi.add_apply, Pi.smul_apply, smul_eq_mul]
  constructor
  · have e : lo = a * lo + b * lo := by rw [← add_mul, hab, one_mul]
    rw [e]; exact add_le_add (mul_le_mul_of_nonneg_left h1.1 ha) (mul_le_mul_of_nonneg_left h2.1 hb)
  · have e : hi = a * hi + b * hi := by rw [← add_mul, hab, one_mul]
    rw [e]; exact add_le_add (mul_le_mul_of_nonneg_left h1.2 ha) (mul_le_mul_of_nonneg_left h2.2 hb)

/-- C115, what it is for: a DG0 field transported with the upwind form and one of the strong-stability-preserving schemes stays
within its bounds whenever the reported Courant number of one cycle is at most the coefficient of the scheme. -/
theorem C115_transport_bounds {o : Option Table} {r : ℚ} (h : SSPCoeff o r) {t : Table} (ht : o = some t)
    (M : Mesh K d C F B) (hF : ∀ x, 0 ≤ M.wF x) (hB : ∀ x, 0 ≤ M.wB x) (E : Cells C F B I)
    (k : Fin d → K) (u : Ve K d C F B) (outflow : Bool) (lo hi : K)
    (hv : ∀ i, 0 < vol M E i) (hdiv : ∀ i, DivThm M (ind E i) (Sc.const 1) u) (hflux : FluxCont M u)
    (hbd : BoundaryOk M u outflow) (S : RKScheme K (I → K) (I → K)) (hS : Uses S t) (hR : TransportDG0 M E u outflow S.R)
    (hsolve : ExactSolver S.solve) (hns : ∀ u ∈ S.R, Label.source ∉ u.labels) (hl : S.limiter = none) (hdt : 0 ≤ S.dt)
    (hC : ∀ i, courant M E k .whole u S.dt i ≤ r) (n : ℕ) (hn : 0 < n) (st : RKState (I → K)) (Q : I → K)
    (hQ : ∀ i, lo ≤ Q i ∧ Q i ≤ hi) :
    (∀ i, lo ≤ RK.apply .increment S n st Q i ∧ RK.apply .increment S n st Q i ≤ hi) ∧
    (∀ i, lo ≤ RK.apply .predictor S n st Q i ∧ RK.apply .predictor S n st Q i ≤ hi) := by
  have hr : (0 : K) < r := by obtain ⟨_, _, hr, _⟩ := table_ok h; exact_mod_cast hr
  have hCr : ∀ i, courant M E k .whole u (S.dt / r) i ≤ 1 := by
    intro i
    rw [show S.dt / r = (r : K)⁻¹ * S.dt by rw [div_eq_inv_mul], (C91_basic M hF hB E k .whole u S.dt _ i (hv i)).2,
      inv_mul_le_iff₀ hr, mul_one]
    exact hC i
  have := C115_strong_stability h ht S hS (massDG0 M E hv) (fun Q => funext fun i => hR.mass Q i) hsolve hns hl _
    (box_convex lo hi) (transport_euler M hF hB E k u outflow lo hi hv hdiv hflux hbd S.R hR _ (div_nonneg hdt hr.le) hCr)
    n hn st Q hQ
  exact ⟨this.1, this.2.1⟩

/-- C115 with adaptive subcycling: if `subcycle_by_courant` is at most the coefficient of the scheme and the number of subcycles is
not capped, the bounds are kept for every time step, however long. -/
theorem C115_adaptive_bounds [FloorSemiring K] {o : Option Table} {r : ℚ} (h : SSPCoeff o r) {t : Table} (ht : o = some t)
    (M : Mesh K d C F B) (hF : ∀ x, 0 ≤ M.wF x) (hB : ∀ x, 0 ≤ M.wB x) (E : Cells C F B I)
    (k : Fin d → K) (u : Ve K d C F B) (outflow : Bool) (lo hi : K)
    (hv : ∀ i, 0 < vol M E i) (hdiv : ∀ i, DivThm M (ind E i) (Sc.const 1) u) (hflux : FluxCont M u)
    (hbd : BoundaryOk M u outflow) (S : RKScheme K (I → K) (I → K)) (hS : Uses S t) (hR : TransportDG0 M E u outflow S.R)
    (hsolve : ExactSolver S.solve) (hns : ∀ u ∈ S.R, Label.source ∉ u.labels) (hl : S.limiter = none)
    (dt c cmax : K) (hdt : 0 < dt) (hc : 0 < c) (hcr : c ≤ r) (hmax : ∀ i, courant M E k .whole u dt i ≤ cmax)
    (st : RKState (I → K)) (Q : I → K) (hQ : ∀ i, lo ≤ Q i ∧ Q i ≤ hi) :
    let s := updateSubcycling (some { subcycleByCourant := some c, maxSubcycles := none }) cmax dt
      (setupSubcycling (some { subcycleByCourant := some c, maxSubcycles := none }) dt)
    ∀ i, lo ≤ RK.apply .increment { S with dt := s.dt } s.ncycles st Q i ∧
      RK.apply .increment { S with dt := s.dt } s.ncycles st Q i ≤ hi := by
  intro s
  obtain ⟨h1, h2, h3⟩ := C05_uncapped c cmax dt hc hdt
    (setupSubcycling (some { subcycleByCourant := some c, maxSubcycles := none }) dt)
  have hn : (0 : K) < s.ncycles := by exact_mod_cast h1
  have hsdt : 0 ≤ s.dt := by
    by_contra hneg
    have : (s.ncycles : K) * s.dt < 0 := mul_neg_of_pos_of_neg hn (not_le.1 hneg)
    have h2' : (s.ncycles : K) * s.dt = dt := h2
    linarith
  refine (C115_transport_bounds h ht M hF hB E k u outflow lo hi hv hdiv hflux hbd { S with dt := s.dt } ⟨hS.A, hS.nStages⟩ hR
    hsolve hns hl hsdt (fun i => ?_) s.ncycles h1 st Q hQ).1
  have e : s.dt = (s.dt / dt) * dt := by field_simp
  change courant M E k .whole u s.dt i ≤ r
  rw [e, (C91_basic M hF hB E k .whole u dt _ i (hv i)).2]
  have h3' : cmax * (s.dt / dt) ≤ c := h3
  calc s.dt / dt * courant M E k .whole u dt i ≤ s.dt / dt * cmax :=
        mul_le_mul_of_nonneg_left (hmax i) (div_nonneg hsdt hdt.le)
    _ = cmax * (s.dt / dt) := mul_comm _ _
    _ ≤ c := h3'
    _ ≤ r := hcr

end transport

/-! ## The coefficients cannot be improved -/

section sharp

/-- Upwind transport on a half-line with cells of length one, wind one and nothing flowing in. -/
def upwind (y : ℕ → ℚ) : ℕ → ℚ
  | 0 => -y 0
  | i + 1 => y i - y (i + 1)

/-- The equation `y_t + (upwind difference of y) = 0` as a residual. -/
def upwindR : LForm (ℕ → ℚ) (ℕ → ℚ) :=
  [ { labels := [.timeDerivative], op := fun y => y, subj := 0 },
    { labels := [.transport], op := fun y => -upwind y, subj := 0 } ]

/-- A built-in scheme for that equation. -/
noncomputable def halfLine (t : Table) (dt : ℚ) : RKScheme ℚ (ℕ → ℚ) (ℕ → ℚ) where
  R := upwindR
  A := t.A
  nStages := t.nStages
  dt := dt
  originalDt := dt
  limiter := none
  nphys := 0
  evals := fun _ x _ => x
  solve := choiceSolve

theorem halfLine_setting (t : Table) (ht : 0 < t.nStages) (dt : ℚ) : Setting (halfLine t dt) (LinearEquiv.refl ℚ (ℕ → ℚ)) where
  mass_eq x := by simp [mass, part, halfLine, upwindR]
  exact := choiceSolve_exact
  stages := ht

theorem halfLine_tendency (t : Table) (dt : ℚ) : tendency (halfLine t dt).R (LinearEquiv.refl ℚ (ℕ → ℚ)) = upwind := by
  funext y
  simp [tendency, rest, part, halfLine, upwindR]

/-- An Euler step with Courant number at most one keeps the values between 0 and 1. -/
theorem halfLine_euler (τ : ℚ) (h0 : 0 ≤ τ) (h1 : τ ≤ 1) : EulerKeeps upwind τ {y : ℕ → ℚ | ∀ i, 0 ≤ y i ∧ y i ≤ 1} := by
  intro y hy i
  cases i with
  | zero =>
    have := hy 0
    simp only [Pi.add_apply, Pi.smul_apply, smul_eq_mul, upwind]
    constructor <;> nlinarith
  | succ i =>
    have a := hy i
    have b := hy (i + 1)
    simp only [Pi.add_apply, Pi.smul_apply, smul_eq_mul, upwind]
    constructor <;> nlinarith

/-- A field which is one in the first cell. -/
def pulse : ℕ → ℚ := fun i => if i = 0 then 1 else 0

/-- Not vacuous: every SSP scheme on the half-line, with Courant number up to its coefficient. -/
example {o : Option Table} {r : ℚ} (h : SSPCoeff o r) {t : Table} (ht : o = some t) (dt : ℚ) (h0 : 0 ≤ dt) (h1 : dt ≤ r)
    (n : ℕ) (hn : 0 < n) (st : RKState (ℕ → ℚ)) (i : ℕ) : 0 ≤ RK.apply .increment (halfLine t dt) n st pulse i := by
  obtain ⟨t', e, hr, hs, _⟩ := table_ok h
  obtain rfl : t = t' := Option.some.inj (ht.symm.trans e)
  refine ((C115_strong_stability h ht (halfLine t dt) ⟨fun _ _ => rfl, rfl⟩ (LinearEquiv.refl ℚ (ℕ → ℚ))
    (halfLine_setting t hs dt).mass_eq choiceSolve_exact (by simp [halfLine, upwindR]) rfl
    {y | ∀ i, 0 ≤ y i ∧ y i ≤ 1} ?_ ?_ n hn st pulse ?_).1 i).1
  · intro x hx y hy a b ha hb hab i
    have h1 := hx i
    have h2 := hy i
    simp only [Pi.add_apply, Pi.smul_apply, smul_eq_mul]
    constructor <;> nlinarith
  · rw [halfLine_tendency]
    exact halfLine_euler _ (div_nonneg h0 (by exact_mod_cast hr.le))
      ((div_le_one (by exact_mod_cast hr)).2 (by exact_mod_cast h1))
  · intro i; unfold pulse; split <;> norm_num

theorem rkK_eq {K X : Type*} [Field K] [AddCommGroup X] [Module K X] (a : ℕ → ℕ → K) (f : X → X) (dt : K) (x : X) (i : ℕ) :
    rkK a f dt x i = f (x + dt • ∑ j ∈ range i, a i j • rkK a f dt x j) := by
  rw [rkK, sum_range]

/-- C115: the coefficients of Heun, SSPRK2 and of SSPRK3 with three and four stages are the largest possible.  For every Courant
number above the coefficient, transport of a pulse with values in `[0, 1]` gives a negative value after one step. -/
theorem C115_sharp (dt : ℚ) (st : RKState (ℕ → ℚ)) :
    (∀ t, heun = some t → 1 < dt → ∃ i, RK.apply .increment (halfLine t dt) 1 st pulse i < 0) ∧
    (∀ t, ssprk2 3 = some t → 2 < dt → ∃ i, RK.apply .increment (halfLine t dt) 1 st pulse i < 0) ∧
    (∀ t, ssprk2 4 = some t → 3 < dt → ∃ i, RK.apply .increment (halfLine t dt) 1 st pulse i < 0) ∧
    (∀ t, ssprk3 3 = some t → 1 < dt → ∃ i, RK.apply .increment (halfLine t dt) 1 st pulse i < 0) ∧
    (∀ t, ssprk3 4 = some t → 2 < dt → ∃ i, RK.apply .increment (halfLine t dt) 1 st pulse i < 0) := by
  have f0 : ∀ y, upwind y 0 = -y 0 := fun _ => rfl
  have f1 : ∀ y, upwind y 1 = y 0 - y 1 := fun _ => rfl
  have f2 : ∀ y, upwind y 2 = y 1 - y 2 := fun _ => rfl
  have f3 : ∀ y, upwind y 3 = y 2 - y 3 := fun _ => rfl
  have key : ∀ t : Table, 0 < t.nStages → RK.apply .increment (halfLine t dt) 1 st pulse =
      rkStep (stageCoeffs t.A) (weights t.A t.nStages) t.nStages upwind dt pulse := by
    intro t ht
    rw [C02_increment _ _ (halfLine_setting t ht dt) rfl (by simp [halfLine, upwindR]) 1 one_pos, halfLine_tendency]
    rfl
  refine ⟨?_, ?_, ?_, ?_, ?_⟩
  · rintro t ⟨⟩ h
    refine ⟨1, ?_⟩
    rw [key _ (by decide)]
    simp only [rkStep, Table.nStages, List.length_cons, List.length_nil, sum_range_succ, sum_range_zero,
      rkK_eq _ _ _ _ 0, rkK_eq _ _ _ _ 1, zero_add]
    simp [f0, f1, stageCoeffs, weights, Table.A, pulse]
    nlinarith
  · rintro t ⟨⟩ h
    refine ⟨2, ?_⟩
    rw [key _ (by decide)]
    simp only [rkStep, Table.nStages, List.length_cons, List.length_nil, sum_range_succ, sum_range_zero,
      rkK_eq _ _ _ _ 0, rkK_eq _ _ _ _ 1, rkK_eq _ _ _ _ 2, zero_add]
    simp [f0, f1, f2, f3, stageCoeffs, weights, Table.A, pulse]
    nlinarith [mul_pos (show (0:ℚ) < dt ^ 2 by positivity) (sub_pos.2 h)]
  · rintro t ⟨⟩ h
    refine ⟨3, ?_⟩
    rw [key _ (by decide)]
    simp only [rkStep, Table.nStages, List.length_cons, List.length_nil, sum_range_succ, sum_range_zero,
      rkK_eq _ _ _ _ 0, rkK_eq _ _ _ _ 1, rkK_eq _ _ _ _ 2, rkK_eq _ _ _ _ 3, zero_add]
    simp [f0, f1, f2, f3, stageCoeffs, weights, Table.A, pulse]
    nlinarith [mul_pos (show (0:ℚ) < dt ^ 3 by positivity) (sub_pos.2 h)]
  · rintro t ⟨⟩ h
    refine ⟨2, ?_⟩
    rw [key _ (by decide)]
    simp only [rkStep, Table.nStages, List.length_cons, List.length_nil, sum_range_succ, sum_range_zero,
      rkK_eq _ _ _ _ 0, rkK_eq _ _ _ _ 1, rkK_eq _ _ _ _ 2, zero_add]
    simp [f0, f1, f2, f3, stageCoeffs, weights, Table.A, pulse]
    nlinarith [mul_pos (show (0:ℚ) < dt ^ 2 by positivity) (sub_pos.2 h)]
  · rintro t ⟨⟩ h
    refine ⟨3, ?_⟩
    rw [key _ (by decide)]
    simp only [rkStep, Table.nStages, List.length_cons, List.length_nil, sum_range_succ, sum_range_zero,
      rkK_eq _ _ _ _ 0, rkK_eq _ _ _ _ 1, rkK_eq _ _ _ _ 2, rkK_eq _ _ _ _ 3, zero_add]
    simp [f0, f1, f2, f3, stageCoeffs, weights, Table.A, pulse]
    nlinarith [mul_pos (show (0:ℚ) < dt ^ 3 by positivity) (sub_pos.2 h)]
end sharp

/-! ## Classical Runge-Kutta is not strong-stability preserving -/

section rk4

/-- A scalar tendency: zero grows, positive values decay, negative values fall. -/
def kinked (y : ℚ) : ℚ := if y = 0 then 1 else if y < 0 then -1 else -y

/-- `y' = kinked y` as a residual. -/
def kinkedR : LForm ℚ ℚ :=
  [ { labels := [.timeDerivative], op := fun y => y, subj := 0 },
    { labels := [.transport], op := fun y => -kinked y, subj := 0 } ]

/-- RK4 for that equation. -/
noncomputable def rk4Scheme (dt : ℚ) : RKScheme ℚ ℚ ℚ where
  R := kinkedR
  A := rk4.A
  nStages := rk4.nStages
  dt := dt
  originalDt := dt
  limiter := none
  nphys := 0
  evals := fun _ x _ => x
  solve := choiceSolve

/-- C115, limit of the claim: RK4 has no positive strong-stability coefficient.  There is an equation whose Euler steps up to
length one all keep the values between 0 and 1, while every step of RK4, however short, leads from 0 to a negative value. -/
theorem C115_rk4_refuted :
    (∀ τ : ℚ, 0 ≤ τ → τ ≤ 1 → EulerKeeps kinked τ {y : ℚ | 0 ≤ y ∧ y ≤ 1}) ∧
    ∀ (dt : ℚ) (st : RKState ℚ), 0 < dt → RK.apply .increment (rk4Scheme dt) 1 st 0 < 0 := by
  constructor
  · rintro τ h0 h1 y ⟨hy0, hy1⟩
    simp only [kinked, smul_eq_mul, Set.mem_ofPred_eq]
    rcases eq_or_lt_of_le hy0 with rfl | hy
    · simp; exact ⟨h0, h1⟩
    · rw [if_neg hy.ne', if_neg (not_lt.2 hy0)]
      constructor <;> nlinarith
  · intro dt st hdt
    have hset : Setting (rk4Scheme dt) (LinearEquiv.refl ℚ ℚ) :=
      ⟨fun x => by simp [mass, part, rk4Scheme, kinkedR], choiceSolve_exact, by simp [rk4Scheme, rk4, Table.nStages]⟩
    have ht : tendency (rk4Scheme dt).R (LinearEquiv.refl ℚ ℚ) = kinked := by
      funext y; simp [tendency, rest, part, rk4Scheme, kinkedR]
    rw [C02_increment _ _ hset rfl (by simp [rk4Scheme, kinkedR]) 1 one_pos, ht]
    have neg : ∀ y : ℚ, y < 0 → kinked y = -1 := fun y hy => by simp [kinked, hy.ne, hy]
    have pos : ∀ y : ℚ, 0 < y → kinked y = -y := fun y hy => by simp [kinked, hy.ne', not_lt.2 hy.le]
    have k0 : rkK (stageCoeffs rk4.A) kinked dt 0 0 = 1 := by rw [rkK_eq]; simp [kinked]
    have k1 : rkK (stageCoeffs rk4.A) kinked dt 0 1 = -(dt * (1 / 2)) := by
      rw [rkK_eq]; simp only [sum_range_succ, sum_range_zero, k0]
      rw [pos] <;> simp [stageCoeffs, rk4, Table.A, hdt]
    have k2 : rkK (stageCoeffs rk4.A) kinked dt 0 2 = -1 := by
      rw [rkK_eq]; simp only [sum_range_succ, sum_range_zero, k0, k1]
      apply neg
      simp [stageCoeffs, rk4, Table.A]
      positivity
    have k3 : rkK (stageCoeffs rk4.A) kinked dt 0 3 = -1 := by
      rw [rkK_eq]; simp only [sum_range_succ, sum_range_zero, k0, k1, k2]
      apply neg
      simp [stageCoeffs, rk4, Table.A, hdt]
    simp only [Function.iterate_one, textbook, rkStep]
    change 0 + dt • ∑ j ∈ range 4, weights rk4.A 4 j • rkK (stageCoeffs rk4.A) kinked dt 0 j < 0
    simp only [sum_range_succ, sum_range_zero, k0, k1, k2, k3]
    simp [weights, rk4, Table.A]
    nlinarith

end rk4

/-! ## The cap on the number of subcycles -/

section cap
open Gusto.Diag Gusto.DG Gusto.Props.DGProps Gusto.Props.DiagProps

/-- Upwind transport on the two-cell periodic line with wind `a`, as a residual. -/
def lineR (a : ℚ) : LForm (Fin 2 → ℚ) (Fin 2 → ℚ) :=
  [ { labels := [.timeDerivative], op := fun Q => Q, subj := 0 },
    { labels := [.transport], op := fun Q i => a * (Q i - Q (1 - i)), subj := 0 } ]

/-- A built-in scheme for it. -/
noncomputable def lineScheme (t : Table) (a dt : ℚ) : RKScheme ℚ (Fin 2 → ℚ) (Fin 2 → ℚ) where
  R := lineR a
  A := t.A
  nStages := t.nStages
  dt := dt
  originalDt := dt
  limiter := none
  nphys := 0
  evals := fun _ x _ => x
  solve := choiceSolve

theorem lineR_transport (a : ℚ) (ha : 0 ≤ a) : TransportDG0 line lineCells (wind a) false (lineR a) where
  mass Q i := by simp [Spec.mass, part, lineR, (line_facts a 1 Q ha).1]
  form Q i := by
    obtain ⟨L, h1, h2⟩ := (line_facts a 1 Q ha).2.2.2 i
    rw [(line_facts a 1 Q ha).1] at h2
    refine h1.trans ?_
    congr 1
    simp [rest, part, lineR]
    linarith

/-- Not vacuous: `C115_transport_bounds` for every scheme and wind on the periodic line. -/
example {o : Option Table} {r : ℚ} (h : SSPCoeff o r) {t : Table} (ht : o = some t) (a dt : ℚ) (ha : 0 ≤ a) (hdt : 0 ≤ dt)
    (hC : a * dt ≤ r) (n : ℕ) (hn : 0 < n) (st : RKState (Fin 2 → ℚ)) (Q : Fin 2 → ℚ) (hQ : ∀ i, 2 ≤ Q i ∧ Q i ≤ 5) (i : Fin 2) :
    2 ≤ RK.apply .increment (lineScheme t a dt) n st Q i := by
  obtain ⟨h1, h2, h3, _⟩ := line_facts a dt Q ha
  exact ((C115_transport_bounds h ht line (fun _ => by norm_num [line]) (fun x => x.elim0) lineCells (fun _ => 0) (wind a) false
    2 5 (fun i => by rw [h1]; norm_num) h2 (line_ok Q Q Q Q a).2.1 (Or.inr fun x => x.elim0) (lineScheme t a dt)
    ⟨fun i j => by simp [lineScheme], rfl⟩ (lineR_transport a ha) choiceSolve_exact (by simp [lineScheme, lineR]) rfl hdt
    (fun i => by
      change courant line lineCells (fun _ => 0) .whole (wind a) dt i ≤ _
      rw [h3]; exact_mod_cast hC) n hn st Q hQ).1 i).1

/-- C115, limit of the claim: with the default cap of ten subcycles the bounds are lost although `subcycle_by_courant` was set to
the coefficient of the scheme.  Forward Euler on the periodic line with Courant number 20 takes ten steps of Courant number 2 and
returns a value below zero from values 0 and 1. -/
theorem C115_cap_refuted (st : RKState (Fin 2 → ℚ)) :
    let opts : Option (SubcyclingOptions ℚ) := some { subcycleByCourant := some 1 }
    let s := updateSubcycling opts 20 1 (setupSubcycling opts 1)
    (∀ i, courant line lineCells (fun _ => 0) .whole (wind 20) 1 i = 20) ∧
    ∃ i, RK.apply .increment (lineScheme forwardEuler 20 s.dt) s.ncycles st (fun i => if i = 0 then 1 else 0) i < 0 := by
  intro opts s
  have hs : s = { ncycles := 10, dt := 1 / 10 } := by
    simp only [s, opts, updateSubcycling, setupSubcycling]
    norm_num
  obtain ⟨h1, _, h3, _⟩ := line_facts 20 1 (fun _ => 0) (by norm_num)
  refine ⟨fun i => by rw [h3]; norm_num, 1, ?_⟩
  have hset : Setting (lineScheme forwardEuler 20 s.dt) (LinearEquiv.refl ℚ (Fin 2 → ℚ)) :=
    ⟨fun x => by funext i; simp [Spec.mass, part, lineScheme, lineR], choiceSolve_exact,
      by simp [lineScheme, forwardEuler, Table.nStages]⟩
  rw [C02_increment _ _ hset rfl (by simp [lineScheme, lineR]) _ (by rw [hs]; norm_num), hs]
  have step : ∀ p q : ℚ, textbook (lineScheme forwardEuler 20 (1 / 10))
      (tendency (lineScheme forwardEuler 20 (1 / 10)).R (LinearEquiv.refl ℚ (Fin 2 → ℚ))) (fun i => if i = 0 then p else q) =
      fun i => if i = 0 then 2 * q - p else 2 * p - q := by
    intro p q
    funext i
    simp only [textbook, rkStep]
    change (_ + (1 / 10 : ℚ) • ∑ j ∈ range 1, weights forwardEuler.A 1 j • rkK _ _ _ _ j : Fin 2 → ℚ) i = _
    simp only [sum_range_succ, sum_range_zero]
    rw [rkK_eq]
    fin_cases i <;> simp [weights, forwardEuler, Table.A, tendency, rest, part, lineScheme, lineR] <;> ring
  simp only [Function.iterate_succ_apply, Function.iterate_zero, id, step]
  norm_num

end cap
end Gusto.Props.SSPProps
