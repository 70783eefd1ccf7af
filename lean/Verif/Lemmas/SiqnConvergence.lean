import Verif.Model.SiqnFamily
import Verif.Lemmas.LocalOrder
import Verif.Props.QuasiNewton

set_option autoImplicit false
set_option linter.unusedSectionVars false
set_option linter.unusedSimpArgs false

/-! # One semi-implicit quasi-Newton timestep as a family of maps -/

namespace Gusto.SiqnConv
open Topology Filter Gusto.Convergence Gusto.QN Gusto.Props.QNProps

variable {ι : Type*} [Fintype ι] [DecidableEq ι] {V : ι → Type*} [∀ i, NormedAddCommGroup (V i)] [∀ i, NormedSpace ℝ (V i)]
variable {E : Type*} [NormedAddCommGroup E] [NormedSpace ℝ E]

/-- `y` is the old state plus `h` times `q`, for small timesteps. -/
def Inc (y q : ℝ → E → E) : Prop := ∀ᶠ h in 𝓝[≥] (0 : ℝ), ∀ x, y h x = x + h • q h x

/-- The linear solver for small timesteps: homogeneous, zero outside the solver fields, and close to the projection on them. -/
structure SolverOK (inSolver : ι → Bool) (S : ℝ → (∀ i, V i) → ∀ i, V i) : Prop where
  hom : ∀ᶠ h in 𝓝[≥] (0 : ℝ), ∀ (c : ℝ) r, S h (c • r) = c • S h r
  non : ∀ᶠ h in 𝓝[≥] (0 : ℝ), ∀ r i, inSolver i = false → S h r i = 0
  close : ∃ c, 0 ≤ c ∧ ∀ᶠ h in 𝓝[≥] (0 : ℝ), ∀ r r', ‖(S h r - zeroNonPrognostics inSolver r) - (S h r' - zeroNonPrognostics inSolver r')‖ ≤
    c * h * ‖zeroNonPrognostics inSolver (r - r')‖

theorem norm_zeroNon_le (inSolver : ι → Bool) (r : ∀ i, V i) : ‖zeroNonPrognostics inSolver r‖ ≤ ‖r‖ := by
  refine (pi_norm_le_iff_of_nonneg (norm_nonneg _)).2 fun i => ?_
  unfold zeroNonPrognostics
  split_ifs
  · exact norm_le_pi_norm r i
  · simp

theorem zeroNon_sub (inSolver : ι → Bool) (r s : ∀ i, V i) :
    zeroNonPrognostics inSolver (r - s) = zeroNonPrognostics inSolver r - zeroNonPrognostics inSolver s := by
  funext i
  simp only [zeroNonPrognostics, Pi.sub_apply]
  split_ifs <;> simp

theorem SolverOK.close0 {inSolver : ι → Bool} {S : ℝ → (∀ i, V i) → ∀ i, V i} (hS : SolverOK inSolver S) :
    ∃ c, 0 ≤ c ∧ ∀ᶠ h in 𝓝[≥] (0 : ℝ), ∀ r, ‖S h r - zeroNonPrognostics inSolver r‖ ≤ c * h * ‖zeroNonPrognostics inSolver r‖ := by
  obtain ⟨c, c0, hc⟩ := hS.close
  refine ⟨c, c0, ?_⟩
  filter_upwards [hc, hS.hom] with h e1 e2 r
  have h0 : S h 0 = 0 := by simpa using e2 0 0
  have hz : zeroNonPrognostics inSolver (0 : ∀ i, V i) = 0 := by funext i; simp [zeroNonPrognostics]
  simpa [h0, hz] using e1 r 0

theorem SolverOK.ul {inSolver : ι → Bool} {S : ℝ → (∀ i, V i) → ∀ i, V i} (hS : SolverOK inSolver S) : UL S := fun B => by
  obtain ⟨c, c0, hc⟩ := hS.close
  obtain ⟨d, d0, hd⟩ := hS.close0
  refine ⟨(1 + d) * |B| + (1 + c), by positivity, ?_⟩
  filter_upwards [hc, hd, small_nonneg, small_le one_pos] with h e1 e2 h0 h1 x z hx hz
  constructor
  · have a1 := e2 x
    have a2 := norm_zeroNon_le inSolver x
    have a3 : ‖S h x‖ ≤ ‖S h x - zeroNonPrognostics inSolver x‖ + ‖zeroNonPrognostics inSolver x‖ := by
      simpa using norm_add_le (S h x - zeroNonPrognostics inSolver x) (zeroNonPrognostics inSolver x)
    have a4 : d * h * ‖zeroNonPrognostics inSolver x‖ ≤ d * |B| := by
      have : d * h ≤ d := by nlinarith
      have b : ‖zeroNonPrognostics inSolver x‖ ≤ |B| := a2.trans (hx.trans (le_abs_self B))
      exact mul_le_mul this b (norm_nonneg _) d0
    have b : ‖zeroNonPrognostics inSolver x‖ ≤ |B| := a2.trans (hx.trans (le_abs_self B))
    nlinarith
  · have a1 := e1 x z
    have a2 := norm_zeroNon_le inSolver (x - z)
    have a3 : S h x - S h z = (S h x - zeroNonPrognostics inSolver x) - (S h z - zeroNonPrognostics inSolver z)
        + zeroNonPrognostics inSolver (x - z) := by rw [zeroNon_sub]; abel
    rw [a3]
    refine (norm_add_le _ _).trans ?_
    have a4 : c * h * ‖zeroNonPrognostics inSolver (x - z)‖ ≤ c * ‖x - z‖ := by
      have : c * h ≤ c := by nlinarith
      exact mul_le_mul this a2 (norm_nonneg _) c0
    have : 0 ≤ (1 + d) * |B| * ‖x - z‖ := by positivity
    nlinarith

/-- If the residual of the solver fields is `O(h^n)`, the solver returns it up to `O(h^(n+1))`. -/
theorem SolverOK.near {inSolver : ι → Bool} {S : ℝ → (∀ i, V i) → ∀ i, V i} (hS : SolverOK inSolver S) {n : ℕ}
    {ρ : ℝ → E → ∀ i, V i} (h1 : ∀ i, inSolver i = true → Near n (fun h x => ρ h x i) (fun _ _ => 0)) (i : ι)
    (hi : inSolver i = true) : Near (n + 1) (fun h x => S h (ρ h x) i) (fun h x => ρ h x i) := fun B => by
  have hz : Near n (fun h x => zeroNonPrognostics inSolver (ρ h x)) (fun _ _ => 0) := by
    refine Near.pi fun j => ?_
    cases hj : inSolver j
    · simp only [zeroNonPrognostics, hj, Bool.false_eq_true, if_false]; exact Near.refl _ _
    · simp only [zeroNonPrognostics, hj, if_true]; exact h1 j hj
  obtain ⟨c, c0, hc⟩ := hS.close0
  obtain ⟨d, d0, hd⟩ := hz B
  refine ⟨c * d, by positivity, ?_⟩
  filter_upwards [hc, hd, small_nonneg] with h e1 e2 h0 x hx
  have a1 := e2 x hx
  rw [sub_zero] at a1
  have a2 : ‖S h (ρ h x) i - ρ h x i‖ ≤ ‖S h (ρ h x) - zeroNonPrognostics inSolver (ρ h x)‖ := by
    have := norm_le_pi_norm (S h (ρ h x) - zeroNonPrognostics inSolver (ρ h x)) i
    simpa [zeroNonPrognostics, hi] using this
  refine a2.trans ((e1 _).trans ?_)
  calc c * h * ‖zeroNonPrognostics inSolver (ρ h x)‖ ≤ c * h * (d * h ^ n) := mul_le_mul_of_nonneg_left a1 (by positivity)
    _ = _ := by ring

/-- The solver object: mass matrices with bounded inverses and bounded linearised operators give such a solver. -/
theorem solver_ok (inSolver : ι → Bool) (mass : ∀ i, V i ≃L[ℝ] V i) (lin linImp : ∀ i, (∀ j, V j) →L[ℝ] V i) (tau : ι → ℝ)
    (S : ℝ → (∀ i, V i) → ∀ i, V i)
    (hS : ∀ᶠ h in 𝓝[≥] (0 : ℝ), Solves inSolver (fun i => mass i) (fun i => lin i) (fun i => linImp i) tau h (S h)) :
    SolverOK inSolver S := by
  set L : (∀ j, V j) →L[ℝ] (∀ j, V j) := ContinuousLinearMap.pi fun i =>
    if inSolver i then ((mass i).symm : V i →L[ℝ] V i).comp (tau i • lin i + linImp i) else 0 with hL
  have hLi : ∀ i y, L y i = if inSolver i then (mass i).symm (tau i • lin i y + linImp i y) else 0 := by
    intro i y
    simp only [hL, ContinuousLinearMap.pi_apply]
    split_ifs <;> simp
  -- the equation in the form `y + h L y = P r`
  have key : ∀ h y r, linearForm inSolver (fun i => mass i) (fun i => lin i) (fun i => linImp i) tau h y =
      linearRhs inSolver (fun i => mass i) r ↔ y + h • L y = zeroNonPrognostics inSolver r := by
    intro h y r
    rw [funext_iff, funext_iff]
    refine forall_congr' fun i => ?_
    simp only [linearForm, linearRhs, Pi.add_apply, Pi.smul_apply, hLi]
    split_ifs with hi
    · rw [← (mass i).symm.injective.eq_iff]
      simp only [map_add, ContinuousLinearEquiv.symm_apply_apply, map_smul, smul_add, smul_smul]
      rw [mul_comm h (tau i), add_assoc]
    · rw [← (mass i).symm.injective.eq_iff]
      simp
  have hsmall : ∀ᶠ h in 𝓝[≥] (0 : ℝ), h * ‖L‖ ≤ 1 / 2 := by
    filter_upwards [small_nonneg, small_le (H := 1 / (2 * (‖L‖ + 1))) (by positivity)] with h h0 h1
    have : h * (2 * (‖L‖ + 1)) ≤ 1 := by rwa [le_div_iff₀ (by positivity)] at h1
    nlinarith [norm_nonneg L]
  have hbd : ∀ h, 0 ≤ h → h * ‖L‖ ≤ 1 / 2 → ∀ y : ∀ i, V i, ‖y‖ ≤ 2 * ‖y + h • L y‖ := by
    intro h h0 h1 y
    have a1 : ‖y‖ ≤ ‖y + h • L y‖ + ‖h • L y‖ := by simpa using norm_sub_le (y + h • L y) (h • L y)
    have a2 : ‖h • L y‖ ≤ h * ‖L‖ * ‖y‖ := by
      rw [norm_smul, Real.norm_eq_abs, abs_of_nonneg h0, mul_assoc]
      exact mul_le_mul_of_nonneg_left (L.le_opNorm y) h0
    nlinarith [norm_nonneg y]
  have huniq : ∀ h, 0 ≤ h → h * ‖L‖ ≤ 1 / 2 → ∀ y z : ∀ i, V i, y + h • L y = z + h • L z → y = z := by
    intro h h0 h1 y z e
    have := hbd h h0 h1 (y - z)
    have e' : (y - z) + h • L (y - z) = 0 := by rw [map_sub, smul_sub]; rw [← sub_eq_zero] at e; rw [← e]; abel
    rw [e', norm_zero, mul_zero] at this
    exact sub_eq_zero.1 (norm_le_zero_iff.1 this)
  refine ⟨?_, ?_, 2 * ‖L‖, by positivity, ?_⟩
  · filter_upwards [hS, small_nonneg, hsmall] with h e1 h0 h1 c r
    apply huniq h h0 h1
    rw [(key h _ _).1 (e1 _), map_smul, smul_comm h c, ← smul_add, (key h _ _).1 (e1 _)]
    funext i
    simp only [zeroNonPrognostics, Pi.smul_apply]
    split_ifs <;> simp
  · filter_upwards [hS] with h e1 r i hi
    have := congrFun ((key h _ _).1 (e1 r)) i
    simpa [hLi, hi, zeroNonPrognostics] using this
  · filter_upwards [hS, small_nonneg, hsmall] with h e1 h0 h1 r r'
    have a1 := (key h _ _).1 (e1 r)
    have a2 := (key h _ _).1 (e1 r')
    have a3 : (S h r - zeroNonPrognostics inSolver r) - (S h r' - zeroNonPrognostics inSolver r') = - (h • L (S h r - S h r')) := by
      rw [← a1, ← a2, map_sub, smul_sub]; abel
    have a4 : zeroNonPrognostics inSolver (r - r') = (S h r - S h r') + h • L (S h r - S h r') := by
      rw [zeroNon_sub, ← a1, ← a2, map_sub, smul_sub]; abel
    rw [a3, norm_neg, norm_smul, Real.norm_eq_abs, abs_of_nonneg h0, a4]
    have := hbd h h0 h1 (S h r - S h r')
    calc _ ≤ h * (‖L‖ * ‖S h r - S h r'‖) := mul_le_mul_of_nonneg_left (L.le_opNorm _) h0
      _ ≤ h * (‖L‖ * (2 * ‖S h r - S h r' + h • L (S h r - S h r')‖)) := by gcongr
      _ = _ := by ring

/-! ### The inner loop -/

/-- What an unaccelerated inner iteration aims at, divided by the timestep: transport and slow physics `p`, implicit forcing, fast
physics `φ` and implicit inner physics at the current iterate. -/
def aimed (d : SiqnFamily V) (p φ ιnc : ℝ → (∀ i, V i) → ∀ i, V i) (q : ℝ → (∀ i, V i) → ∀ i, V i) : ℝ → (∀ i, V i) → ∀ i, V i :=
  fun h x => p h x + (d.alpha • d.F (x + h • q h x) + d.Fi (x + h • q h x)) + φ h x + d.beta • ιnc h (x + h • q h x)

/-- The residual handed to the linear solver, divided by the timestep. -/
def resid (d : SiqnFamily V) (p φ ιnc : ℝ → (∀ i, V i) → ∀ i, V i) (q : ℝ → (∀ i, V i) → ∀ i, V i) (k : ℕ) :
    ℝ → (∀ i, V i) → ∀ i, V i :=
  fun h x i => if (k > 0 ∧ d.accelerator = true) ∧ i ≠ d.u then 0 else aimed d p φ ιnc q h x i - q h x i

theorem UL.aimed {d : SiqnFamily V} {p φ ιnc q : ℝ → (∀ i, V i) → ∀ i, V i} (hF : LocalLip d.F) (hFi : LocalLip d.Fi)
    (hp : UL p) (hφ : UL φ) (hι : UL ιnc) (hq : UL q) : UL (aimed d p φ ιnc q) := by
  have hb : UL (fun h x => x + h • q h x) := UL.id.add hq.smulH
  exact ((hp.add ((((UL.of_lip hF).comp hb).smul _).add ((UL.of_lip hFi).comp hb))).add hφ).add ((hι.comp hb).smul _)

theorem UL.resid {d : SiqnFamily V} {p φ ιnc q : ℝ → (∀ i, V i) → ∀ i, V i} (hF : LocalLip d.F) (hFi : LocalLip d.Fi)
    (hp : UL p) (hφ : UL φ) (hι : UL ιnc) (hq : UL q) (k : ℕ) : UL (resid d p φ ιnc q k) := by
  refine UL.pi fun i => ?_
  unfold SiqnConv.resid
  split_ifs
  · exact UL.const 0
  · exact ((UL.aimed hF hFi hp hφ hι hq).coord i).sub (hq.coord i)

/-- One inner iteration on increments. -/
theorem inner_inc {d : SiqnFamily V} (hS : SolverOK d.inSolver d.solve) {xp phys y p φ ιnc q : ℝ → (∀ i, V i) → ∀ i, V i}
    (hxp : Inc xp p) (hphys : ∀ᶠ h in 𝓝[≥] (0 : ℝ), ∀ x, phys h x = h • φ h x)
    (hin : ∀ᶠ h in 𝓝[≥] (0 : ℝ), ∀ x, innerInc (d.at h) x = h • ιnc h x) (hy : Inc y q) (k : ℕ)
    (hacc : k > 0 → d.accelerator = true → d.beta = 0 ∨ d.inner = []) :
    Inc (fun h x => innerStep (d.at h) (xp h x) (phys h x) k (y h x)) (fun h x => q h x + d.solve h (resid d p φ ιnc q k h x)) := by
  filter_upwards [hxp, hphys, hin, hy, hS.hom] with h e1 e2 e3 e4 e5 x
  have hr : xrhsOf (d.at h) (xp h x) (phys h x) k (y h x) = h • resid d p φ ιnc q k h x := by
    by_cases hk : k > 0 ∧ d.accelerator = true
    · funext i
      have hz : (d.at h).beta • innerInc (d.at h) (y h x) = 0 := by
        rcases hacc hk.1 hk.2 with h' | h'
        · simp [SiqnFamily.at, h']
        · simp [innerInc, SiqnFamily.at, h']
      rw [xrhsOf_accel (d.at h) _ _ k _ hk.1 hk.2 i]
      rw [show (d.at h).u = d.u from rfl]
      by_cases hi : i = d.u
      · have hz' := hz
        rw [e3] at hz'
        rw [if_pos hi, hz, e1, e2, e4]
        simp only [resid, hi, ne_eq, not_true_eq_false, and_false, if_false, aimed, Pi.smul_apply, Pi.add_apply, Pi.sub_apply,
          SiqnFamily.at, Pi.zero_apply]
        rw [e4, smul_comm] at hz'
        have hz2 := congrFun hz' i
        simp only [SiqnFamily.at, Pi.smul_apply, Pi.zero_apply] at hz2
        simp only [smul_add, smul_sub, smul_smul, mul_comm d.alpha h] at hz2 ⊢
        rw [hz2]
        abel
      · rw [if_neg hi, hz]
        simp [resid, hk, hi]
    · have hk' : k = 0 ∨ (d.at h).accelerator = false := by
        by_cases h0 : k = 0
        · exact Or.inl h0
        · right
          have : ¬ d.accelerator = true := fun h' => hk ⟨Nat.pos_of_ne_zero h0, h'⟩
          simpa [SiqnFamily.at] using this
      rw [xrhsOf_plain (d.at h) _ _ k _ hk', e3, e1, e2, e4]
      funext i
      simp only [resid, hk, false_and, if_false, aimed, SiqnFamily.at, Pi.smul_apply, Pi.add_apply, Pi.sub_apply, smul_add, smul_sub,
        smul_smul, mul_comm d.alpha h, mul_comm d.beta h]
      abel
  rw [innerStep, hr, show (d.at h).solve = d.solve h from rfl, e5, e4, smul_add, add_assoc]

/-- The whole inner loop: solver fields reach the aim to one order more than all fields had before. -/
theorem inner_loop {d : SiqnFamily V} (hS : SolverOK d.inSolver d.solve) (hF : LocalLip d.F) (hFi : LocalLip d.Fi) {n : ℕ}
    {xp phys y p φ ιnc q a : ℝ → (∀ i, V i) → ∀ i, V i} (hp : UL p) (hφ : UL φ) (hι : UL ιnc) (hq : UL q)
    (hxp : Inc xp p) (hphys : ∀ᶠ h in 𝓝[≥] (0 : ℝ), ∀ x, phys h x = h • φ h x)
    (hin : ∀ᶠ h in 𝓝[≥] (0 : ℝ), ∀ x, innerInc (d.at h) x = h • ιnc h x) (hy : Inc y q)
    (hacc : d.accelerator = true → d.beta = 0 ∨ d.inner = [] ∨ d.numInner ≤ 1)
    (hqa : ∀ i, Near n (fun h x => q h x i) (fun h x => a h x i))
    (haim : ∀ q : ℝ → (∀ i, V i) → ∀ i, V i, UL q → (∀ i, Near n (fun h x => q h x i) (fun h x => a h x i)) →
      ∀ i, d.inSolver i = true → Near (n + 1) (fun h x => aimed d p φ ιnc q h x i) (fun h x => a h x i))
    (m : ℕ) (hm : m ≤ d.numInner) :
    ∃ r : ℝ → (∀ i, V i) → ∀ i, V i, UL r ∧
      Inc (fun h x => (List.range m).foldl (fun z k => innerStep (d.at h) (xp h x) (phys h x) k z) (y h x)) r ∧
      (∀ i, Near n (fun h x => r h x i) (fun h x => a h x i)) ∧
      (1 ≤ m → ∀ i, d.inSolver i = true → Near (n + 1) (fun h x => r h x i) (fun h x => a h x i)) := by
  induction m with
  | zero => exact ⟨q, hq, hy, hqa, by omega⟩
  | succ m ih =>
    obtain ⟨r, hr, hri, hra, hrs⟩ := ih (by omega)
    have hres : UL (resid d p φ ιnc r m) := UL.resid hF hFi hp hφ hι hr m
    have hsol : ∀ i, d.inSolver i = true →
        Near (n + 1) (fun h x => (r h x + d.solve h (resid d p φ ιnc r m h x)) i) (fun h x => a h x i) := by
      intro i hi
      have haim' := haim r hr hra
      by_cases hk : m > 0 ∧ d.accelerator = true
      · -- an accelerated iteration: the residual is already small
        have hsmall : ∀ j, d.inSolver j = true → Near (n + 1) (fun h x => resid d p φ ιnc r m h x j) (fun _ _ => 0) := by
          intro j hj
          unfold resid
          split_ifs
          · exact Near.refl _ _
          · have := (haim' j hj).sub (hrs (by omega) j hj)
            simpa using this
        have h2 := (hS.near hsmall i hi).mono (Nat.le_succ (n + 1))
        have := (hrs (by omega) i hi).add (h2.trans (hsmall i hi))
        simpa using this
      · have e : ∀ h x j, resid d p φ ιnc r m h x j = aimed d p φ ιnc r h x j - r h x j := by
          intro h x j; simp [resid, hk]
        have hsmall : ∀ j, d.inSolver j = true → Near n (fun h x => resid d p φ ιnc r m h x j) (fun _ _ => 0) := by
          intro j hj
          have := ((haim' j hj).mono (Nat.le_succ n)).sub (hra j)
          simpa [e] using this
        have h2 := (Near.refl (n + 1) (fun h x => r h x i)).add (hS.near hsmall i hi)
        refine Near.trans (by simpa using h2) ?_
        have h3 := haim' i hi
        simpa [e] using h3
    refine ⟨fun h x => r h x + d.solve h (resid d p φ ιnc r m h x), hr.add (hS.ul.comp hres), ?_, fun i => ?_, fun _ => hsol⟩
    · have := inner_inc hS hxp hphys hin hri m (fun h1 h2 => by
        rcases hacc h2 with h' | h' | h'
        · exact Or.inl h'
        · exact Or.inr h'
        · omega)
      simpa [List.range_succ] using this
    · cases hi : d.inSolver i
      · intro B
        obtain ⟨c, c0, hc⟩ := hra i B
        refine ⟨c, c0, ?_⟩
        filter_upwards [hc, hS.non] with h e1 e2 x hx
        simpa [e2 _ i hi] using e1 x hx
      · exact (hsol i hi).mono (Nat.le_succ n)

/-! ### The outer loop -/

/-- The transported state, minus the old one, divided by the timestep: `s` is the explicit part, `τ` the transport. -/
def pOf (d : SiqnFamily V) (s : ℝ → (∀ i, V i) → ∀ i, V i) (τ : ℝ → V d.u × (∀ i, V i) → ∀ i, V i)
    (q : ℝ → (∀ i, V i) → ∀ i, V i) : ℝ → (∀ i, V i) → ∀ i, V i :=
  fun h x => s h x + τ h (x d.u + h • (d.alphaU • q h x d.u), x + h • s h x)

/-- The fast physics increment divided by the timestep. -/
def physOf (p κ : ℝ → (∀ i, V i) → ∀ i, V i) : ℝ → (∀ i, V i) → ∀ i, V i := fun h x => κ h (x + h • p h x)

theorem UL.arg {d : SiqnFamily V} {s q : ℝ → (∀ i, V i) → ∀ i, V i} (hs : UL s) (hq : UL q) :
    UL (fun h (x : ∀ i, V i) => (x d.u + h • (d.alphaU • q h x d.u), x + h • s h x)) :=
  UL.prod (((UL.id (E := ∀ i, V i)).coord d.u).add ((hq.coord d.u).smul _).smulH) (UL.id.add hs.smulH)

theorem UL.pOf {d : SiqnFamily V} {s q : ℝ → (∀ i, V i) → ∀ i, V i} {τ : ℝ → V d.u × (∀ i, V i) → ∀ i, V i} (hs : UL s)
    (hτ : UL τ) (hq : UL q) : UL (pOf d s τ q) := hs.add (hτ.comp (UL.arg hs hq))

theorem UL.physOf {p κ : ℝ → (∀ i, V i) → ∀ i, V i} (hp : UL p) (hκ : UL κ) : UL (physOf p κ) :=
  hκ.comp (UL.id.add hp.smulH)

/-- The state after `n` outer iterations. -/
noncomputable def afterOuter (d : SiqnFamily V) (n : ℕ) (h : ℝ) (x : ∀ i, V i) : (∀ i, V i) × (∀ i, V i) :=
  (outerStep (d.at h) x (xstarOf (d.at h) x))^[n] (xstarOf (d.at h) x, x)

/-- What the ingredients of a timestep add, for small timesteps: explicit part `s`, transport `τ`, fast physics `κ`, inner physics
`ιnc`. -/
structure Parts (d : SiqnFamily V) (s κ ιnc : ℝ → (∀ i, V i) → ∀ i, V i) (τ : ℝ → V d.u × (∀ i, V i) → ∀ i, V i) : Prop where
  solver : SolverOK d.inSolver d.solve
  lipF : LocalLip d.F
  lipFi : LocalLip d.Fi
  ulS : UL s
  ulK : UL κ
  ulI : UL ιnc
  ulT : UL τ
  star : Inc (fun h x => xstarOf (d.at h) x) s
  fast : Inc (fun h x => applyAll (d.at h).fast x) κ
  inner : ∀ᶠ h in 𝓝[≥] (0 : ℝ), ∀ x, innerInc (d.at h) x = h • ιnc h x
  transport : ∀ᶠ h in 𝓝[≥] (0 : ℝ), ∀ v x, transported (d.at h).transport v x = x + h • τ h (v, x)
  accel : d.accelerator = true → d.beta = 0 ∨ d.inner = [] ∨ d.numInner ≤ 1
  inners : 1 ≤ d.numInner

/-- One more outer iteration gains an order. -/
theorem outer_pass {d : SiqnFamily V} {s κ ιnc : ℝ → (∀ i, V i) → ∀ i, V i} {τ : ℝ → V d.u × (∀ i, V i) → ∀ i, V i}
    (hd : Parts d s κ ιnc τ) {n m : ℕ} {q a : ℝ → (∀ i, V i) → ∀ i, V i} (hq : UL q)
    (hy : Inc (fun h x => (afterOuter d m h x).2) q) (hqa : ∀ i, Near n (fun h x => q h x i) (fun h x => a h x i))
    (haim : ∀ r : ℝ → (∀ i, V i) → ∀ i, V i, UL r → (∀ i, Near n (fun h x => r h x i) (fun h x => a h x i)) →
      ∀ i, d.inSolver i = true →
      Near (n + 1) (fun h x => aimed d (pOf d s τ q) (physOf (pOf d s τ q) κ) ιnc r h x i) (fun h x => a h x i))
    (hnon : ∀ i, d.inSolver i = false →
      Near (n + 1) (fun h x => pOf d s τ q h x i + physOf (pOf d s τ q) κ h x i) (fun h x => a h x i)) :
    ∃ r : ℝ → (∀ i, V i) → ∀ i, V i, UL r ∧ Inc (fun h x => (afterOuter d (m + 1) h x).2) r ∧
      ∀ i, Near (n + 1) (fun h x => r h x i) (fun h x => a h x i) := by
  have hp : UL (pOf d s τ q) := UL.pOf hd.ulS hd.ulT hq
  have hφ : UL (physOf (pOf d s τ q) κ) := UL.physOf hp hd.ulK
  set xp : ℝ → (∀ i, V i) → ∀ i, V i := fun h x =>
    transported (d.at h).transport (ubar (d.at h) x (afterOuter d m h x).2) (xstarOf (d.at h) x) with hxpdef
  have hxp : Inc xp (pOf d s τ q) := by
    filter_upwards [hd.star, hy, hd.transport] with h e1 e2 e3 x
    have hu : (ubar (d.at h) x (afterOuter d m h x).2 : V d.u) = x d.u + h • (d.alphaU • q h x d.u) := by
      have : (afterOuter d m h x).2 = x + h • q h x := e2 x
      rw [this, ubar]
      change x d.u + d.alphaU • ((x + h • q h x) d.u - x d.u) = _
      simp only [Pi.add_apply, Pi.smul_apply, add_sub_cancel_left]
      rw [smul_comm]
    have h2 : ((ubar (d.at h) x (afterOuter d m h x).2, xstarOf (d.at h) x) : V d.u × (∀ i, V i)) =
        (x d.u + h • (d.alphaU • q h x d.u), x + h • s h x) := Prod.ext hu (e1 x)
    exact (e3 _ _).trans ((congrArg₂ (fun a b => a + h • b) (e1 x) (congrArg (τ h) h2)).trans
      (by simp only [pOf, smul_add, add_assoc]))
  have hphys : ∀ᶠ h in 𝓝[≥] (0 : ℝ), ∀ x, applyAll (d.at h).fast (xp h x) - xp h x = h • physOf (pOf d s τ q) κ h x := by
    filter_upwards [hxp, hd.fast] with h e1 e2 x
    rw [e2, add_sub_cancel_left, e1]
    rfl
  obtain ⟨r, hr, hri, -, hrs⟩ := inner_loop hd.solver hd.lipF hd.lipFi (phys := fun h x => applyAll (d.at h).fast (xp h x) - xp h x)
    hp hφ hd.ulI hq hxp hphys hd.inner hy hd.accel hqa haim d.numInner le_rfl
  refine ⟨fun h x i => if d.inSolver i then r h x i else pOf d s τ q h x i + physOf (pOf d s τ q) κ h x i, ?_, ?_, fun i => ?_⟩
  · refine UL.pi fun i => ?_
    split_ifs
    · exact hr.coord i
    · exact (hp.coord i).add (hφ.coord i)
  · filter_upwards [hri, hxp, hphys] with h e1 e2 e3 x
    have hit : afterOuter d (m + 1) h x = outerStep (d.at h) x (xstarOf (d.at h) x) (afterOuter d m h x) := by
      rw [afterOuter, Function.iterate_succ_apply']; rfl
    have htr : transportFields (d.at h).transport (ubar (d.at h) x (afterOuter d m h x).2) (xstarOf (d.at h) x) (afterOuter d m h x).1 =
        xp h x := transportFields_eq _ _ _ _ (xp_invariant (d.at h) x x m)
    rw [hit, outerStep]
    simp only [htr]
    funext i
    simp only [show (d.at h).bcs = id from rfl, id, copyTracers, show (d.at h).inSolver = d.inSolver from rfl,
      show (d.at h).numInner = d.numInner from rfl, Pi.add_apply, Pi.smul_apply]
    have e1' := congrFun (e1 x) i
    simp only [Pi.add_apply, Pi.smul_apply] at e1'
    by_cases hi : d.inSolver i = true
    swap
    · have e3' := congrFun (e3 x) i
      have e2' := congrFun (e2 x) i
      simp only [Pi.add_apply, Pi.smul_apply, Pi.sub_apply] at e3' e2'
      simp only [hi, Bool.not_false, if_true, Bool.false_eq_true, if_false]
      rw [sub_eq_iff_eq_add] at e3'
      rw [e3', e2', smul_add]
      abel
    · simpa [hi] using e1'
  · by_cases hi : d.inSolver i = true
    · simpa [hi] using hrs hd.inners i hi
    · simpa [hi] using hnon i (by simpa using hi)

/-! ### First order -/

theorem near_arg {d : SiqnFamily V} {s q : ℝ → (∀ i, V i) → ∀ i, V i} (hs : UL s) (hq : UL q) :
    Near 1 (fun h (x : ∀ i, V i) => (x d.u + h • (d.alphaU • q h x d.u), x + h • s h x)) (fun _ x => (x d.u, x)) :=
  Near.prod (Near.drop ((hq.coord d.u).smul _)) (Near.drop hs)

theorem UL.arg0 (d : SiqnFamily V) : UL (fun (_ : ℝ) (x : ∀ i, V i) => (x d.u, x)) :=
  UL.prod ((UL.id (E := ∀ i, V i)).coord d.u) UL.id

theorem near_p {d : SiqnFamily V} {s q : ℝ → (∀ i, V i) → ∀ i, V i} {τ : ℝ → V d.u × (∀ i, V i) → ∀ i, V i}
    {s1 : (∀ i, V i) → ∀ i, V i} {G : V d.u × (∀ i, V i) → ∀ i, V i} (hs : UL s) (hq : UL q) (hG : LocalLip G)
    (hs1 : Near 1 s fun _ => s1) (hτ1 : Near 1 τ fun _ => G) :
    Near 1 (pOf d s τ q) (fun _ x => s1 x + G (x d.u, x)) :=
  hs1.add ((hτ1.comp_left (UL.arg hs hq)).trans
    (Near.comp (q := fun _ => G) (UL.of_lip hG) (UL.arg hs hq) (UL.arg0 d) (near_arg hs hq)))

theorem near_phys {p κ : ℝ → (∀ i, V i) → ∀ i, V i} {k1 : (∀ i, V i) → ∀ i, V i} (hp : UL p) (hk : LocalLip k1)
    (hκ1 : Near 1 κ fun _ => k1) : Near 1 (physOf p κ) (fun _ => k1) :=
  (hκ1.comp_left (UL.id.add hp.smulH)).trans
    (Near.comp (q := fun _ => k1) (UL.of_lip hk) (UL.id.add hp.smulH) UL.id (Near.drop hp))

/-- The right-hand side a timestep aims at, without the final physics. -/
def rhs0 (d : SiqnFamily V) (s1 k1 i1 : (∀ i, V i) → ∀ i, V i) (G : V d.u × (∀ i, V i) → ∀ i, V i) (x : ∀ i, V i) : ∀ i, V i :=
  s1 x + G (x d.u, x) + (d.alpha • d.F x + d.Fi x) + k1 x + d.beta • i1 x

theorem near_aimed {d : SiqnFamily V} {p φ ιnc r : ℝ → (∀ i, V i) → ∀ i, V i} {p1 k1 i1 : (∀ i, V i) → ∀ i, V i}
    (hF : LocalLip d.F) (hFi : LocalLip d.Fi) (hi : LocalLip i1) (hp : Near 1 p fun _ => p1) (hφ : Near 1 φ fun _ => k1)
    (hι : Near 1 ιnc fun _ => i1) (hr : UL r) :
    Near 1 (aimed d p φ ιnc r) (fun _ x => p1 x + (d.alpha • d.F x + d.Fi x) + k1 x + d.beta • i1 x) := by
  have hb : UL (fun h x => x + h • r h x) := UL.id.add hr.smulH
  have hn : ∀ {f : (∀ i, V i) → ∀ i, V i}, LocalLip f → Near 1 (fun h x => f (x + h • r h x)) (fun _ => f) := fun {f} hf =>
    Near.comp (q := fun _ => f) (UL.of_lip hf) hb UL.id (Near.drop hr)
  exact ((hp.add (((hn hF).smul _).add (hn hFi))).add hφ).add (((hι.comp_left hb).trans (hn hi)).smul _)

/-- After at least one outer iteration the step is of the first order. -/
theorem outer_first {d : SiqnFamily V} {s κ ιnc : ℝ → (∀ i, V i) → ∀ i, V i} {τ : ℝ → V d.u × (∀ i, V i) → ∀ i, V i}
    (hd : Parts d s κ ιnc τ) {s1 k1 i1 : (∀ i, V i) → ∀ i, V i} {G : V d.u × (∀ i, V i) → ∀ i, V i}
    (hs1 : Near 1 s fun _ => s1) (hk1 : Near 1 κ fun _ => k1) (hi1 : Near 1 ιnc fun _ => i1) (hτ1 : Near 1 τ fun _ => G)
    (ls : LocalLip s1) (lk : LocalLip k1) (li : LocalLip i1) (lG : LocalLip G)
    (hnon : ∀ i, d.inSolver i = false → ∀ x, d.alpha • d.F x i + d.Fi x i + d.beta • i1 x i = 0) (m : ℕ) :
    ∃ r : ℝ → (∀ i, V i) → ∀ i, V i, UL r ∧ Inc (fun h x => (afterOuter d m h x).2) r ∧
      (1 ≤ m → ∀ i, Near 1 (fun h x => r h x i) (fun _ x => rhs0 d s1 k1 i1 G x i)) := by
  have hul : UL (fun (_ : ℝ) x => rhs0 d s1 k1 i1 G x) :=
    (((((UL.of_lip ls).add ((UL.of_lip lG).comp (UL.arg0 d))).add (((UL.of_lip hd.lipF).smul _).add (UL.of_lip hd.lipFi))).add
      (UL.of_lip lk)).add ((UL.of_lip li).smul _))
  induction m with
  | zero => exact ⟨fun _ _ => 0, UL.const 0, Eventually.of_forall fun h x => by simp [afterOuter], by omega⟩
  | succ m ih =>
    obtain ⟨q, hq, hqi, -⟩ := ih
    have hp := near_p hd.ulS hq lG hs1 hτ1
    have hpU : UL (pOf d s τ q) := UL.pOf hd.ulS hd.ulT hq
    have hφ := near_phys hpU lk hk1
    obtain ⟨r, hr, hri, hrn⟩ := outer_pass hd (n := 0) (a := fun _ => rhs0 d s1 k1 i1 G) hq hqi
      (fun i => Near.zero (hq.coord i) (hul.coord i))
      (fun r hr _ i _ => (near_aimed hd.lipF hd.lipFi li hp hφ hi1 hr).coord i)
      (fun i hi => by
        have h1 := (hp.coord i).add (hφ.coord i)
        have e : ∀ x, s1 x i + G (x d.u, x) i + k1 x i = rhs0 d s1 k1 i1 G x i := by
          intro x
          have := hnon i hi x
          simp only [rhs0, Pi.add_apply, Pi.smul_apply]
          have e1 : s1 x i + G (x d.u, x) i + (d.alpha • d.F x i + d.Fi x i) + k1 x i + d.beta • i1 x i =
            s1 x i + G (x d.u, x) i + k1 x i + (d.alpha • d.F x i + d.Fi x i + d.beta • i1 x i) := by abel
          rw [e1, this, add_zero]
        simpa [e] using h1)
    exact ⟨r, hr, hri, fun _ => hrn⟩

/-! ### Second order -/

/-- After at least two outer iterations the centred step is of the second order. -/
theorem outer_second {d : SiqnFamily V} {τ : ℝ → V d.u × (∀ i, V i) → ∀ i, V i}
    (hd : Parts d (fun _ x => (1 / 2 : ℝ) • d.F x) (fun _ _ => 0) (fun _ _ => 0) τ) (ha : d.alpha = 1 / 2) (hau : d.alphaU = 1 / 2)
    (hFi : ∀ x, d.Fi x = 0) {F' : (∀ i, V i) → (∀ i, V i) →L[ℝ] (∀ i, V i)} (hF : LocalSmooth d.F F')
    {G : V d.u × (∀ i, V i) → ∀ i, V i} {G' : V d.u × (∀ i, V i) → V d.u × (∀ i, V i) →L[ℝ] (∀ i, V i)} (hG : LocalSmooth G G')
    (hτ2 : Near 2 τ fun h z => G z + (h / 2) • G' z (0, G z))
    (hnon : ∀ i, d.inSolver i = false → ∀ x, d.F x i = 0) (m : ℕ) (hm : 1 ≤ m) :
    ∃ r : ℝ → (∀ i, V i) → ∀ i, V i, UL r ∧ Inc (fun h x => (afterOuter d (m + 1) h x).2) r ∧
      ∀ i, Near 2 (fun h x => r h x i) (fun h x => (d.F x + G (x d.u, x) + (h / 2) • (F' x (d.F x + G (x d.u, x)) +
        G' (x d.u, x) ((d.F x + G (x d.u, x)) d.u, d.F x + G (x d.u, x)))) i) := by
  have lF : LocalLip d.F := hF.localLip
  have lG : LocalLip G := hG.localLip
  have hhalf : ∀ (h : ℝ) (v : ∀ i, V i), (h / 2) • v = h • ((1 / 2 : ℝ) • v) := by
    intro h v; rw [smul_smul]; congr 1; ring
  have ulF := UL.of_lip lF
  have ulG0 : UL (fun (_ : ℝ) (x : ∀ i, V i) => G (x d.u, x)) := (UL.of_lip lG).comp (UL.arg0 d)
  have ulf : UL (fun (_ : ℝ) x => d.F x + G (x d.u, x)) := ulF.add ulG0
  have ulG' : UL (fun (_ : ℝ) (x : ∀ i, V i) => G' (x d.u, x)) := (UL.of_lip hG.lip).comp (UL.arg0 d)
  have ulA : UL (fun (_ : ℝ) (x : ∀ i, V i) => F' x (d.F x + G (x d.u, x)) +
        G' (x d.u, x) ((d.F x + G (x d.u, x)) d.u, d.F x + G (x d.u, x))) :=
    ((UL.of_lip hF.lip).apply ulf).add (ulG'.apply (UL.prod (ulf.coord d.u) ulf))
  have hτ1 : Near 1 τ fun _ => G := by
    refine (hτ2.mono one_le_two).trans ?_
    have hu : UL (fun (_ : ℝ) z => (1 / 2 : ℝ) • G' z (0, G z)) :=
      ((UL.of_lip hG.lip).apply (UL.prod (UL.const 0) (UL.of_lip lG))).smul _
    have := Near.drop (q := fun _ z => G z) hu
    simpa [hhalf] using this
  -- the first order, after `m` iterations
  obtain ⟨q, hq, hqi, hq1⟩ := outer_first hd (s1 := fun x => (1 / 2 : ℝ) • d.F x) (k1 := fun _ => 0) (i1 := fun _ => 0) (G := G)
    (Near.refl _ _) (Near.refl _ _) (Near.refl _ _) hτ1 (lF.smul _) LocalLip.zero LocalLip.zero lG
    (fun i hi x => by simp [hnon i hi x, hFi]) m
  have hq1 : ∀ i, Near 1 (fun h x => q h x i) (fun _ x => (d.F x + G (x d.u, x)) i) := by
    intro i
    have e : ∀ x, rhs0 d (fun x => (1 / 2 : ℝ) • d.F x) (fun _ => 0) (fun _ => 0) G x = d.F x + G (x d.u, x) := by
      intro x
      simp only [rhs0, ha, hFi, smul_zero, add_zero]
      module
    have h1 := hq1 hm i
    simp only [e] at h1
    exact h1
  -- the transported state to the second order
  have harg : UL (fun h (x : ∀ i, V i) => (x d.u + h • (d.alphaU • q h x d.u), x + h • ((1 / 2 : ℝ) • d.F x))) :=
    UL.arg hd.ulS hq
  have hp : Near 2 (pOf d (fun _ x => (1 / 2 : ℝ) • d.F x) τ q) (fun h x => (1 / 2 : ℝ) • d.F x + (G (x d.u, x) +
      h • ((1 / 2 : ℝ) • G' (x d.u, x) ((d.F x + G (x d.u, x)) d.u, d.F x + G (x d.u, x))))) := by
    refine (Near.refl 2 (fun _ x => (1 / 2 : ℝ) • d.F x)).add ?_
    refine (hτ2.comp_left harg).trans ?_
    -- `G` at the shifted argument
    have b1 : UL (fun h (x : ∀ i, V i) => ((d.alphaU • q h x d.u, (1 / 2 : ℝ) • d.F x) : V d.u × (∀ i, V i))) :=
      UL.prod ((hq.coord d.u).smul _) (ulF.smul _)
    have t1 := Near.taylor hG (UL.arg0 d) b1
    have t1' : Near 2 (fun h (x : ∀ i, V i) => G (x d.u + h • (d.alphaU • q h x d.u), x + h • ((1 / 2 : ℝ) • d.F x)))
        (fun h x => G (x d.u, x) + h • G' (x d.u, x) (d.alphaU • q h x d.u, (1 / 2 : ℝ) • d.F x)) := t1
    have t2 : Near 1 (fun h (x : ∀ i, V i) => G' (x d.u, x) (d.alphaU • q h x d.u, (1 / 2 : ℝ) • d.F x))
        (fun h x => G' (x d.u, x) ((1 / 2 : ℝ) • (d.F x + G (x d.u, x)) d.u, (1 / 2 : ℝ) • d.F x)) := by
      rw [hau]
      exact Near.apply ulG' (UL.prod ((ulf.coord d.u).smul _) (ulF.smul _)) (Near.refl _ _)
        (Near.prod ((hq1 d.u).smul _) (Near.refl _ _))
    -- the second-order term of the transport scheme
    have hK : UL (fun (_ : ℝ) z => (1 / 2 : ℝ) • G' z (0, G z)) :=
      ((UL.of_lip hG.lip).apply (UL.prod (UL.const 0) (UL.of_lip lG))).smul _
    have t3 := Near.comp hK harg (UL.arg0 d) (near_arg hd.ulS hq)
    have t4 := (t1'.trans ((Near.refl 2 fun _ (x : ∀ i, V i) => G (x d.u, x)).add t2.smulH)).add t3.smulH
    refine Near.trans (by simpa [hhalf] using t4) ?_
    have e : ∀ (h : ℝ) (x : ∀ i, V i), G (x d.u, x) +
        h • G' (x d.u, x) ((1 / 2 : ℝ) • (d.F x + G (x d.u, x)) d.u, (1 / 2 : ℝ) • d.F x) +
        h • ((1 / 2 : ℝ) • G' (x d.u, x) (0, G (x d.u, x))) =
        G (x d.u, x) + h • ((1 / 2 : ℝ) • G' (x d.u, x) ((d.F x + G (x d.u, x)) d.u, d.F x + G (x d.u, x))) := by
      intro h x
      have e1 : (((1 / 2 : ℝ) • (d.F x + G (x d.u, x)) d.u, (1 / 2 : ℝ) • d.F x) : V d.u × (∀ i, V i)) =
          (1 / 2 : ℝ) • ((d.F x + G (x d.u, x)) d.u, d.F x) := rfl
      have e2 : (((d.F x + G (x d.u, x)) d.u, d.F x + G (x d.u, x)) : V d.u × (∀ i, V i)) =
          ((d.F x + G (x d.u, x)) d.u, d.F x) + (0, G (x d.u, x)) := by simp
      rw [e1, e2, map_smul, map_add]
      module
    simp only [← e]
    simpa using Near.refl 2 _
  have hφ : ∀ h x, physOf (pOf d (fun _ x => (1 / 2 : ℝ) • d.F x) τ q) (fun _ _ => 0) h x = 0 := fun h x => rfl
  refine outer_pass hd (n := 1) (m := m) (a := fun h x => d.F x + G (x d.u, x) + (h / 2) • (F' x (d.F x + G (x d.u, x)) +
        G' (x d.u, x) ((d.F x + G (x d.u, x)) d.u, d.F x + G (x d.u, x)))) hq hqi ?_ ?_ ?_
  · intro i
    refine (hq1 i).trans ?_
    have := ((Near.drop (q := fun _ x => d.F x + G (x d.u, x)) (ulA.smul (1 / 2))).coord i).symm
    simpa [hhalf] using this
  · intro r hr hra i _
    have hr1 : Near 1 r (fun _ x => d.F x + G (x d.u, x)) := by
      refine Near.pi fun j => (hra j).trans ?_
      have := (Near.drop (q := fun _ x => d.F x + G (x d.u, x)) (ulA.smul (1 / 2))).coord j
      simpa [hhalf] using this
    have t1 := Near.taylor hF UL.id hr
    have t2 : Near 1 (fun h x => F' x (r h x)) (fun _ x => F' x (d.F x + G (x d.u, x))) :=
      Near.apply (UL.of_lip hF.lip) ulf (Near.refl _ _) hr1
    have t3 := (t1.trans ((Near.refl 2 fun _ x => d.F x).add t2.smulH)).smul (1 / 2)
    have t4 := (hp.add t3).coord i
    simp only [aimed, hφ, hFi, ha, smul_zero, add_zero]
    refine t4.trans ?_
    have e : ∀ (h : ℝ) (x : ∀ i, V i), (1 / 2 : ℝ) • d.F x + (G (x d.u, x) +
      h • ((1 / 2 : ℝ) • G' (x d.u, x) ((d.F x + G (x d.u, x)) d.u, d.F x + G (x d.u, x)))) +
      (1 / 2 : ℝ) • (d.F x + h • F' x (d.F x + G (x d.u, x))) = d.F x + G (x d.u, x) + (h / 2) • (F' x (d.F x + G (x d.u, x)) +
        G' (x d.u, x) ((d.F x + G (x d.u, x)) d.u, d.F x + G (x d.u, x))) := by
      intro h x; module
    simp only [e]
    exact Near.refl 2 _
  · intro i hi
    have hF'i : ∀ x v, F' x v i = 0 := by
      intro x v
      have h1 : HasFDerivAt (fun x => d.F x i) ((ContinuousLinearMap.proj i).comp (F' x)) x :=
        (ContinuousLinearMap.proj (R := ℝ) (φ := V) i).hasFDerivAt.comp x (hF.deriv x)
      have h2 : HasFDerivAt (fun x => d.F x i) (0 : (∀ i, V i) →L[ℝ] V i) x := by
        have : (fun x => d.F x i) = fun _ => (0 : V i) := funext fun x => hnon i hi x
        rw [this]; exact hasFDerivAt_const _ _
      have := h1.unique h2
      have := congrArg (fun L => L v) this
      simpa using this
    have t4 := hp.coord i
    simp only [hφ, Pi.zero_apply, add_zero]
    refine t4.trans ?_
    have e : ∀ (h : ℝ) (x : ∀ i, V i), ((1 / 2 : ℝ) • d.F x + (G (x d.u, x) +
      h • ((1 / 2 : ℝ) • G' (x d.u, x) ((d.F x + G (x d.u, x)) d.u, d.F x + G (x d.u, x))))) i =
      (d.F x + G (x d.u, x) + (h / 2) • (F' x (d.F x + G (x d.u, x)) +
        G' (x d.u, x) ((d.F x + G (x d.u, x)) d.u, d.F x + G (x d.u, x)))) i := by
      intro h x
      simp only [Pi.add_apply, Pi.smul_apply, hnon i hi x, hF'i, smul_zero, zero_add, smul_smul]
      congr 2
      ring
    simp only [e]
    exact Near.refl 2 _

end Gusto.SiqnConv
