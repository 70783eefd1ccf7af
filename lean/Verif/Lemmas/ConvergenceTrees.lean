import Verif.Lemmas.ConvergenceOrder
import Mathlib.Analysis.Calculus.ContDiff.Operations
import Mathlib.Analysis.Calculus.IteratedDeriv.Defs

set_option autoImplicit false
set_option linter.unusedSectionVars false
set_option linter.unusedSimpArgs false

/-!
# Orders three and four for nonlinear equations, by Albrecht's method

Errors are compared with the solution at the stage times; `BigO T m k g` says that `g h t` is of the order `h ^ k`, uniformly in
the time `t`, as long as `[t, t + m h]` lies in `[0, T]`.
-/

namespace Gusto.Convergence
open Gusto.Spec Finset Set

variable {E : Type*} [NormedAddCommGroup E] [NormedSpace ℝ E]
variable {F : Type*} [NormedAddCommGroup F] [NormedSpace ℝ F]

/-- `g h t` is of the order `h ^ k`, uniformly in `t`. -/
def BigO (T m : ℝ) (k : ℕ) (g : ℝ → ℝ → F) : Prop :=
  ∃ C, 0 ≤ C ∧ ∀ h t, 0 ≤ h → h ≤ T → 0 ≤ t → t + m * h ≤ T → ‖g h t‖ ≤ C * h ^ k

namespace BigO
variable {T m : ℝ} {k l : ℕ} {g g' : ℝ → ℝ → F}

theorem zero : BigO T m k (fun _ _ => (0 : F)) := ⟨0, le_rfl, fun h t _ _ _ _ => by simp⟩

theorem add (h1 : BigO T m k g) (h2 : BigO T m k g') : BigO T m k (fun h t => g h t + g' h t) := by
  obtain ⟨C, hC, h1⟩ := h1
  obtain ⟨C', hC', h2⟩ := h2
  refine ⟨C + C', by positivity, fun h t a b c d => (norm_add_le _ _).trans ?_⟩
  have := h1 h t a b c d
  have := h2 h t a b c d
  rw [add_mul]; linarith

theorem smul (c : ℝ) (h1 : BigO T m k g) : BigO T m k (fun h t => c • g h t) := by
  obtain ⟨C, hC, h1⟩ := h1
  refine ⟨|c| * C, by positivity, fun h t a b d e => ?_⟩
  rw [norm_smul, Real.norm_eq_abs, mul_assoc]
  exact mul_le_mul_of_nonneg_left (h1 h t a b d e) (abs_nonneg _)

theorem sub (h1 : BigO T m k g) (h2 : BigO T m k g') : BigO T m k (fun h t => g h t - g' h t) := by
  have := h1.add (h2.smul (-1))
  simpa [sub_eq_add_neg] using this

theorem sum {ι : Type*} (S : Finset ι) {G : ι → ℝ → ℝ → F} (h1 : ∀ i ∈ S, BigO T m k (G i)) :
    BigO T m k (fun h t => ∑ i ∈ S, G i h t) := by
  classical
  induction S using Finset.induction_on with
  | empty => simpa using zero
  | insert a s ha ih =>
    simp only [Finset.sum_insert ha]
    exact (h1 a (Finset.mem_insert_self _ _)).add (ih fun i hi => h1 i (Finset.mem_insert_of_mem hi))

theorem congr (h1 : BigO T m k g) (h2 : ∀ h t, 0 ≤ h → h ≤ T → 0 ≤ t → t + m * h ≤ T → g' h t = g h t) : BigO T m k g' := by
  obtain ⟨C, hC, h1⟩ := h1
  exact ⟨C, hC, fun h t a b c d => by rw [h2 h t a b c d]; exact h1 h t a b c d⟩

/-- A factor `h` raises the order. -/
theorem pow_smul (j : ℕ) (h1 : BigO T m k g) : BigO T m (k + j) (fun h t => h ^ j • g h t) := by
  obtain ⟨C, hC, h1⟩ := h1
  refine ⟨C, hC, fun h t a b c d => ?_⟩
  rw [norm_smul, Real.norm_eq_abs, abs_of_nonneg (pow_nonneg a j), pow_add]
  calc h ^ j * ‖g h t‖ ≤ h ^ j * (C * h ^ k) := mul_le_mul_of_nonneg_left (h1 h t a b c d) (pow_nonneg a j)
    _ = _ := by ring

theorem h_smul (h1 : BigO T m k g) : BigO T m (k + 1) (fun h t => h • g h t) := by
  simpa using h1.pow_smul 1

theorem mono (hlk : l ≤ k) (h1 : BigO T m k g) : BigO T m l g := by
  obtain ⟨C, hC, h1⟩ := h1
  refine ⟨C * |T| ^ (k - l), by positivity, fun h t a b c d => (h1 h t a b c d).trans ?_⟩
  have e : h ^ k = h ^ (k - l) * h ^ l := by rw [← pow_add]; congr 1; omega
  have : h ^ (k - l) ≤ |T| ^ (k - l) := pow_le_pow_left₀ a (b.trans (le_abs_self _)) _
  rw [e, ← mul_assoc]
  gcongr

theorem apply {A : ℝ → ℝ → E →L[ℝ] F} {v : ℝ → ℝ → E} (hA : BigO T m k A) (hv : BigO T m l v) :
    BigO T m (k + l) (fun h t => A h t (v h t)) := by
  obtain ⟨C, hC, h1⟩ := hA
  obtain ⟨C', hC', h2⟩ := hv
  refine ⟨C * C', by positivity, fun h t a b c d => ?_⟩
  calc ‖A h t (v h t)‖ ≤ ‖A h t‖ * ‖v h t‖ := (A h t).le_opNorm _
    _ ≤ (C * h ^ k) * (C' * h ^ l) := mul_le_mul (h1 h t a b c d) (h2 h t a b c d) (norm_nonneg _) (by positivity)
    _ = _ := by rw [pow_add]; ring

end BigO

/-! ### Smooth functions of the time -/

/-- `w 0, w 1, …, w n` are the successive derivatives of `w 0` on `[0, T]`, all bounded. -/
structure Chain (w : ℕ → ℝ → F) (n : ℕ) (T : ℝ) : Prop where
  deriv : ∀ j < n, ∀ t ∈ Icc 0 T, HasDerivWithinAt (w j) (w (j + 1) t) (Icc 0 T) t
  bound : ∀ j ≤ n, ∃ B, 0 ≤ B ∧ ∀ t ∈ Icc 0 T, ‖w j t‖ ≤ B

/-- The Taylor polynomial with the derivatives `v`. -/
noncomputable def poly (v : ℕ → F) (p : ℕ) (s : ℝ) : F := ∑ j ∈ range p, (s ^ j / (j.factorial : ℝ)) • v j

theorem poly_deriv (v : ℕ → F) (p : ℕ) (s : ℝ) : HasDerivAt (poly v (p + 1)) (poly (fun j => v (j + 1)) p s) s := by
  induction p with
  | zero =>
    have : poly v (0 + 1) = fun _ => v 0 := by funext s; simp [poly]
    rw [this]
    simpa [poly] using hasDerivAt_const s (v 0)
  | succ p ih =>
    have h1 : poly v (p + 1 + 1) = fun s => poly v (p + 1) s + (s ^ (p + 1) / ((p + 1).factorial : ℝ)) • v (p + 1) := by
      funext s; rw [poly, Finset.sum_range_succ]; rfl
    have h2 : poly (fun j => v (j + 1)) (p + 1) s
        = poly (fun j => v (j + 1)) p s + (s ^ p / (p.factorial : ℝ)) • v (p + 1) := by
      rw [poly, Finset.sum_range_succ]; rfl
    rw [h1, h2]
    refine ih.add ?_
    have h3 : HasDerivAt (fun s : ℝ => s ^ (p + 1) / ((p + 1).factorial : ℝ)) (s ^ p / (p.factorial : ℝ)) s := by
      have := (hasDerivAt_pow (p + 1) s).div_const ((p + 1).factorial : ℝ)
      refine this.congr_deriv ?_
      have e : ((p + 1).factorial : ℝ) = ((p + 1 : ℕ) : ℝ) * (p.factorial : ℝ) := by
        rw [Nat.factorial_succ]; push_cast; ring
      have hp : ((p + 1 : ℕ) : ℝ) ≠ 0 := by positivity
      have hf : (p.factorial : ℝ) ≠ 0 := by positivity
      rw [e, Nat.add_sub_cancel]
      field_simp
    exact h3.smul_const _

theorem Chain.taylor {w : ℕ → ℝ → F} {n : ℕ} {T : ℝ} (hw : Chain w n T) (p j : ℕ) (hp : j + p ≤ n) {B : ℝ}
    (hB : ∀ t ∈ Icc 0 T, ‖w (j + p) t‖ ≤ B) {t k : ℝ} (ht : 0 ≤ t) (hk : 0 ≤ k) (hT : t + k ≤ T) :
    ‖w j (t + k) - poly (fun l => w (j + l) t) p k‖ ≤ B * k ^ p := by
  induction p generalizing j k with
  | zero => simpa [poly] using hB (t + k) ⟨by linarith, hT⟩
  | succ p ih =>
    have h2 := mean_value (g := fun s => w j s - poly (fun l => w (j + l) t) (p + 1) (s - t))
      (g' := fun s => w (j + 1) s - poly (fun l => w (j + 1 + l) t) p (s - t)) (C := B * k ^ p) ht hk hT
      (fun s hs => by
        have e1 : HasDerivWithinAt (fun s => poly (fun l => w (j + l) t) (p + 1) (s - t))
            ((1 : ℝ) • poly (fun l => w (j + (l + 1)) t) p (s - t)) (Icc 0 T) s :=
          (HasDerivAt.scomp (h := fun s : ℝ => s - t) s (poly_deriv _ p (s - t))
            ((hasDerivAt_id s).sub_const t)).hasDerivWithinAt
        rw [one_smul] at e1
        have e2 : (fun l => w (j + 1 + l) t) = fun l => w (j + (l + 1)) t := by
          funext l; rw [add_assoc, add_comm 1 l]
        rw [e2]
        exact (hw.deriv j (by omega) s hs).sub e1)
      (fun s hs => by
        have e1 := ih (j + 1) (by omega) (fun t ht => by
          have := hB t ht; rwa [show j + (p + 1) = j + 1 + p by ring] at this) (k := s - t) (by linarith [hs.1]) (by linarith [hs.2])
        have e3 : t + (s - t) = s := by ring
        rw [e3] at e1
        have hB0 : 0 ≤ B := (norm_nonneg _).trans (hB t ⟨ht, by linarith⟩)
        have e5 : (s - t) ^ p ≤ k ^ p := pow_le_pow_left₀ (by linarith [hs.1]) (by linarith [hs.2]) _
        exact e1.trans (mul_le_mul_of_nonneg_left e5 hB0))
    have e : w j (t + k) - poly (fun l => w (j + l) t) (p + 1) (t + k - t) - (w j t - poly (fun l => w (j + l) t) (p + 1) (t - t))
        = w j (t + k) - poly (fun l => w (j + l) t) (p + 1) k := by
      have h0 : poly (fun l => w (j + l) t) (p + 1) 0 = w j t := by
        rw [poly, Finset.sum_range_succ']
        simp
      rw [add_sub_cancel_left, sub_self, h0, sub_self, sub_zero]
    simp only [e] at h2
    calc _ ≤ B * k ^ p * k := h2
      _ = _ := by ring

/-- Taylor expansion at the time `t + c h`, uniformly in `t`. -/
theorem Chain.bigO {w : ℕ → ℝ → F} {n : ℕ} {T : ℝ} (hw : Chain w n T) (p j : ℕ) (hp : j + p ≤ n) {m c : ℝ} (hc : 0 ≤ c) (hcm : c ≤ m) :
    BigO T m p (fun h t => w j (t + c * h) - poly (fun l => w (j + l) t) p (c * h)) := by
  obtain ⟨B, hB0, hB⟩ := hw.bound (j + p) hp
  refine ⟨B * c ^ p, by positivity, fun h t a b d e => ?_⟩
  have : c * h ≤ m * h := mul_le_mul_of_nonneg_right hcm a
  have := hw.taylor p j hp hB d (mul_nonneg hc a) (by linarith)
  rwa [mul_pow, ← mul_assoc] at this

theorem Chain.bigO_zero {w : ℕ → ℝ → F} {n : ℕ} {T : ℝ} (hw : Chain w n T) (j : ℕ) (hj : j ≤ n) {m c : ℝ} (hc : 0 ≤ c) (hcm : c ≤ m) :
    BigO T m 0 (fun h t => w j (t + c * h)) := by
  simpa [poly] using hw.bigO 0 j (by omega) hc hcm

theorem Chain.bigO_const {w : ℕ → ℝ → F} {n : ℕ} {T : ℝ} (hw : Chain w n T) (j : ℕ) (hj : j ≤ n) {m : ℝ} (hm : 0 ≤ m) :
    BigO T m 0 (fun _ t => w j t) := by
  simpa using hw.bigO_zero j hj le_rfl hm

/-- The quadrature with the nodes `c` and the weights `e`, applied to the derivative of a smooth function. -/
theorem Chain.quadrature {w : ℕ → ℝ → F} {n : ℕ} {T : ℝ} (hw : Chain w n T) (p : ℕ) (hp : p + 1 ≤ n) {m : ℝ} (S : Finset ℕ)
    (c e : ℕ → ℝ) (hc : ∀ j ∈ S, 0 ≤ c j ∧ c j ≤ m) {g : ℝ} (hg : 0 ≤ g) (hgm : g ≤ m) :
    BigO T m (p + 1) (fun h t => w 0 t + h • ∑ j ∈ S, e j • w 1 (t + c j * h) - w 0 (t + g * h)
      - ∑ k ∈ range p, (h ^ (k + 1) / (k.factorial : ℝ) * (∑ j ∈ S, e j * c j ^ k - g ^ (k + 1) / (k + 1))) • w (k + 1) t) := by
  have h1 : BigO T m (p + 1) (fun h t => h • ∑ j ∈ S, e j • (w 1 (t + c j * h) - poly (fun l => w (1 + l) t) p (c j * h))) :=
    (BigO.sum S fun j hj => (hw.bigO p 1 (by omega) (hc j hj).1 (hc j hj).2).smul (e j)).h_smul
  have h2 := hw.bigO (p + 1) 0 (by omega) hg hgm
  refine (h1.sub h2).congr fun h t _ _ _ _ => ?_
  have e1 : poly (fun l => w (0 + l) t) (p + 1) (g * h)
      = w 0 t + ∑ k ∈ range p, (h ^ (k + 1) / (k.factorial : ℝ) * (g ^ (k + 1) / (k + 1))) • w (k + 1) t := by
    rw [poly, Finset.sum_range_succ', add_comm]
    congr 1
    · simp
    · refine Finset.sum_congr rfl fun k _ => ?_
      have hf : (k.factorial : ℝ) ≠ 0 := by positivity
      have hk : (k : ℝ) + 1 ≠ 0 := by positivity
      rw [zero_add, Nat.factorial_succ]
      congr 1
      push_cast
      field_simp
      ring
  have e2 : h • ∑ j ∈ S, e j • poly (fun l => w (1 + l) t) p (c j * h)
      = ∑ k ∈ range p, (h ^ (k + 1) / (k.factorial : ℝ) * ∑ j ∈ S, e j * c j ^ k) • w (k + 1) t := by
    simp only [poly, Finset.smul_sum, Finset.mul_sum, Finset.sum_smul]
    rw [Finset.sum_comm]
    refine Finset.sum_congr rfl fun k _ => Finset.sum_congr rfl fun j _ => ?_
    rw [smul_smul, smul_smul, add_comm 1 k]
    congr 1
    ring
  simp only [mul_sub, sub_smul, Finset.sum_sub_distrib, smul_sub] at *
  rw [← e2, e1]
  abel

/-! ### Albrecht's method -/

section defects
variable {K : Type*} [Field K] (a : ℕ → ℕ → K)

/-- The nodes. -/
def nodes (i : ℕ) : K := ∑ j ∈ range i, a i j
/-- The defects of the stages. -/
def alpha (i : ℕ) : K := ∑ j ∈ range i, a i j * nodes a j - nodes a i ^ 2 / 2
def beta (i : ℕ) : K := (∑ j ∈ range i, a i j * nodes a j ^ 2) / 2 - nodes a i ^ 3 / 6
def gam (i : ℕ) : K := ∑ j ∈ range i, a i j * alpha a j

end defects

section albrecht
variable (a : ℕ → ℕ → ℝ)

/-- The error of the stage `i` against the solution at the stage's time. -/
noncomputable def stageErr (f : E → E) (w : ℕ → ℝ → E) (i : ℕ) (h t : ℝ) : E :=
  w 0 t + h • ∑ j ∈ range i, a i j • rkK a f h (w 0 t) j - w 0 (t + nodes a i * h)

variable {a} {f : E → E} {f' : E → E →L[ℝ] E} {L L2 : ℝ} {w : ℕ → ℝ → E} {v : ℕ → ℝ → E →L[ℝ] E} {T : ℝ}

theorem stage_expand (hf : Smooth2 f f' L L2) (hw1 : ∀ t ∈ Icc 0 T, w 1 t = f (w 0 t)) (hv0 : ∀ t ∈ Icc 0 T, v 0 t = f' (w 0 t))
    (i k : ℕ) (hc : 0 ≤ nodes a i ∧ nodes a i ≤ 1) (hd : BigO T 1 k (stageErr a f w i)) :
    BigO T 1 (2 * k) (fun h t => rkK a f h (w 0 t) i - w 1 (t + nodes a i * h) - v 0 (t + nodes a i * h) (stageErr a f w i h t)) := by
  obtain ⟨C, hC, hd⟩ := hd
  have hL2 := hf.lip2
  refine ⟨L2 * C ^ 2, by positivity, fun h t h0 hT t0 htT => ?_⟩
  have hn : nodes a i * h ≤ 1 * h := mul_le_mul_of_nonneg_right hc.2 h0
  have hm : t + nodes a i * h ∈ Icc 0 T := ⟨by have := mul_nonneg hc.1 h0; linarith, by linarith⟩
  have e : rkK a f h (w 0 t) i = f (w 0 (t + nodes a i * h) + stageErr a f w i h t) := by
    rw [rkK_eq, stageErr]; congr 1; abel
  dsimp only
  rw [e, hw1 _ hm, hv0 _ hm]
  refine (hf.expand _ _).trans ?_
  calc _ ≤ L2 * (C * h ^ k) ^ 2 := mul_le_mul_of_nonneg_left (pow_le_pow_left₀ (norm_nonneg _) (hd h t h0 hT t0 htT) 2) hL2
    _ = _ := by rw [mul_pow, ← pow_mul, mul_comm k 2]; ring

/-- What the earlier stages contribute to the error of a stage. -/
theorem stage_split (e : ℕ → ℝ) (S : Finset ℕ) (h t : ℝ) :
    h • ∑ j ∈ S, e j • rkK a f h (w 0 t) j = h • ∑ j ∈ S, e j • w 1 (t + nodes a j * h)
      + h • ∑ j ∈ S, e j • v 0 (t + nodes a j * h) (stageErr a f w j h t)
      + h • ∑ j ∈ S, e j • (rkK a f h (w 0 t) j - w 1 (t + nodes a j * h) - v 0 (t + nodes a j * h) (stageErr a f w j h t)) := by
  simp only [smul_sub, Finset.sum_sub_distrib]; abel

/-- The stages are accurate to the second order. -/
theorem stageErr_two (hf : Smooth2 f f' L L2) (hw : Chain w 3 T) (hv : Chain v 1 T) (hw1 : ∀ t ∈ Icc 0 T, w 1 t = f (w 0 t))
    (hv0 : ∀ t ∈ Icc 0 T, v 0 t = f' (w 0 t)) (s : ℕ) (hc : ∀ i < s, 0 ≤ nodes a i ∧ nodes a i ≤ 1) (i : ℕ) (hi : i < s) :
    BigO T 1 2 (stageErr a f w i) := by
  induction i using Nat.strong_induction_on with
  | _ i ih =>
    have q := hw.quadrature 1 (by norm_num) (range i) (nodes a) (a i)
      (fun j hj => hc j (by have := Finset.mem_range.mp hj; omega)) (hc i hi).1 (hc i hi).2
    have r1 : BigO T 1 2 (fun h t => h • ∑ j ∈ range i, a i j • v 0 (t + nodes a j * h) (stageErr a f w j h t)) := by
      refine BigO.mono (k := 3) (by norm_num) (BigO.h_smul (BigO.sum _ fun j hj => BigO.smul _ ?_))
      have hj' := Finset.mem_range.mp hj
      have := (hv.bigO_zero 0 (by norm_num) (hc j (by omega)).1 (hc j (by omega)).2).apply (ih j hj' (by omega))
      simpa using this
    have r2 : BigO T 1 2 (fun h t => h • ∑ j ∈ range i, a i j •
        (rkK a f h (w 0 t) j - w 1 (t + nodes a j * h) - v 0 (t + nodes a j * h) (stageErr a f w j h t))) := by
      refine BigO.mono (k := 5) (by norm_num) (BigO.h_smul (BigO.sum _ fun j hj => BigO.smul _ ?_))
      have hj' := Finset.mem_range.mp hj
      exact stage_expand hf hw1 hv0 j 2 (hc j (by omega)) (ih j hj' (by omega))
    refine ((q.add r1).add r2).congr fun h t _ _ _ _ => ?_
    rw [stageErr, stage_split (v := v)]
    have : ∑ j ∈ range i, a i j * nodes a j ^ 0 - nodes a i ^ (0 + 1) / (((0 : ℕ) : ℝ) + 1) = 0 := by simp [nodes]
    simp only [Finset.sum_range_one, this, mul_zero, zero_smul, sub_zero]
    abel

/-- The leading term of the error of a stage. -/
theorem stageErr_three (hf : Smooth2 f f' L L2) (hw : Chain w 3 T) (hv : Chain v 1 T) (hw1 : ∀ t ∈ Icc 0 T, w 1 t = f (w 0 t))
    (hv0 : ∀ t ∈ Icc 0 T, v 0 t = f' (w 0 t)) (s : ℕ) (hc : ∀ i < s, 0 ≤ nodes a i ∧ nodes a i ≤ 1) (i : ℕ) (hi : i < s) :
    BigO T 1 3 (fun h t => stageErr a f w i h t - (h ^ 2 * alpha a i) • w 2 t) := by
  have h2 := stageErr_two (a := a) hf hw hv hw1 hv0 s hc
  have q := hw.quadrature 2 (by norm_num) (range i) (nodes a) (a i)
    (fun j hj => hc j (by have := Finset.mem_range.mp hj; omega)) (hc i hi).1 (hc i hi).2
  have r1 : BigO T 1 3 (fun h t => h • ∑ j ∈ range i, a i j • v 0 (t + nodes a j * h) (stageErr a f w j h t)) := by
    refine BigO.h_smul (BigO.sum _ fun j hj => BigO.smul _ ?_)
    have hj' := Finset.mem_range.mp hj
    have := (hv.bigO_zero 0 (by norm_num) (hc j (by omega)).1 (hc j (by omega)).2).apply (h2 j (by omega))
    simpa using this
  have r2 : BigO T 1 3 (fun h t => h • ∑ j ∈ range i, a i j •
      (rkK a f h (w 0 t) j - w 1 (t + nodes a j * h) - v 0 (t + nodes a j * h) (stageErr a f w j h t))) := by
    refine BigO.mono (k := 5) (by norm_num) (BigO.h_smul (BigO.sum _ fun j hj => BigO.smul _ ?_))
    have hj' := Finset.mem_range.mp hj
    exact stage_expand hf hw1 hv0 j 2 (hc j (by omega)) (h2 j (by omega))
  refine ((q.add r1).add r2).congr fun h t _ _ _ _ => ?_
  rw [stageErr, stage_split (v := v)]
  have e0 : ∑ j ∈ range i, a i j * nodes a j ^ 0 - nodes a i ^ (0 + 1) / (((0 : ℕ) : ℝ) + 1) = 0 := by simp [nodes]
  have e1 : h ^ (1 + 1) / ((Nat.factorial 1 : ℕ) : ℝ) * (∑ j ∈ range i, a i j * nodes a j ^ 1 - nodes a i ^ (1 + 1) / (((1 : ℕ) : ℝ) + 1))
      = h ^ 2 * alpha a i := by
    simp [alpha]; norm_num
  simp only [Finset.sum_range_succ, Finset.sum_range_zero, e0, e1, mul_zero, zero_smul, zero_add]
  abel

/-- The first-order change of the linearisation along the solution. -/
theorem lin_one (hv : Chain v 1 T) {c : ℝ} (h0 : 0 ≤ c) (h1 : c ≤ 1) : BigO T 1 1 (fun h t => v 0 (t + c * h) - v 0 t) := by
  have := hv.bigO 1 0 (by norm_num) h0 h1
  simpa [poly] using this

theorem lin_two (hv : Chain v 2 T) {c : ℝ} (h0 : 0 ≤ c) (h1 : c ≤ 1) :
    BigO T 1 2 (fun h t => v 0 (t + c * h) - v 0 t - (c * h) • v 1 t) := by
  have := hv.bigO 2 0 (by norm_num) h0 h1
  refine this.congr fun h t _ _ _ _ => ?_
  simp [poly, Finset.sum_range_succ, sub_sub]

theorem lin_stage_three (hf : Smooth2 f f' L L2) (hw : Chain w 3 T) (hv : Chain v 1 T) (hw1 : ∀ t ∈ Icc 0 T, w 1 t = f (w 0 t))
    (hv0 : ∀ t ∈ Icc 0 T, v 0 t = f' (w 0 t)) (s : ℕ) (hc : ∀ i < s, 0 ≤ nodes a i ∧ nodes a i ≤ 1) (i : ℕ) (hi : i < s) :
    BigO T 1 3 (fun h t => v 0 (t + nodes a i * h) (stageErr a f w i h t) - (h ^ 2 * alpha a i) • v 0 t (w 2 t)) := by
  have h3 := stageErr_three (a := a) hf hw hv hw1 hv0 s hc i hi
  have r1 : BigO T 1 (0 + 3) _ := (hv.bigO_zero 0 (by norm_num) (hc i hi).1 (hc i hi).2).apply h3
  have r2 : BigO T 1 (1 + 0 + 2) _ :=
    ((((lin_one hv (hc i hi).1 (hc i hi).2).apply (hw.bigO_const 2 (by norm_num) zero_le_one)).smul (alpha a i))).pow_smul 2
  refine (r1.add r2).congr fun h t _ _ _ _ => ?_
  simp only [map_sub, map_smul, FunLike.coe_sub, Pi.sub_apply, smul_sub, smul_smul]
  abel

/-- Third order. -/
theorem rk_local3 (hf : Smooth2 f f' L L2) (hw : Chain w 4 T) (hv : Chain v 1 T) (hw1 : ∀ t ∈ Icc 0 T, w 1 t = f (w 0 t))
    (hv0 : ∀ t ∈ Icc 0 T, v 0 t = f' (w 0 t)) (s : ℕ) (hc : ∀ i < s, 0 ≤ nodes a i ∧ nodes a i ≤ 1) (b : ℕ → ℝ)
    (hq : ∀ k : ℕ, k < 3 → ∑ i ∈ range s, b i * nodes a i ^ k = 1 / (k + 1)) (ha : ∑ i ∈ range s, b i * alpha a i = 0) :
    BigO T 1 4 (fun h t => rkStep a b s f h (w 0 t) - w 0 (t + h)) := by
  have hw3 : Chain w 3 T := ⟨fun j hj => hw.deriv j (by omega), fun j hj => hw.bound j (by omega)⟩
  have q := hw.quadrature 3 (by norm_num) (range s) (nodes a) b
    (fun j hj => hc j (Finset.mem_range.mp hj)) zero_le_one le_rfl
  have r1 : BigO T 1 4 (fun h t => h • ∑ j ∈ range s, b j •
      (v 0 (t + nodes a j * h) (stageErr a f w j h t) - (h ^ 2 * alpha a j) • v 0 t (w 2 t))) :=
    BigO.h_smul (BigO.sum _ fun j hj => BigO.smul _ (lin_stage_three hf hw3 hv hw1 hv0 s hc j (Finset.mem_range.mp hj)))
  have r2 : BigO T 1 4 (fun h t => h • ∑ j ∈ range s, b j •
      (rkK a f h (w 0 t) j - w 1 (t + nodes a j * h) - v 0 (t + nodes a j * h) (stageErr a f w j h t))) := by
    refine BigO.mono (k := 5) (by norm_num) (BigO.h_smul (BigO.sum _ fun j hj => BigO.smul _ ?_))
    have hj' := Finset.mem_range.mp hj
    exact stage_expand hf hw1 hv0 j 2 (hc j hj') (stageErr_two hf hw3 hv hw1 hv0 s hc j hj')
  refine ((q.add r1).add r2).congr fun h t _ _ _ _ => ?_
  rw [rkStep, stage_split (v := v)]
  have e0 : ∀ k ∈ range 3, (h ^ (k + 1) / (k.factorial : ℝ) * (∑ j ∈ range s, b j * nodes a j ^ k - 1 ^ (k + 1) / (k + 1))) • w (k + 1) t = 0 := by
    intro k hk
    rw [hq k (Finset.mem_range.mp hk), one_pow, sub_self, mul_zero, zero_smul]
  have e1 : ∑ j ∈ range s, b j • ((h ^ 2 * alpha a j) • v 0 t (w 2 t)) = 0 := by
    have : ∀ j ∈ range s, b j • ((h ^ 2 * alpha a j) • v 0 t (w 2 t)) = (b j * alpha a j) • (h ^ 2 • v 0 t (w 2 t)) := fun j _ => by
      rw [smul_smul, smul_smul]; congr 1; ring
    rw [Finset.sum_congr rfl this, ← Finset.sum_smul, ha, zero_smul]
  rw [Finset.sum_eq_zero e0]
  simp only [smul_sub, Finset.sum_sub_distrib, e1, one_mul]
  simp only [smul_zero, sub_zero]
  abel

theorem stageErr_four (hf : Smooth2 f f' L L2) (hw : Chain w 4 T) (hv : Chain v 1 T) (hw1 : ∀ t ∈ Icc 0 T, w 1 t = f (w 0 t))
    (hv0 : ∀ t ∈ Icc 0 T, v 0 t = f' (w 0 t)) (s : ℕ) (hc : ∀ i < s, 0 ≤ nodes a i ∧ nodes a i ≤ 1) (i : ℕ) (hi : i < s) :
    BigO T 1 4 (fun h t => stageErr a f w i h t - (h ^ 2 * alpha a i) • w 2 t - (h ^ 3 * beta a i) • w 3 t
      - (h ^ 3 * gam a i) • v 0 t (w 2 t)) := by
  have hw3 : Chain w 3 T := ⟨fun j hj => hw.deriv j (by omega), fun j hj => hw.bound j (by omega)⟩
  have q := hw.quadrature 3 (by norm_num) (range i) (nodes a) (a i)
    (fun j hj => hc j (by have := Finset.mem_range.mp hj; omega)) (hc i hi).1 (hc i hi).2
  have r1 : BigO T 1 4 (fun h t => h • ∑ j ∈ range i, a i j •
      (v 0 (t + nodes a j * h) (stageErr a f w j h t) - (h ^ 2 * alpha a j) • v 0 t (w 2 t))) := by
    refine BigO.h_smul (BigO.sum _ fun j hj => BigO.smul _ ?_)
    have hj' := Finset.mem_range.mp hj
    exact lin_stage_three hf hw3 hv hw1 hv0 s hc j (by omega)
  have r2 : BigO T 1 4 (fun h t => h • ∑ j ∈ range i, a i j •
      (rkK a f h (w 0 t) j - w 1 (t + nodes a j * h) - v 0 (t + nodes a j * h) (stageErr a f w j h t))) := by
    refine BigO.mono (k := 5) (by norm_num) (BigO.h_smul (BigO.sum _ fun j hj => BigO.smul _ ?_))
    have hj' := Finset.mem_range.mp hj
    exact stage_expand hf hw1 hv0 j 2 (hc j (by omega)) (stageErr_two hf hw3 hv hw1 hv0 s hc j (by omega))
  refine ((q.add r1).add r2).congr fun h t _ _ _ _ => ?_
  conv_lhs => rw [stageErr, stage_split (v := v)]
  have e0 : ∑ j ∈ range i, a i j * nodes a j ^ 0 - nodes a i ^ (0 + 1) / (((0 : ℕ) : ℝ) + 1) = 0 := by simp [nodes]
  have e1 : h ^ (1 + 1) / ((Nat.factorial 1 : ℕ) : ℝ) * (∑ j ∈ range i, a i j * nodes a j ^ 1 - nodes a i ^ (1 + 1) / (((1 : ℕ) : ℝ) + 1))
      = h ^ 2 * alpha a i := by
    simp [alpha]; norm_num
  have e2 : h ^ (2 + 1) / ((Nat.factorial 2 : ℕ) : ℝ) * (∑ j ∈ range i, a i j * nodes a j ^ 2 - nodes a i ^ (2 + 1) / (((2 : ℕ) : ℝ) + 1))
      = h ^ 3 * beta a i := by
    simp [beta, Nat.factorial]; ring
  have e3 : h • ∑ j ∈ range i, a i j • ((h ^ 2 * alpha a j) • v 0 t (w 2 t)) = (h ^ 3 * gam a i) • v 0 t (w 2 t) := by
    have : ∀ j ∈ range i, a i j • ((h ^ 2 * alpha a j) • v 0 t (w 2 t)) = (a i j * alpha a j) • (h ^ 2 • v 0 t (w 2 t)) := fun j _ => by
      rw [smul_smul, smul_smul]; congr 1; ring
    rw [Finset.sum_congr rfl this, ← Finset.sum_smul, gam, smul_smul, smul_smul]; congr 1; ring
  simp only [Finset.sum_range_succ, Finset.sum_range_zero, e0, e1, e2, mul_zero, zero_smul, zero_add, smul_sub, Finset.sum_sub_distrib, e3]
  abel

theorem lin_stage_four (hf : Smooth2 f f' L L2) (hw : Chain w 4 T) (hv : Chain v 2 T) (hw1 : ∀ t ∈ Icc 0 T, w 1 t = f (w 0 t))
    (hv0 : ∀ t ∈ Icc 0 T, v 0 t = f' (w 0 t)) (s : ℕ) (hc : ∀ i < s, 0 ≤ nodes a i ∧ nodes a i ≤ 1) (i : ℕ) (hi : i < s) :
    BigO T 1 4 (fun h t => v 0 (t + nodes a i * h) (stageErr a f w i h t) - (h ^ 2 * alpha a i) • v 0 t (w 2 t)
      - (h ^ 3 * beta a i) • v 0 t (w 3 t) - (h ^ 3 * gam a i) • v 0 t (v 0 t (w 2 t))
      - (h ^ 3 * (nodes a i * alpha a i)) • v 1 t (w 2 t)) := by
  have hv1 : Chain v 1 T := ⟨fun j hj => hv.deriv j (by omega), fun j hj => hv.bound j (by omega)⟩
  have h4 := stageErr_four (a := a) hf hw hv1 hw1 hv0 s hc i hi
  have hw2 := hw.bigO_const (m := 1) 2 (by norm_num) zero_le_one
  have hvc := hv.bigO_const (m := 1) 0 (by norm_num) zero_le_one
  have r1 : BigO T 1 (0 + 4) _ := (hv.bigO_zero 0 (by norm_num) (hc i hi).1 (hc i hi).2).apply h4
  have r2 : BigO T 1 (1 + 0 + 3) _ :=
    (((lin_one hv1 (hc i hi).1 (hc i hi).2).apply (hw.bigO_const 3 (by norm_num) zero_le_one)).smul (beta a i)).pow_smul 3
  have r3 : BigO T 1 (1 + (0 + 0) + 3) _ :=
    (((lin_one hv1 (hc i hi).1 (hc i hi).2).apply (hvc.apply hw2)).smul (gam a i)).pow_smul 3
  have r4 : BigO T 1 (2 + 0 + 2) _ := (((lin_two hv (hc i hi).1 (hc i hi).2).apply hw2).smul (alpha a i)).pow_smul 2
  refine (((r1.add r2).add r3).add r4).congr fun h t _ _ _ _ => ?_
  simp only [map_sub, map_smul, FunLike.coe_sub, Pi.sub_apply, FunLike.coe_smul, Pi.smul_apply, smul_sub, smul_smul]
  have e : (h ^ 2 * (alpha a i * (nodes a i * h))) = h ^ 3 * (nodes a i * alpha a i) := by ring
  rw [e]
  abel

/-- Fourth order. -/
theorem rk_local4 (hf : Smooth2 f f' L L2) (hw : Chain w 5 T) (hv : Chain v 2 T) (hw1 : ∀ t ∈ Icc 0 T, w 1 t = f (w 0 t))
    (hv0 : ∀ t ∈ Icc 0 T, v 0 t = f' (w 0 t)) (s : ℕ) (hc : ∀ i < s, 0 ≤ nodes a i ∧ nodes a i ≤ 1) (b : ℕ → ℝ)
    (hq : ∀ k : ℕ, k < 4 → ∑ i ∈ range s, b i * nodes a i ^ k = 1 / (k + 1)) (ha : ∑ i ∈ range s, b i * alpha a i = 0)
    (hb : ∑ i ∈ range s, b i * beta a i = 0) (hg : ∑ i ∈ range s, b i * gam a i = 0)
    (hca : ∑ i ∈ range s, b i * (nodes a i * alpha a i) = 0) :
    BigO T 1 5 (fun h t => rkStep a b s f h (w 0 t) - w 0 (t + h)) := by
  have hw3 : Chain w 3 T := ⟨fun j hj => hw.deriv j (by omega), fun j hj => hw.bound j (by omega)⟩
  have hw4 : Chain w 4 T := ⟨fun j hj => hw.deriv j (by omega), fun j hj => hw.bound j (by omega)⟩
  have hv1 : Chain v 1 T := ⟨fun j hj => hv.deriv j (by omega), fun j hj => hv.bound j (by omega)⟩
  have q := hw.quadrature 4 (by norm_num) (range s) (nodes a) b
    (fun j hj => hc j (Finset.mem_range.mp hj)) zero_le_one le_rfl
  have r1 : BigO T 1 5 _ :=
    BigO.h_smul (BigO.sum _ fun j hj => BigO.smul (b j) (lin_stage_four hf hw4 hv hw1 hv0 s hc j (Finset.mem_range.mp hj)))
  have r2 : BigO T 1 5 (fun h t => h • ∑ j ∈ range s, b j •
      (rkK a f h (w 0 t) j - w 1 (t + nodes a j * h) - v 0 (t + nodes a j * h) (stageErr a f w j h t))) := by
    refine BigO.h_smul (BigO.sum _ fun j hj => BigO.smul _ ?_)
    have hj' := Finset.mem_range.mp hj
    exact stage_expand hf hw1 hv0 j 2 (hc j hj') (stageErr_two hf hw3 hv1 hw1 hv0 s hc j hj')
  refine ((q.add r1).add r2).congr fun h t _ _ _ _ => ?_
  rw [rkStep, stage_split (v := v)]
  have e0 : ∀ k ∈ range 4, (h ^ (k + 1) / (k.factorial : ℝ) * (∑ j ∈ range s, b j * nodes a j ^ k - 1 ^ (k + 1) / (k + 1))) • w (k + 1) t = 0 := by
    intro k hk
    rw [hq k (Finset.mem_range.mp hk), one_pow, sub_self, mul_zero, zero_smul]
  have key : ∀ (r : ℝ) (g : ℕ → ℝ) (z : E), ∑ j ∈ range s, b j * g j = 0 → ∑ j ∈ range s, b j • ((r * g j) • z) = 0 := by
    intro r g z hz
    have : ∀ j ∈ range s, b j • ((r * g j) • z) = (b j * g j) • (r • z) := fun j _ => by
      rw [smul_smul, smul_smul]; congr 1; ring
    rw [Finset.sum_congr rfl this, ← Finset.sum_smul, hz, zero_smul]
  rw [Finset.sum_eq_zero e0]
  simp only [smul_sub, Finset.sum_sub_distrib, key _ _ _ ha, key _ _ _ hb, key _ _ _ hg, key _ _ _ hca, one_mul]
  simp only [smul_zero, sub_zero]
  abel

end albrecht

end Gusto.Convergence
