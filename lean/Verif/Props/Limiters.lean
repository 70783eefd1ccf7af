import Verif.Model.Limiters
import Mathlib.Algebra.BigOperators.Group.Finset.Basic
import Mathlib.Algebra.BigOperators.Ring.Finset
import Mathlib.Tactic.Linarith
import Mathlib.Tactic.FieldSimp
import Mathlib.Tactic.Ring
import Mathlib.Tactic.Common
import Mathlib.Tactic.IntervalCases

set_option autoImplicit false

/-!
# C27: limiters; C69: global extrema
-/

set_option linter.unusedSectionVars false
set_option linter.unusedSimpArgs false

namespace Gusto.Props.LimiterProps
open Gusto.Limiters Finset
variable {K : Type*} [Field K] [LinearOrder K] [IsStrictOrderedRing K]
  {ι : Type*} [DecidableEq ι]

/-! ### Clipping -/

theorem clipFold (fin : ι → K) (l : List ι) (g : ι → K) (i : ι) :
    l.foldl (clipStep fin) g i = if i ∈ l then max 0 (fin i) else g i := by
  induction l generalizing g with
  | nil => simp
  | cons a l ih =>
    rw [List.foldl_cons, ih]
    by_cases h : i ∈ l
    · simp [h]
    · by_cases ha : i = a
      · subst ha
        simp only [h, if_false, List.mem_cons, true_or, if_true, clipStep, Function.update_self]
        split
        · rename_i hneg; rw [max_eq_left hneg.le]
        · rename_i hneg; rw [max_eq_right (not_lt.1 hneg)]
      · simp [h, ha, clipStep, Function.update_of_ne ha]

/-- C27, `ZeroLimiter`: for every mesh (any lists of degrees of freedom per cell, shared or not, in
any order), the value at each degree of freedom becomes `max 0 value`, and degrees of freedom that
belong to no cell keep their value. -/
theorem C27_zero_limiter (cells : List (List ι)) (field : ι → K) (i : ι) :
    clipZero cells field i = if ∃ c ∈ cells, i ∈ c then max 0 (field i) else field i := by
  induction cells generalizing field with
  | nil => simp [clipZero]
  | cons c cells ih =>
    have : clipZero (c :: cells) field = clipZero cells (clipCell field c) := rfl
    rw [this, ih]
    unfold clipCell
    rw [clipFold]
    by_cases hc : i ∈ c <;> by_cases h : ∃ c' ∈ cells, i ∈ c' <;> simp [hc, h]

/-- The result does not depend on the order in which the cells are visited, and limiting twice is the
same as limiting once. -/
theorem C27_zero_limiter_order (cells cells' : List (List ι)) (h : cells.Perm cells')
    (field : ι → K) : clipZero cells field = clipZero cells' field ∧
      clipZero cells (clipZero cells field) = clipZero cells field := by
  constructor
  · funext i
    rw [C27_zero_limiter, C27_zero_limiter]
    have : (∃ c ∈ cells, i ∈ c) ↔ ∃ c ∈ cells', i ∈ c := by
      constructor
      · rintro ⟨c, hc, hi⟩; exact ⟨c, h.mem_iff.1 hc, hi⟩
      · rintro ⟨c, hc, hi⟩; exact ⟨c, h.mem_iff.2 hc, hi⟩
    simp only [this]
  · funext i
    simp only [C27_zero_limiter]
    split <;> simp

/-- With a separate clipping space, the values in the clipping space are non-negative before they are
mapped back; and non-negative fields that survive the round trip are unchanged. -/
theorem C27_zero_limiter_mapped {ι' : Type*} [DecidableEq ι'] (cells : List (List ι))
    (cells' : List (List ι')) (hcov : ∀ i, ∃ c ∈ cells', i ∈ c) (into : (ι → K) → ι' → K)
    (back : (ι' → K) → ι → K) (field : ι → K) :
    ∃ v : ι' → K, (∀ i, v i = max 0 (into field i)) ∧
      zeroLimiter (some (cells', into, back)) cells field = back v ∧
      ((∀ i, 0 ≤ into field i) → back (into field) = field →
        zeroLimiter (some (cells', into, back)) cells field = field) := by
  have h : clipZero cells' (into field) = fun i => max 0 (into field i) := by
    funext i; rw [C27_zero_limiter, if_pos (hcov i)]
  refine ⟨fun i => max 0 (into field i), fun _ => rfl, ?_, fun hp hb => ?_⟩
  · simp only [zeroLimiter, h]
  · simp only [zeroLimiter, h]
    conv_rhs => rw [← hb]
    congr 1
    funext i
    exact max_eq_right (hp i)

/-- two cells sharing a degree of freedom -/
example : clipZero [[0, 1], [1, 2]] (fun i : ℕ => if i = 1 then (-3 : ℚ) else 2) 1 = 0 ∧
    clipZero [[0, 1], [1, 2]] (fun i : ℕ => if i = 1 then (-3 : ℚ) else 2) 2 = 2 := by
  constructor <;> rw [C27_zero_limiter] <;> simp

/-! ### Theta limiter -/

theorem midStep_apply (dg1 old hat : ℕ → K) (i j : ℕ) : midStep dg1 old hat i j =
    if j = i * 3 then dg1 (i * 2) else if j = i * 3 + 2 then dg1 (i * 2 + 1)
    else if j = i * 3 + 1 then
      (if max (dg1 (i * 2)) (dg1 (i * 2 + 1)) < old (i * 3 + 1)
        ∨ old (i * 3 + 1) < min (dg1 (i * 2)) (dg1 (i * 2 + 1))
      then (dg1 (i * 2) + dg1 (i * 2 + 1)) / 2 else old (i * 3 + 1))
    else hat j := by
  have hhalf : (1 / 2 : K) * (dg1 (i * 2) + dg1 (i * 2 + 1))
      = (dg1 (i * 2) + dg1 (i * 2 + 1)) / 2 := by ring
  have hbase : ∀ v, Function.update ((List.range 2).foldl (fun hat j =>
      Function.update hat (i * 3 + 2 * j) (dg1 (i * 2 + j))) hat) (i * 3 + 1) v j
      = if j = i * 3 then dg1 (i * 2) else if j = i * 3 + 2 then dg1 (i * 2 + 1)
        else if j = i * 3 + 1 then v else hat j := by
    intro v
    have hr : List.range 2 = [0, 1] := rfl
    rw [hr]
    simp only [List.foldl_cons, List.foldl_nil]
    by_cases h1 : j = i * 3 + 1
    · rw [h1, Function.update_self, if_neg (by omega), if_neg (by omega), if_pos rfl]
    · rw [Function.update_of_ne h1]
      by_cases h2 : j = i * 3 + 2
      · rw [h2, if_neg (by omega), if_pos rfl, show i * 3 + 2 * 1 = i * 3 + 2 by omega,
          Function.update_self]
      · rw [Function.update_of_ne (by omega)]
        by_cases h0 : j = i * 3
        · rw [h0, show i * 3 + 2 * 0 = i * 3 by omega, Function.update_self, if_pos rfl,
            show i * 2 + 0 = i * 2 by omega]
        · rw [Function.update_of_ne (by omega), if_neg h0, if_neg h2, if_neg h1]
  unfold midStep
  simp only [gt_iff_lt]
  split
  · rename_i h; rw [hbase, hhalf]; simp [h]
  · rename_i h
    split
    · rename_i h'; rw [hbase, hhalf]; simp [h']
    · rename_i h'; rw [hbase, if_neg (show ¬ (_ ∨ _) from fun hh => hh.elim h h')]

theorem limitMidpoints_apply (n : ℕ) (dg1 old hat : ℕ → K) (i : ℕ) (hi : i < n) :
    limitMidpoints n dg1 old hat (i * 3) = dg1 (i * 2) ∧
    limitMidpoints n dg1 old hat (i * 3 + 2) = dg1 (i * 2 + 1) ∧
    limitMidpoints n dg1 old hat (i * 3 + 1) =
      if max (dg1 (i * 2)) (dg1 (i * 2 + 1)) < old (i * 3 + 1)
        ∨ old (i * 3 + 1) < min (dg1 (i * 2)) (dg1 (i * 2 + 1))
      then (dg1 (i * 2) + dg1 (i * 2 + 1)) / 2 else old (i * 3 + 1) := by
  induction n with
  | zero => omega
  | succ n ih =>
    have e : limitMidpoints (n + 1) dg1 old hat = midStep dg1 old (limitMidpoints n dg1 old hat) n := by
      simp [limitMidpoints, List.range_succ]
    rw [e]
    simp only [midStep_apply]
    by_cases h : i = n
    · subst h
      refine ⟨by simp, ?_, ?_⟩
      · rw [if_neg (by omega), if_pos rfl]
      · rw [if_neg (by omega), if_neg (by omega), if_pos rfl]
    · obtain ⟨h1, h2, h3⟩ := ih (by omega)
      refine ⟨?_, ?_, ?_⟩
      · rw [if_neg (by omega), if_neg (by omega), if_neg (by omega), h1]
      · rw [if_neg (by omega), if_neg (by omega), if_neg (by omega), h2]
      · rw [if_neg (by omega), if_neg (by omega), if_neg (by omega), h3]

/-- C27, `ThetaLimiter`, for every cell: the vertex values of the result are those of the
vertex-based limiter, every midpoint lies between the limited values at the two adjacent vertices,
and a midpoint that was already between them is kept. -/
theorem C27_theta_limiter (n : ℕ) (vl : (ℕ → K) → ℕ → K) (hat field : ℕ → K) (i : ℕ) (hi : i < n) :
    let out := thetaLimiter n vl hat field
    let v := vl fun m => field (m / 2 * 3 + 2 * (m % 2))
    out (i * 3) = v (i * 2) ∧ out (i * 3 + 2) = v (i * 2 + 1) ∧
    min (out (i * 3)) (out (i * 3 + 2)) ≤ out (i * 3 + 1) ∧
    out (i * 3 + 1) ≤ max (out (i * 3)) (out (i * 3 + 2)) ∧
    (min (v (i * 2)) (v (i * 2 + 1)) ≤ field (i * 3 + 1) →
      field (i * 3 + 1) ≤ max (v (i * 2)) (v (i * 2 + 1)) → out (i * 3 + 1) = field (i * 3 + 1)) := by
  intro out v
  obtain ⟨h1, h2, h3⟩ := limitMidpoints_apply n v field hat i hi
  have e1 : out (i * 3) = v (i * 2) := h1
  have e2 : out (i * 3 + 2) = v (i * 2 + 1) := h2
  have e3 : out (i * 3 + 1) = _ := h3
  refine ⟨e1, e2, ?_, ?_, fun ha hb => ?_⟩
  · rw [e1, e2, e3]
    split
    · have a := min_le_left (v (i * 2)) (v (i * 2 + 1))
      have b := min_le_right (v (i * 2)) (v (i * 2 + 1))
      linarith
    · rename_i h; exact not_lt.1 fun h' => h (Or.inr h')
  · rw [e1, e2, e3]
    split
    · have a := le_max_left (v (i * 2)) (v (i * 2 + 1))
      have b := le_max_right (v (i * 2)) (v (i * 2 + 1))
      linarith
    · rename_i h; exact not_lt.1 fun h' => h (Or.inl h')
  · rw [e3, if_neg]
    exact fun h => h.elim (fun h => absurd hb (not_le.2 h)) (fun h => absurd ha (not_le.2 h))

/-- C27, no new extrema: if the limited vertex values lie in an interval, so do all values of the
result. -/
theorem C27_theta_limiter_bounds (n : ℕ) (vl : (ℕ → K) → ℕ → K) (hat field : ℕ → K) (lo hi : K)
    (hv : ∀ m < 2 * n, lo ≤ vl (fun m => field (m / 2 * 3 + 2 * (m % 2))) m ∧
      vl (fun m => field (m / 2 * 3 + 2 * (m % 2))) m ≤ hi) (j : ℕ) (hj : j < 3 * n) :
    lo ≤ thetaLimiter n vl hat field j ∧ thetaLimiter n vl hat field j ≤ hi := by
  obtain ⟨i, hi', hc⟩ : ∃ i < n, j = i * 3 ∨ j = i * 3 + 1 ∨ j = i * 3 + 2 :=
    ⟨j / 3, by omega, by omega⟩
  obtain ⟨h1, h2, h3, h4, -⟩ := C27_theta_limiter n vl hat field i hi'
  have b0 := hv (i * 2) (by omega)
  have b1 := hv (i * 2 + 1) (by omega)
  rcases hc with rfl | rfl | rfl
  · rw [h1]; exact b0
  · rw [h1, h2] at h3 h4
    exact ⟨(le_min b0.1 b1.1).trans h3, h4.trans (max_le b0.2 b1.2)⟩
  · rw [h2]; exact b1

example : thetaLimiter 1 (fun v => v) (fun _ => 0)
    (fun j => if j = 0 then (1 : ℚ) else if j = 1 then 7 else 3) 1 = 2 := by
  have := (limitMidpoints_apply 1 (fun m => (fun j => if j = 0 then (1 : ℚ) else if j = 1 then 7 else 3)
    (m / 2 * 3 + 2 * (m % 2))) (fun j => if j = 0 then (1 : ℚ) else if j = 1 then 7 else 3)
    (fun _ => 0) 0 (by omega)).2.2
  simp only [thetaLimiter]
  norm_num at this ⊢
  exact this

/-! ### Mean limiter -/

theorem foldMin (mX : ℕ → K) (n : ℕ) :
    let m := (List.range n).foldl (fun mn i => min mn (mX i)) 0
    m ≤ 0 ∧ (∀ i < n, m ≤ mX i) ∧ (m < 0 → ∃ i < n, mX i = m) := by
  induction n with
  | zero => simp
  | succ n ih =>
    simp only [List.range_succ, List.foldl_append, List.foldl_cons, List.foldl_nil]
    obtain ⟨h1, h2, h3⟩ := ih
    generalize (List.range n).foldl (fun mn i => min mn (mX i)) 0 = m at *
    refine ⟨(min_le_left _ _).trans h1, fun i hi => ?_, fun h => ?_⟩
    · by_cases hin : i = n
      · subst hin; exact min_le_right _ _
      · exact (min_le_left _ _).trans (h2 i (by omega))
    · rcases le_total m (mX n) with hm | hm
      · rw [min_eq_left hm] at h ⊢
        obtain ⟨i, hi, e⟩ := h3 h
        exact ⟨i, by omega, e⟩
      · exact ⟨n, by omega, (min_eq_right hm).symm⟩

/-- What the kernel guarantees for one field. -/
theorem lamdaKernel_spec (n : ℕ) (mX : ℕ → K) (mean l : K) (hmean : 0 ≤ mean) (h1 : l ≤ 1) :
    l ≤ lamdaKernel n mX mean l ∧ lamdaKernel n mX mean l ≤ 1 ∧
    (∀ i < n, ∀ l', lamdaKernel n mX mean l ≤ l' → l' ≤ 1 →
      0 ≤ l → 0 ≤ (1 - l') * mX i + l' * mean) ∧
    ((∀ i < n, 0 ≤ mX i) → lamdaKernel n mX mean l = l) := by
  obtain ⟨m0, m1, m2⟩ := foldMin mX n
  unfold lamdaKernel
  generalize (List.range n).foldl (fun mn i => min mn (mX i)) 0 = m at *
  dsimp only
  split
  · rename_i hm
    have hd : 0 < mean - m := by linarith
    refine ⟨le_max_left _ _, max_le h1 ((div_le_one hd).2 (by linarith)), fun i hi l' hl hl1 hl0 => ?_,
      fun hp => ?_⟩
    · have hr : -m / (mean - m) ≤ l' := (le_max_right _ _).trans hl
      rw [div_le_iff₀ hd] at hr
      have hmi := m1 i hi
      have : (1 - l') * m ≤ (1 - l') * mX i := mul_le_mul_of_nonneg_left hmi (by linarith)
      nlinarith
    · obtain ⟨i, hi, e⟩ := m2 hm
      exact absurd (hp i hi) (by rw [e]; exact not_le.2 hm)
  · rename_i hm
    refine ⟨le_rfl, h1, fun i hi l' hl hl1 hl0 => ?_, fun _ => rfl⟩
    have : 0 ≤ mX i := (not_lt.1 hm).trans (m1 i hi)
    have h2 : 0 ≤ l' := hl0.trans hl
    have := mul_nonneg (show (0 : K) ≤ 1 - l' by linarith) this
    have := mul_nonneg h2 hmean
    linarith

theorem meanLamda_spec (n : ℕ) (fields : List ((ℕ → K) × K)) (hmean : ∀ f ∈ fields, 0 ≤ f.2) :
    0 ≤ meanLamda n fields ∧ meanLamda n fields ≤ 1 ∧
    (∀ f ∈ fields, ∀ i < n, 0 ≤ (1 - meanLamda n fields) * f.1 i + meanLamda n fields * f.2) ∧
    ((∀ f ∈ fields, ∀ i < n, 0 ≤ f.1 i) → meanLamda n fields = 0) := by
  have key : ∀ (fs : List ((ℕ → K) × K)) (l : K), (∀ f ∈ fs, 0 ≤ f.2) → 0 ≤ l → l ≤ 1 →
      let L := fs.foldl (fun lamda f => lamdaKernel n f.1 f.2 lamda) l
      l ≤ L ∧ L ≤ 1 ∧ (∀ f ∈ fs, ∀ i < n, ∀ l', L ≤ l' → l' ≤ 1 →
        0 ≤ (1 - l') * f.1 i + l' * f.2) ∧ ((∀ f ∈ fs, ∀ i < n, 0 ≤ f.1 i) → L = l) := by
    intro fs
    induction fs with
    | nil => intro l _ h0 h1; exact ⟨le_rfl, h1, by simp, fun _ => rfl⟩
    | cons f fs ih =>
      intro l hm h0 h1
      obtain ⟨a1, a2, a3, a4⟩ := lamdaKernel_spec n f.1 f.2 l (hm f List.mem_cons_self) h1
      obtain ⟨b1, b2, b3, b4⟩ := ih (lamdaKernel n f.1 f.2 l)
        (fun f hf => hm f (List.mem_cons_of_mem _ hf)) (h0.trans a1) a2
      dsimp only at b1 b2 b3 b4 ⊢
      rw [List.foldl_cons]
      refine ⟨a1.trans b1, b2, fun g hg i hi l' hl hl1 => ?_, fun hp => ?_⟩
      · rcases List.mem_cons.1 hg with rfl | hg
        · exact a3 i hi l' (b1.trans hl) hl1 h0
        · exact b3 g hg i hi l' hl hl1
      · rw [b4 fun g hg => hp g (List.mem_cons_of_mem _ hg), a4 (hp f List.mem_cons_self)]
  obtain ⟨a, b, c, d⟩ := key fields 0 hmean le_rfl zero_le_one
  exact ⟨a, b, fun f hf i hi => c f hf i hi _ le_rfl b, d⟩

/-- C27, `MeanLimiter`, for every cell and any number of fields with non-negative means: all values
become non-negative; every weighted sum (with weights adding up to one) that equalled the mean still
does, so mass is preserved; sums of fields are blended with the same factor; and if nothing was
negative nothing changes. -/
theorem C27_mean_limiter (n : ℕ) (fields : List ((ℕ → K) × K)) (hmean : ∀ f ∈ fields, 0 ≤ f.2) :
    (meanLimiter n fields).length = fields.length ∧
    (∀ g ∈ meanLimiter n fields, ∀ i < n, 0 ≤ g i) ∧
    (∀ w : ℕ → K, ∑ i ∈ range n, w i = 1 → ∀ k (hk : k < fields.length),
      ∑ i ∈ range n, w i * (fields[k].1 i) = fields[k].2 →
      ∃ g, (meanLimiter n fields)[k]? = some g ∧ ∑ i ∈ range n, w i * g i = fields[k].2) ∧
    ((∀ f ∈ fields, ∀ i < n, 0 ≤ f.1 i) → meanLimiter n fields = fields.map fun f => f.1) := by
  obtain ⟨a, b, c, d⟩ := meanLamda_spec n fields hmean
  refine ⟨by simp [meanLimiter], ?_, ?_, ?_⟩
  · intro g hg i hi
    simp only [meanLimiter, List.mem_map] at hg
    obtain ⟨f, hf, rfl⟩ := hg
    exact c f hf i hi
  · intro w hw k hk hsum
    refine ⟨fun i => (1 - meanLamda n fields) * fields[k].1 i + meanLamda n fields * fields[k].2,
      by simp [meanLimiter, hk], ?_⟩
    have : ∀ i, w i * ((1 - meanLamda n fields) * fields[k].1 i + meanLamda n fields * fields[k].2)
        = (1 - meanLamda n fields) * (w i * fields[k].1 i)
          + meanLamda n fields * fields[k].2 * w i := fun i => by ring
    simp only [this, sum_add_distrib, ← mul_sum, hw, hsum]
    ring
  · intro hp
    simp only [meanLimiter, d hp]
    simp

/-- The hypothesis on the means is needed, and nothing in the limiter itself provides it: the kernel for clipping the
means that the constructor prepares is applied only by the augmentation `MeanMixingRatio` (see C80).  With a negative
mean the result has a negative value where there was none. -/
theorem C27_mean_limiter_negative_mean_refuted :
    ∃ (mX : ℕ → ℚ) (mean : ℚ), (mX 0 + mX 1) / 2 = mean ∧ 0 ≤ mX 1 ∧
      ∃ g ∈ meanLimiter 2 [(mX, mean)], g 1 < 0 := by
  refine ⟨fun i => if i = 0 then -1 else 0, -1 / 2, by norm_num, by norm_num, _,
    List.mem_cons_self, ?_⟩
  have : meanLamda 2 [((fun i => if i = 0 then (-1 : ℚ) else 0), (-1 / 2 : ℚ))] = 2 := by
    simp [meanLamda, lamdaKernel, List.range_succ]
    norm_num
  simp only [this]
  norm_num

/-- The hypotheses are met by two fields with a negative value in the first. -/
example : ∀ g ∈ meanLimiter 2 [((fun i => if i = 0 then (-1 : ℚ) else 3), (1 : ℚ)),
    ((fun _ => 1), 1)], ∀ i < 2, 0 ≤ g i :=
  (C27_mean_limiter 2 _ (by simp)).2.1

/-! ### Degree check -/

/-- C27, constructor check of `DG1Limiter` and `MeanLimiter`: tensor product spaces are accepted
exactly when all their degrees are 1. -/
theorem C27_degree_check_tuple (s : String) (ds : List ℕ) :
    dg1Accepts s (.tuple ds) = true ↔ s = "L2" ∧ ∀ d ∈ ds, d = 1 := by
  simp [dg1Accepts, List.any_eq_true]

/-- ... but a space with an integer degree (simplices, unextruded meshes) is accepted whatever its
degree: the documented ValueError for a space that is not DG1 is never raised. -/
theorem C27_degree_check_int_refuted (d : ℕ) : dg1Accepts "L2" (.int d) = true := by
  simp [dg1Accepts]

/-! ### Mixed limiters -/

theorem mixedInit_ok {V : Type*} (names : List String) (subs : List (String × (V → V)))
    (r : List (ℕ × (V → V))) (h : mixedInit names subs = .ok r) :
    r = subs.map (fun p => (names.idxOf p.1, p.2)) ∧ ∀ p ∈ subs, p.1 ∈ names := by
  induction subs generalizing r with
  | nil => simp [mixedInit] at h; simp [h]
  | cons p subs ih =>
    obtain ⟨f, l⟩ := p
    unfold mixedInit at h
    split at h
    · rename_i hf
      cases hr : mixedInit names subs with
      | error e => rw [hr] at h; simp at h
      | ok r' =>
        rw [hr] at h
        simp at h
        obtain ⟨h1, h2⟩ := ih r' hr
        subst h
        refine ⟨by simp [h1], fun p hp => ?_⟩
        rcases List.mem_cons.1 hp with rfl | hp
        · exact hf
        · exact h2 p hp
    · simp at h

/-- C27, `MixedFSLimiter`: construction fails iff a name is not a prognostic; otherwise (names
distinct, as dictionary keys are) each named field is limited exactly once by its own limiter and
all other fields are untouched. -/
theorem C27_mixed_limiter {V : Type*} (names : List String) (hn : names.Nodup)
    (subs : List (String × (V → V))) (hs : (subs.map Prod.fst).Nodup) :
    ((∃ e, mixedInit names subs = .error e) ↔ ∃ p ∈ subs, p.1 ∉ names) ∧
    ∀ r, mixedInit names subs = .ok r → ∀ (fields : ℕ → V) (k : ℕ) (hk : k < names.length),
      (∀ l, (names[k], l) ∈ subs → mixedApply r fields k = l (fields k)) ∧
      (names[k] ∉ subs.map Prod.fst → mixedApply r fields k = fields k) := by
  refine ⟨?_, fun r hr fields k hk => ?_⟩
  · clear hs
    induction subs with
    | nil => simp [mixedInit]
    | cons p subs ih =>
      obtain ⟨f, l⟩ := p
      unfold mixedInit
      by_cases hf : f ∈ names
      · simp only [hf, if_true]
        constructor
        · rintro ⟨e, he⟩
          cases hr : mixedInit names subs with
          | error e' =>
            obtain ⟨p, hp, hp'⟩ := ih.1 ⟨e', hr⟩
            exact ⟨p, List.mem_cons_of_mem _ hp, hp'⟩
          | ok r => rw [hr] at he; simp at he
        · rintro ⟨p, hp, hp'⟩
          rcases List.mem_cons.1 hp with rfl | hp
          · exact absurd hf hp'
          · obtain ⟨e, he⟩ := ih.2 ⟨p, hp, hp'⟩
            exact ⟨e, by rw [he]⟩
      · simp only [hf, if_false]
        exact ⟨fun _ => ⟨(f, l), List.mem_cons_self, hf⟩, fun _ => ⟨f, rfl⟩⟩
  · obtain ⟨rfl, hmem⟩ := mixedInit_ok names subs r hr
    clear hr
    induction subs generalizing fields with
    | nil => simp [mixedApply]
    | cons p subs ih =>
      obtain ⟨f, l⟩ := p
      obtain ⟨hf, hs2⟩ : f ∉ subs.map Prod.fst ∧ (subs.map Prod.fst).Nodup :=
        List.nodup_cons.1 hs
      have hfn : f ∈ names := hmem (f, l) List.mem_cons_self
      set fields' := Function.update fields (names.idxOf f) (l (fields (names.idxOf f))) with hf'
      have e : mixedApply (((f, l) :: subs).map fun p => (names.idxOf p.1, p.2)) fields
          = mixedApply (subs.map fun p => (names.idxOf p.1, p.2)) fields' := rfl
      obtain ⟨ih1, ih2⟩ := ih hs2 fields' (fun p hp => hmem p (List.mem_cons_of_mem _ hp))
      rw [e]
      have hidx : names[k] ≠ f → fields' k = fields k := fun hne => by
        rw [hf', Function.update_of_ne]
        intro hk'
        apply hne
        subst hk'
        exact List.getElem_idxOf _
      refine ⟨fun l' hl => ?_, fun hno => ?_⟩
      · rcases List.mem_cons.1 hl with heq | hl2
        · obtain ⟨h1, h2⟩ := Prod.mk.inj heq
          have hk' : names.idxOf f = k := by
            rw [← h1]; exact hn.idxOf_getElem k hk
          rw [ih2 (by rw [h1]; simpa using hf), hf', hk', Function.update_self, h2]
        · have hne : names[k] ≠ f := by
            rintro rfl
            exact hf (List.mem_map_of_mem (f := Prod.fst) hl2)
          rw [ih1 l' hl2, hidx hne]
      · have hne : names[k] ≠ f := by
          rintro rfl; simp at hno
        rw [ih2 (by simp at hno ⊢; exact hno.2), hidx hne]

example : mixedInit ["u", "rho", "theta"] [("theta", fun x : ℚ => max 0 x)]
    = .ok [(2, fun x : ℚ => max 0 x)] := by
  simp [mixedInit, List.idxOf, List.findIdx, List.findIdx.go]

/-- C27, `DG1Limiter` on one component changes no other component. -/
theorem C27_dg1_subspace {κ : Type*} [DecidableEq κ] {V : Type*} (vl : V → V) (s : κ)
    (fields : κ → V) (k : κ) : dg1Limiter vl s fields k = if k = s then vl (fields s) else fields k := by
  unfold dg1Limiter
  by_cases h : k = s
  · subst h; simp
  · simp [h]

/-! ### Global extrema -/

theorem foldMinIf (l : List K) (a : K) : l.foldl (fun a b => if a > b then b else a) a
    = l.foldl min a := by
  have : (fun a b : K => if a > b then b else a) = min := by
    funext a b
    by_cases h : b < a
    · simp [h, h.le]
    · simp [h, not_lt.1 h]
  rw [this]

theorem foldMaxIf (l : List K) (a : K) : l.foldl (fun a b => if a < b then b else a) a
    = l.foldl max a := by
  have : (fun a b : K => if a < b then b else a) = max := by
    funext a b
    by_cases h : a < b
    · simp [h, h.le]
    · simp [h, not_lt.1 h]
  rw [this]

/-- C69: for every non-empty field whose values do not exceed the largest float, `MinKernel` returns
the attained minimum: a lower bound of all values that is one of the values. -/
theorem C69_min_kernel (big : K) (field : List K) (hne : field ≠ []) (hb : ∀ v ∈ field, v ≤ big) :
    minKernel big field ∈ field ∧ ∀ v ∈ field, minKernel big field ≤ v := by
  have key : ∀ (l : List K) (a : K), (l.foldl min a = a ∨ l.foldl min a ∈ l) ∧
      l.foldl min a ≤ a ∧ ∀ v ∈ l, l.foldl min a ≤ v := by
    intro l
    induction l with
    | nil => intro a; simp
    | cons b l ih =>
      intro a
      obtain ⟨h1, h2, h3⟩ := ih (min a b)
      rw [List.foldl_cons]
      refine ⟨?_, h2.trans (min_le_left _ _), fun v hv => ?_⟩
      · rcases h1 with h1 | h1
        · rcases min_choice a b with h | h
          · left; rw [h1, h]
          · right; rw [h1, h]; exact List.mem_cons_self
        · right; exact List.mem_cons_of_mem _ h1
      · rcases List.mem_cons.1 hv with rfl | hv
        · exact h2.trans (min_le_right _ _)
        · exact h3 v hv
  unfold minKernel
  rw [foldMinIf]
  obtain ⟨h1, h2, h3⟩ := key field big
  refine ⟨?_, h3⟩
  rcases h1 with h1 | h1
  · obtain ⟨v, hv⟩ := List.exists_mem_of_ne_nil field hne
    have : field.foldl min big = v := le_antisymm (h3 v hv) (by rw [h1]; exact hb v hv)
    rw [this]; exact hv
  · exact h1

/-- C69: `MaxKernel` returns the attained maximum. -/
theorem C69_max_kernel (small : K) (field : List K) (hne : field ≠ [])
    (hb : ∀ v ∈ field, small ≤ v) :
    maxKernel small field ∈ field ∧ ∀ v ∈ field, v ≤ maxKernel small field := by
  have key : ∀ (l : List K) (a : K), (l.foldl max a = a ∨ l.foldl max a ∈ l) ∧
      a ≤ l.foldl max a ∧ ∀ v ∈ l, v ≤ l.foldl max a := by
    intro l
    induction l with
    | nil => intro a; simp
    | cons b l ih =>
      intro a
      obtain ⟨h1, h2, h3⟩ := ih (max a b)
      rw [List.foldl_cons]
      refine ⟨?_, (le_max_left _ _).trans h2, fun v hv => ?_⟩
      · rcases h1 with h1 | h1
        · rcases max_choice a b with h | h
          · left; rw [h1, h]
          · right; rw [h1, h]; exact List.mem_cons_self
        · right; exact List.mem_cons_of_mem _ h1
      · rcases List.mem_cons.1 hv with rfl | hv
        · exact (le_max_right _ _).trans h2
        · exact h3 v hv
  unfold maxKernel
  rw [foldMaxIf]
  obtain ⟨h1, h2, h3⟩ := key field small
  refine ⟨?_, h3⟩
  rcases h1 with h1 | h1
  · obtain ⟨v, hv⟩ := List.exists_mem_of_ne_nil field hne
    have : field.foldl max small = v := le_antisymm (by rw [h1]; exact hb v hv) (h3 v hv)
    rw [this]; exact hv
  · exact h1

example : minKernel (1000 : ℚ) [3, -1, 2] ∈ [3, -1, (2 : ℚ)] :=
  (C69_min_kernel 1000 _ (by simp) (by intro v hv; simp at hv; rcases hv with rfl | rfl | rfl <;> norm_num)).1

end Gusto.Props.LimiterProps
