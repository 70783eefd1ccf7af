import Verif.Model.Rexi
import Mathlib.Analysis.SpecialFunctions.Gaussian.FourierTransform
import Mathlib.Algebra.BigOperators.Intervals
import Mathlib.Algebra.BigOperators.Field
import Mathlib.Data.List.GetD
import Mathlib.Algebra.BigOperators.Ring.Finset
import Mathlib.Tactic.FieldSimp
import Mathlib.Tactic.Linarith
import Mathlib.Tactic.Module
import Mathlib.Tactic.LinearCombination

set_option autoImplicit false
set_option linter.unusedSectionVars false
set_option linter.unusedSimpArgs false

/-! # C51, C52, C77: REXI -/

namespace Gusto.Props.RexiProps
open Gusto.Rexi

/-! ### C51: sharing the work -/

theorem share_eq (n P r : ℕ) :
    share n (some (r, P)) = (n / P + (if r < n % P then 1 else 0), r * (n / P) + min r (n % P)) := by
  have hp : n - n / P * P = n % P := by
    have := Nat.div_add_mod n P
    rw [Nat.mul_comm]; omega
  simp only [share, hp]
  split
  · rename_i h; rw [min_eq_left h.le]; simp [Nat.mul_add]
  · rename_i h; rw [min_eq_right (not_lt.mp h)]; simp

/-- **C51** (no gaps, no overlap).  Listing the indices treated by rank 0, then rank 1, and so on, gives
`0, 1, ..., n - 1`: consecutive, disjoint ranges that cover all the terms. -/
theorem C51_cover (n P : ℕ) (hP : 0 < P) :
    ((List.range P).flatMap fun r =>
      (List.range (share n (some (r, P))).1).map fun i => (share n (some (r, P))).2 + i) = List.range n := by
  have key : ∀ R ≤ P, ((List.range R).flatMap fun r =>
      (List.range (share n (some (r, P))).1).map fun i => (share n (some (r, P))).2 + i)
        = List.range (R * (n / P) + min R (n % P)) := by
    intro R
    induction R with
    | zero => intro _; simp
    | succ R ih =>
      intro hR
      rw [List.range_succ, List.flatMap_append, ih (by omega)]
      simp only [List.flatMap_cons, List.flatMap_nil, List.append_nil]
      have e : (R + 1) * (n / P) + min (R + 1) (n % P) =
          (share n (some (R, P))).2 + (share n (some (R, P))).1 := by
        rw [share_eq]
        simp only [Nat.add_mul, Nat.one_mul]
        split <;> omega
      have e2 : (share n (some (R, P))).2 = R * (n / P) + min R (n % P) := by rw [share_eq]
      rw [e, e2]
      exact List.range_add.symm
  have hn : P * (n / P) + min P (n % P) = n := by
    rw [min_eq_right (Nat.mod_lt _ hP).le]; exact Nat.div_add_mod n P
  rw [key P le_rfl, hn]

/-- **C51** (balance).  The numbers of terms of any two ranks differ by at most one. -/
theorem C51_balance (n P r r' : ℕ) :
    (share n (some (r, P))).1 ≤ (share n (some (r', P))).1 + 1 := by
  rw [share_eq, share_eq]
  dsimp only
  split <;> split <;> omega

variable {V : Type*} [AddCommGroup V] [Module ℝ V]

/-- The real part of `beta * w`. -/
noncomputable def term (beta : List ℂ) (alpha : List ℂ) (solver : ℂ → V × V) (j : ℕ) : V :=
  (beta.getD j 0).re • (solver (alpha.getD j 0)).1 - (beta.getD j 0).im • (solver (alpha.getD j 0)).2

theorem solveLocal_eq (alpha beta : List ℂ) (solver : ℂ → V × V) (sh : ℕ × ℕ) :
    solveLocal alpha beta solver sh
      = ((List.range sh.1).map fun i => term beta alpha solver (sh.2 + i)).sum := by
  unfold solveLocal
  have : ∀ (n : ℕ), (List.range n).foldl (fun x i =>
      let j := sh.2 + i
      let w := solver (alpha.getD j 0)
      let x := x + (beta.getD j 0).re • w.1
      x - (beta.getD j 0).im • w.2) (0 : V)
      = ((List.range n).map fun i => term beta alpha solver (sh.2 + i)).sum := by
    intro n
    induction n with
    | zero => simp
    | succ n ih =>
      rw [List.range_succ, List.foldl_append, ih]
      simp only [List.foldl_cons, List.foldl_nil, List.map_append, List.sum_append, List.map_cons,
        List.map_nil, List.sum_cons, List.sum_nil, add_zero, term]
      abel
  exact this sh.1

/-- **C51** (serial result).  Without an ensemble `solve` returns the sum over all the terms of the real part of
`beta * w`. -/
theorem C51_serial (alpha beta : List ℂ) (solver : ℂ → V × V) :
    solveSerial alpha beta solver = ∑ j ∈ Finset.range alpha.length,
      ((beta.getD j 0).re • (solver (alpha.getD j 0)).1 - (beta.getD j 0).im • (solver (alpha.getD j 0)).2) := by
  rw [solveSerial, solveLocal_eq]
  simp only [share, Nat.zero_add]
  rw [← List.sum_toFinset _ List.nodup_range, List.toFinset_range]
  rfl

/-- **C51** (parallel result).  On any number of ensemble ranks the result is that of the serial run. -/
theorem C51_parallel (alpha beta : List ℂ) (solver : ℂ → V × V) (P : ℕ) (hP : 0 < P) :
    solveParallel alpha beta solver P = solveSerial alpha beta solver := by
  have hs : solveSerial alpha beta solver = ((List.range alpha.length).map (term beta alpha solver)).sum := by
    rw [solveSerial, solveLocal_eq]; simp [share]
  rw [hs, ← C51_cover alpha.length P hP]
  simp only [solveParallel, solveLocal_eq]
  generalize List.range P = l
  induction l with
  | nil => simp
  | cons r t ih => simp [List.map_map, Function.comp_def, ih]

/-- Ten terms on four ranks. -/
example : ((List.range 4).map fun r => share 10 (some (r, 4))) = [(3, 0), (3, 3), (2, 6), (2, 8)] := by decide

/-! ### C52: coefficients -/

open Complex in
/-- The value of index `k` in the array `alpha`. -/
noncomputable def alphaAt (h mu : ℝ) (N k : ℕ) : ℂ := (h : ℂ) * ((mu : ℂ) + I * (((k : ℤ) - (N : ℤ) : ℤ) : ℂ))

/-- Convolution of real weights with `h a_l`. -/
noncomputable def conv (h : ℝ) (L M : ℕ) (a : ℕ → ℂ) (c : ℕ → ℝ) (k : ℕ) : ℂ :=
  ∑ l ∈ Finset.range (2 * L + 1), ∑ m ∈ Finset.range (2 * M + 1),
    if l + m = k then (c m : ℂ) * (h : ℂ) * a l else 0

theorem arrays_eq (h mu : ℝ) (L M : ℕ) (a : ℕ → ℂ) :
    (∀ k ≤ 2 * (M + L), (arrays h mu L M a).alpha k = alphaAt h mu (M + L) k) ∧
    (∀ k, (arrays h mu L M a).betaRe k = conv h L M a (fun m => (bCoeff h M m).re) k) ∧
    (∀ k, (arrays h mu L M a).betaIm k = conv h L M a (fun m => (bCoeff h M m).im) k) := by
  -- inner loop
  have inner : ∀ (l : ℕ) (s : Arrays) (n : ℕ),
      let t := (List.range n).foldl (fun s m => loopBody h mu L M a s l m) s
      (∀ k, t.alpha k = if l ≤ k ∧ k < l + n then alphaAt h mu (M + L) k else s.alpha k) ∧
      (∀ k, t.betaRe k = s.betaRe k + ∑ m ∈ Finset.range n,
        if l + m = k then ((bCoeff h M m).re : ℂ) * (h : ℂ) * a l else 0) ∧
      (∀ k, t.betaIm k = s.betaIm k + ∑ m ∈ Finset.range n,
        if l + m = k then ((bCoeff h M m).im : ℂ) * (h : ℂ) * a l else 0) := by
    intro l s n
    induction n with
    | zero => simp
    | succ n ih =>
      obtain ⟨h1, h2, h3⟩ := ih
      simp only [List.range_succ, List.foldl_append, List.foldl_cons, List.foldl_nil]
      generalize (List.range n).foldl (fun s m => loopBody h mu L M a s l m) s = t at h1 h2 h3 ⊢
      refine ⟨fun k => ?_, fun k => ?_, fun k => ?_⟩
      · simp only [loopBody, Function.update_apply]
        by_cases hk : k = l + n
        · subst hk
          rw [if_pos rfl, if_pos (by omega), alphaAt]
        · rw [if_neg hk, h1 k]
          by_cases hc : l ≤ k ∧ k < l + n
          · rw [if_pos hc, if_pos (by omega)]
          · rw [if_neg hc, if_neg (by omega)]
      · simp only [loopBody, Function.update_apply, Finset.sum_range_succ]
        by_cases hk : k = l + n
        · subst hk
          rw [if_pos rfl, h2, if_pos rfl, add_assoc]
        · rw [if_neg hk, h2 k, if_neg (fun e => hk e.symm), add_zero]
      · simp only [loopBody, Function.update_apply, Finset.sum_range_succ]
        by_cases hk : k = l + n
        · subst hk
          rw [if_pos rfl, h3, if_pos rfl, add_assoc]
        · rw [if_neg hk, h3 k, if_neg (fun e => hk e.symm), add_zero]
  have outer : ∀ n : ℕ,
      let t := (List.range n).foldl (fun s l =>
        (List.range (2 * M + 1)).foldl (fun s m => loopBody h mu L M a s l m) s)
        { alpha := fun _ => 0, betaRe := fun _ => 0, betaIm := fun _ => 0 }
      (∀ k, (∃ l < n, l ≤ k ∧ k < l + (2 * M + 1)) → t.alpha k = alphaAt h mu (M + L) k) ∧
      (∀ k, t.betaRe k = ∑ l ∈ Finset.range n, ∑ m ∈ Finset.range (2 * M + 1),
        if l + m = k then ((bCoeff h M m).re : ℂ) * (h : ℂ) * a l else 0) ∧
      (∀ k, t.betaIm k = ∑ l ∈ Finset.range n, ∑ m ∈ Finset.range (2 * M + 1),
        if l + m = k then ((bCoeff h M m).im : ℂ) * (h : ℂ) * a l else 0) := by
    intro n
    induction n with
    | zero => simp
    | succ n ih =>
      obtain ⟨h1, h2, h3⟩ := ih
      rw [List.range_succ (n := n), List.foldl_append]
      simp only [List.foldl_cons, List.foldl_nil]
      have hin := inner n ((List.range n).foldl (fun s l =>
        (List.range (2 * M + 1)).foldl (fun s m => loopBody h mu L M a s l m) s)
        { alpha := fun _ => 0, betaRe := fun _ => 0, betaIm := fun _ => 0 }) (2 * M + 1)
      obtain ⟨g1, g2, g3⟩ := hin
      refine ⟨fun k hk => ?_, fun k => ?_, fun k => ?_⟩
      · rw [g1 k]
        by_cases hc : n ≤ k ∧ k < n + (2 * M + 1)
        · rw [if_pos hc]
        · rw [if_neg hc]
          obtain ⟨l, hl, hl2⟩ := hk
          refine h1 k ⟨l, ?_, hl2⟩
          rcases Nat.lt_succ_iff_lt_or_eq.mp hl with hlt | rfl
          · exact hlt
          · exact absurd hl2 hc
      · rw [g2 k, h2 k, Finset.sum_range_succ _ n]
      · rw [g3 k, h3 k, Finset.sum_range_succ _ n]
  obtain ⟨h1, h2, h3⟩ := outer (2 * L + 1)
  refine ⟨fun k hk => h1 k ?_, fun k => h2 k, fun k => h3 k⟩
  exact ⟨min k (2 * L), by omega, by omega, by omega⟩

/-- Regrouping a sum with the convolution. -/
theorem conv_sum (h : ℝ) (L M : ℕ) (a : ℕ → ℂ) (c : ℕ → ℝ) (g : ℕ → ℂ) :
    ∑ k ∈ Finset.range (2 * (M + L) + 1), conv h L M a c k * g k
      = ∑ m ∈ Finset.range (2 * M + 1), (c m : ℂ) *
          ∑ l ∈ Finset.range (2 * L + 1), (h : ℂ) * a l * g (l + m) := by
  simp only [conv, Finset.sum_mul, Finset.mul_sum]
  rw [Finset.sum_comm]
  rw [Finset.sum_comm (s := Finset.range (2 * M + 1))]
  refine Finset.sum_congr rfl fun l hl => ?_
  rw [Finset.sum_comm]
  refine Finset.sum_congr rfl fun m hm => ?_
  rw [Finset.mem_range] at hl hm
  rw [Finset.sum_eq_single (l + m)]
  · rw [if_pos rfl]; ring
  · intro k _ hk; rw [if_neg (fun e => hk e.symm), zero_mul]
  · intro hk; exact absurd (Finset.mem_range.mpr (by omega)) hk

/-! #### Specification -/

open Complex in
/-- The documented double sum: `sum_m b_m Re( sum_l h a_l / (i x + h (mu + i (l + m))) )` with `l` from `-L` to
`L` and `m` from `-M` to `M` (indices shifted to start at 0). -/
noncomputable def doubleSum (h mu : ℝ) (L M : ℕ) (a : ℕ → ℂ) (x : ℝ) : ℂ :=
  ∑ m ∈ Finset.range (2 * M + 1), bCoeff h M m *
    ((∑ l ∈ Finset.range (2 * L + 1),
      (h : ℂ) * a l / (I * (x : ℂ) + (h : ℂ) * ((mu : ℂ) + I * (((l : ℤ) - (L : ℤ) + ((m : ℤ) - (M : ℤ)) : ℤ) : ℂ)))).re : ℂ)

/-- The rational function with the given poles and residues. -/
noncomputable def rational (alpha beta : List ℂ) (z : ℂ) : ℂ :=
  ∑ j ∈ Finset.range alpha.length, beta.getD j 0 / (z + alpha.getD j 0)

/-- `beta_re + i beta_im` and the combination with conjugates. -/
noncomputable def gam (s : Arrays) (k : ℕ) : ℂ := s.betaRe k + Complex.I * s.betaIm k

noncomputable def gamC (s : Arrays) (k : ℕ) : ℂ := star (s.betaRe k) + Complex.I * star (s.betaIm k)

theorem coeff_full (h mu : ℝ) (L M : ℕ) (a : ℕ → ℂ) :
    let s := arrays h mu L M a
    let N := M + L
    coefficients h mu L M a false =
      ((List.range (2 * N + 1)).map s.alpha ++ (List.range (2 * N + 1)).map (fun j => -s.alpha j),
       (List.range (2 * N + 1)).map (fun j => gam s j / 2)
        ++ (List.range (2 * N + 1)).map (fun j => -gamC s (2 * N - j) / 2),
       List.replicate (2 * (2 * N + 1)) 0) := by
  intro s N
  have hb : (addArr (toList N s.betaRe) ((toList N s.betaIm).map (Complex.I * ·))
      ++ addArr ((toList N fun k => star (s.betaRe k)).reverse.map (-·))
        ((toList N fun k => star (s.betaIm k)).reverse.map fun c => -(Complex.I * c))).map (· / 2)
      = (List.range (2 * N + 1)).map (fun j => gam s j / 2)
        ++ (List.range (2 * N + 1)).map (fun j => -gamC s (2 * N - j) / 2) := by
    rw [List.map_append]
    congr 1
    · apply List.ext_getElem
      · simp [addArr, toList]
      · intro i h1 h2
        simp [addArr, toList, gam]
    · apply List.ext_getElem
      · simp [addArr, toList]
      · intro i h1 h2
        simp only [addArr, toList, gamC, List.getElem_map, List.getElem_zipWith, List.getElem_reverse,
          List.getElem_range, List.length_map, List.length_range]
        simp only [List.length_map, List.length_range] at h2
        rw [show 2 * N + 1 - 1 - i = 2 * N - i by omega]
        ring
  have hlen : ((addArr (toList N s.betaRe) ((toList N s.betaIm).map (Complex.I * ·))
      ++ addArr ((toList N fun k => star (s.betaRe k)).reverse.map (-·))
        ((toList N fun k => star (s.betaIm k)).reverse.map fun c => -(Complex.I * c))).map (· / 2)).length
      = 2 * (2 * N + 1) := by rw [hb]; simp; ring
  simp only [coefficients, Bool.false_eq_true, if_false]
  change (_, _, List.replicate _ 0) = _
  rw [hlen, hb]
  simp [toList, s, N, Function.comp_def]

/-- Halving at the middle. -/
noncomputable def hv (N : ℕ) (f : ℕ → ℂ) (k : ℕ) : ℂ := if k = N then f k / 2 else f k

theorem coeff_half (h mu : ℝ) (L M : ℕ) (a : ℕ → ℂ) :
    let s := arrays h mu L M a
    let N := M + L
    coefficients h mu L M a true =
      ((List.range (N + 1)).map (fun j => s.alpha (N + j)) ++ (List.range (N + 1)).map (fun j => -s.alpha (N + j)),
       (List.range (N + 1)).map (fun j => hv N (gam s) (N + j) / 2)
        ++ (List.range (N + 1)).map (fun j => -hv N (gamC s) (N - j) / 2),
       (List.range (N + 1)).map (fun j => hv N (gam s) (N - j) / 2)
        ++ (List.range (N + 1)).map (fun j => -hv N (gamC s) (N + j) / 2)) := by
  intro s N
  have up : ∀ f : ℕ → ℂ, (toList N f).drop N = (List.range (N + 1)).map fun j => f (N + j) := by
    intro f
    apply List.ext_getElem
    · simp [toList]; omega
    · intro i h1 h2
      simp [toList]
  have down : ∀ f : ℕ → ℂ, ((toList N f).take (N + 1)).reverse = (List.range (N + 1)).map fun j => f (N - j) := by
    intro f
    apply List.ext_getElem
    · simp [toList]; omega
    · intro i h1 h2
      simp only [toList, List.getElem_reverse, List.getElem_take, List.getElem_map, List.getElem_range,
        List.length_take, List.length_map, List.length_range]
      simp only [List.length_map, List.length_range] at h2
      congr 1
      omega
  have zipr : ∀ f g : ℕ → ℂ, addArr ((List.range (N + 1)).map f) ((List.range (N + 1)).map g)
      = (List.range (N + 1)).map fun j => f j + g j := by
    intro f g
    apply List.ext_getElem
    · simp [addArr]
    · intro i h1 h2
      simp [addArr]
  simp only [coefficients, if_true]
  change (List.drop N (toList N s.alpha) ++ _, _, _) = _
  have hM : M + L = N := rfl
  simp only [hM]
  simp only [up, down, List.map_map, Function.comp_def]
  simp only [zipr, List.map_append, List.map_map, Function.comp_def]
  refine Prod.ext rfl (Prod.ext ?_ ?_)
  · simp only
    congr 1
    · apply List.map_congr_left
      intro j _
      by_cases hj : N + j = N
      · simp [hv, gam, Function.update_apply, hj, s]; ring
      · simp only [hv, gam, Function.update_apply, if_neg hj, s]
    · apply List.map_congr_left
      intro j _
      by_cases hj : N - j = N
      · simp [hv, gamC, Function.update_apply, hj, s]; ring
      · simp only [hv, gamC, Function.update_apply, if_neg hj, s]; ring
  · simp only
    congr 1
    · apply List.map_congr_left
      intro j _
      by_cases hj : N - j = N
      · simp [hv, gam, Function.update_apply, hj, s]; ring
      · simp only [hv, gam, Function.update_apply, if_neg hj, s]
    · apply List.map_congr_left
      intro j _
      by_cases hj : N + j = N
      · simp [hv, gamC, Function.update_apply, hj, s]; ring
      · simp only [hv, gamC, Function.update_apply, if_neg hj, s]; ring

theorem getD_two {n : ℕ} (f g : ℕ → ℂ) (j : ℕ) (hj : j < n) :
    ((List.range n).map f ++ (List.range n).map g).getD j 0 = f j ∧
    ((List.range n).map f ++ (List.range n).map g).getD (n + j) 0 = g j := by
  constructor
  · rw [List.getD_append _ _ _ _ (by simpa using hj), List.getD_eq_getElem _ _ (by simpa using hj)]; simp
  · rw [List.getD_append_right _ _ _ _ (by simp), List.getD_eq_getElem _ _ (by simpa using hj)]; simp

/-- **C52** (number of terms): `4N + 2`, or `2N + 2` when reduced to half, in all three arrays. -/
theorem C52_length (h mu : ℝ) (L M : ℕ) (a : ℕ → ℂ) (half : Bool) :
    let c := coefficients h mu L M a half
    c.1.length = (if half then 2 * (M + L) + 2 else 4 * (M + L) + 2) ∧
      c.2.1.length = c.1.length ∧ c.2.2.length = c.1.length := by
  cases half
  · rw [coeff_full]; simp; omega
  · rw [coeff_half]; simp; omega

theorem alphaAt_conj (h mu : ℝ) (N k : ℕ) (hk : k ≤ 2 * N) :
    star (alphaAt h mu N k) = alphaAt h mu N (2 * N - k) := by
  simp only [alphaAt]
  have : ((2 * N - k : ℕ) : ℤ) = 2 * (N : ℤ) - k := by omega
  rw [this]
  simp
  left
  ring

/-- **C52** (poles).  With `h` and `mu` non-zero no pole lies on the imaginary axis. -/
theorem C52_poles (h mu : ℝ) (hh : h ≠ 0) (hmu : mu ≠ 0) (L M : ℕ) (a : ℕ → ℂ) (half : Bool) (x : ℝ) :
    ∀ al ∈ (coefficients h mu L M a half).1, Complex.I * (x : ℂ) + al ≠ 0 := by
  have key : ∀ k, k ≤ 2 * (M + L) → ∀ al, (al = (arrays h mu L M a).alpha k ∨ al = -(arrays h mu L M a).alpha k) →
      Complex.I * (x : ℂ) + al ≠ 0 := by
    intro k hk al hal he
    have h1 := congrArg Complex.re he
    rw [(arrays_eq h mu L M a).1 k hk] at hal
    rcases hal with rfl | rfl <;> simp [alphaAt, hh, hmu] at h1
  intro al hal
  cases half
  · rw [coeff_full] at hal
    simp only [List.mem_append, List.mem_map, List.mem_range] at hal
    rcases hal with ⟨k, hk, rfl⟩ | ⟨k, hk, rfl⟩
    · exact key k (by omega) _ (Or.inl rfl)
    · exact key k (by omega) _ (Or.inr rfl)
  · rw [coeff_half] at hal
    simp only [List.mem_append, List.mem_map, List.mem_range] at hal
    rcases hal with ⟨k, hk, rfl⟩ | ⟨k, hk, rfl⟩
    · exact key (M + L + k) (by omega) _ (Or.inl rfl)
    · exact key (M + L + k) (by omega) _ (Or.inr rfl)

theorem rational_full (h mu : ℝ) (L M : ℕ) (a : ℕ → ℂ) (z : ℂ) :
    let s := arrays h mu L M a
    let N := M + L
    rational (coefficients h mu L M a false).1 (coefficients h mu L M a false).2.1 z =
      (∑ k ∈ Finset.range (2 * N + 1), gam s k / (z + alphaAt h mu N k)) / 2
      - (∑ k ∈ Finset.range (2 * N + 1), gamC s k / (z - alphaAt h mu N (2 * N - k))) / 2 := by
  intro s N
  have hal := (arrays_eq h mu L M a).1
  rw [rational, (C52_length h mu L M a false).1, coeff_full]
  simp only [Bool.false_eq_true, if_false]
  rw [show 4 * (M + L) + 2 = (2 * N + 1) + (2 * N + 1) by simp only [N]; ring, Finset.sum_range_add,
    Finset.sum_div, Finset.sum_div, sub_eq_add_neg, ← Finset.sum_neg_distrib]
  congr 1
  · refine Finset.sum_congr rfl fun k hk => ?_
    rw [Finset.mem_range] at hk
    rw [(getD_two _ _ k hk).1, (getD_two _ _ k hk).1, hal k (by omega)]
    ring
  · rw [← Finset.sum_range_reflect]
    refine Finset.sum_congr rfl fun k hk => ?_
    rw [Finset.mem_range] at hk
    rw [(getD_two _ _ _ (by omega)).2, (getD_two _ _ _ (by omega)).2, hal _ (by omega)]
    rw [show 2 * N + 1 - 1 - k = 2 * N - k by omega, show 2 * N - (2 * N - k) = k by omega]
    rw [← sub_eq_add_neg]
    ring

/-- **C52** (full set).  The single sum over the returned coefficients is the documented double sum, for every
real `x`. -/
theorem C52_full (h mu : ℝ) (L M : ℕ) (a : ℕ → ℂ) (x : ℝ) :
    rational (coefficients h mu L M a false).1 (coefficients h mu L M a false).2.1 (Complex.I * (x : ℂ))
      = doubleSum h mu L M a x := by
  set s := arrays h mu L M a with hs
  set N := M + L with hN
  set z : ℂ := Complex.I * (x : ℂ) with hz
  have hzc : star z = -z := by simp [hz]
  obtain ⟨-, hre, him⟩ := arrays_eq h mu L M a
  rw [rational_full]
  -- the two halves are conjugate
  have hcj : ∀ k ∈ Finset.range (2 * N + 1), gamC s k / (z - alphaAt h mu N (2 * N - k)) =
      -(star (s.betaRe k / (z + alphaAt h mu N k)) + Complex.I * star (s.betaIm k / (z + alphaAt h mu N k))) := by
    intro k hk
    rw [Finset.mem_range] at hk
    have e : z - alphaAt h mu N (2 * N - k) = -star (z + alphaAt h mu N k) := by
      rw [← alphaAt_conj h mu N k (by omega), star_add, hzc]; ring
    rw [e, gamC, star_div₀, star_div₀, div_neg]
    ring
  rw [Finset.sum_congr rfl hcj, Finset.sum_neg_distrib, sub_eq_add_neg, neg_div, neg_neg, ← add_div,
    ← Finset.sum_add_distrib]
  have hterm : ∀ k ∈ Finset.range (2 * N + 1), gam s k / (z + alphaAt h mu N k) +
      (star (s.betaRe k / (z + alphaAt h mu N k)) + Complex.I * star (s.betaIm k / (z + alphaAt h mu N k)))
      = 2 * (((s.betaRe k * (1 / (z + alphaAt h mu N k))).re : ℂ)
        + Complex.I * ((s.betaIm k * (1 / (z + alphaAt h mu N k))).re : ℂ)) := by
    intro k _
    have e1 : ∀ w : ℂ, w + star w = 2 * (w.re : ℂ) := fun w => by
      have := Complex.add_conj w
      simpa using this
    have h1 := e1 (s.betaRe k / (z + alphaAt h mu N k))
    have h2 := e1 (s.betaIm k / (z + alphaAt h mu N k))
    rw [mul_one_div, mul_one_div, gam, add_div]
    linear_combination h1 + Complex.I * h2
  rw [Finset.sum_congr rfl hterm, ← Finset.mul_sum, mul_div_cancel_left₀ _ (two_ne_zero), Finset.sum_add_distrib,
    ← Finset.mul_sum, ← Complex.ofReal_sum, ← Complex.ofReal_sum, ← Complex.re_sum, ← Complex.re_sum]
  have hR : ∑ k ∈ Finset.range (2 * N + 1), s.betaRe k * (1 / (z + alphaAt h mu N k)) =
      ∑ m ∈ Finset.range (2 * M + 1), ((bCoeff h M m).re : ℂ) *
          ∑ l ∈ Finset.range (2 * L + 1), (h : ℂ) * a l * (1 / (z + alphaAt h mu N (l + m))) := by
    refine Eq.trans ?_ (conv_sum h L M a _ (fun k => 1 / (z + alphaAt h mu N k)))
    exact Finset.sum_congr rfl fun k _ => by rw [hs, hre]
  have hI : ∑ k ∈ Finset.range (2 * N + 1), s.betaIm k * (1 / (z + alphaAt h mu N k)) =
      ∑ m ∈ Finset.range (2 * M + 1), ((bCoeff h M m).im : ℂ) *
          ∑ l ∈ Finset.range (2 * L + 1), (h : ℂ) * a l * (1 / (z + alphaAt h mu N (l + m))) := by
    refine Eq.trans ?_ (conv_sum h L M a _ (fun k => 1 / (z + alphaAt h mu N k)))
    exact Finset.sum_congr rfl fun k _ => by rw [hs, him]
  rw [hR, hI, doubleSum, Complex.re_sum, Complex.re_sum, Complex.ofReal_sum, Complex.ofReal_sum, Finset.mul_sum,
    ← Finset.sum_add_distrib]
  refine Finset.sum_congr rfl fun m _ => ?_
  have hin : ∑ l ∈ Finset.range (2 * L + 1), (h : ℂ) * a l * (1 / (z + alphaAt h mu N (l + m))) =
      ∑ l ∈ Finset.range (2 * L + 1), (h : ℂ) * a l / (z + (h : ℂ) * ((mu : ℂ) +
        Complex.I * (((l : ℤ) - (L : ℤ) + ((m : ℤ) - (M : ℤ)) : ℤ) : ℂ))) := by
    refine Finset.sum_congr rfl fun l _ => ?_
    rw [mul_one_div, alphaAt, hN]
    congr 5
    push_cast
    ring
  rw [hin, Complex.re_ofReal_mul, Complex.re_ofReal_mul]
  conv_rhs => rw [← Complex.re_add_im (bCoeff h M m)]
  push_cast
  ring

/-- **C52** (reduced set).  The sum over the returned half, with `beta2` multiplying the conjugate of the
solution (for a real problem, `1/(z + alpha)` conjugated becomes the conjugate of `1/(conj z + alpha)`), equals
the sum over the full set, for every complex `z`. -/
theorem C52_half (h mu : ℝ) (L M : ℕ) (a : ℕ → ℂ) (z : ℂ) :
    let c := coefficients h mu L M a true
    ∑ j ∈ Finset.range c.1.length,
      (c.2.1.getD j 0 * (1 / (z + c.1.getD j 0)) + c.2.2.getD j 0 * star (1 / (star z + c.1.getD j 0)))
    = rational (coefficients h mu L M a false).1 (coefficients h mu L M a false).2.1 z := by
  intro c
  set s := arrays h mu L M a with hs
  set N := M + L with hN
  have hal := (arrays_eq h mu L M a).1
  rw [rational_full, (C52_length h mu L M a true).1]
  simp only [c]
  rw [coeff_half]
  simp only [if_true]
  rw [show 2 * (M + L) + 2 = (N + 1) + (N + 1) by simp only [N]; ring, Finset.sum_range_add]
  -- symmetric sums
  have fold : ∀ f : ℕ → ℂ, ∑ k ∈ Finset.range (2 * N + 1), f k =
      ∑ j ∈ Finset.range (N + 1), ((if N + j = N then f (N + j) / 2 else f (N + j))
        + (if N - j = N then f (N - j) / 2 else f (N - j))) := by
    intro f
    rw [Finset.sum_add_distrib, show 2 * N + 1 = N + (N + 1) by ring, Finset.sum_range_add,
      Finset.sum_range_succ' (fun j => if N + j = N then f (N + j) / 2 else f (N + j)),
      Finset.sum_range_succ' (fun j => if N - j = N then f (N - j) / 2 else f (N - j)),
      Finset.sum_range_succ' (fun j => f (N + j))]
    simp only [Nat.add_zero, Nat.sub_zero, if_true]
    have e1 : ∑ j ∈ Finset.range N, (if N + (j + 1) = N then f (N + (j + 1)) / 2 else f (N + (j + 1)))
        = ∑ j ∈ Finset.range N, f (N + (j + 1)) :=
      Finset.sum_congr rfl fun j _ => if_neg (by omega)
    have e2 : ∑ j ∈ Finset.range N, (if N - (j + 1) = N then f (N - (j + 1)) / 2 else f (N - (j + 1)))
        = ∑ j ∈ Finset.range N, f j := by
      rw [← Finset.sum_range_reflect f N]
      refine Finset.sum_congr rfl fun j hj => ?_
      rw [Finset.mem_range] at hj
      rw [if_neg (by omega)]
      congr 1
      omega
    rw [e1, e2]
    ring
  have hv' : ∀ (f g : ℕ → ℂ) k, (if k = N then (f k / g k) / 2 else f k / g k) = hv N f k / g k := by
    intro f g k
    unfold hv
    split <;> ring
  have hstar : ∀ (w al : ℂ), star (1 / (star w + al)) = 1 / (w + star al) := by
    intro w al
    rw [star_div₀, star_one, star_add, star_star]
  rw [fold (fun k => gam s k / (z + alphaAt h mu N k)),
    fold (fun k => gamC s k / (z - alphaAt h mu N (2 * N - k))), Finset.sum_div, Finset.sum_div, sub_eq_add_neg,
    ← Finset.sum_neg_distrib]
  congr 1
  · refine Finset.sum_congr rfl fun j hj => ?_
    rw [Finset.mem_range] at hj
    rw [(getD_two _ _ j hj).1, (getD_two _ _ j hj).1, (getD_two _ _ j hj).1, hstar, hal _ (by omega),
      alphaAt_conj h mu N _ (by omega), show 2 * N - (N + j) = N - j by omega]
    rw [hv' (gam s) (fun k => z + alphaAt h mu N k), hv' (gam s) (fun k => z + alphaAt h mu N k)]
    ring
  · refine Finset.sum_congr rfl fun j hj => ?_
    rw [Finset.mem_range] at hj
    rw [hv' (gamC s) (fun k => z - alphaAt h mu N (2 * N - k)), hv' (gamC s) (fun k => z - alphaAt h mu N (2 * N - k))]
    rw [(getD_two _ _ j hj).2, (getD_two _ _ j hj).2, (getD_two _ _ j hj).2, hstar, hal _ (by omega), star_neg,
      alphaAt_conj h mu N _ (by omega), show 2 * N - (N + j) = N - j by omega,
      show 2 * N - (N - j) = N + j by omega, ← sub_eq_add_neg, ← sub_eq_add_neg]
    ring

/-- **C52** (symmetry of the coefficients of Caliari et al.).  The extension of a list with a real first entry is
symmetric under conjugation. -/
theorem C52_caliari (L : ℕ) (a : List ℂ) (hL : a.length = L + 1) (h0 : star (a.getD 0 0) = a.getD 0 0) :
    (caliariExtend L a).length = 2 * L + 1 ∧
    (∀ l ≤ L, (caliariExtend L a).getD (L + l) 0 = a.getD l 0) ∧
    ∀ l ≤ 2 * L, (caliariExtend L a).getD (2 * L - l) 0 = star ((caliariExtend L a).getD l 0) := by
  have hlen : (caliariExtend L a).length = 2 * L + 1 := by simp [caliariExtend, hL]; omega
  have hlow : ∀ l < L, (caliariExtend L a).getD l 0 = star (a.getD (L - l) 0) := by
    intro l hl
    rw [List.getD_eq_getElem _ _ (by omega), List.getD_eq_getElem _ _ (by omega)]
    simp only [caliariExtend, List.getElem_map, List.getElem_zipIdx, Nat.zero_add, if_pos hl]
    rw [List.getElem_append_left (by simp; omega), List.getElem_reverse]
    congr 2
    omega
  have hhigh : ∀ l ≤ L, (caliariExtend L a).getD (L + l) 0 = a.getD l 0 := by
    intro l hl
    rw [List.getD_eq_getElem _ _ (by omega), List.getD_eq_getElem _ _ (by omega)]
    simp only [caliariExtend, List.getElem_map, List.getElem_zipIdx, Nat.zero_add,
      if_neg (show ¬ L + l < L by omega)]
    rcases Nat.eq_zero_or_pos l with rfl | hpos
    · rw [List.getElem_append_left (by simp; omega), List.getElem_reverse]
      congr 1
      simp only [hL]; omega
    · rw [List.getElem_append_right (by simp; omega), List.getElem_drop]
      congr 1
      simp only [List.length_reverse, hL]; omega
  refine ⟨hlen, hhigh, fun l hl => ?_⟩
  rcases lt_trichotomy l L with h | h | h
  · rw [hlow l h, show 2 * L - l = L + (L - l) by omega, hhigh _ (by omega), star_star]
  · subst h
    rw [show 2 * l - l = l + 0 by omega, hhigh 0 (by omega)]
    have := hhigh 0 (by omega)
    rw [Nat.add_zero] at this
    rw [this, h0]
  · rw [hlow (2 * L - l) (by omega), show L - (2 * L - l) = l - L by omega]
    have := hhigh (l - L) (by omega)
    rw [show L + (l - L) = l by omega] at this
    rw [this]

/-! ### C77: the solve -/

/-- The complex system `alpha w + tau L w = U`, in real and imaginary parts (C53). -/
def System (Lop : V →ₗ[ℝ] V) (tau : ℝ) (U : V) (al : ℂ) (w : V × V) : Prop :=
  al.re • w.1 - al.im • w.2 + tau • Lop w.1 = U ∧ al.im • w.1 + al.re • w.2 + tau • Lop w.2 = 0

/-- The solver returns the only solution of each system. -/
def ExactSolver (Lop : V →ₗ[ℝ] V) (tau : ℝ) (U : V) (alpha : List ℂ) (solver : ℂ → V × V) : Prop :=
  ∀ al ∈ alpha, ∀ w, System Lop tau U al w ↔ w = solver al

theorem solver_mode (Lop : V →ₗ[ℝ] V) (tau om : ℝ) (U1 U2 : V) (h1 : Lop U1 = -(om • U2))
    (h2 : Lop U2 = om • U1) (al p q : ℂ) (hp : (al + Complex.I * (tau * om : ℝ)) * p = 1)
    (hq : (al - Complex.I * (tau * om : ℝ)) * q = 1) :
    System Lop tau U1 al (((p + q).re / 2) • U1 - ((p - q).im / 2) • U2,
      ((p + q).im / 2) • U1 + ((p - q).re / 2) • U2) := by
  have p1 := congrArg Complex.re hp
  have p2 := congrArg Complex.im hp
  have q1 := congrArg Complex.re hq
  have q2 := congrArg Complex.im hq
  simp at p1 p2 q1 q2
  constructor
  · simp only [map_sub, map_smul, h1, h2, Complex.add_re, Complex.sub_im, Complex.add_im, Complex.sub_re]
    match_scalars
    · linear_combination (1 / 2 : ℝ) * (p1 + q1)
    · linear_combination -(1 / 2 : ℝ) * (p2 - q2)
  · simp only [map_add, map_smul, h1, h2, Complex.add_re, Complex.sub_im, Complex.add_im, Complex.sub_re]
    match_scalars
    · linear_combination (1 / 2 : ℝ) * (p2 + q2)
    · linear_combination (1 / 2 : ℝ) * (p1 - q1)

/-- **C77** (modes).  On an oscillation with frequency `om` (`L U1 = -om U2`, `L U2 = om U1`, so that
`exp(tau L) U1 = cos(om tau) U1 - sin(om tau) U2`) `solve` replaces the exponential by the rational function `r`:
the cosine by the even part of `Re r(i om tau)` and the sine by the odd part of `Im r(i om tau)`. -/
theorem C77_mode (Lop : V →ₗ[ℝ] V) (tau om : ℝ) (U1 U2 : V) (h1 : Lop U1 = -(om • U2)) (h2 : Lop U2 = om • U1)
    (alpha beta : List ℂ) (solver : ℂ → V × V) (hs : ExactSolver Lop tau U1 alpha solver)
    (hpole : ∀ x : ℝ, ∀ al ∈ alpha, Complex.I * (x : ℂ) + al ≠ 0) :
    let r := rational alpha beta
    let z := Complex.I * ((om * tau : ℝ) : ℂ)
    solveSerial alpha beta solver =
      (((r z).re + (r (-z)).re) / 2) • U1 - (((r z).im - (r (-z)).im) / 2) • U2 := by
  intro r z
  rw [C51_serial]
  have hterm : ∀ j ∈ Finset.range alpha.length,
      ((beta.getD j 0).re • (solver (alpha.getD j 0)).1 - (beta.getD j 0).im • (solver (alpha.getD j 0)).2) =
      (((beta.getD j 0 / (z + alpha.getD j 0)).re + (beta.getD j 0 / (-z + alpha.getD j 0)).re) / 2) • U1
      - (((beta.getD j 0 / (z + alpha.getD j 0)).im - (beta.getD j 0 / (-z + alpha.getD j 0)).im) / 2) • U2 := by
    intro j hj
    rw [Finset.mem_range] at hj
    have hmem : alpha.getD j 0 ∈ alpha := by
      rw [List.getD_eq_getElem _ _ hj]; exact List.getElem_mem hj
    generalize hal : alpha.getD j 0 = al at hmem ⊢
    generalize beta.getD j 0 = b
    have hz1 := hpole (om * tau) al hmem
    have hz2 := hpole (-(om * tau)) al hmem
    have e1 : z + al ≠ 0 := hz1
    have e2 : -z + al ≠ 0 := by
      intro h; apply hz2; rw [← h]; simp [z]
    have hsol := solver_mode Lop tau om U1 U2 h1 h2 al (1 / (z + al)) (1 / (-z + al))
      (by rw [mul_one_div]; rw [div_eq_one_iff_eq e1]; simp only [z]; push_cast; ring)
      (by rw [mul_one_div]; rw [div_eq_one_iff_eq e2]; simp only [z]; push_cast; ring)
    rw [← (hs al hmem _).1 hsol, div_eq_mul_one_div b, div_eq_mul_one_div b]
    generalize 1 / (z + al) = p
    generalize 1 / (-z + al) = q
    simp only [Complex.mul_re, Complex.mul_im, Complex.add_re, Complex.add_im, Complex.sub_re, Complex.sub_im]
    module
  rw [Finset.sum_congr rfl hterm, Finset.sum_sub_distrib, ← Finset.sum_smul, ← Finset.sum_smul,
    ← Finset.sum_div, ← Finset.sum_div, Finset.sum_add_distrib, Finset.sum_sub_distrib]
  simp only [r, rational, Complex.re_sum, Complex.im_sum]

/-- **C77** (steady states).  A steady state (`L U = 0`) is multiplied by `Re r(0)`, for every timestep. -/
theorem C77_steady (Lop : V →ₗ[ℝ] V) (tau : ℝ) (U : V) (h : Lop U = 0) (alpha beta : List ℂ)
    (solver : ℂ → V × V) (hs : ExactSolver Lop tau U alpha solver)
    (hpole : ∀ x : ℝ, ∀ al ∈ alpha, Complex.I * (x : ℂ) + al ≠ 0) :
    solveSerial alpha beta solver = (rational alpha beta 0).re • U := by
  rw [C77_mode Lop tau 0 U 0 (by simpa using h) (by simp) alpha beta solver hs hpole]
  simp

/-- Conjugate-symmetric coefficients make the second array of the reduced set the conjugate of the first. -/
theorem half_conj (h mu : ℝ) (L M : ℕ) (a : ℕ → ℂ) (ha : ∀ l ≤ 2 * L, a (2 * L - l) = star (a l)) :
    ∀ j, (coefficients h mu L M a true).2.2.getD j 0 = star ((coefficients h mu L M a true).2.1.getD j 0) := by
  set s := arrays h mu L M a with hs
  set N := M + L with hN
  obtain ⟨-, hre, him⟩ := arrays_eq h mu L M a
  have hb : ∀ m ≤ 2 * M, bCoeff h M (2 * M - m) = star (bCoeff h M m) := by
    intro m hm
    have e : ((2 * M - m : ℕ) : ℤ) = 2 * (M : ℤ) - m := by omega
    simp only [bCoeff, e]
    rw [Complex.star_def, map_mul, ← Complex.exp_conj, ← Complex.exp_conj]
    simp only [map_mul, map_neg, Complex.conj_I, Complex.conj_ofReal, map_intCast]
    congr 2
    push_cast
    ring
  have hc : ∀ (c c' : ℕ → ℝ), (∀ m ≤ 2 * M, c (2 * M - m) = c' m) → ∀ k ≤ 2 * N,
      conv h L M a c (2 * N - k) = star (conv h L M a c' k) := by
    intro c c' hcc k hk
    simp only [conv, star_sum]
    rw [← Finset.sum_range_reflect]
    refine Finset.sum_congr rfl fun l hl => ?_
    rw [← Finset.sum_range_reflect]
    refine Finset.sum_congr rfl fun m hm => ?_
    rw [Finset.mem_range] at hl hm
    rw [show 2 * L + 1 - 1 - l = 2 * L - l by omega, show 2 * M + 1 - 1 - m = 2 * M - m by omega]
    by_cases hk2 : l + m = k
    · rw [if_pos (by omega), if_pos hk2, hcc m (by omega), ha l (by omega)]
      simp
    · rw [if_neg (by omega), if_neg hk2, star_zero]
  have hgre : ∀ k ≤ 2 * N, s.betaRe (2 * N - k) = star (s.betaRe k) := by
    intro k hk
    rw [hs, hre, hre]
    refine hc _ _ (fun m hm => ?_) k hk
    rw [hb m hm]; simp
  have hgim : ∀ k ≤ 2 * N, s.betaIm (2 * N - k) = -star (s.betaIm k) := by
    intro k hk
    rw [hs, him, him]
    rw [hc _ (fun m => -(bCoeff h M m).im) (fun m hm => by rw [hb m hm]; simp) k hk]
    simp only [conv, star_sum, ← Finset.sum_neg_distrib]
    refine Finset.sum_congr rfl fun l _ => Finset.sum_congr rfl fun m _ => ?_
    split <;> simp
  have g1 : ∀ k ≤ 2 * N, gam s (2 * N - k) = star (gam s k) := by
    intro k hk
    rw [gam, gam, hgre k hk, hgim k hk, star_add, star_mul']
    simp
  have g2 : ∀ k ≤ 2 * N, gamC s (2 * N - k) = star (gamC s k) := by
    intro k hk
    rw [gamC, gamC, hgre k hk, hgim k hk, star_add, star_mul']
    simp
  have hvs : ∀ (f : ℕ → ℂ), (∀ k ≤ 2 * N, f (2 * N - k) = star (f k)) → ∀ k ≤ 2 * N,
      hv N f (2 * N - k) = star (hv N f k) := by
    intro f hf k hk
    unfold hv
    by_cases hkN : k = N
    · rw [if_pos (by omega), if_pos hkN, hf k hk, star_div₀]; simp
    · rw [if_neg (by omega), if_neg hkN, hf k hk]
  intro j
  rw [coeff_half]
  simp only
  by_cases hj : j < N + 1
  · rw [(getD_two _ _ j hj).1, (getD_two _ _ j hj).1]
    have := hvs _ g1 (N + j) (by omega)
    rw [show 2 * N - (N + j) = N - j by omega] at this
    simp only [← hN, ← hs]
    rw [this, star_div₀]; simp
  · by_cases hj2 : j < (N + 1) + (N + 1)
    · obtain ⟨i, rfl⟩ : ∃ i, j = (N + 1) + i := ⟨j - (N + 1), by omega⟩
      rw [(getD_two _ _ i (by omega)).2, (getD_two _ _ i (by omega)).2]
      have := hvs _ g2 (N - i) (by omega)
      rw [show 2 * N - (N - i) = N + i by omega] at this
      simp only [← hN, ← hs]
      rw [this, star_div₀]; simp
    · rw [List.getD_eq_default _ _ (by simp; omega), List.getD_eq_default _ _ (by simp; omega), star_zero]

/-- **C77** (reduced set, what the code returns).  With coefficients that are symmetric under conjugation (those of
Caliari et al.), `solve` with `reduce_to_half` returns on every mode exactly half of the result without it: the
array `beta2` is not used. -/
theorem C77_half_partial (h mu : ℝ) (hh : h ≠ 0) (hmu : mu ≠ 0) (L M : ℕ) (a : ℕ → ℂ)
    (ha : ∀ l ≤ 2 * L, a (2 * L - l) = star (a l)) (Lop : V →ₗ[ℝ] V) (tau om : ℝ) (U1 U2 : V)
    (h1 : Lop U1 = -(om • U2)) (h2 : Lop U2 = om • U1) (solver : ℂ → V × V)
    (hs : ExactSolver Lop tau U1 (coefficients h mu L M a false).1 solver)
    (hs' : ExactSolver Lop tau U1 (coefficients h mu L M a true).1 solver) :
    solveSerial (coefficients h mu L M a true).1 (coefficients h mu L M a true).2.1 solver =
      (1 / 2 : ℝ) • solveSerial (coefficients h mu L M a false).1 (coefficients h mu L M a false).2.1 solver := by
  rw [C77_mode Lop tau om U1 U2 h1 h2 _ _ solver hs (fun x => C52_poles h mu hh hmu L M a false x),
    C77_mode Lop tau om U1 U2 h1 h2 _ _ solver hs' (fun x => C52_poles h mu hh hmu L M a true x)]
  set z := Complex.I * ((om * tau : ℝ) : ℂ) with hz
  have hzc : star z = -z := by simp [hz]
  have key : ∀ w : ℂ, rational (coefficients h mu L M a false).1 (coefficients h mu L M a false).2.1 w =
      rational (coefficients h mu L M a true).1 (coefficients h mu L M a true).2.1 w
      + star (rational (coefficients h mu L M a true).1 (coefficients h mu L M a true).2.1 (star w)) := by
    intro w
    rw [← C52_half]
    simp only [rational, star_sum]
    rw [← Finset.sum_add_distrib]
    refine Finset.sum_congr rfl fun j _ => ?_
    rw [half_conj h mu L M a ha j, ← star_mul', mul_one_div, mul_one_div]
  have k1 := key z
  have k2 := key (-z)
  rw [hzc] at k1
  rw [star_neg, hzc, neg_neg] at k2
  rw [k1, k2]
  simp only [Complex.add_re, Complex.add_im, Complex.star_def, Complex.conj_re, Complex.conj_im]
  module

theorem caliari_sym : ∀ l ≤ 2 * 24, caliariCoeff (2 * 24 - l) = star (caliariCoeff l) := by
  refine (C52_caliari 24 _ (by simp [caliariA]) ?_).2.2
  simp [caliariA, Complex.ext_iff]

/-- Real part of the `n`-th term of the approximation at 0. -/
noncomputable def gTerm (n : ℕ) : ℝ :=
  ((caliariA.getD n (0, 0)).1 * caliariMu + (caliariA.getD n (0, 0)).2 * n) / (caliariMu ^ 2 + (n : ℝ) ^ 2)

theorem caliari_high (n : ℕ) (hn : n ≤ 24) :
    caliariCoeff (24 + n) = ⟨(caliariA.getD n (0, 0)).1, (caliariA.getD n (0, 0)).2⟩ := by
  rw [caliariCoeff, (C52_caliari 24 _ (by simp [caliariA]) (by simp [caliariA, Complex.ext_iff])).2.1 n hn]
  rw [List.getD_eq_getElem _ _ (by simp [caliariA]; omega), List.getD_eq_getElem _ _ (by simp [caliariA]; omega)]
  simp

theorem re_div_term (p q mu n : ℝ) : ((⟨p, q⟩ : ℂ) / ((mu : ℂ) + Complex.I * (n : ℂ))).re =
    (p * mu + q * n) / (mu ^ 2 + n ^ 2) := by
  rw [Complex.div_re]
  simp [Complex.normSq_apply]
  rw [← add_div]
  congr 1
  ring

theorem caliari_zero_sum :
    (∑ l ∈ Finset.range 49, caliariCoeff l / ((caliariMu : ℂ) + Complex.I * (((l : ℤ) - 24 : ℤ) : ℂ))).re =
      ∑ n ∈ Finset.range 24, gTerm (n + 1) + ∑ n ∈ Finset.range 25, gTerm n := by
  rw [Complex.re_sum, show 49 = 24 + 25 from rfl, Finset.sum_range_add]
  congr 1
  · rw [← Finset.sum_range_reflect]
    refine Finset.sum_congr rfl fun n hn => ?_
    rw [Finset.mem_range] at hn
    have hs := caliari_sym (24 + (n + 1)) (by omega)
    rw [show 24 - 1 - n = 2 * 24 - (24 + (n + 1)) by omega, hs, caliari_high _ (by omega), gTerm]
    have e : (((2 * 24 - (24 + (n + 1)) : ℕ) : ℤ) - 24 : ℤ) = -((n : ℤ) + 1) := by omega
    rw [e]
    have := re_div_term (caliariA.getD (n + 1) (0, 0)).1 (-(caliariA.getD (n + 1) (0, 0)).2) caliariMu (-(n + 1))
    rw [show star (⟨(caliariA.getD (n + 1) (0, 0)).1, (caliariA.getD (n + 1) (0, 0)).2⟩ : ℂ) =
      ⟨(caliariA.getD (n + 1) (0, 0)).1, -(caliariA.getD (n + 1) (0, 0)).2⟩ from rfl]
    push_cast at this ⊢
    rw [this]
    congr 1 <;> ring
  · refine Finset.sum_congr rfl fun n hn => ?_
    rw [Finset.mem_range] at hn
    rw [caliari_high _ (by omega), gTerm]
    have e : (((24 + n : ℕ) : ℤ) - 24 : ℤ) = n := by omega
    rw [e]
    exact_mod_cast re_div_term _ _ caliariMu n

theorem caliari_zero_pos :
    0 < ∑ n ∈ Finset.range 24, gTerm (n + 1) + ∑ n ∈ Finset.range 25, gTerm n := by
  simp only [Finset.sum_range_succ, Finset.sum_range_zero, gTerm, caliariA, caliariMu, List.getD_cons_succ,
    List.getD_cons_zero]
  norm_num

theorem caliari_r0 (h : ℝ) (hh : h ≠ 0) :
    (rational (coefficients h caliariMu 24 0 caliariCoeff false).1
      (coefficients h caliariMu 24 0 caliariCoeff false).2.1 0).re ≠ 0 := by
  have := C52_full h caliariMu 24 0 caliariCoeff 0
  simp only [Complex.ofReal_zero, mul_zero] at this
  rw [this, doubleSum]
  have hc : (h : ℂ) ≠ 0 := by exact_mod_cast hh
  simp only [Nat.mul_zero, Nat.zero_add, Finset.sum_range_one, bCoeff]
  have e : ∑ l ∈ Finset.range (2 * 24 + 1), (h : ℂ) * caliariCoeff l /
      (Complex.I * ((0 : ℝ) : ℂ) + (h : ℂ) * ((caliariMu : ℂ) + Complex.I * (((l : ℤ) - ((24 : ℕ) : ℤ) + (((0 : ℕ) : ℤ) - ((0 : ℕ) : ℤ)) : ℤ) : ℂ)))
      = ∑ l ∈ Finset.range 49, caliariCoeff l / ((caliariMu : ℂ) + Complex.I * (((l : ℤ) - 24 : ℤ) : ℂ)) := by
    refine Finset.sum_congr rfl fun l _ => ?_
    simp only [Complex.ofReal_zero, mul_zero, zero_add]
    rw [mul_div_mul_left _ _ hc]
    congr 3
    push_cast
    ring
  rw [e, caliari_zero_sum, Complex.mul_re, Complex.ofReal_re, Complex.ofReal_im]
  simp only [mul_zero, sub_zero]
  refine mul_ne_zero ?_ caliari_zero_pos.ne'
  simp only [Nat.cast_zero, sub_zero, Int.cast_zero, mul_zero, zero_mul, Complex.exp_zero, mul_one]
  rw [← Complex.ofReal_exp, Complex.ofReal_re]
  exact (Real.exp_pos _).ne'

/-- **C77** (refutation).  There is a steady state for which the solve with the coefficients of Caliari et al. (any `h`,
`M = 0`, any timestep) gives different results with and without `reduce_to_half`. -/
theorem C77_half_refuted (h : ℝ) (hh : h ≠ 0) (solver : ℂ → ℝ × ℝ) (tau : ℝ)
    (hs : ∀ al : ℂ, al ≠ 0 → ∀ w, System (0 : ℝ →ₗ[ℝ] ℝ) tau 1 al w ↔ w = solver al) :
    solveSerial (coefficients h caliariMu 24 0 caliariCoeff true).1
        (coefficients h caliariMu 24 0 caliariCoeff true).2.1 solver ≠
      solveSerial (coefficients h caliariMu 24 0 caliariCoeff false).1
        (coefficients h caliariMu 24 0 caliariCoeff false).2.1 solver := by
  have hmu : caliariMu ≠ 0 := by norm_num [caliariMu]
  have hp : ∀ half, ExactSolver (0 : ℝ →ₗ[ℝ] ℝ) tau 1 (coefficients h caliariMu 24 0 caliariCoeff half).1 solver := by
    intro half al hal
    refine hs al ?_
    have := C52_poles h caliariMu hh hmu 24 0 caliariCoeff half 0 al hal
    simpa using this
  rw [C77_half_partial h caliariMu hh hmu 24 0 caliariCoeff caliari_sym (0 : ℝ →ₗ[ℝ] ℝ) tau 0 1 0
    (by simp) (by simp) solver (hp false) (hp true)]
  rw [C77_steady (0 : ℝ →ₗ[ℝ] ℝ) tau 1 (by simp) _ _ solver (hp false)
    (fun x => C52_poles h caliariMu hh hmu 24 0 caliariCoeff false x)]
  have := caliari_r0 h hh
  intro he
  simp only [smul_eq_mul] at he
  apply this
  linarith

/-- The hypotheses of C77 are met: for `L = 0` on the reals the exact solver divides by `alpha`. -/
example (tau : ℝ) (al : ℂ) (hal : al ≠ 0) (w : ℝ × ℝ) :
    System (0 : ℝ →ₗ[ℝ] ℝ) tau 1 al w ↔ w = ((1 / al).re, (1 / al).im) := by
  have key : System (0 : ℝ →ₗ[ℝ] ℝ) tau 1 al w ↔ al * ⟨w.1, w.2⟩ = 1 := by
    simp only [System, Complex.ext_iff, Complex.mul_re, Complex.mul_im, Complex.one_re, Complex.one_im,
      LinearMap.zero_apply, smul_eq_mul, mul_zero, add_zero]
    constructor <;> rintro ⟨h1, h2⟩ <;> constructor <;> linarith
  rw [key]
  constructor
  · intro h
    have h2 : (⟨w.1, w.2⟩ : ℂ) = 1 / al := by rw [eq_div_iff hal, mul_comm]; exact h
    rw [← h2]
  · intro h
    rw [h]
    have : (⟨(1 / al).re, (1 / al).im⟩ : ℂ) = 1 / al := rfl
    simp only [this]
    rw [mul_one_div_cancel hal]

/-- A non-trivial oscillation for C77_mode: the rotation of the plane with frequency 2 and the pole `alpha = 3`. -/
example : ∃ (Lop : (ℝ × ℝ) →ₗ[ℝ] (ℝ × ℝ)) (U1 U2 : ℝ × ℝ) (solver : ℂ → (ℝ × ℝ) × (ℝ × ℝ)),
    Lop U1 = -((2 : ℝ) • U2) ∧ Lop U2 = (2 : ℝ) • U1 ∧ ExactSolver Lop 1 U1 [3] solver ∧ U1 ≠ 0 := by
  refine ⟨⟨⟨fun v => (2 * v.2, -2 * v.1), by intro a b; ext <;> simp <;> ring⟩, by intro a b; ext <;> simp <;> ring⟩,
    (1, 0), (0, 1), fun _ => ((3 / 13, 2 / 13), (0, 0)), ?_, ?_, ?_, by simp⟩
  · ext <;> simp
  · ext <;> simp
  · intro al hal w
    rw [List.mem_singleton] at hal
    subst hal
    obtain ⟨⟨a, b⟩, ⟨c, d⟩⟩ := w
    simp [System]
    constructor
    · rintro ⟨⟨h1, h2⟩, h3, h4⟩
      refine ⟨⟨?_, ?_⟩, ?_, ?_⟩ <;> linarith
    · rintro ⟨⟨rfl, rfl⟩, rfl, rfl⟩
      norm_num

/-! ### C52: constants -/

/-- **C52** (the constants).  Exactly the names `haut` and `caliari` are accepted, and each set of constants has
`2 L + 1` coefficients, as the double sum needs, and a `mu` that is not zero, so that no pole is on the real axis. -/
theorem C52_constants (name : String) :
    ((∃ c, chooseConstants name = .ok c) ↔ name = "haut" ∨ name = "caliari") ∧
    (name ≠ "haut" → name ≠ "caliari" → chooseConstants name = .error "ValueError") ∧
    ∀ L mu a, chooseConstants name = .ok (L, mu, a) → a.length = 2 * L + 1 ∧ mu < 0 := by
  refine ⟨?_, ?_, ?_⟩
  · by_cases h1 : name = "haut"
    · simp [chooseConstants, h1]
    · by_cases h2 : name = "caliari"
      · simp [chooseConstants, h2]
      · simp [chooseConstants, h1, h2]
  · intro h1 h2; simp [chooseConstants, h1, h2]
  · intro L mu a h
    by_cases h1 : name = "haut"
    · simp only [chooseConstants, h1, if_true, Except.ok.injEq, Prod.mk.injEq] at h
      obtain ⟨rfl, rfl, rfl⟩ := h
      refine ⟨by simp [hautA], ?_⟩
      norm_num [hautMu]
    · by_cases h2 : name = "caliari"
      · simp only [chooseConstants, h2, if_true, reduceCtorEq, if_false, Except.ok.injEq, Prod.mk.injEq,
          show ("caliari" : String) ≠ "haut" by decide] at h
        obtain ⟨rfl, rfl, rfl⟩ := h
        refine ⟨(C52_caliari 24 _ (by simp [caliariA]) (by simp [caliariA, Complex.ext_iff])).1, ?_⟩
        norm_num [caliariMu]
      · simp [chooseConstants, h1, h2] at h

/-- **C51** (implementation of complex spaces).  Exactly `mixed` and `vector` are accepted, and each selects the
implementation of its name. -/
theorem C51_proxy (t r : String) :
    chooseProxy t = .ok r ↔ r = t ∧ (t = "mixed" ∨ t = "vector") := by
  by_cases h1 : t = "mixed"
  · subst h1; simp [chooseProxy, eq_comm]
  · by_cases h2 : t = "vector"
    · subst h2; simp [chooseProxy, eq_comm]
    · simp [chooseProxy, h1, h2]

/-- **C52** (shifts). with `b` the coefficients returned by `b_coefficients`, moving `x` by
one grid distance `h` multiplies every pair of neighbouring terms by `exp (i h)`, as for `exp (i x)`. -/
theorem C52_shift (h : ℝ) (M m : ℕ) (psi : ℝ → ℂ) (x : ℝ) :
    bCoeff h M m * psi (x + h + ((m : ℝ) - M) * h) =
      Complex.exp (Complex.I * h) * (bCoeff h M (m + 1) * psi (x + (((m + 1 : ℕ) : ℝ) - M) * h)) := by
  have e : x + h + ((m : ℝ) - M) * h = x + (((m + 1 : ℕ) : ℝ) - M) * h := by push_cast; ring
  have e2 : bCoeff h M m = Complex.exp (Complex.I * h) * bCoeff h M (m + 1) := by
    simp only [bCoeff]
    simp only [← Complex.exp_add]
    congr 1
    push_cast
    ring
  rw [e, e2]
  ring

/-- **C52** (the coefficients `b`).  With the Gaussian `psi x = exp (- x^2 / (4 h^2)) / sqrt (4 pi)` of the
approximation of Haut et al., the coefficient of the Gaussian centred at `- (m - M) h` is the coefficient of the
Fourier expansion of `exp (i x)`: the grid distance times `exp (- i (m - M) h)`, divided by the integral of
`psi x * exp (i x)`. -/
theorem C52_gaussian (h : ℝ) (hh : 0 < h) (M m : ℕ) :
    bCoeff h M m * ∫ x : ℝ, Complex.exp (Complex.I * x) *
        ((Real.exp (-(x ^ 2) / (4 * h ^ 2)) / Real.sqrt (4 * Real.pi) : ℝ) : ℂ) =
      (h : ℂ) * Complex.exp (-(Complex.I * (((m : ℝ) - M) * h))) := by
  have key := fourierIntegral_gaussian (b := ((1 / (4 * h ^ 2) : ℝ) : ℂ))
    (by rw [Complex.ofReal_re]; positivity) 1
  have hint : (∫ x : ℝ, Complex.exp (Complex.I * x) *
        ((Real.exp (-(x ^ 2) / (4 * h ^ 2)) / Real.sqrt (4 * Real.pi) : ℝ) : ℂ)) =
      (∫ x : ℝ, Complex.exp (Complex.I * 1 * x) * Complex.exp (-((1 / (4 * h ^ 2) : ℝ) : ℂ) * (x : ℂ) ^ 2))
        / (Real.sqrt (4 * Real.pi) : ℝ) := by
    rw [← MeasureTheory.integral_div]
    congr 1
    funext x
    rw [mul_one, mul_div_assoc]
    congr 1
    rw [Complex.ofReal_div, Complex.ofReal_exp]
    congr 2
    push_cast
    ring
  rw [hint, key]
  have hs : ((Real.pi : ℂ) / ((1 / (4 * h ^ 2) : ℝ) : ℂ)) ^ (1 / 2 : ℂ)
      = ((Real.sqrt (4 * Real.pi) * h : ℝ) : ℂ) := by
    have e1 : (Real.pi : ℂ) / ((1 / (4 * h ^ 2) : ℝ) : ℂ) = ((4 * Real.pi * h ^ 2 : ℝ) : ℂ) := by
      push_cast
      have : (h : ℂ) ≠ 0 := by exact_mod_cast hh.ne'
      field_simp
    have e2 : (1 / 2 : ℂ) = ((1 / 2 : ℝ) : ℂ) := by push_cast; rfl
    rw [e1, e2, ← Complex.ofReal_cpow (by positivity), ← Real.sqrt_eq_rpow, Real.sqrt_mul (by positivity),
      Real.sqrt_sq hh.le]
  have hsq : ((Real.sqrt (4 * Real.pi) : ℝ) : ℂ) ≠ 0 := by
    have : Real.sqrt (4 * Real.pi) ≠ 0 := by positivity
    exact_mod_cast this
  have h0 : (h : ℂ) ≠ 0 := by exact_mod_cast hh.ne'
  have he : Complex.exp (-1 ^ 2 / (4 * ((1 / (4 * h ^ 2) : ℝ) : ℂ))) = Complex.exp (-((h * h : ℝ) : ℂ)) := by
    congr 1
    push_cast
    field_simp
  rw [hs, he, bCoeff, Complex.ofReal_mul (Real.sqrt _), Complex.exp_neg]
  have := Complex.exp_ne_zero ((h * h : ℝ) : ℂ)
  have e3 : -Complex.I * (((m : ℤ) - (M : ℤ) : ℤ) : ℂ) * (h : ℂ) = -(Complex.I * (((m : ℝ) - M) * h)) := by
    push_cast; ring
  rw [e3]
  field_simp

example : ∃ h : ℝ, 0 < h := ⟨0.2, by norm_num⟩

end Gusto.Props.RexiProps
