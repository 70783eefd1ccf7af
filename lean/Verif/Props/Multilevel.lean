import Verif.Lemmas.Multilevel
import Verif.Spec.Multistep
import Mathlib.Tactic.NormNum.Basic
import Mathlib.Tactic.FieldSimp
import Mathlib.Tactic.IntervalCases
import Mathlib.Tactic.LinearCombination
import Mathlib.Data.Rat.Cast.Defs

set_option autoImplicit false

/-!
# C08, C09, C10: multi-level schemes
-/

set_option linter.unusedSectionVars false
set_option linter.unusedSimpArgs false

namespace Gusto.Props
open Gusto LForm TimeDisc Multilevel Spec Finset
variable {K X D : Type*} [Field K] [AddCommGroup D] [Module K D]

/-! ## C08: the residuals -/

/-- C08 BDF2: `M(y) = 4/3 M(xₙ) - 1/3 M(xₙ₋₁) - 2/3 dt F(y)`. -/
theorem C08_bdf2 (R : LForm X D) (dt : K) (y xn xnm1 : X) :
    (bdf2Res R dt y xn xnm1).eval = 0 ↔
      mass R y = (4 / 3 : K) • mass R xn - (1 / 3 : K) • mass R xnm1
        - (2 / 3 * dt) • rest R y := by
  rw [eval_bdf2Res, sub_eq_zero, ← eq_sub_iff_add_eq]

/-- C08 BDF2 start-up is backward Euler. -/
theorem C08_bdf2_startup (R : LForm X D) (dt : K) (y xn : X) :
    (bdf2Res0 R dt y xn).eval = 0 ↔ mass R y + dt • rest R y = mass R xn := by
  rw [eval_bdf2Res0, sub_eq_zero]

/-- C08 Adams–Bashforth with any coefficient list `b` (oldest first):
`M(y) = M(newest) - dt ∑ₖ b k F(x k)`. -/
theorem C08_adams_bashforth (R : LForm X D) (dt : K) (b : List K) (hb : b ≠ []) (y : X)
    (x : ℕ → X) :
    (abRes R dt b y x).eval = 0 ↔
      mass R y = mass R (x (b.length - 1))
        - dt • ∑ k ∈ range b.length, b.getD k 0 • rest R (x k) := by
  rw [eval_abRes R dt b hb, sub_eq_zero]

theorem C08_adams_bashforth_startup (R : LForm X D) (dt : K) (y xn : X) :
    (abRes0 R dt y xn).eval = 0 ↔ mass R y = mass R xn - dt • rest R xn := by
  rw [eval_abRes0, sub_eq_zero]

/-- C08 Adams–Moulton with coefficients `bl`, `br`:
`M(y) + dt bl F(y) = M(newest) - dt ∑ₖ br k F(x k)`. -/
theorem C08_adams_moulton (R : LForm X D) (dt bl : K) (br : List K) (hb : br ≠ []) (y : X)
    (x : ℕ → X) :
    (amRes R dt bl br y x).eval = 0 ↔
      mass R y + dt • bl • rest R y = mass R (x (br.length - 1))
        - dt • ∑ k ∈ range br.length, br.getD k 0 • rest R (x k) := by
  rw [eval_amRes R dt bl br hb, sub_eq_zero]

theorem C08_adams_moulton_startup (R : LForm X D) (dt : K) (y xn : X) :
    (amRes0 R dt y xn).eval = 0 ↔
      mass R y + (1 / 2 * dt) • rest R y = mass R xn - (1 / 2 * dt) • rest R xn := by
  rw [eval_amRes0, sub_eq_zero]

/-- C08 Leapfrog: the form the class calls `rhs` is the documented leapfrog recurrence … -/
theorem C08_leapfrog_rhs_partial (R : LForm X D) (dt : K) (y xn xnm1 : X) :
    (leapfrogRhs R dt y xn xnm1).eval = 0 ↔
      mass R y = mass R xnm1 - (2 * dt) • rest R xn := by
  rw [eval_leapfrogRhs, sub_eq_zero]

/-- … but the form that is solved is forward Euler, whatever the older level is. -/
theorem C08_leapfrog_solves_forward_euler (R : LForm X D) (dt : K) (y xn xnm1 : X) :
    (leapfrogRes R dt y xn xnm1).eval = 0 ↔ mass R y = mass R xn - dt • rest R xn := by
  rw [eval_leapfrogRes, sub_eq_zero]

/-- C08 is refuted for Leapfrog: for `x' = 0·x + 1` (residual terms `x` and `-1`) from levels
`xₙ₋₁ = 0`, `xₙ = 5`, dt = 1 the solved residual vanishes at 6, not at the leapfrog value 2. -/
theorem C08_leapfrog_refuted :
    ∃ (R : LForm ℚ ℚ) (dt y xn xnm1 : ℚ), (leapfrogRes R dt y xn xnm1).eval = 0 ∧
      ¬ (mass R y = mass R xnm1 - (2 * dt) • rest R xn) := by
  refine ⟨[{ labels := [.timeDerivative], op := id, subj := 0 },
    { labels := [.transport], op := fun _ => -1, subj := 0 }], 1, 6, 5, 0, ?_, ?_⟩
  · rw [C08_leapfrog_solves_forward_euler]
    simp [mass, rest, part]; norm_num
  · simp [mass, rest, part]

/-! ## C09: coefficients -/

section Coeffs
open Polynomial

/-- evaluates a polynomial of degree ≤ p (p numeral) in terms of its coefficients -/
theorem polyEval (y : ℚ[X]) (p : ℕ) (h : y.natDegree ≤ p) (t : ℚ) :
    y.eval t = ∑ i ∈ range (p + 1), y.coeff i * t ^ i :=
  eval_eq_sum_range' (Nat.lt_succ_of_le h) t

theorem polyDeriv (y : ℚ[X]) (p : ℕ) (h : y.natDegree ≤ p) (t : ℚ) :
    (derivative y).eval t = ∑ i ∈ range p, (y.coeff (i + 1) * (i + 1)) * t ^ i := by
  rcases Nat.eq_zero_or_pos p with rfl | hp
  · have : y = C (y.coeff 0) := eq_C_of_natDegree_le_zero h
    rw [this]; simp
  · rw [eval_eq_sum_range' (n := p) (lt_of_le_of_lt (natDegree_derivative_le y) (by omega))]
    refine sum_congr rfl fun i _ => ?_
    rw [coeff_derivative]

/-- proves an order statement for a literal formula -/
macro "multistep" p:num : tactic => `(tactic| (
  intro y hy t dt
  simp only [polyEval y $p hy, polyDeriv y $p hy, List.length_cons, List.length_nil,
    sum_range_succ, sum_range_zero, List.getD_cons_zero, List.getD_cons_succ]
  push_cast
  ring))

/-- C09: AdamsBashforth(1), …, AdamsBashforth(4) have the order in their name: exact for every
polynomial solution of degree up to the order. -/
theorem C09_adams_bashforth_partial (order : ℕ) (h1 : 1 ≤ order) (h4 : order ≤ 4) :
    ∃ b, abTable order = some b ∧ b.length = order ∧ MultistepOrder 0 b order := by
  interval_cases order
  · exact ⟨_, rfl, rfl, by multistep 1⟩
  · exact ⟨_, rfl, rfl, by multistep 2⟩
  · exact ⟨_, rfl, rfl, by multistep 3⟩
  · exact ⟨_, rfl, rfl, by multistep 4⟩

/-- C09: AdamsMoulton(1), (2), (3) are of order one more than their parameter. -/
theorem C09_adams_moulton_partial (order : ℕ) (h1 : 1 ≤ order) (h3 : order ≤ 3) :
    ∃ c, amTable order = some c ∧ c.2.length = order ∧ MultistepOrder c.1 c.2 (order + 1) := by
  interval_cases order
  · exact ⟨_, rfl, rfl, by multistep 2⟩
  · exact ⟨_, rfl, rfl, by multistep 3⟩
  · exact ⟨_, rfl, rfl, by multistep 4⟩

/-- C09 is refuted for AdamsBashforth(5): not even exact for linear solutions (the weights sum to
1720/720). -/
theorem C09_ab5_refuted : ∃ b, abTable 5 = some b ∧ b.sum = 1720 / 720 ∧
    ¬ MultistepOrder 0 b 1 := by
  refine ⟨_, rfl, by norm_num, fun h => ?_⟩
  have := h Polynomial.X (by simp) 0 1
  simp [sum_range_succ] at this
  norm_num at this

/-- C09 is refuted for AdamsMoulton(4): the weights sum to 730/720. -/
theorem C09_am4_refuted : ∃ c, amTable 4 = some c ∧ c.1 + c.2.sum = 730 / 720 ∧
    ¬ MultistepOrder c.1 c.2 1 := by
  refine ⟨_, rfl, by norm_num, fun h => ?_⟩
  have := h Polynomial.X (by simp) 0 1
  simp [sum_range_succ] at this
  norm_num at this

/-- With 1901 in place of 2901, and with 264 in place of 254, the two tables would have the
advertised order: the entries above are the only wrong ones. -/
theorem C09_corrected_tables :
    MultistepOrder 0 [251/720, -(1274/720), 2616/720, -(2774/720), 1901/720] 5 ∧
    MultistepOrder (251/720) [-(19/720), 106/720, -(264/720), 646/720] 5 := by
  constructor
  · multistep 5
  · multistep 5

/-- Accepted orders: 1–5 and 1–4. -/
theorem C09_accepted_orders (order : ℕ) :
    ((abTable order).isSome ↔ 1 ≤ order ∧ order ≤ 5) ∧
    ((amTable order).isSome ↔ 1 ≤ order ∧ order ≤ 4) := by
  constructor
  · constructor
    · intro h
      match order, h with
      | 1, _ | 2, _ | 3, _ | 4, _ | 5, _ => omega
    · rintro ⟨h1, h2⟩; interval_cases order <;> rfl
  · constructor
    · intro h
      match order, h with
      | 1, _ | 2, _ | 3, _ | 4, _ => omega
    · rintro ⟨h1, h2⟩; interval_cases order <;> rfl

end Coeffs

/-- C09 used: with a constant tendency `F` on every level and weights that sum to one, one
Adams–Bashforth step is `M(y) = M(xₙ) - dt F`. -/
theorem C09_constant_tendency (R : LForm X D) (dt : K) (b : List K) (hb : b ≠ [])
    (hsum : b.sum = 1) (y : X) (x : ℕ → X) (F : D) (hF : ∀ k < b.length, rest R (x k) = F)
    (h : (abRes R dt b y x).eval = 0) :
    mass R y = mass R (x (b.length - 1)) - dt • F := by
  rw [C08_adams_bashforth R dt b hb] at h
  rw [h]
  congr 2
  have e : ∑ k ∈ range b.length, b.getD k 0 • rest R (x k)
      = (∑ k ∈ range b.length, b.getD k 0) • F := by
    rw [sum_smul]
    exact sum_congr rfl fun k hk => by rw [hF k (mem_range.1 hk)]
  have e2 : ∑ k ∈ range b.length, b.getD k 0 = b.sum := by
    clear * -
    induction b with
    | nil => simp
    | cons a l ih =>
      rw [List.length_cons, sum_range_succ', List.sum_cons, ← ih]
      simp [add_comm]
  rw [e, e2, hsum, one_smul]

/-! ## C10: history -/

section History
variable [Inhabited X]

/-- The state of the run after `k` steps, from initial levels `s`. -/
def after (S : Scheme X D) (solve : Solver X D) (s : RunState X) (k : ℕ) : RunState X :=
  (stepBody S solve)^[k] s

/-- The result of step `k` (`0` = the initial condition). -/
def result (S : Scheme X D) (solve : Solver X D) (s : RunState X) (k : ℕ) : X :=
  (after S solve s k).levels.np1

/-- The levels handed to `apply` in the step after `k` steps. -/
def handed (S : Scheme X D) (solve : Solver X D) (s : RunState X) (k : ℕ) : List X :=
  let L := (after S solve s k).levels.update
  L.previous.drop (L.previous.length - S.nlevels)

theorem after_succ (S : Scheme X D) (solve : Solver X D) (s : RunState X) (k : ℕ) :
    after S solve s (k + 1) = stepBody S solve (after S solve s k) := by
  simp [after, Function.iterate_succ_apply']

/-- A fresh run: `numPrevious` previous levels with arbitrary contents, no start-up steps done. -/
structure Fresh (S : Scheme X D) (s : RunState X) : Prop where
  pos : 1 ≤ S.nlevels
  len : s.levels.previous.length = numPrevious S.nlevels
  init : s.initialTimesteps = 0

theorem numPrevious_eq (n : ℕ) (h : 1 ≤ n) : numPrevious n = n := by
  unfold numPrevious; split <;> omega

theorem after_len (S : Scheme X D) (solve : Solver X D) (s : RunState X) (h : Fresh S s) (k : ℕ) :
    (after S solve s k).levels.previous.length = S.nlevels := by
  induction k with
  | zero => simpa [after, numPrevious_eq _ h.pos] using h.len
  | succ k ih =>
    rw [after_succ]
    simp only [stepBody]
    rw [update_previous _ (by intro e; rw [e] at ih; have := h.pos; simp at ih; omega)]
    simp [ih]; have := h.pos; omega

theorem handed_eq (S : Scheme X D) (solve : Solver X D) (s : RunState X) (h : Fresh S s) (k : ℕ) :
    handed S solve s k
      = (after S solve s k).levels.previous.tail ++ [(after S solve s k).levels.np1] := by
  have hl := after_len S solve s h k
  have hp := h.pos
  simp only [handed]
  rw [update_previous _ (by intro e; rw [e] at hl; simp at hl; omega)]
  have : ((after S solve s k).levels.previous.tail ++ [(after S solve s k).levels.np1]).length
      = S.nlevels := by simp [hl]; omega
  rw [this]; simp

/-- previous levels after the next step are the ones handed to it -/
theorem previous_succ (S : Scheme X D) (solve : Solver X D) (s : RunState X) (h : Fresh S s)
    (k : ℕ) : (after S solve s (k + 1)).levels.previous = handed S solve s k := by
  have hl := after_len S solve s h k
  have hp := h.pos
  rw [handed_eq S solve s h, after_succ]
  simp only [stepBody]
  rw [update_previous _ (by intro e; rw [e] at hl; simp at hl; omega)]

/-- C10: in the step after `k` steps the scheme is handed exactly `nlevels` states, and the `j`-th
(oldest first) is the result of step `k + 1 + j - nlevels` whenever that is not before the start. -/
theorem C10_history (S : Scheme X D) (solve : Solver X D) (s : RunState X) (h : Fresh S s)
    (k : ℕ) :
    (handed S solve s k).length = S.nlevels ∧
    ∀ j < S.nlevels, S.nlevels ≤ k + 1 + j →
      (handed S solve s k)[j]? = some (result S solve s (k + 1 + j - S.nlevels)) := by
  have hp := h.pos
  have hlen : ∀ k, (handed S solve s k).length = S.nlevels := fun k => by
    rw [handed_eq S solve s h]; simp [after_len S solve s h k]; omega
  refine ⟨hlen k, ?_⟩
  induction k with
  | zero =>
    intro j hj hk
    have hj' : j = S.nlevels - 1 := by omega
    subst hj'
    rw [handed_eq S solve s h]
    have hl := after_len S solve s h 0
    rw [List.getElem?_append_right (by simp [hl])]
    have e : 0 + 1 + (S.nlevels - 1) - S.nlevels = 0 := by omega
    simp [hl, e, result]
  | succ k ih =>
    intro j hj hk
    rw [handed_eq S solve s h, previous_succ S solve s h]
    by_cases hlast : j = S.nlevels - 1
    · rw [List.getElem?_append_right (by simp [hlen, hlast])]
      have e : k + 1 + 1 + j - S.nlevels = k + 1 := by omega
      rw [e]
      simp [hlen, hlast, result]
    · rw [List.getElem?_append_left (by simp [hlen]; omega), List.getElem?_tail,
        ih (j + 1) (by omega) (by omega)]
      congr 2; omega

/-- C10: the counter of start-up steps after `k` steps. -/
theorem C10_counter (S : Scheme X D) (solve : Solver X D) (s : RunState X) (h : Fresh S s)
    (k : ℕ) : (after S solve s k).initialTimesteps = min k (S.nlevels - 1) := by
  induction k with
  | zero => simp [after, h.init]
  | succ k ih =>
    rw [after_succ]
    simp only [stepBody, Scheme.apply]
    split <;> simp_all <;> omega

/-- C10: the start-up residual is solved in exactly the first `nlevels - 1` steps, and the main
residual, with the complete history of results, in every later step. -/
theorem C10_which_residual (S : Scheme X D) (solve : Solver X D) (s : RunState X) (h : Fresh S s)
    (k : ℕ) :
    result S solve s (k + 1) =
      if k < S.nlevels - 1 then
        solve (fun y => (S.res0 (fun j => (handed S solve s k).getD j default) y).eval)
          (result S solve s k)
      else
        solve (fun y => (S.res (fun j => (handed S solve s k).getD j default) y).eval)
          (result S solve s k) := by
  have hc := C10_counter S solve s h k
  have hh := (C10_history S solve s h k).2 (S.nlevels - 1) (by have := h.pos; omega)
    (by have := h.pos; omega)
  have hg : (handed S solve s k).getD (S.nlevels - 1) default = result S solve s k := by
    rw [List.getD_eq_getElem?_getD, hh]; simp; congr 1; have := h.pos; omega
  rw [result, after_succ]
  simp only [stepBody]
  change (S.apply solve (after S solve s k).initialTimesteps
    (fun j => (handed S solve s k).getD j default)).1 = _
  simp only [Scheme.apply, hc, hg]
  by_cases hk : k < S.nlevels - 1
  · rw [if_pos (by omega), if_pos hk]
  · rw [if_neg (by omega), if_neg hk]

/-- C10 + C08 for Adams–Bashforth with `n` coefficients and an invertible mass operator: the run
takes forward-Euler steps for the first `n-1` steps and then the Adams–Bashforth recurrence over
its own last `n` results, whatever the fields before the initial time contained. -/
theorem C10_adams_bashforth_run (solve : Solver X D) (hs : ExactSolver solve) (R : LForm X D)
    (dt : K) (b : List K) (hb : b ≠ []) (hm : Function.Bijective (mass R)) (s : RunState X)
    (h : Fresh (adamsBashforth R dt b) s) (k : ℕ) :
    let y := result (adamsBashforth R dt b) solve s
    mass R (y (k + 1)) =
      if k < b.length - 1 then mass R (y k) - dt • rest R (y k)
      else mass R (y k)
        - dt • ∑ j ∈ range b.length, b.getD j 0 • rest R (y (k + 1 + j - b.length)) := by
  intro y
  have hp : 1 ≤ b.length := h.pos
  have hw := C10_which_residual _ solve s h k
  have hh := (C10_history _ solve s h k).2
  change ∀ j < b.length, b.length ≤ k + 1 + j → _ at hh
  have hget : ∀ j < b.length, b.length ≤ k + 1 + j →
      (handed (adamsBashforth R dt b) solve s k).getD j default = y (k + 1 + j - b.length) := by
    intro j hj hk
    rw [List.getD_eq_getElem?_getD, hh j hj hk]; rfl
  have hlast : (handed (adamsBashforth R dt b) solve s k).getD (b.length - 1) default = y k := by
    rw [hget _ (by omega) (by omega)]; congr 1; omega
  change y (k + 1) = if k < b.length - 1 then _ else _ at hw
  by_cases hk : k < b.length - 1
  · rw [if_pos hk] at hw ⊢
    simp only [adamsBashforth] at hw
    rw [show (handed { nlevels := b.length, res0 := _, res := _ } solve s k).getD
      (b.length - 1) default = y k from hlast] at hw
    rw [← C08_adams_bashforth_startup, hw]
    obtain ⟨z, hz⟩ := hm.2 (mass R (y k) - dt • rest R (y k))
    exact hs (fun z => (abRes0 R dt z (y k)).eval) _
      ⟨z, (C08_adams_bashforth_startup ..).2 hz, fun w hw =>
        hm.1 (((C08_adams_bashforth_startup ..).1 hw).trans hz.symm)⟩
  · rw [if_neg hk] at hw ⊢
    simp only [adamsBashforth] at hw
    set x : ℕ → X := fun j => (handed (adamsBashforth R dt b) solve s k).getD j default with hx
    change y (k + 1) = solve (fun z => (abRes R dt b z x).eval) (y k) at hw
    have key : (abRes R dt b (y (k + 1)) x).eval = 0 := by
      rw [hw]
      obtain ⟨z, hz⟩ := hm.2 (mass R (x (b.length - 1))
        - dt • ∑ k ∈ range b.length, b.getD k 0 • rest R (x k))
      exact hs (fun z => (abRes R dt b z x).eval) _
        ⟨z, (C08_adams_bashforth R dt b hb _ _).2 hz, fun w hw =>
          hm.1 (((C08_adams_bashforth R dt b hb _ _).1 hw).trans hz.symm)⟩
    rw [C08_adams_bashforth R dt b hb] at key
    rw [key, show x (b.length - 1) = y k from hlast]
    congr 2
    refine sum_congr rfl fun j hj => ?_
    rw [show x j = y (k + 1 + j - b.length) from hget j (mem_range.1 hj) (by omega)]

/-- C10: with an exact solver and uniquely solvable residuals, every step's result is a root of the
residual that C10_which_residual names. -/
theorem C10_run_solves (S : Scheme X D) (solve : Solver X D) (hs : ExactSolver solve)
    (h0 : ∀ x, ∃! y, (S.res0 x y).eval = 0) (h1 : ∀ x, ∃! y, (S.res x y).eval = 0)
    (s : RunState X) (h : Fresh S s) (k : ℕ) :
    let x := fun j => (handed S solve s k).getD j default
    if k < S.nlevels - 1 then (S.res0 x (result S solve s (k + 1))).eval = 0
    else (S.res x (result S solve s (k + 1))).eval = 0 := by
  intro x
  have hw := C10_which_residual S solve s h k
  split
  · rename_i hk
    rw [if_pos hk] at hw
    rw [hw]; exact hs (fun y => (S.res0 x y).eval) _ (h0 x)
  · rename_i hk
    rw [if_neg hk] at hw
    rw [hw]; exact hs (fun y => (S.res x y).eval) _ (h1 x)

theorem handed_getD (S : Scheme X D) (solve : Solver X D) (s : RunState X) (h : Fresh S s)
    (k j : ℕ) (hj : j < S.nlevels) (hk : S.nlevels ≤ k + 1 + j) :
    (handed S solve s k).getD j default = result S solve s (k + 1 + j - S.nlevels) := by
  rw [List.getD_eq_getElem?_getD, (C10_history S solve s h k).2 j hj hk]; rfl

/-- C10 + C08 for BDF2: the first step is backward Euler, every later one is BDF2 over the last
two results. -/
theorem C10_bdf2_run (solve : Solver X D) (hs : ExactSolver solve) (R : LForm X D) (dt : K)
    (huniq : ∀ c ∈ [dt, 2 / 3 * dt], ∀ d : D, ∃! y, mass R y + c • rest R y = d)
    (s : RunState X) (h : Fresh (bdf2 R dt) s) (k : ℕ) :
    let y := result (bdf2 R dt) solve s
    if k = 0 then mass R (y 1) + dt • rest R (y 1) = mass R (y 0)
    else mass R (y (k + 1)) = (4 / 3 : K) • mass R (y k) - (1 / 3 : K) • mass R (y (k - 1))
      - (2 / 3 * dt) • rest R (y (k + 1)) := by
  intro y
  have key := C10_run_solves (bdf2 R dt) solve hs
    (fun x => by
      simp only [bdf2, C08_bdf2_startup]
      exact huniq dt (by simp) (mass R (x 1)))
    (fun x => by
      simp only [bdf2, eval_bdf2Res, sub_eq_zero]
      exact huniq _ (by simp) _) s h k
  have hn : (bdf2 R dt).nlevels = 2 := rfl
  have g1 := handed_getD (bdf2 R dt) solve s h k 1 (by rw [hn]; omega) (by rw [hn]; omega)
  rw [hn, show k + 1 + 1 - 2 = k by omega] at g1
  simp only [hn] at key
  split
  · rename_i hk
    subst hk
    rw [if_pos (by omega)] at key
    simp only [bdf2] at key
    rw [C08_bdf2_startup] at key
    rw [show y 1 = _ from rfl]
    refine key.trans ?_
    exact congrArg (mass R) g1
  · rename_i hk
    rw [if_neg (by omega)] at key
    have g0 := handed_getD (bdf2 R dt) solve s h k 0 (by rw [hn]; omega) (by rw [hn]; omega)
    rw [hn, show k + 1 + 0 - 2 = k - 1 by omega] at g0
    simp only [bdf2] at key
    rw [C08_bdf2] at key
    refine key.trans ?_
    rw [show (handed { nlevels := 2, res0 := _, res := _ } solve s k).getD 1 default = y k from g1,
      show (handed { nlevels := 2, res0 := _, res := _ } solve s k).getD 0 default = y (k - 1)
        from g0]
    rfl

/-- C10 + C08 for Adams–Moulton with `n` explicit coefficients: trapezium start-up for `n-1`
steps, then the Adams–Moulton recurrence over the last `n` results and the new one. -/
theorem C10_adams_moulton_run (solve : Solver X D) (hs : ExactSolver solve) (R : LForm X D)
    (dt bl : K) (br : List K) (hb : br ≠ [])
    (huniq : ∀ c ∈ [1 / 2 * dt, dt * bl], ∀ d : D, ∃! y, mass R y + c • rest R y = d)
    (s : RunState X) (h : Fresh (adamsMoulton R dt bl br) s) (k : ℕ) :
    let y := result (adamsMoulton R dt bl br) solve s
    if k < br.length - 1 then
      mass R (y (k + 1)) + (1 / 2 * dt) • rest R (y (k + 1))
        = mass R (y k) - (1 / 2 * dt) • rest R (y k)
    else mass R (y (k + 1)) + dt • bl • rest R (y (k + 1)) = mass R (y k)
        - dt • ∑ j ∈ range br.length, br.getD j 0 • rest R (y (k + 1 + j - br.length)) := by
  intro y
  have hp : 1 ≤ br.length := h.pos
  have key := C10_run_solves (adamsMoulton R dt bl br) solve hs
    (fun x => by
      simp only [adamsMoulton, C08_adams_moulton_startup]
      exact huniq _ (by simp) _)
    (fun x => by
      simp only [adamsMoulton, C08_adams_moulton R dt bl br hb, smul_smul]
      exact huniq _ (by simp) _) s h k
  have hget : ∀ j < br.length, br.length ≤ k + 1 + j →
      (handed (adamsMoulton R dt bl br) solve s k).getD j default = y (k + 1 + j - br.length) :=
    fun j hj hk => handed_getD (adamsMoulton R dt bl br) solve s h k j hj hk
  have hlast : (handed (adamsMoulton R dt bl br) solve s k).getD (br.length - 1) default = y k := by
    rw [hget _ (by omega) (by omega)]; congr 1; omega
  by_cases hk : k < br.length - 1
  · rw [if_pos hk]
    simp only at key
    rw [if_pos (show k < (adamsMoulton R dt bl br).nlevels - 1 from hk)] at key
    have key' := (C08_adams_moulton_startup ..).1 key
    refine key'.trans ?_
    dsimp only
    rw [hlast]
  · rw [if_neg hk]
    simp only at key
    rw [if_neg (show ¬ k < (adamsMoulton R dt bl br).nlevels - 1 from hk)] at key
    have key' := (C08_adams_moulton R dt bl br hb _ _).1 key
    refine key'.trans ?_
    rw [hlast]
    congr 2
    refine sum_congr rfl fun j hj => ?_
    rw [hget j (mem_range.1 hj) (by omega)]

/-- non-vacuity: a fresh run of Adams–Bashforth 3 for `2 x' + x² - 3 = 0` with junk in the older
levels. -/
example : Fresh (adamsBashforth ([] : LForm ℚ ℚ) (1 : ℚ) [5/12, -(16/12), 23/12])
    { levels := { previous := [7, 8, 9], np1 := 1 }, initialTimesteps := 0 } :=
  ⟨by decide, rfl, rfl⟩

/-- non-vacuity of the solvability hypothesis: `x' + 3 x = 0`, dt = 1/2. -/
example : ∀ c ∈ [(1 / 2 : ℚ), 2 / 3 * (1 / 2)], ∀ d : ℚ, ∃! y,
    mass ([{ labels := [.timeDerivative], op := id, subj := 0 },
      { labels := [.transport], op := fun x => 3 * x, subj := 0 }] : LForm ℚ ℚ) y
      + c • rest ([{ labels := [.timeDerivative], op := id, subj := 0 },
      { labels := [.transport], op := fun x => 3 * x, subj := 0 }] : LForm ℚ ℚ) y = d := by
  intro c hc d
  have hc0 : 1 + 3 * c ≠ 0 := by
    simp at hc; rcases hc with rfl | rfl <;> norm_num
  refine ⟨d / (1 + 3 * c), ?_, fun y hy => ?_⟩
  · simp [mass, rest, part]; field_simp
  · simp [mass, rest, part] at hy
    rw [eq_div_iff hc0, ← hy]; ring

end History

end Gusto.Props
