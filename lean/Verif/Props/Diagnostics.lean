import Verif.Model.Diagnostics
import Verif.Props.DGForms
import Mathlib.Tactic.NormNum
import Mathlib.Tactic.Positivity
import Mathlib.Algebra.Order.Chebyshev

set_option autoImplicit false
set_option linter.unusedSectionVars false
set_option linter.unusedSimpArgs false

/-!
# C90, C91, C92: diagnostics
-/

namespace Gusto.Props.DiagProps
open Gusto.Diag Gusto.DG Gusto.Props.DGProps

/-! ### C90: global statistics -/

section Stats
variable {K : Type*} [Field K] [LinearOrder K] [IsStrictOrderedRing K]

theorem foldl_minify (xs : List (Option K)) : ∀ a : K, ∃ m, xs.foldl minify (some a) = some m ∧
    m ≤ a ∧ (∀ x, some x ∈ xs → m ≤ x) ∧ (m = a ∨ some m ∈ xs) := by
  induction xs with
  | nil => intro a; exact ⟨a, rfl, le_refl _, by simp, Or.inl rfl⟩
  | cons x xs ih =>
    intro a
    cases x with
    | none =>
      obtain ⟨m, h1, h2, h3, h4⟩ := ih a
      refine ⟨m, by simpa [minify] using h1, h2, ?_, ?_⟩
      · intro y hy
        simp only [List.mem_cons, reduceCtorEq, false_or] at hy
        exact h3 y hy
      · rcases h4 with h | h
        · exact Or.inl h
        · exact Or.inr (by simp [h])
    | some x =>
      by_cases hax : a > x
      · obtain ⟨m, h1, h2, h3, h4⟩ := ih x
        refine ⟨m, by simpa [minify, hax] using h1, le_trans h2 (le_of_lt hax), ?_, ?_⟩
        · intro y hy
          simp only [List.mem_cons, Option.some.injEq] at hy
          rcases hy with rfl | hy
          · exact h2
          · exact h3 y hy
        · rcases h4 with h | h
          · exact Or.inr (by simp [h])
          · exact Or.inr (by simp [h])
      · obtain ⟨m, h1, h2, h3, h4⟩ := ih a
        refine ⟨m, by simpa [minify, hax] using h1, h2, ?_, ?_⟩
        · intro y hy
          simp only [List.mem_cons, Option.some.injEq] at hy
          rcases hy with rfl | hy
          · exact le_trans h2 (not_lt.mp hax)
          · exact h3 y hy
        · rcases h4 with h | h
          · exact Or.inl h
          · exact Or.inr (by simp [h])

theorem foldl_maxify (xs : List (Option K)) : ∀ a : K, ∃ m, xs.foldl maxify (some a) = some m ∧
    a ≤ m ∧ (∀ x, some x ∈ xs → x ≤ m) ∧ (m = a ∨ some m ∈ xs) := by
  induction xs with
  | nil => intro a; exact ⟨a, rfl, le_refl _, by simp, Or.inl rfl⟩
  | cons x xs ih =>
    intro a
    cases x with
    | none =>
      obtain ⟨m, h1, h2, h3, h4⟩ := ih a
      refine ⟨m, by simpa [maxify] using h1, h2, ?_, ?_⟩
      · intro y hy
        simp only [List.mem_cons, reduceCtorEq, false_or] at hy
        exact h3 y hy
      · rcases h4 with h | h
        · exact Or.inl h
        · exact Or.inr (by simp [h])
    | some x =>
      by_cases hax : a < x
      · obtain ⟨m, h1, h2, h3, h4⟩ := ih x
        refine ⟨m, by simpa [maxify, hax] using h1, le_trans (le_of_lt hax) h2, ?_, ?_⟩
        · intro y hy
          simp only [List.mem_cons, Option.some.injEq] at hy
          rcases hy with rfl | hy
          · exact h2
          · exact h3 y hy
        · rcases h4 with h | h
          · exact Or.inr (by simp [h])
          · exact Or.inr (by simp [h])
      · obtain ⟨m, h1, h2, h3, h4⟩ := ih a
        refine ⟨m, by simpa [maxify, hax] using h1, h2, ?_, ?_⟩
        · intro y hy
          simp only [List.mem_cons, Option.some.injEq] at hy
          rcases hy with rfl | hy
          · exact le_trans (not_lt.mp hax) h2
          · exact h3 y hy
        · rcases h4 with h | h
          · exact Or.inl h
          · exact Or.inr (by simp [h])

/-- C90: the minimum is a bound of the values on all processes and is one of them, provided there is a value and no value is
beyond the largest float. -/
theorem C90_min (top : K) (ranks : List (List (Option K))) (hne : ∃ xs ∈ ranks, ∃ x, some x ∈ xs)
    (htop : ∀ xs ∈ ranks, ∀ x, some x ∈ xs → x ≤ top) :
    ∃ m, minApply top ranks = some m ∧ (∀ xs ∈ ranks, ∀ x, some x ∈ xs → m ≤ x) ∧ ∃ xs ∈ ranks, some m ∈ xs := by
  unfold minApply
  obtain ⟨m, h1, h2, h3, h4⟩ := foldl_minify (ranks.map fun xs => xs.foldl minify (some top)) top
  have hle : ∀ xs ∈ ranks, ∀ x, some x ∈ xs → m ≤ x := by
    intro xs hxs x hx
    obtain ⟨m', g1, g2, g3, _⟩ := foldl_minify xs top
    exact le_trans (h3 m' (List.mem_map.mpr ⟨xs, hxs, g1⟩)) (g3 x hx)
  refine ⟨m, h1, hle, ?_⟩
  have hm : m = top → ∃ xs ∈ ranks, some m ∈ xs := by
    intro h
    obtain ⟨xs, hxs, x, hx⟩ := hne
    have a := hle xs hxs x hx
    have b := htop xs hxs x hx
    exact ⟨xs, hxs, by rw [show m = x from le_antisymm a (h ▸ b)]; exact hx⟩
  rcases h4 with h | h
  · exact hm h
  · obtain ⟨xs, hxs, g⟩ := List.mem_map.mp h
    obtain ⟨m', g1, g2, g3, g4⟩ := foldl_minify xs top
    rw [g1] at g
    injection g with g
    subst g
    rcases g4 with g | g
    · exact hm g
    · exact ⟨xs, hxs, g⟩

/-- C90: likewise the maximum. -/
theorem C90_max (bot : K) (ranks : List (List (Option K))) (hne : ∃ xs ∈ ranks, ∃ x, some x ∈ xs)
    (hbot : ∀ xs ∈ ranks, ∀ x, some x ∈ xs → bot ≤ x) :
    ∃ m, maxApply bot ranks = some m ∧ (∀ xs ∈ ranks, ∀ x, some x ∈ xs → x ≤ m) ∧ ∃ xs ∈ ranks, some m ∈ xs := by
  unfold maxApply
  obtain ⟨m, h1, h2, h3, h4⟩ := foldl_maxify (ranks.map fun xs => xs.foldl maxify (some bot)) bot
  have hle : ∀ xs ∈ ranks, ∀ x, some x ∈ xs → x ≤ m := by
    intro xs hxs x hx
    obtain ⟨m', g1, g2, g3, _⟩ := foldl_maxify xs bot
    exact le_trans (g3 x hx) (h3 m' (List.mem_map.mpr ⟨xs, hxs, g1⟩))
  refine ⟨m, h1, hle, ?_⟩
  have hm : m = bot → ∃ xs ∈ ranks, some m ∈ xs := by
    intro h
    obtain ⟨xs, hxs, x, hx⟩ := hne
    have a := hle xs hxs x hx
    have b := hbot xs hxs x hx
    exact ⟨xs, hxs, by rw [show m = x from le_antisymm (h ▸ b) a]; exact hx⟩
  rcases h4 with h | h
  · exact hm h
  · obtain ⟨xs, hxs, g⟩ := List.mem_map.mp h
    obtain ⟨m', g1, g2, g3, g4⟩ := foldl_maxify xs bot
    rw [g1] at g
    injection g with g
    subst g
    rcases g4 with g | g
    · exact hm g
    · exact ⟨xs, hxs, g⟩

example : minApply (100 : ℚ) [[some 3, some (-2)], [], [some 5]] = some (-2) ∧
    maxApply (-100 : ℚ) [[some 3, some (-2)], [], [some 5]] = some 5 := by
  constructor <;> norm_num [minApply, maxApply, minify, maxify]

/-- C90: the results do not depend on how the degrees of freedom are distributed over processes. -/
theorem C90_distribution (top bot : K) (r r' : List (List (Option K))) (h : ∀ x, x ∈ r.flatten ↔ x ∈ r'.flatten)
    (hne : ∃ xs ∈ r, ∃ x, some x ∈ xs) (htop : ∀ xs ∈ r, ∀ x, some x ∈ xs → x ≤ top)
    (hbot : ∀ xs ∈ r, ∀ x, some x ∈ xs → bot ≤ x) :
    minApply top r = minApply top r' ∧ maxApply bot r = maxApply bot r' := by
  have tr : ∀ x, (∃ xs ∈ r, x ∈ xs) ↔ ∃ xs ∈ r', x ∈ xs := by simpa [List.mem_flatten] using h
  have hne' : ∃ xs ∈ r', ∃ x, some x ∈ xs := by
    obtain ⟨xs, hxs, x, hx⟩ := hne
    obtain ⟨ys, hys, hy⟩ := (tr (some x)).mp ⟨xs, hxs, hx⟩
    exact ⟨ys, hys, x, hy⟩
  have htop' : ∀ xs ∈ r', ∀ x, some x ∈ xs → x ≤ top := by
    intro ys hys y hy
    obtain ⟨xs, hxs, hx⟩ := (tr (some y)).mpr ⟨ys, hys, hy⟩
    exact htop xs hxs y hx
  have hbot' : ∀ xs ∈ r', ∀ x, some x ∈ xs → bot ≤ x := by
    intro ys hys y hy
    obtain ⟨xs, hxs, hx⟩ := (tr (some y)).mpr ⟨ys, hys, hy⟩
    exact hbot xs hxs y hx
  constructor
  · obtain ⟨m, h1, h2, xs, hxs, h3⟩ := C90_min top r hne htop
    obtain ⟨m', g1, g2, ys, hys, g3⟩ := C90_min top r' hne' htop'
    rw [h1, g1]
    obtain ⟨zs, hzs, hz⟩ := (tr (some m')).mpr ⟨ys, hys, g3⟩
    obtain ⟨ws, hws, hw⟩ := (tr (some m)).mp ⟨xs, hxs, h3⟩
    rw [le_antisymm (h2 zs hzs m' hz) (g2 ws hws m hw)]
  · obtain ⟨m, h1, h2, xs, hxs, h3⟩ := C90_max bot r hne hbot
    obtain ⟨m', g1, g2, ys, hys, g3⟩ := C90_max bot r' hne' hbot'
    rw [h1, g1]
    obtain ⟨zs, hzs, hz⟩ := (tr (some m')).mpr ⟨ys, hys, g3⟩
    obtain ⟨ws, hws, hw⟩ := (tr (some m)).mp ⟨xs, hxs, h3⟩
    rw [le_antisymm (g2 ws hws m hw) (h2 zs hzs m' hz)]

/-- C90, discrepancy: values that are not a number go unnoticed.  A field without a single proper value has the largest
float as minimum and the smallest as maximum. -/
theorem C90_nan_refuted (top bot : K) (ranks : List (List (Option K))) (h : ∀ xs ∈ ranks, ∀ x ∈ xs, x = none) :
    minApply top ranks = some top ∧ maxApply bot ranks = some bot := by
  constructor
  · unfold minApply
    obtain ⟨m, h1, h2, h3, h4⟩ := foldl_minify (ranks.map fun xs => xs.foldl minify (some top)) top
    rw [h1]
    rcases h4 with h4 | h4
    · rw [h4]
    · obtain ⟨xs, hxs, g⟩ := List.mem_map.mp h4
      obtain ⟨m', g1, g2, g3, g4⟩ := foldl_minify xs top
      rw [g1] at g
      injection g with g
      rcases g4 with g4 | g4
      · rw [← g, g4]
      · exact absurd (h xs hxs _ g4) (by simp)
  · unfold maxApply
    obtain ⟨m, h1, h2, h3, h4⟩ := foldl_maxify (ranks.map fun xs => xs.foldl maxify (some bot)) bot
    rw [h1]
    rcases h4 with h4 | h4
    · rw [h4]
    · obtain ⟨xs, hxs, g⟩ := List.mem_map.mp h4
      obtain ⟨m', g1, g2, g3, g4⟩ := foldl_maxify xs bot
      rw [g1] at g
      injection g with g
      rcases g4 with g4 | g4
      · rw [← g, g4]
      · exact absurd (h xs hxs _ g4) (by simp)

/-! #### Registering -/

theorem register_eq {α : Type*} [DecidableEq α] (fields new : List α) :
    register fields new = fields ++ new.filter (fun f => f ∉ fields) := by
  unfold register
  suffices h : ∀ acc : List α, new.foldl (fun acc f => if f ∈ fields then acc else acc ++ [f]) acc =
      acc ++ new.filter (fun f => f ∉ fields) from h fields
  induction new with
  | nil => simp
  | cons f fs ih =>
    intro acc
    simp only [List.foldl_cons, ih]
    by_cases hf : f ∈ fields <;> simp [hf]

/-- C90: registering keeps what is registered, in order, and afterwards everything asked for is registered; registering
fields one by one (as the model does) never makes a duplicate. -/
theorem C90_register {α : Type*} [DecidableEq α] (fields new : List α) :
    (∃ more, register fields new = fields ++ more) ∧ (∀ f, f ∈ register fields new ↔ f ∈ fields ∨ f ∈ new) ∧
      (fields.Nodup → (new.foldl (fun acc f => register acc [f]) fields).Nodup) := by
  refine ⟨⟨_, register_eq _ _⟩, ?_, ?_⟩
  · intro f
    rw [register_eq]
    by_cases hf : f ∈ fields <;> simp [hf]
  · induction new generalizing fields with
    | nil => exact id
    | cons f fs ih =>
      intro hn
      apply ih
      change (register fields [f]).Nodup
      rw [register_eq]
      by_cases hf : f ∈ fields
      · simpa [hf] using hn
      · simp [hf, List.nodup_append, hn]
        intro a ha h
        exact hf (h ▸ ha)

/-- C90, discrepancy: one call with a repeated field registers it twice. -/
theorem C90_register_refuted {α : Type*} [DecidableEq α] (f : α) : register [] [f, f] = [f, f] := by
  simp [register_eq]

end Stats

/-! #### Norms -/

section Norms
variable {C : Type*} [Fintype C] {n : ℕ}

theorem dot_self_nonneg (v : Fin n → ℝ) : 0 ≤ dot v v := Finset.sum_nonneg fun i _ => mul_self_nonneg (v i)

theorem sqInt_nonneg (w : C → ℝ) (hw : ∀ x, 0 ≤ w x) (f : C → Fin n → ℝ) : 0 ≤ sqInt w f :=
  Finset.sum_nonneg fun x _ => mul_nonneg (hw x) (dot_self_nonneg _)

/-- C90: the L2 norm and the root mean square measure the same: `rms² · area = l2²`; both vanish exactly for the field
which is zero wherever the weight is positive. -/
theorem C90_rms_l2 (w : C → ℝ) (hw : ∀ x, 0 ≤ w x) (hA : 0 < ∑ x, w x) (f : C → Fin n → ℝ) :
    rms w f ^ 2 * (∑ x, w x) = l2 w f ^ 2 ∧ l2 w f ^ 2 = ∑ x, w x * ∑ i, f x i ^ 2 ∧
    (l2 w f = 0 ↔ ∀ x, 0 < w x → ∀ i, f x i = 0) ∧ (rms w f = 0 ↔ l2 w f = 0) := by
  have hs := sqInt_nonneg w hw f
  have e : rms w f ^ 2 * (∑ x, w x) = l2 w f ^ 2 := by
    unfold rms l2
    rw [Real.sq_sqrt (div_nonneg hs hA.le), Real.sq_sqrt hs, div_mul_cancel₀ _ hA.ne']
  refine ⟨e, ?_, ?_, ?_⟩
  · unfold l2
    rw [Real.sq_sqrt hs]
    unfold sqInt dot
    exact Finset.sum_congr rfl fun x _ => by congr 1; exact Finset.sum_congr rfl fun i _ => by ring
  · unfold l2
    rw [Real.sqrt_eq_zero hs]
    unfold sqInt
    rw [Finset.sum_eq_zero_iff_of_nonneg fun x _ => mul_nonneg (hw x) (dot_self_nonneg _)]
    constructor
    · intro h x hx i
      have := h x (Finset.mem_univ x)
      rcases mul_eq_zero.mp this with h0 | h0
      · exact absurd h0 hx.ne'
      · unfold dot at h0
        rw [Finset.sum_eq_zero_iff_of_nonneg fun i _ => mul_self_nonneg _] at h0
        exact mul_self_eq_zero.mp (h0 i (Finset.mem_univ i))
    · intro h x _
      rcases (hw x).eq_or_lt with h0 | h0
      · rw [← h0, zero_mul]
      · rw [show dot (f x) (f x) = 0 from Finset.sum_eq_zero fun i _ => by rw [h x h0 i, mul_zero], mul_zero]
  · unfold rms l2
    rw [Real.sqrt_eq_zero hs, Real.sqrt_eq_zero (div_nonneg hs hA.le), div_eq_zero_iff]
    constructor
    · rintro (h | h)
      · exact h
      · exact absurd h hA.ne'
    · exact Or.inl

/-- C90: bounds of the norms.  If `|f| ≤ b` (`a ≤ |f|`) everywhere then `rms ≤ b` (`a ≤ rms`); in particular the root mean
square of a field of constant length is that length. -/
theorem C90_rms_bounds (w : C → ℝ) (hw : ∀ x, 0 ≤ w x) (hA : 0 < ∑ x, w x) (f : C → Fin n → ℝ) (a b : ℝ) (ha : 0 ≤ a)
    (hb : 0 ≤ b) :
    ((∀ x, dot (f x) (f x) ≤ b ^ 2) → rms w f ≤ b) ∧ ((∀ x, a ^ 2 ≤ dot (f x) (f x)) → a ≤ rms w f) := by
  constructor
  · intro h
    unfold rms
    rw [Real.sqrt_le_left hb, div_le_iff₀ hA, Finset.mul_sum]
    exact Finset.sum_le_sum fun x _ => by rw [mul_comm]; exact mul_le_mul_of_nonneg_right (h x) (hw x)
  · intro h
    unfold rms
    apply Real.le_sqrt_of_sq_le
    rw [le_div_iff₀ hA, Finset.mul_sum]
    exact Finset.sum_le_sum fun x _ => by rw [mul_comm]; exact mul_le_mul_of_nonneg_left (h x) (hw x)

/-- C90: the mean of a scalar is bounded by its root mean square, and the total of a constant is the constant times the
area. -/
theorem C90_total (w : C → ℝ) (hw : ∀ x, 0 ≤ w x) (hA : 0 < ∑ x, w x) (f : C → ℝ) (k : ℝ) :
    |total w f| ≤ (∑ x, w x) * rms w (fun x (_ : Fin 1) => f x) ∧ total w (fun _ => k) = k * ∑ x, w x := by
  constructor
  · apply abs_le_of_sq_le_sq _ (mul_nonneg hA.le (Real.sqrt_nonneg _))
    have hs := sqInt_nonneg w hw (fun x (_ : Fin 1) => f x)
    rw [mul_pow, Real.sq_sqrt (div_nonneg hs hA.le)]
    have e : (∑ x, w x) ^ 2 * (sqInt w (fun x (_ : Fin 1) => f x) / ∑ x, w x) =
        (∑ x, w x) * ∑ x, w x * f x ^ 2 := by
      have : sqInt w (fun x (_ : Fin 1) => f x) = ∑ x, w x * f x ^ 2 := by
        unfold sqInt dot; exact Finset.sum_congr rfl fun x _ => by simp [pow_two]
      rw [this]
      field_simp
    rw [e]
    have := Finset.sum_mul_sq_le_sq_mul_sq Finset.univ (fun x => Real.sqrt (w x)) (fun x => Real.sqrt (w x) * f x)
    have e1 : ∀ x, Real.sqrt (w x) * (Real.sqrt (w x) * f x) = w x * f x := fun x => by
      rw [← mul_assoc, Real.mul_self_sqrt (hw x)]
    have e2 : ∀ x, Real.sqrt (w x) ^ 2 = w x := fun x => Real.sq_sqrt (hw x)
    have e3 : ∀ x, (Real.sqrt (w x) * f x) ^ 2 = w x * f x ^ 2 := fun x => by rw [mul_pow, e2]
    simp only [e1, e2, e3] at this
    exact this
  · unfold total
    rw [Finset.mul_sum]
    exact Finset.sum_congr rfl fun x _ => mul_comm _ _

example : rms (fun _ : Fin 2 => (2 : ℝ)) (fun _ (i : Fin 2) => if i = 0 then (3 : ℝ) else 4) = 5 := by
  apply le_antisymm
  · exact (C90_rms_bounds _ (by norm_num) (by norm_num) _ 0 5 (by norm_num) (by norm_num)).1
      (by intro x; norm_num [dot, Fin.sum_univ_two])
  · exact (C90_rms_bounds _ (by norm_num) (by norm_num) _ 5 5 (by norm_num) (by norm_num)).2
      (by intro x; norm_num [dot, Fin.sum_univ_two])

end Norms

/-! #### Iterative diagnostics -/

section Iter
variable {K V : Type*} [Field K] [AddCommGroup V] [Module K V]

/-- C90: what an iterative diagnostic reports does not depend on what the field held before; a first guess that solves the
implicit equation is kept; and whatever is unchanged by one more iteration solves the implicit equation (when `gamma` is
not zero). -/
theorem C90_iterative (gamma : K) (F : V → V) (guess : V) (n : ℕ) (old old' : V) :
    iterative gamma F guess n old = iterative gamma F guess n old' ∧
    (F guess = guess → iterative gamma F guess n old = guess) ∧
    (gamma ≠ 0 → iterative gamma F guess (n + 1) old = iterative gamma F guess n old →
      F (iterative gamma F guess n old) = iterative gamma F guess n old) := by
  refine ⟨rfl, ?_, ?_⟩
  · intro h
    unfold iterative
    apply Function.iterate_fixed
    rw [h, ← add_smul]; simp
  · intro hg h
    unfold iterative at *
    rw [Function.iterate_succ_apply'] at h
    set x := (fun x => (1 - gamma) • x + gamma • F x)^[n] guess
    have : gamma • (F x - x) = 0 := by
      have : gamma • (F x - x) = ((1 - gamma) • x + gamma • F x) - x := by
        rw [smul_sub, sub_smul, one_smul]; abel
      rw [this, h, sub_self]
    rcases smul_eq_zero.mp this with h0 | h0
    · exact absurd h0 hg
    · exact sub_eq_zero.mp h0

/-- C90: `gamma = 1` is plain fixed point iteration. -/
theorem C90_iterative_picard (F : V → V) (guess old : V) (n : ℕ) : iterative (1 : K) F guess n old = F^[n] guess := by
  unfold iterative; simp

/-- C90: convergence.  If the implicit expression is a contraction with factor `L` towards its solution, the error after `n`
iterations is at most `(|1-γ| + |γ|L)^n` times that of the first guess; for `0 < γ ≤ 1` and `L < 1` that factor is below
one. -/
theorem C90_iterative_converges {W : Type*} [NormedAddCommGroup W] [NormedSpace ℝ W] (gamma L : ℝ) (F : W → W)
    (sol guess old : W) (n : ℕ) (hL : 0 ≤ L) (hF : ∀ x, ‖F x - sol‖ ≤ L * ‖x - sol‖) :
    ‖iterative gamma F guess n old - sol‖ ≤ (|1 - gamma| + |gamma| * L) ^ n * ‖guess - sol‖ ∧
    (0 < gamma → gamma ≤ 1 → L < 1 → |1 - gamma| + |gamma| * L < 1) := by
  constructor
  · unfold iterative
    induction n with
    | zero => simp
    | succ n ih =>
      rw [Function.iterate_succ_apply']
      set x := (fun x => (1 - gamma) • x + gamma • F x)^[n] guess
      have e : (1 - gamma) • x + gamma • F x - sol = (1 - gamma) • (x - sol) + gamma • (F x - sol) := by
        rw [smul_sub, smul_sub, sub_smul, sub_smul, one_smul, one_smul]; abel
      rw [e]
      have hc : 0 ≤ |1 - gamma| + |gamma| * L := add_nonneg (abs_nonneg _) (mul_nonneg (abs_nonneg _) hL)
      calc ‖(1 - gamma) • (x - sol) + gamma • (F x - sol)‖
          ≤ ‖(1 - gamma) • (x - sol)‖ + ‖gamma • (F x - sol)‖ := norm_add_le _ _
        _ = |1 - gamma| * ‖x - sol‖ + |gamma| * ‖F x - sol‖ := by
            rw [norm_smul, norm_smul, Real.norm_eq_abs, Real.norm_eq_abs]
        _ ≤ |1 - gamma| * ‖x - sol‖ + |gamma| * (L * ‖x - sol‖) := by
            linarith [mul_le_mul_of_nonneg_left (hF x) (abs_nonneg gamma)]
        _ = (|1 - gamma| + |gamma| * L) * ‖x - sol‖ := by ring
        _ ≤ (|1 - gamma| + |gamma| * L) * ((|1 - gamma| + |gamma| * L) ^ n * ‖guess - sol‖) :=
            mul_le_mul_of_nonneg_left ih hc
        _ = (|1 - gamma| + |gamma| * L) ^ (n + 1) * ‖guess - sol‖ := by ring
  · intro h0 h1 h2
    rw [abs_of_nonneg (by linarith), abs_of_pos h0]
    nlinarith

example : ‖iterative (4 / 5 : ℝ) (fun x : ℝ => x / 2 + 1) 0 3 7 - 2‖ ≤ (3 / 5) ^ 3 * 2 := by
  have := (C90_iterative_converges (4 / 5) (1 / 2) (fun x : ℝ => x / 2 + 1) 2 0 7 3 (by norm_num)
    (by intro x; rw [show x / 2 + 1 - 2 = 1 / 2 * (x - 2) by ring, norm_mul]; norm_num)).1
  norm_num at this ⊢
  linarith

/-- C90, discrepancy: the documentation calls `gamma` the weight of the previous guess, but it is the weight of the new
value: with `gamma = 1` nothing of the previous guess is left, and with `gamma = 0` the first guess is returned whatever the
implicit expression. -/
theorem C90_gamma_refuted (F : V → V) (guess old : V) (n : ℕ) :
    iterative (1 : K) F guess 1 old = F guess ∧ iterative (0 : K) F guess n old = guess := by
  refine ⟨by simp [iterative], ?_⟩
  unfold iterative
  apply Function.iterate_fixed
  simp

end Iter

/-! #### Components -/

section Comp
variable {K : Type*} [Field K]

/-- C90: on domains whose topological and geometric dimension agree, the components offered are the Cartesian components. -/
theorem C90_components (a b c : K) :
    xComponent .interval [a] = .ok a ∧
    (xComponent .plane [a, b] = .ok a ∧ yComponent .plane [a, b] = .ok b) ∧
    (xComponent .verticalSlice [a, b] = .ok a ∧ zComponent .verticalSlice [a, b] = .ok b) ∧
    (∀ ty, ty = DomainType.extrudedPlane ∨ ty = DomainType.extrudedSphericalShell →
      xComponent ty [a, b, c] = .ok a ∧ yComponent ty [a, b, c] = .ok b ∧ zComponent ty [a, b, c] = .ok c) := by
  refine ⟨?_, ⟨?_, ?_⟩, ⟨?_, ?_⟩, ?_⟩
  · simp [xComponent, udot, DomainType.tdim]
  · simp [xComponent, udot, DomainType.tdim]
  · simp [yComponent, udot, DomainType.tdim]
  · simp [xComponent, udot, DomainType.tdim]
  · simp [zComponent, udot, DomainType.tdim]
  · rintro ty (rfl | rfl) <;> simp [xComponent, yComponent, zComponent, udot, DomainType.tdim]

/-- C90: the other components are refused with a message. -/
theorem C90_components_refused (f : List K) :
    yComponent .interval f = .error .assertionError ∧ yComponent .verticalSlice f = .error .assertionError ∧
    zComponent .interval f = .error .assertionError ∧ zComponent .plane f = .error .assertionError := by
  simp [yComponent, zComponent]

/-- C90, discrepancy: on the surface of a sphere the vectors have three components but the unit vectors have two, so none of
the "geocentric Cartesian" components can be computed. -/
theorem C90_components_sphere_refuted (f : List K) (h : f.length = DomainType.sphericalShell.gdim) :
    xComponent .sphericalShell f = .error .valueError ∧ yComponent .sphericalShell f = .error .valueError ∧
    zComponent .sphericalShell f = .error .valueError := by
  simp [xComponent, yComponent, zComponent, udot, DomainType.tdim, DomainType.gdim, h] at *
  <;> simp [h]

end Comp

/-! #### Gradient and tracer density -/

section Forms
variable {K : Type*} [Field K] [LinearOrder K] [IsStrictOrderedRing K] {d : ℕ} {C F B : Type*}
variable [Fintype C] [Fintype F] [Fintype B]

/-- The divergence theorem for `f v`, for a continuous `f` and a test function `v` of the (continuous) space. -/
def GaussThm (M : Mesh K d C F B) (f : Sc K d C F B) (v : Ve K d C F B) : Prop :=
  ∑ x, M.wC x * (v.div x * f.c x + dot (v.c x) (f.g x)) = ∑ x, M.wB x * (dot (v.b x) (M.nB x) * f.b x)

/-- C90: the gradient diagnostic is the projection of the gradient, when the integral over the part of the boundary that is
neither top nor bottom vanishes (periodic domains, spheres). -/
theorem C90_gradient (M : Mesh K d C F B) (extruded : Bool) (tb : B → Bool) (V : Set (Ve K d C F B))
    (f : Sc K d C F B) (g : C → Fin d → K) (hg : IsGradient M extruded tb V f g) (hdiv : ∀ v ∈ V, GaussThm M f v)
    (hlat : ∀ v ∈ V, ∑ x, M.wB x * (if extruded && tb x then 0 else dot (v.b x) (M.nB x) * f.b x) = 0) :
    ∀ v ∈ V, ∑ x, M.wC x * dot (v.c x) (g x) = ∑ x, M.wC x * dot (v.c x) (f.g x) := by
  intro v hv
  rw [hg v hv]
  have h1 := hdiv v hv
  have h2 := hlat v hv
  unfold GaussThm at h1
  have e : ∑ x, M.wC x * (v.div x * f.c x + dot (v.c x) (f.g x)) =
      (∑ x, M.wC x * (v.div x * f.c x)) + ∑ x, M.wC x * dot (v.c x) (f.g x) := by
    rw [← Finset.sum_add_distrib]; exact Finset.sum_congr rfl fun x _ => by ring
  have e2 : ∑ x, M.wB x * (dot (v.b x) (M.nB x) * f.b x) =
      (∑ x, M.wB x * (if extruded && tb x then dot (v.b x) (M.nB x) * f.b x else 0)) +
      ∑ x, M.wB x * (if extruded && tb x then 0 else dot (v.b x) (M.nB x) * f.b x) := by
    rw [← Finset.sum_add_distrib]
    exact Finset.sum_congr rfl fun x _ => by split <;> ring
  unfold gradientRHS
  rw [h2, add_zero] at e2
  rw [e, e2] at h1
  cases extruded with
  | false => simp at h1 ⊢; linarith
  | true => simp only [Bool.true_and, if_true] at h1 ⊢; linarith

/-- The unit interval as one cell with Simpson's rule. -/
def unit : Mesh ℚ 1 (Fin 3) (Fin 0) (Fin 2) where
  wC x := if x = 1 then 4 / 6 else 1 / 6
  wF _ := 1
  wB _ := 1
  nP _ _ := 1
  nM _ _ := 1
  nB x _ := if x = 0 then -1 else 1
/-- The linear functions on it. -/
def linV (a b : ℚ) : Ve ℚ 1 (Fin 3) (Fin 0) (Fin 2) where
  c x _ := if x = 0 then a else if x = 1 then (a + b) / 2 else b
  j _ _ _ := b - a
  p _ _ := 0
  m _ _ := 0
  b x _ := if x = 0 then a else b

/-- Not vacuous: on an interval whose ends are both top and bottom (a single column) the diagnostic gives the gradient `c` of
`c x`. -/
example (c : ℚ) : IsGradient unit true (fun _ => true) {v | ∃ a b, v = linV a b}
    { c := fun x => if x = 0 then 0 else if x = 1 then c / 2 else c, g := fun _ _ => c, p := fun _ => 0, m := fun _ => 0,
      b := fun x => if x = 0 then 0 else c, gp := fun _ _ => 0, gm := fun _ _ => 0 } (fun _ _ => c) := by
  rintro v ⟨a, b, rfl⟩
  simp [gradientRHS, unit, linV, dot, Ve.div, Fin.sum_univ_three, Fin.sum_univ_two]
  ring

/-- C90, discrepancy: on a domain that is not extruded and has a boundary the terms of the boundary are missing: the
"gradient" of the constant `1` on the unit interval is `6` at the left end and `-6` at the right, and there is no other
solution. -/
theorem C90_gradient_refuted :
    IsGradient unit false (fun _ => false) {v | ∃ a b, v = linV a b} (Sc.const 1) (linV 6 (-6)).c ∧
    ∀ a b, IsGradient unit false (fun _ => false) {v | ∃ a b, v = linV a b} (Sc.const 1) (linV a b).c → a = 6 ∧ b = -6 := by
  constructor
  · rintro v ⟨a, b, rfl⟩
    simp [gradientRHS, unit, linV, dot, Ve.div, Sc.const, Fin.sum_univ_three]
    ring
  · intro a b h
    have h1 := h (linV 1 0) ⟨1, 0, rfl⟩
    have h2 := h (linV 0 1) ⟨0, 1, rfl⟩
    simp [gradientRHS, unit, linV, dot, Ve.div, Sc.const, Fin.sum_univ_three] at h1 h2
    constructor <;> linarith

variable {I : Type*} [DecidableEq I] [Fintype I]

theorem sum_cells (E : Cells C F B I) (g : C → K) : ∑ i, ∑ x, g x * (if E.cC x = i then 1 else 0) = ∑ x, g x := by
  rw [Finset.sum_comm]
  exact Finset.sum_congr rfl fun x _ => by simp

/-- C90: the tracer density has in every cell the mean of the product, so the total of the diagnostic is the total mass of
the tracer, and bounds of the product are bounds of the diagnostic. -/
theorem C90_tracer_density (M : Mesh K d C F B) (E : Cells C F B I) (m rho : C → K) (hw : ∀ x, 0 ≤ M.wC x)
    (hv : ∀ i, 0 < vol M E i) :
    (∑ x, M.wC x * tracerDensity M E m rho (E.cC x) = ∑ x, M.wC x * (m x * rho x)) ∧
    (∀ i lo hi, (∀ x, E.cC x = i → lo ≤ m x * rho x ∧ m x * rho x ≤ hi) →
      lo ≤ tracerDensity M E m rho i ∧ tracerDensity M E m rho i ≤ hi) := by
  constructor
  · calc ∑ x, M.wC x * tracerDensity M E m rho (E.cC x)
        = ∑ i, ∑ x, (M.wC x * tracerDensity M E m rho (E.cC x)) * (if E.cC x = i then 1 else 0) := (sum_cells E _).symm
      _ = ∑ i, vol M E i * tracerDensity M E m rho i := by
          refine Finset.sum_congr rfl fun i _ => ?_
          unfold vol
          rw [Finset.sum_mul]
          refine Finset.sum_congr rfl fun x _ => ?_
          by_cases h : E.cC x = i
          · simp [h]
          · simp [h]
      _ = ∑ i, ∑ x, (M.wC x * (m x * rho x)) * (if E.cC x = i then 1 else 0) := by
          refine Finset.sum_congr rfl fun i _ => ?_
          unfold tracerDensity
          rw [mul_div_cancel₀ _ (hv i).ne']
          exact Finset.sum_congr rfl fun x _ => by ring
      _ = _ := sum_cells E _
  · intro i lo hi h
    unfold tracerDensity
    rw [le_div_iff₀ (hv i), div_le_iff₀ (hv i)]
    unfold vol
    rw [Finset.mul_sum, Finset.mul_sum]
    constructor
    · refine Finset.sum_le_sum fun x _ => ?_
      by_cases hx : E.cC x = i
      · simp only [hx, if_true, mul_one]
        rw [mul_comm]; exact mul_le_mul_of_nonneg_left (h x hx).1 (hw x)
      · simp [hx]
    · refine Finset.sum_le_sum fun x _ => ?_
      by_cases hx : E.cC x = i
      · simp only [hx, if_true, mul_one]
        rw [mul_comm hi]; exact mul_le_mul_of_nonneg_left (h x hx).2 (hw x)
      · simp [hx]

/-- C90: with the other methods, the vertical factor of the element of an extruded mesh is defined on an interval exactly
when the base mesh is one-dimensional.  On a three-dimensional mesh it is not (discrepancy). -/
theorem C90_tracer_element (base : String) : (tracerElementCells base).2 = "interval" ↔ base = "interval" := Iff.rfl

theorem C90_tracer_element_refuted : (tracerElementCells "quadrilateral").2 ≠ "interval" := by decide

end Forms

/-! ### C91: Courant numbers -/

section Courant
variable {K : Type*} [Field K] [LinearOrder K] [IsStrictOrderedRing K] {d : ℕ} {C F B : Type*}
variable [Fintype C] [Fintype F] [Fintype B] {I : Type*} [DecidableEq I]

theorem un_eq_max (a : K) : un a = max a 0 := by
  rcases le_total 0 a with h | h
  · rw [un_pos h, max_eq_left h]
  · rw [un_neg h, max_eq_right h]

/-- C91: the Courant number of a cell is `dt/volume` times the volume that flows in per time: over all facets of the cell,
with the normal `n` pointing out of the cell, the integral of the positive part of `-u·n`. -/
theorem C91_definition (M : Mesh K d C F B) (E : Cells C F B I) (k : Fin d → K) (u : Ve K d C F B) (dt : K) (i : I) :
    courant M E k .whole u dt i = dt *
      ((∑ x, M.wF x * ((if E.cP x = i then max (-dot (u.p x) (M.nP x)) 0 else 0) +
          (if E.cM x = i then max (-dot (u.m x) (M.nM x)) 0 else 0))) +
        ∑ x, M.wB x * (if E.cB x = i then max (-dot (u.b x) (M.nB x)) 0 else 0)) / vol M E i := by
  unfold courant cellFlux
  rw [mul_comm]
  congr 2
  congr 1
  · refine Finset.sum_congr rfl fun x _ => ?_
    simp only [ind, dg0, compOf, un_eq_max, Mesh.aP, Mesh.aM]
    by_cases h1 : E.cP x = i <;> by_cases h2 : E.cM x = i <;> simp [h1, h2]
  · refine Finset.sum_congr rfl fun x _ => ?_
    simp only [ind, dg0, compOf, un_eq_max, Mesh.aB]
    by_cases h1 : E.cB x = i <;> simp [h1]

theorem ind_nonneg (E : Cells C F B I) (i : I) :
    (∀ x, 0 ≤ (ind (K := K) (d := d) E i).p x) ∧ (∀ x, 0 ≤ (ind (K := K) (d := d) E i).m x) ∧
    (∀ x, 0 ≤ (ind (K := K) (d := d) E i).b x) := by
  refine ⟨?_, ?_, ?_⟩ <;> intro x <;> simp only [ind, dg0] <;> split <;> norm_num

theorem cellFlux_nonneg (M : Mesh K d C F B) (hF : ∀ x, 0 ≤ M.wF x) (hB : ∀ x, 0 ≤ M.wB x) (E : Cells C F B I)
    (u : Ve K d C F B) (i : I) : 0 ≤ cellFlux M u (ind E i) := by
  obtain ⟨h1, h2, h3⟩ := ind_nonneg (K := K) (d := d) E i
  unfold cellFlux
  apply add_nonneg
  · exact Finset.sum_nonneg fun x _ => mul_nonneg (hF x)
      (add_nonneg (mul_nonneg (un_nonneg _) (h1 x)) (mul_nonneg (un_nonneg _) (h2 x)))
  · exact Finset.sum_nonneg fun x _ => mul_nonneg (hB x) (mul_nonneg (un_nonneg _) (h3 x))

/-- C91: Courant numbers are not negative and are proportional to the time step. -/
theorem C91_basic (M : Mesh K d C F B) (hF : ∀ x, 0 ≤ M.wF x) (hB : ∀ x, 0 ≤ M.wB x) (E : Cells C F B I)
    (k : Fin d → K) (comp : Comp) (u : Ve K d C F B) (dt c : K) (i : I) (hv : 0 < vol M E i) :
    (0 ≤ dt → 0 ≤ courant M E k comp u dt i) ∧
    courant M E k comp u (c * dt) i = c * courant M E k comp u dt i := by
  refine ⟨fun hdt => div_nonneg (mul_nonneg (cellFlux_nonneg M hF hB E _ i) hdt) hv.le, ?_⟩
  unfold courant
  rw [mul_div_assoc, mul_div_assoc]; ring

theorem un_add_le (a b : K) : un (a + b) ≤ un a + un b := by
  unfold un
  have := abs_add_le a b
  linarith

theorem dot_neg_left (a b : Fin d → K) : dot (fun i => -a i) b = -dot a b := by
  unfold dot; rw [← Finset.sum_neg_distrib]; exact Finset.sum_congr rfl fun i _ => by ring

/-- C91: the whole Courant number is at most the sum of the horizontal and the vertical one, and is equal to it when every
facet is either horizontal (its normal is a multiple of `k`) or vertical (orthogonal to `k`). -/
theorem C91_components (M : Mesh K d C F B) (hF : ∀ x, 0 ≤ M.wF x) (hB : ∀ x, 0 ≤ M.wB x) (E : Cells C F B I)
    (k : Fin d → K) (u : Ve K d C F B) (dt : K) (i : I) (hdt : 0 ≤ dt) (hv : 0 < vol M E i) :
    courant M E k .whole u dt i ≤ courant M E k .horizontal u dt i + courant M E k .vertical u dt i ∧
    ((∀ x, M.aP (horiz k u) x = 0 ∨ M.aP (vert k u) x = 0) → (∀ x, M.aM (horiz k u) x = 0 ∨ M.aM (vert k u) x = 0) →
      (∀ x, M.aB (horiz k u) x = 0 ∨ M.aB (vert k u) x = 0) →
      courant M E k .whole u dt i = courant M E k .horizontal u dt i + courant M E k .vertical u dt i) := by
  have sp : ∀ a b n : Fin d → K, dot (fun j => a j - b j) n + dot b n = dot a n := by
    intro a b n; unfold dot; rw [← Finset.sum_add_distrib]; exact Finset.sum_congr rfl fun j _ => by ring
  have eP : ∀ x, -M.aP u x = -M.aP (horiz k u) x + -M.aP (vert k u) x := by
    intro x; unfold Mesh.aP; rw [← sp (u.p x) ((vert k u).p x)]; simp only [horiz]; ring
  have eM : ∀ x, -M.aM u x = -M.aM (horiz k u) x + -M.aM (vert k u) x := by
    intro x; unfold Mesh.aM; rw [← sp (u.m x) ((vert k u).m x)]; simp only [horiz]; ring
  have eB : ∀ x, -M.aB u x = -M.aB (horiz k u) x + -M.aB (vert k u) x := by
    intro x; unfold Mesh.aB; rw [← sp (u.b x) ((vert k u).b x)]; simp only [horiz]; ring
  obtain ⟨h1, h2, h3⟩ := ind_nonneg (K := K) (d := d) E i
  constructor
  · unfold courant
    simp only [compOf]
    rw [← add_div, ← add_mul]
    apply div_le_div_of_nonneg_right _ hv.le
    apply mul_le_mul_of_nonneg_right _ hdt
    unfold cellFlux
    have a1 : (∑ x, M.wF x * (un (-M.aP u x) * (ind (d := d) E i).p x + un (-M.aM u x) * (ind (d := d) E i).m x)) ≤
        (∑ x, M.wF x * (un (-M.aP (horiz k u) x) * (ind (d := d) E i).p x + un (-M.aM (horiz k u) x) * (ind (d := d) E i).m x)) +
        ∑ x, M.wF x * (un (-M.aP (vert k u) x) * (ind (d := d) E i).p x + un (-M.aM (vert k u) x) * (ind (d := d) E i).m x) := by
      rw [← Finset.sum_add_distrib]
      refine Finset.sum_le_sum fun x _ => ?_
      rw [← mul_add]
      apply mul_le_mul_of_nonneg_left _ (hF x)
      rw [eP, eM]
      have b1 := mul_le_mul_of_nonneg_right (un_add_le (-M.aP (horiz k u) x) (-M.aP (vert k u) x)) (h1 x)
      have b2 := mul_le_mul_of_nonneg_right (un_add_le (-M.aM (horiz k u) x) (-M.aM (vert k u) x)) (h2 x)
      linarith
    have a2 : (∑ x, M.wB x * (un (-M.aB u x) * (ind (d := d) E i).b x)) ≤
        (∑ x, M.wB x * (un (-M.aB (horiz k u) x) * (ind (d := d) E i).b x)) +
        ∑ x, M.wB x * (un (-M.aB (vert k u) x) * (ind (d := d) E i).b x) := by
      rw [← Finset.sum_add_distrib]
      refine Finset.sum_le_sum fun x _ => ?_
      rw [← mul_add]
      apply mul_le_mul_of_nonneg_left _ (hB x)
      rw [eB]
      have b1 := mul_le_mul_of_nonneg_right (un_add_le (-M.aB (horiz k u) x) (-M.aB (vert k u) x)) (h3 x)
      linarith
    linarith
  · intro gP gM gB
    have key : ∀ a b : K, a = 0 ∨ b = 0 → un (-a + -b) = un (-a) + un (-b) := by
      intro a b h
      rcases h with h | h
      · rw [h]; simp [un_zero]
      · rw [h]; simp [un_zero]
    unfold courant
    simp only [compOf]
    rw [← add_div, ← add_mul]
    congr 2
    unfold cellFlux
    have a1 : (∑ x, M.wF x * (un (-M.aP u x) * (ind (d := d) E i).p x + un (-M.aM u x) * (ind (d := d) E i).m x)) =
        (∑ x, M.wF x * (un (-M.aP (horiz k u) x) * (ind (d := d) E i).p x + un (-M.aM (horiz k u) x) * (ind (d := d) E i).m x)) +
        ∑ x, M.wF x * (un (-M.aP (vert k u) x) * (ind (d := d) E i).p x + un (-M.aM (vert k u) x) * (ind (d := d) E i).m x) := by
      rw [← Finset.sum_add_distrib]
      refine Finset.sum_congr rfl fun x _ => ?_
      rw [eP, eM, key _ _ (gP x), key _ _ (gM x)]; ring
    have a2 : (∑ x, M.wB x * (un (-M.aB u x) * (ind (d := d) E i).b x)) =
        (∑ x, M.wB x * (un (-M.aB (horiz k u) x) * (ind (d := d) E i).b x)) +
        ∑ x, M.wB x * (un (-M.aB (vert k u) x) * (ind (d := d) E i).b x) := by
      rw [← Finset.sum_add_distrib]
      refine Finset.sum_congr rfl fun x _ => ?_
      rw [eB, key _ _ (gB x)]; ring
    rw [a1, a2]; ring

/-- C91 (which component is which).  For a wind orthogonal to the vertical `k` the vertical Courant number is zero and the
horizontal one is the whole; for a wind along the unit vector `k` it is the other way round. -/
theorem C91_component_meaning (M : Mesh K d C F B) (E : Cells C F B I) (k : Fin d → K) (u : Ve K d C F B) (dt : K) (i : I) :
    ((∀ x, dot (u.p x) k = 0) → (∀ x, dot (u.m x) k = 0) → (∀ x, dot (u.b x) k = 0) →
      courant M E k .vertical u dt i = 0 ∧ courant M E k .horizontal u dt i = courant M E k .whole u dt i) ∧
    (dot k k = 1 → (∀ x, ∃ s, u.p x = fun j => s * k j) → (∀ x, ∃ s, u.m x = fun j => s * k j) →
      (∀ x, ∃ s, u.b x = fun j => s * k j) →
      courant M E k .horizontal u dt i = 0 ∧ courant M E k .vertical u dt i = courant M E k .whole u dt i) := by
  have zero : ∀ w : Ve K d C F B, (∀ x, w.p x = 0) → (∀ x, w.m x = 0) → (∀ x, w.b x = 0) →
      cellFlux M w (ind E i) = 0 := by
    intro w h1 h2 h3
    simp [cellFlux, Mesh.aP, Mesh.aM, Mesh.aB, h1, h2, h3, dot, un]
  have same : ∀ w : Ve K d C F B, w.p = u.p → w.m = u.m → w.b = u.b →
      cellFlux M w (ind E i) = cellFlux M u (ind E i) := by
    intro w h1 h2 h3
    simp [cellFlux, Mesh.aP, Mesh.aM, Mesh.aB, h1, h2, h3]
  constructor
  · intro h1 h2 h3
    constructor
    · unfold courant compOf
      rw [zero (vert k u) (fun x => by funext j; simp [vert, h1]) (fun x => by funext j; simp [vert, h2])
        (fun x => by funext j; simp [vert, h3])]
      simp
    · unfold courant compOf
      rw [same (horiz k u) (by funext x j; simp [horiz, vert, h1]) (by funext x j; simp [horiz, vert, h2])
        (by funext x j; simp [horiz, vert, h3])]
  · intro hk h1 h2 h3
    have key : ∀ v : Fin d → K, (∃ s, v = fun j => s * k j) → ∀ j, k j * dot v k = v j := by
      rintro v ⟨s, rfl⟩ j
      have : dot (fun j => s * k j) k = s * dot k k := by
        unfold dot; rw [Finset.mul_sum]; exact Finset.sum_congr rfl fun l _ => by ring
      rw [this, hk]; ring
    constructor
    · unfold courant compOf
      rw [zero (horiz k u) (fun x => by funext j; simp [horiz, vert, key _ (h1 x)])
        (fun x => by funext j; simp [horiz, vert, key _ (h2 x)]) (fun x => by funext j; simp [horiz, vert, key _ (h3 x)])]
      simp
    · unfold courant compOf
      rw [same (vert k u) (by funext x j; simp [vert, key _ (h1 x)]) (by funext x j; simp [vert, key _ (h2 x)])
        (by funext x j; simp [vert, key _ (h3 x)])]

/-- A vertical and a wind for each case. -/
example : dot (![0, 1] : Fin 2 → ℚ) ![0, 1] = 1 ∧ dot (![3, 0] : Fin 2 → ℚ) ![0, 1] = 0 ∧
    ∃ s : ℚ, (![0, 2] : Fin 2 → ℚ) = fun j => s * ![0, 1] j :=
  ⟨by simp [dot], by simp [dot], 2, by funext j; fin_cases j <;> simp⟩

/-- An explicit (forward Euler) step of a DG0 field with the advection form, tested cell by cell. -/
def EulerStep (M : Mesh K d C F B) (E : Cells C F B I) (form : Sc K d C F B → Sc K d C F B → Except Err K) (dt : K)
    (Q Q' : I → K) : Prop :=
  ∀ i, ∃ L, form (ind E i) (dg0 E Q) = .ok L ∧ vol M E i * (Q' i - Q i) = -dt * L

/-- Nothing flows in through the boundary and the outflow form is used, or nothing flows through the boundary. -/
def BoundaryOk (M : Mesh K d C F B) (u : Ve K d C F B) (outflow : Bool) : Prop :=
  (outflow = true ∧ ∀ x, 0 ≤ dot (u.b x) (M.nB x)) ∨ NoFlow M u

omit [Fintype C] [Fintype F] [Fintype B] in
theorem ind_vals (E : Cells C F B I) (i : I) (Q : I → K) (j : I) :
    (if j = i then (1 : K) else 0) * Q j = (if j = i then (1 : K) else 0) * Q i := by
  by_cases h : j = i <;> simp [h]

/-- The form for DG0: differences with the upwind neighbours. -/
theorem dg0_form (M : Mesh K d C F B) (E : Cells C F B I) (u : Ve K d C F B) (outflow : Bool) (Q : I → K) (i : I)
    (hdiv : DivThm M (ind E i) (Sc.const 1) u) (hflux : FluxCont M u) (hbd : BoundaryOk M u outflow) :
    upwindAdvection M (ind E i) (dg0 E Q) u .once outflow = .ok (
      ∑ x, M.wF x * ((if E.cP x = i then un (-M.aP u x) * (Q i - Q (E.cM x)) else 0) +
        (if E.cM x = i then un (-M.aM u x) * (Q i - Q (E.cP x)) else 0))) := by
  unfold upwindAdvection
  simp only [reduceCtorEq, and_false, if_false, if_true]
  congr 1
  have hd : ∑ x, M.wC x * ((if E.cC x = i then 1 else 0) * u.div x) =
      (∑ x, M.wF x * ((if E.cP x = i then 1 else 0) * M.aP u x + (if E.cM x = i then 1 else 0) * M.aM u x)) +
      ∑ x, M.wB x * ((if E.cB x = i then 1 else 0) * M.aB u x) := by
    unfold DivThm at hdiv
    simp only [ind, dg0, Sc.const, dot_zero_left, zero_mul, mul_zero, mul_one, zero_add, add_zero] at hdiv
    exact hdiv
  have hc : advCellsOnce M (ind E i) (dg0 E Q) u =
      -(Q i * ∑ x, M.wC x * ((if E.cC x = i then 1 else 0) * u.div x)) := by
    unfold advCellsOnce
    rw [Finset.mul_sum]
    congr 1
    refine Finset.sum_congr rfl fun x _ => ?_
    simp only [ind, dg0, dot_zero_left, zero_add]
    have := ind_vals E i Q (E.cC x)
    calc _ = M.wC x * u.div x * ((if E.cC x = i then 1 else 0) * Q (E.cC x)) := by ring
      _ = _ := by rw [this]; ring
  rw [hc, hd]
  unfold facets
  simp only [reduceCtorEq, if_false, sub_zero]
  unfold upwindFacets
  have hM : ∀ x, M.aM u x = -M.aP u x := hflux
  have hbnd : (if outflow = true then outflowFacets M (ind E i) (dg0 E Q) u else 0) =
      Q i * ∑ x, M.wB x * ((if E.cB x = i then 1 else 0) * M.aB u x) := by
    rcases hbd with ⟨ho, hb⟩ | hb
    · rw [ho, if_pos rfl]
      unfold outflowFacets
      rw [Finset.mul_sum]
      refine Finset.sum_congr rfl fun x _ => ?_
      rw [show un (M.aB u x) = M.aB u x from un_pos (hb x)]
      simp only [ind, dg0]
      have := ind_vals E i Q (E.cB x)
      calc _ = M.wB x * M.aB u x * ((if E.cB x = i then 1 else 0) * Q (E.cB x)) := by ring
        _ = _ := by rw [this]; ring
    · rw [facets_noflow_outflow M _ _ u hb]
      have : ∀ x, M.aB u x = 0 := hb
      simp [this]
  rw [hbnd]
  have hfac : ∑ x, M.wF x * (((ind (d := d) E i).p x - (ind (d := d) E i).m x) *
        (un (M.aP u x) * (dg0 (d := d) E Q).p x - un (M.aM u x) * (dg0 (d := d) E Q).m x)) -
      Q i * ∑ x, M.wF x * ((if E.cP x = i then 1 else 0) * M.aP u x + (if E.cM x = i then 1 else 0) * M.aM u x) =
      ∑ x, M.wF x * ((if E.cP x = i then un (-M.aP u x) * (Q i - Q (E.cM x)) else 0) +
        (if E.cM x = i then un (-M.aM u x) * (Q i - Q (E.cP x)) else 0)) := by
    rw [Finset.mul_sum, ← Finset.sum_sub_distrib]
    refine Finset.sum_congr rfl fun x _ => ?_
    simp only [ind, dg0]
    rw [hM x, neg_neg]
    have hs : M.aP u x = un (M.aP u x) - un (-M.aP u x) := (un_sub _).symm
    generalize M.aP u x = a at *
    generalize un a = p at *
    generalize un (-a) = q at *
    subst hs
    by_cases h1 : E.cP x = i <;> by_cases h2 : E.cM x = i <;> simp [h1, h2] <;> ring
  linarith

/-- C91: what the Courant number is for.  A DG0 field stepped with forward Euler and the advection form integrated by parts
once stays within its bounds whenever the reported Courant number is at most one in every cell. -/
theorem C91_maximum_principle (M : Mesh K d C F B) (hF : ∀ x, 0 ≤ M.wF x) (hB : ∀ x, 0 ≤ M.wB x) (E : Cells C F B I)
    (k : Fin d → K) (u : Ve K d C F B) (outflow : Bool) (dt lo hi : K) (Q Q' : I → K) (hdt : 0 ≤ dt)
    (hv : ∀ i, 0 < vol M E i) (hdiv : ∀ i, DivThm M (ind E i) (Sc.const 1) u) (hflux : FluxCont M u)
    (hbd : BoundaryOk M u outflow)
    (hstep : EulerStep M E (fun φ q => upwindAdvection M φ q u .once outflow) dt Q Q')
    (hC : ∀ i, courant M E k .whole u dt i ≤ 1) (hQ : ∀ i, lo ≤ Q i ∧ Q i ≤ hi) :
    ∀ i, lo ≤ Q' i ∧ Q' i ≤ hi := by
  intro i
  obtain ⟨L, hL, hs⟩ := hstep i
  simp only [] at hL
  rw [dg0_form M E u outflow Q i (hdiv i) hflux hbd] at hL
  injection hL with hL
  have hcf : cellFlux M u (ind E i) * dt ≤ vol M E i := by
    have := hC i
    unfold courant at this
    rwa [compOf, div_le_one (hv i)] at this
  have hle : ∑ x, M.wF x * (un (-M.aP u x) * (if E.cP x = i then 1 else 0) +
      un (-M.aM u x) * (if E.cM x = i then 1 else 0)) ≤ cellFlux M u (ind E i) := by
    unfold cellFlux
    have : 0 ≤ ∑ x, M.wB x * (un (-M.aB u x) * (ind (d := d) E i).b x) :=
      Finset.sum_nonneg fun x _ => mul_nonneg (hB x) (mul_nonneg (un_nonneg _) ((ind_nonneg E i).2.2 x))
    have e : ∑ x, M.wF x * (un (-M.aP u x) * (if E.cP x = i then 1 else 0) +
      un (-M.aM u x) * (if E.cM x = i then 1 else 0)) =
      ∑ x, M.wF x * (un (-M.aP u x) * (ind (d := d) E i).p x + un (-M.aM u x) * (ind (d := d) E i).m x) := rfl
    rw [e]; linarith
  set S := ∑ x, M.wF x * (un (-M.aP u x) * (if E.cP x = i then 1 else 0) +
      un (-M.aM u x) * (if E.cM x = i then 1 else 0)) with hS
  have hS1 : dt * S ≤ vol M E i := le_trans (by rw [mul_comm]; exact mul_le_mul_of_nonneg_right hle hdt) hcf
  -- the two one-sided bounds of the form
  have up : S * (Q i - hi) ≤ L := by
    rw [← hL, hS, Finset.sum_mul]
    refine Finset.sum_le_sum fun x _ => ?_
    rw [mul_assoc]
    apply mul_le_mul_of_nonneg_left _ (hF x)
    have a := mul_le_mul_of_nonneg_left (hQ (E.cM x)).2 (un_nonneg (-M.aP u x))
    have b := mul_le_mul_of_nonneg_left (hQ (E.cP x)).2 (un_nonneg (-M.aM u x))
    by_cases h1 : E.cP x = i <;> by_cases h2 : E.cM x = i <;> simp only [h1, h2, if_true, if_false] at * <;> nlinarith
  have low : L ≤ S * (Q i - lo) := by
    rw [← hL, hS, Finset.sum_mul]
    refine Finset.sum_le_sum fun x _ => ?_
    rw [mul_assoc]
    apply mul_le_mul_of_nonneg_left _ (hF x)
    have a := mul_le_mul_of_nonneg_left (hQ (E.cM x)).1 (un_nonneg (-M.aP u x))
    have b := mul_le_mul_of_nonneg_left (hQ (E.cP x)).1 (un_nonneg (-M.aM u x))
    by_cases h1 : E.cP x = i <;> by_cases h2 : E.cM x = i <;> simp only [h1, h2, if_true, if_false] at * <;> nlinarith
  have hq1 := (hQ i).1
  have hq2 := (hQ i).2
  constructor
  · have h1 : dt * L ≤ dt * (S * (Q i - lo)) := mul_le_mul_of_nonneg_left low hdt
    have h2 : dt * S * (Q i - lo) ≤ vol M E i * (Q i - lo) := mul_le_mul_of_nonneg_right hS1 (by linarith)
    have h3 : 0 ≤ vol M E i * (Q' i - lo) := by nlinarith
    have := pos_of_mul_nonneg_left h3 (hv i)
    linarith
  · have h1 : dt * (S * (Q i - hi)) ≤ dt * L := mul_le_mul_of_nonneg_left up hdt
    have h2 : dt * S * (hi - Q i) ≤ vol M E i * (hi - Q i) := mul_le_mul_of_nonneg_right hS1 (by linarith)
    have h3 : 0 ≤ vol M E i * (hi - Q' i) := by nlinarith
    have := pos_of_mul_nonneg_left h3 (hv i)
    linarith
where
  pos_of_mul_nonneg_left {a b : K} (h : 0 ≤ a * b) (ha : 0 < a) : 0 ≤ b := by
    by_contra hb
    exact absurd h (not_le.mpr (mul_neg_of_pos_of_neg ha (not_le.mp hb)))

/-- The cells of the mesh `line`. -/
def lineCells : Cells (Fin 2) (Fin 2) (Fin 0) (Fin 2) where
  cC x := x
  cP x := x
  cM x := 1 - x
  cB x := x.elim0

theorem line_facts (a dt : ℚ) (Q : Fin 2 → ℚ) (ha : 0 ≤ a) :
    (∀ i, vol line lineCells i = 1) ∧ (∀ i, DivThm line (ind lineCells i) (Sc.const 1) (wind a)) ∧
    (∀ i, courant line lineCells (fun _ => 0) .whole (wind a) dt i = a * dt) ∧
    EulerStep line lineCells (fun φ q => upwindAdvection line φ q (wind a) .once false) dt Q
      (fun i => Q i - a * dt * (Q i - Q (1 - i))) := by
  have hv : ∀ i, vol line lineCells i = 1 := by
    intro i; fin_cases i <;> simp [vol, line, lineCells, Fin.sum_univ_two]
  have hd : ∀ i, DivThm line (ind lineCells i) (Sc.const 1) (wind a) := by
    intro i
    fin_cases i <;> simp [DivThm, line, lineCells, ind, dg0, Sc.const, wind, dot, Ve.div, Fin.sum_univ_two]
  refine ⟨hv, hd, ?_, ?_⟩
  · intro i
    unfold courant
    rw [hv]
    have h1 : un (-a) = 0 := un_neg (by linarith)
    have h2 : un a = a := un_pos ha
    fin_cases i <;> simp [cellFlux, compOf, ind, dg0, lineCells, line, wind, dot, Mesh.aP, Mesh.aM, Fin.sum_univ_two, h1, h2]
  · intro i
    refine ⟨_, dg0_form line lineCells (wind a) false Q i (hd i) (line_ok Q Q Q Q a).2.1 (Or.inr fun x => x.elim0), ?_⟩
    rw [hv]
    have h1 : un (-a) = 0 := un_neg (by linarith)
    have h2 : un a = a := un_pos ha
    fin_cases i <;> simp [lineCells, line, wind, dot, Mesh.aP, Mesh.aM, Fin.sum_univ_two, h1, h2] <;> ring

/-- Not vacuous: every constant wind on the periodic line. -/
example (a dt lo hi : ℚ) (Q : Fin 2 → ℚ) (ha : 0 ≤ a) (hdt : 0 ≤ dt) (hC : a * dt ≤ 1)
    (hQ : ∀ i, lo ≤ Q i ∧ Q i ≤ hi) (i : Fin 2) :
    lo ≤ Q i - a * dt * (Q i - Q (1 - i)) ∧ Q i - a * dt * (Q i - Q (1 - i)) ≤ hi := by
  obtain ⟨h1, h2, h3, h4⟩ := line_facts a dt Q ha
  exact C91_maximum_principle line (fun _ => by norm_num [line]) (fun x => x.elim0) lineCells (fun _ => 0) (wind a) false dt
    lo hi Q _ hdt (fun i => by rw [h1]; norm_num) h2 (line_ok Q Q Q Q a).2.1 (Or.inr fun x => x.elim0) h4
    (fun i => by rw [h3]; exact hC) hQ i

/-- C91: the bound one is sharp.  For every Courant number above one there is a field with values in `[0, 1]` which leaves
`[0, 1]`. -/
theorem C91_sharp (c : ℚ) (hc : 1 < c) :
    ∃ Q Q' : Fin 2 → ℚ, (∀ i, courant line lineCells (fun _ => 0) .whole (wind c) 1 i = c) ∧
      EulerStep line lineCells (fun φ q => upwindAdvection line φ q (wind c) .once false) 1 Q Q' ∧
      (∀ i, 0 ≤ Q i ∧ Q i ≤ 1) ∧ ∃ i, 1 < Q' i := by
  obtain ⟨h1, h2, h3, h4⟩ := line_facts c 1 (fun i => if i = 0 then 0 else 1) (by linarith)
  refine ⟨_, _, fun i => by rw [h3, mul_one], h4, ?_, 0, ?_⟩
  · intro i; split <;> norm_num
  · norm_num; exact hc

/-- The continuity form for DG0: what flows out of the cell minus what flows in. -/
theorem dg0_continuity (M : Mesh K d C F B) (E : Cells C F B I) (u : Ve K d C F B) (Q : I → K) (i : I)
    (hflux : FluxCont M u) :
    upwindContinuity M (ind E i) (dg0 E Q) u .once true = .ok (
      (∑ x, M.wF x * ((if E.cP x = i then un (M.aP u x) * Q i - un (-M.aP u x) * Q (E.cM x) else 0) +
        (if E.cM x = i then un (M.aM u x) * Q i - un (-M.aM u x) * Q (E.cP x) else 0))) +
      ∑ x, M.wB x * (if E.cB x = i then un (M.aB u x) * Q i else 0)) := by
  unfold upwindContinuity
  simp only [reduceCtorEq, and_false, if_false, if_true]
  congr 1
  have hc : contCellsOnce M (ind E i) (dg0 E Q) u = 0 := by
    unfold contCellsOnce
    simp [ind, dg0, dot]
  rw [hc, zero_add]
  unfold facets
  simp only [reduceCtorEq, if_false, sub_zero, if_true]
  have hM : ∀ x, M.aM u x = -M.aP u x := hflux
  congr 1
  · unfold upwindFacets
    refine Finset.sum_congr rfl fun x _ => ?_
    rw [hM x, neg_neg]
    simp only [ind, dg0]
    by_cases h1 : E.cP x = i <;> by_cases h2 : E.cM x = i <;> simp [h1, h2] <;> ring
  · unfold outflowFacets
    refine Finset.sum_congr rfl fun x _ => ?_
    simp only [ind, dg0]
    by_cases h1 : E.cB x = i <;> simp [h1]

/-- C91: a density in DG0 stepped with forward Euler and the continuity form stays positive in a flow without net divergence
in each cell, whenever the reported Courant number is at most one. -/
theorem C91_positive (M : Mesh K d C F B) (hF : ∀ x, 0 ≤ M.wF x) (hB : ∀ x, 0 ≤ M.wB x) (E : Cells C F B I)
    (k : Fin d → K) (u : Ve K d C F B) (dt : K) (Q Q' : I → K) (hdt : 0 ≤ dt)
    (hv : ∀ i, 0 < vol M E i) (hflux : FluxCont M u)
    (hbal : ∀ i, (∑ x, M.wF x * ((if E.cP x = i then M.aP u x else 0) + (if E.cM x = i then M.aM u x else 0))) +
      ∑ x, M.wB x * (if E.cB x = i then M.aB u x else 0) = 0)
    (hstep : EulerStep M E (fun φ q => upwindContinuity M φ q u .once true) dt Q Q')
    (hC : ∀ i, courant M E k .whole u dt i ≤ 1) (hQ : ∀ i, 0 ≤ Q i) :
    ∀ i, 0 ≤ Q' i := by
  intro i
  obtain ⟨L, hL, hs⟩ := hstep i
  simp only [] at hL
  rw [dg0_continuity M E u Q i hflux] at hL
  injection hL with hL
  have hcf : cellFlux M u (ind E i) * dt ≤ vol M E i := by
    have := hC i
    unfold courant at this
    rwa [compOf, div_le_one (hv i)] at this
  -- the outflow equals the inflow
  have hout : (∑ x, M.wF x * ((if E.cP x = i then un (M.aP u x) else 0) + (if E.cM x = i then un (M.aM u x) else 0))) +
      (∑ x, M.wB x * (if E.cB x = i then un (M.aB u x) else 0)) = cellFlux M u (ind E i) := by
    have := hbal i
    have e1 : (∑ x, M.wF x * ((if E.cP x = i then M.aP u x else 0) + (if E.cM x = i then M.aM u x else 0))) =
        (∑ x, M.wF x * ((if E.cP x = i then un (M.aP u x) else 0) + (if E.cM x = i then un (M.aM u x) else 0))) -
        ∑ x, M.wF x * (un (-M.aP u x) * (ind (d := d) E i).p x + un (-M.aM u x) * (ind (d := d) E i).m x) := by
      rw [← Finset.sum_sub_distrib]
      refine Finset.sum_congr rfl fun x _ => ?_
      have s1 := un_sub (M.aP u x)
      have s2 := un_sub (M.aM u x)
      simp only [ind, dg0]
      by_cases h1 : E.cP x = i <;> by_cases h2 : E.cM x = i <;> simp only [h1, h2, if_true, if_false] <;>
        (rw [← mul_sub]; congr 1; linarith)
    have e2 : (∑ x, M.wB x * (if E.cB x = i then M.aB u x else 0)) =
        (∑ x, M.wB x * (if E.cB x = i then un (M.aB u x) else 0)) -
        ∑ x, M.wB x * (un (-M.aB u x) * (ind (d := d) E i).b x) := by
      rw [← Finset.sum_sub_distrib]
      refine Finset.sum_congr rfl fun x _ => ?_
      have s1 := un_sub (M.aB u x)
      simp only [ind, dg0]
      by_cases h1 : E.cB x = i <;> simp only [h1, if_true, if_false] <;> (rw [← mul_sub]; congr 1; linarith)
    unfold cellFlux
    rw [e1, e2] at this
    linarith
  have hLle : L ≤ cellFlux M u (ind E i) * Q i := by
    rw [← hL, ← hout, add_mul, Finset.sum_mul, Finset.sum_mul]
    apply add_le_add
    · refine Finset.sum_le_sum fun x _ => ?_
      rw [mul_assoc]
      apply mul_le_mul_of_nonneg_left _ (hF x)
      have a := mul_nonneg (un_nonneg (-M.aP u x)) (hQ (E.cM x))
      have b := mul_nonneg (un_nonneg (-M.aM u x)) (hQ (E.cP x))
      by_cases h1 : E.cP x = i <;> by_cases h2 : E.cM x = i <;> simp only [h1, h2, if_true, if_false] at * <;> nlinarith
    · refine Finset.sum_le_sum fun x _ => ?_
      rw [mul_assoc]
      apply mul_le_mul_of_nonneg_left _ (hB x)
      by_cases h1 : E.cB x = i <;> simp [h1]
  have h1 : dt * L ≤ dt * (cellFlux M u (ind E i) * Q i) := mul_le_mul_of_nonneg_left hLle hdt
  have h2 : cellFlux M u (ind E i) * dt * Q i ≤ vol M E i * Q i := mul_le_mul_of_nonneg_right hcf (hQ i)
  have h3 : 0 ≤ vol M E i * Q' i := by nlinarith
  by_contra hb
  exact absurd h3 (not_le.mpr (mul_neg_of_pos_of_neg (hv i) (not_le.mp hb)))

/-- Not vacuous: the constant wind on the periodic line is balanced, and the step exists. -/
example (a dt : ℚ) (Q : Fin 2 → ℚ) (ha : 0 ≤ a) (hdt : 0 ≤ dt) (hC : a * dt ≤ 1) (hQ : ∀ i, 0 ≤ Q i) (i : Fin 2) :
    0 ≤ Q i - a * dt * (Q i - Q (1 - i)) := by
  obtain ⟨h1, h2, h3, h4⟩ := line_facts a dt Q ha
  have e1 : un (-a) = 0 := un_neg (by linarith)
  have e2 : un a = a := un_pos ha
  refine C91_positive line (fun _ => by norm_num [line]) (fun x => x.elim0) lineCells (fun _ => 0) (wind a) dt
    Q (fun i => Q i - a * dt * (Q i - Q (1 - i))) hdt (fun i => by rw [h1]; norm_num) (line_ok Q Q Q Q a).2.1 ?_ ?_ (fun i => by rw [h3]; exact hC) hQ i
  · intro i
    fin_cases i <;> simp [lineCells, line, wind, dot, Mesh.aP, Mesh.aM, Fin.sum_univ_two]
  · intro i
    refine ⟨_, dg0_continuity line lineCells (wind a) Q i (line_ok Q Q Q Q a).2.1, ?_⟩
    rw [h1]
    fin_cases i <;> simp [lineCells, line, wind, dot, Mesh.aP, Mesh.aM, Fin.sum_univ_two, e1, e2] <;> ring

/-- One cell with an open end. -/
def drain : Mesh ℚ 1 (Fin 1) (Fin 0) (Fin 1) where
  wC _ := 1
  wF _ := 1
  wB _ := 1
  nP _ _ := 1
  nM _ _ := 1
  nB _ _ := 1
def drainCells : Cells (Fin 1) (Fin 0) (Fin 1) (Fin 1) where
  cC x := x
  cP x := x.elim0
  cM x := x.elim0
  cB x := x
def drainWind : Ve ℚ 1 (Fin 1) (Fin 0) (Fin 1) where
  c _ _ := 1
  j _ _ _ := 1
  p x := x.elim0
  m x := x.elim0
  b _ _ := 1

/-- C91, discrepancy: only inflow counts.  A cell out of which everything flows has Courant number zero for every time step,
and the density of the continuity equation becomes negative as soon as `dt > 1`. -/
theorem C91_divergent_refuted (dt : ℚ) (hdt : 1 < dt) :
    courant drain drainCells (fun _ => 0) .whole drainWind dt 0 = 0 ∧
    EulerStep drain drainCells (fun φ q => upwindContinuity drain φ q drainWind .once true) dt (fun _ => 1) (fun _ => 1 - dt) ∧
    1 - dt < 0 := by
  refine ⟨?_, ?_, by linarith⟩
  · have : un (-1 : ℚ) = 0 := un_neg (by norm_num)
    simp [courant, cellFlux, compOf, ind, dg0, drain, drainCells, drainWind, dot, Mesh.aB, this]
  · intro i
    have h0 : i = 0 := Subsingleton.elim _ _
    subst h0
    refine ⟨_, dg0_continuity drain drainCells drainWind (fun _ => 1) 0 (fun x => x.elim0), ?_⟩
    have : un (1 : ℚ) = 1 := un_pos (by norm_num)
    simp [vol, drain, drainCells, drainWind, dot, Mesh.aB, this]

/-- C91: adaptive subcycling.  `cmax` is the maximum of the Courant numbers over the cells; with `n = max(1,
ceil(cmax/target))` sub-steps of `dt/n` the Courant number of a sub-step is at most `target` in every cell. -/
theorem C91_subcycling [FloorRing K] (M : Mesh K d C F B) (E : Cells C F B I) (k : Fin d → K) (comp : Comp)
    (u : Ve K d C F B) (dt cmax target : K) (ht : 0 < target) (hmax : ∀ i, courant M E k comp u dt i ≤ cmax) (i : I) :
    courant M E k comp u (dt / (max 1 ⌈cmax / target⌉ : ℤ)) i ≤ target := by
  have hn : (0 : K) < ((max 1 ⌈cmax / target⌉ : ℤ) : K) := by
    have : (1 : ℤ) ≤ max 1 ⌈cmax / target⌉ := le_max_left _ _
    exact_mod_cast lt_of_lt_of_le one_pos this
  have e : courant M E k comp u (dt / (max 1 ⌈cmax / target⌉ : ℤ)) i =
      courant M E k comp u dt i / ((max 1 ⌈cmax / target⌉ : ℤ) : K) := by
    unfold courant
    rw [← mul_div_assoc, div_right_comm]
  rw [e, div_le_iff₀ hn]
  have h1 : cmax / target ≤ ((max 1 ⌈cmax / target⌉ : ℤ) : K) := by
    refine le_trans (Int.le_ceil _) ?_
    exact_mod_cast le_max_right _ _
  rw [div_le_iff₀ ht] at h1
  calc _ ≤ cmax := hmax i
    _ ≤ _ := by rw [mul_comm]; exact h1

example : courant line lineCells (fun _ => 0) .whole (wind 5) (1 / (max 1 ⌈(5 : ℚ) / 2⌉ : ℤ)) 0 ≤ 2 :=
  C91_subcycling line lineCells (fun _ => 0) .whole (wind 5) 1 5 2 (by norm_num)
    (fun i => by rw [(line_facts 5 1 (fun _ => 0) (by norm_num)).2.2.1]; norm_num) 0

end Courant

/-! #### Logging -/

theorem setupLog_u (hasU : Bool) (names : List String) (comp : Comp) :
    setupLogCourant true hasU names "u" comp false =
      .ok (if hasU then names ++ ["CourantNumber" ++ comp.suffix] else names) := by
  cases hasU <;> simp [setupLogCourant, courantName, Except.map]

/-- C91 (names).  The Courant number of a field other than `u` is called after the field (or after the name given by the
user), so that those of different fields, and that of `u`, can be told apart; that of an expression needs a name. -/
theorem C91_names (comp : Comp) (f : String) (hf : f ≠ "u") :
    courantName (.field "u") comp none = .ok ("CourantNumber" ++ comp.suffix) ∧
    courantName (.field f) comp none = .ok ("CourantNumber_" ++ f ++ comp.suffix) ∧
    (∀ n, courantName (.field f) comp (some n) = .ok ("CourantNumber_" ++ n ++ comp.suffix)) ∧
    courantName (.field f) comp none ≠ courantName (.field "u") comp none ∧
    (∀ g, g ≠ "u" → courantName (.field f) comp none = courantName (.field g) comp none → f = g) ∧
    courantName .expr comp none = .error .valueError := by
  have e : ∀ g : String, g ≠ "u" → courantName (.field g) comp none = .ok ("CourantNumber_" ++ g ++ comp.suffix) := by
    intro g hg; simp [courantName, hg]
  refine ⟨by simp [courantName], e f hf, fun n => by simp [courantName, hf], ?_, ?_, rfl⟩
  · rw [e f hf]
    intro h
    have h' : "CourantNumber_" ++ f ++ comp.suffix = "CourantNumber" ++ comp.suffix := by
      simpa [courantName] using h
    have := congrArg String.length h'
    simp only [String.length_append] at this
    have h1 : "CourantNumber_".length = 14 := by decide
    have h2 : "CourantNumber".length = 13 := by decide
    omega
  · intro g hg h
    rw [e f hf, e g hg] at h
    have h' : "CourantNumber_" ++ f ++ comp.suffix = "CourantNumber_" ++ g ++ comp.suffix := by simpa using h
    have h2 := congrArg String.toList h'
    simp only [String.toList_append] at h2
    exact String.toList_inj.1 (List.append_cancel_left (List.append_cancel_right h2))

example : ("v" : String) ≠ "u" := by decide

/-- C91: the setup of a run succeeds, and afterwards every Courant number that the run logs is found: the one of `u`, on
extruded meshes its components, and for timesteppers with their own transporting velocity that one, whatever diagnostics
the user has asked for. -/
theorem C91_logging (hasU extruded prescribed : Bool) (names : List String) (h : "transporting_velocity" ∉ names) :
    ∃ names', runSetupCourant true hasU extruded prescribed names = .ok names' ∧
      (∃ more, names' = names ++ more) ∧
      ∀ name comp, (name = "u" ∧ (comp = .whole ∨ extruded = true)) ∨
          (name = "transporting_velocity" ∧ comp = .whole ∧ prescribed = true) →
        if hasU then ∃ i, logCourant true hasU names' name comp = .ok (some i) ∧
          names'[i]? = some ((if name = "u" then "CourantNumber" else "CourantNumber_" ++ name) ++ comp.suffix)
        else logCourant true hasU names' name comp = .ok none := by
  cases hasU with
  | false =>
    refine ⟨names, ?_, ⟨[], by simp⟩, ?_⟩
    · cases extruded <;> cases prescribed <;>
        simp [runSetupCourant, setupLogCourant, bind, Except.bind, pure, Except.pure]
    · intro name comp _; simp [logCourant]
  | true =>
    have fin : ∀ (names' : List String) name comp,
        ((if name = "u" then "CourantNumber" else "CourantNumber_" ++ name) ++ comp.suffix) ∈ names' →
        ∃ i, logCourant true true names' name comp = .ok (some i) ∧
          names'[i]? = some ((if name = "u" then "CourantNumber" else "CourantNumber_" ++ name) ++ comp.suffix) := by
      intro names' name comp hm
      refine ⟨names'.idxOf ((if name = "u" then "CourantNumber" else "CourantNumber_" ++ name) ++ comp.suffix), ?_, ?_⟩
      · unfold logCourant; simp only [Bool.and_self, if_true]; rw [if_pos hm]
      · exact List.getElem?_idxOf hm
    have hexp : ∀ l : List String, "transporting_velocity" ∉ l →
        setupLogCourant true true l "transporting_velocity" .whole true = .ok (l ++ ["CourantNumber_transporting_velocity"]) := by
      intro l hl
      simp [setupLogCourant, courantName, Except.map, hl]
    cases extruded <;> cases prescribed
    · refine ⟨names ++ ["CourantNumber"], ?_, ⟨_, rfl⟩, ?_⟩
      · simp [runSetupCourant, setupLog_u, bind, Except.bind, pure, Except.pure, Comp.suffix]
      · rintro name comp (⟨rfl, hc⟩ | ⟨_, _, hc⟩)
        · simp at hc; subst hc
          simp only [if_true]; apply fin; simp [Comp.suffix]
        · cases hc
    · refine ⟨names ++ ["CourantNumber"] ++ ["CourantNumber_transporting_velocity"], ?_, ⟨_, List.append_assoc _ _ _⟩, ?_⟩
      · simp only [runSetupCourant, setupLog_u, bind, Except.bind, pure, Except.pure, if_true, Bool.false_eq_true, if_false]
        rw [hexp]
        · simp [Comp.suffix]
        · simp [h, Comp.suffix]
      · rintro name comp (⟨rfl, hc⟩ | ⟨rfl, rfl, hc⟩)
        · simp at hc; subst hc
          simp only [if_true]; apply fin; simp [Comp.suffix]
        · simp only [if_true]; apply fin; simp [Comp.suffix]
    · refine ⟨names ++ ["CourantNumber"] ++ ["CourantNumber_horizontal"] ++ ["CourantNumber_vertical"], ?_,
        ⟨["CourantNumber", "CourantNumber_horizontal", "CourantNumber_vertical"], by simp [List.append_assoc]⟩, ?_⟩
      · simp [runSetupCourant, setupLog_u, bind, Except.bind, pure, Except.pure, Comp.suffix]
      · rintro name comp (⟨rfl, hc⟩ | ⟨_, _, hc⟩)
        · simp only [if_true]; apply fin
          cases comp <;> simp [Comp.suffix]
        · cases hc
    · refine ⟨names ++ ["CourantNumber"] ++ ["CourantNumber_horizontal"] ++ ["CourantNumber_vertical"] ++
        ["CourantNumber_transporting_velocity"], ?_, ⟨["CourantNumber", "CourantNumber_horizontal",
        "CourantNumber_vertical", "CourantNumber_transporting_velocity"], by simp [List.append_assoc]⟩, ?_⟩
      · simp only [runSetupCourant, setupLog_u, bind, Except.bind, pure, Except.pure, if_true]
        rw [hexp]
        · simp [Comp.suffix]
        · simp [h, Comp.suffix]
      · rintro name comp (⟨rfl, hc⟩ | ⟨rfl, rfl, hc⟩)
        · simp only [if_true]; apply fin
          cases comp <;> simp [Comp.suffix]
        · simp only [if_true]; apply fin; simp [Comp.suffix]

example : runSetupCourant true true true true ["Sum"] =
    .ok ["Sum", "CourantNumber", "CourantNumber_horizontal", "CourantNumber_vertical",
      "CourantNumber_transporting_velocity"] := by decide

/-- C91, discrepancy: the components of an expression are named as the whole, so `log_courant` for a component of the
transporting velocity does not find what `setup_log_courant` has set up. -/
theorem C91_expression_component_refuted :
    setupLogCourant true true [] "transporting_velocity" .horizontal true = .ok ["CourantNumber_transporting_velocity"] ∧
    logCourant true true ["CourantNumber_transporting_velocity"] "transporting_velocity" .horizontal =
      .error .valueError := by
  decide

/-- C91, discrepancy: `setup_log_courant` for a field other than `u` (without an expression) sets up the Courant number of
`u`, and logging it fails. -/
theorem C91_field_refuted :
    setupLogCourant true true [] "wind" .whole false = .ok ["CourantNumber"] ∧
    logCourant true true ["CourantNumber"] "wind" .whole = .error .valueError := by
  decide

/-- C91, discrepancy: every run of the same model adds the diagnostics once more: what is compared with the names of the
diagnostics is never one of them. -/
theorem C91_repeated_refuted (names : List String) :
    setupLogCourant true true (names ++ ["CourantNumber"]) "u" .whole false =
      .ok (names ++ ["CourantNumber"] ++ ["CourantNumber"]) := by
  rw [setupLog_u]; simp [Comp.suffix]

/-! ### C92: diagnostics with a memory -/

section History
variable {V : Type*} [AddCommGroup V]

/-- What a correct history looks like for the step `n` of a simulation from `x0` whose diagnostics were started at step
`b`. -/
def Good (Φ : V → V) (x0 : V) (b n : ℕ) (x init cum : V) : Prop :=
  b ≤ n ∧ x = Φ^[n] x0 ∧ init = Φ^[b] x0 ∧ cum = ∑ i ∈ Finset.Icc b n, Φ^[i] x0

def GoodSt (Φ : V → V) (x0 : V) (b : ℕ) (s : HSt V) : Prop :=
  s.initSet = true ∧ ∃ i, s.init = some i ∧ Good Φ x0 b s.n s.x i s.cum
def GoodCk (Φ : V → V) (x0 : V) (b : ℕ) (k : Ckpt V) : Prop := Good Φ x0 b k.n k.x k.init k.cum

def Dumps : HEvent → Prop
  | .fresh | .again | .step => True
  | _ => False

theorem start_good (Φ : V → V) (x0 : V) (freq : ℕ) (s : HSt V) (c : Option (Ckpt V)) (n : ℕ) (hn : s.n = n)
    (hx : s.x = Φ^[n] x0) (hc : ∀ k, c = some k → ∃ b, GoodCk Φ x0 b k) :
    GoodSt Φ x0 n (startHistory freq s c).1 ∧ (startHistory freq s c).1.err = 0 ∧
    (startHistory freq s c).1.n = n ∧
    ∀ k, (startHistory freq s c).2 = some k → ∃ b, GoodCk Φ x0 b k := by
  have key : Good Φ x0 n s.n s.x s.x (0 + s.x) := by
    refine ⟨by omega, by rw [hn, hx], hx, ?_⟩
    rw [hn, Finset.Icc_self, Finset.sum_singleton, zero_add, hx]
  unfold startHistory dumpHistory computeHistory setupHistory
  cases h : s.init with
  | none =>
    refine ⟨⟨rfl, _, rfl, by simpa using key⟩, by simp, hn, ?_⟩
    intro k hk
    simp only [] at hk
    split at hk
    · injection hk with hk
      subst hk
      exact ⟨n, by simpa [GoodCk] using key⟩
    · exact hc k hk
  | some v =>
    refine ⟨⟨rfl, _, rfl, by simpa using key⟩, by simp, hn, ?_⟩
    intro k hk
    simp only [] at hk
    split at hk
    · injection hk with hk
      subst hk
      exact ⟨n, by simpa [GoodCk] using key⟩
    · exact hc k hk

theorem step_good (Φ : V → V) (x0 : V) (freq b : ℕ) (s : HSt V) (c : Option (Ckpt V)) (hs : GoodSt Φ x0 b s) :
    GoodSt Φ x0 b (stepHistory freq Φ s c).1 ∧
    (stepHistory freq Φ s c).1.err = (stepHistory freq Φ s c).1.x - Φ^[b] x0 ∧
    ∀ k, (stepHistory freq Φ s c).2 = some k → GoodCk Φ x0 b k ∨ c = some k := by
  obtain ⟨hset, i, hi, hb, hx, hini, hcum⟩ := hs
  have key : Good Φ x0 b (s.n + 1) (Φ s.x) i (s.cum + Φ s.x) := by
    refine ⟨by omega, by rw [hx, Function.iterate_succ_apply'], hini, ?_⟩
    rw [Finset.sum_Icc_succ_top (by omega), ← hcum, hx, Function.iterate_succ_apply']
  unfold stepHistory dumpHistory computeHistory
  refine ⟨⟨rfl, i, by simp [hset, hi], key⟩, by simp [hset, hi, hini], ?_⟩
  intro k hk
  simp only [] at hk
  split at hk
  · injection hk with hk
    subst hk
    left
    simpa [GoodCk, hset, hi] using key
  · exact Or.inr hk

/-- C92: whatever sequence of runs, time steps, lost processes and pick-ups a simulation has gone through, the state is that
of some step `n` of the simulation, and there is a step `b ≤ n`, at which `run` was last called without pick-up in the
history that leads to this state, such that the initial field is the state of step `b`, the cumulative sum is the sum
of the states of the steps `b, ..., n`, and (after an event that dumps) the steady-state error is the difference of the states
of the steps `n` and `b`.  The same holds of the checkpoint. -/
theorem C92_history (Φ : V → V) (x0 : V) (freq : ℕ) (es : List HEvent) :
    let r := es.foldl (hStep freq Φ x0) (startHistory freq (newProcess x0) none)
    ∃ b, GoodSt Φ x0 b r.1 ∧ (∀ k, r.2 = some k → ∃ b', GoodCk Φ x0 b' k) ∧
      (∀ e es', es = es' ++ [e] → Dumps e → r.1.err = r.1.x - Φ^[b] x0) := by
  intro r
  induction es using List.reverseRecOn with
  | nil =>
    obtain ⟨h1, h2, h3, h4⟩ := start_good Φ x0 freq (newProcess x0) none 0 rfl rfl (by simp)
    exact ⟨0, h1, h4, by simp⟩
  | append_singleton es e ih =>
    obtain ⟨b, hs, hc, _⟩ := ih
    have hr : r = hStep freq Φ x0 (es.foldl (hStep freq Φ x0) (startHistory freq (newProcess x0) none)) e := by
      simp [r, List.foldl_append]
    generalize es.foldl (hStep freq Φ x0) (startHistory freq (newProcess x0) none) = q at *
    have last : ∀ e' es', es ++ [e] = es' ++ [e'] → e = e' := by
      intro e' es' h
      simpa using congrArg List.getLast? h
    cases e with
    | fresh =>
      obtain ⟨h1, h2, h3, h4⟩ := start_good Φ x0 freq (newProcess x0) q.2 0 rfl rfl hc
      rw [hr]
      refine ⟨0, h1, h4, fun _ _ _ _ => ?_⟩
      obtain ⟨_, i, _, _, hx, _⟩ := h1
      have : (hStep freq Φ x0 q .fresh).1.err = 0 := h2
      rw [this]
      have hx' : (hStep freq Φ x0 q .fresh).1.x = Φ^[(hStep freq Φ x0 q .fresh).1.n] x0 := hx
      rw [hx', show (hStep freq Φ x0 q .fresh).1.n = 0 from h3, sub_self]
    | again =>
      obtain ⟨_, i, _, hb, hx, _, _⟩ := hs
      obtain ⟨h1, h2, h3, h4⟩ := start_good Φ x0 freq q.1 q.2 q.1.n rfl hx hc
      rw [hr]
      refine ⟨q.1.n, h1, h4, fun _ _ _ _ => ?_⟩
      obtain ⟨_, i, _, _, hx, _⟩ := h1
      have : (hStep freq Φ x0 q .again).1.err = 0 := h2
      rw [this]
      have hx' : (hStep freq Φ x0 q .again).1.x = Φ^[(hStep freq Φ x0 q .again).1.n] x0 := hx
      rw [hx', show (hStep freq Φ x0 q .again).1.n = q.1.n from h3, sub_self]
    | step =>
      obtain ⟨h1, h2, h3⟩ := step_good Φ x0 freq b q.1 q.2 hs
      rw [hr]
      refine ⟨b, h1, ?_, fun _ _ _ _ => h2⟩
      intro k hk
      rcases h3 k hk with h | h
      · exact ⟨b, h⟩
      · exact hc k h
    | crashPickUp =>
      rw [hr]
      have nd : ∀ e es', es ++ [HEvent.crashPickUp] = es' ++ [e] → Dumps e → False := by
        intro e es' h hd; rw [← last e es' h] at hd; exact hd
      unfold hStep pickUpHistory
      cases h : q.2 with
      | none => exact ⟨b, by simpa [h] using hs, by simp [h], fun e es' h' hd => (nd e es' h' hd).elim⟩
      | some k =>
        obtain ⟨b', g⟩ := hc k h
        exact ⟨b', ⟨rfl, k.init, rfl, g⟩, fun k' hk' => hc k' (h ▸ hk'), fun e es' h' hd => (nd e es' h' hd).elim⟩
    | pickUp =>
      rw [hr]
      have nd : ∀ e es', es ++ [HEvent.pickUp] = es' ++ [e] → Dumps e → False := by
        intro e es' h hd; rw [← last e es' h] at hd; exact hd
      unfold hStep pickUpHistory
      cases h : q.2 with
      | none => exact ⟨b, by simpa [h] using hs, by simp [h], fun e es' h' hd => (nd e es' h' hd).elim⟩
      | some k =>
        obtain ⟨b', g⟩ := hc k h
        exact ⟨b', ⟨rfl, k.init, rfl, g⟩, fun k' hk' => hc k' (h ▸ hk'), fun e es' h' hd => (nd e es' h' hd).elim⟩

/-- No second `run` without pick-up in the same process. -/
def Single (es : List HEvent) : Prop := HEvent.again ∉ es

/-- C92: interruptions are invisible.  In a simulation that is only ever continued by picking up, wherever it was interrupted,
the cumulative sum at step `n` is the sum of all states from the start to `n`, and every steady-state error that is output
is the difference from the initial state. -/
theorem C92_interruptions (Φ : V → V) (x0 : V) (freq : ℕ) (es : List HEvent) (hes : Single es) :
    let r := es.foldl (hStep freq Φ x0) (startHistory freq (newProcess x0) none)
    r.1.x = Φ^[r.1.n] x0 ∧ r.1.init = some x0 ∧ r.1.cum = ∑ i ∈ Finset.range (r.1.n + 1), Φ^[i] x0 ∧
      (∀ e es', es = es' ++ [e] → Dumps e → r.1.err = Φ^[r.1.n] x0 - x0) := by
  intro r
  have main : GoodSt Φ x0 0 r.1 ∧ (∀ k, r.2 = some k → GoodCk Φ x0 0 k) ∧
      (∀ e es', es = es' ++ [e] → Dumps e → r.1.err = r.1.x - x0) := by
    induction es using List.reverseRecOn with
    | nil =>
      have e : ∀ k, (startHistory freq (newProcess x0) none).2 = some k → GoodCk Φ x0 0 k := by
        intro k hk
        simp only [startHistory, dumpHistory, computeHistory, setupHistory, newProcess, Nat.zero_mod, if_true] at hk
        injection hk with hk
        subst hk
        exact ⟨le_refl _, rfl, by simp, by simp⟩
      obtain ⟨h1, h2, h3, h4⟩ := start_good Φ x0 freq (newProcess x0) none 0 rfl rfl (by simp)
      exact ⟨h1, e, by simp⟩
    | append_singleton es e ih =>
      have hes' : Single es := fun h => hes (by simp [h])
      obtain ⟨hs, hc, _⟩ := ih hes'
      have hr : r = hStep freq Φ x0 (es.foldl (hStep freq Φ x0) (startHistory freq (newProcess x0) none)) e := by
        simp [r, List.foldl_append]
      generalize es.foldl (hStep freq Φ x0) (startHistory freq (newProcess x0) none) = q at *
      have last : ∀ e' es', es ++ [e] = es' ++ [e'] → e = e' := by
        intro e' es' h
        simpa using congrArg List.getLast? h
      cases e with
      | fresh =>
        obtain ⟨h1, h2, h3, h4⟩ := start_good Φ x0 freq (newProcess x0) q.2 0 rfl rfl (fun k hk => ⟨0, hc k hk⟩)
        rw [hr]
        refine ⟨h1, ?_, fun _ _ _ _ => ?_⟩
        · intro k hk
          simp only [hStep, startHistory, dumpHistory, computeHistory, setupHistory, newProcess, Nat.zero_mod, if_true] at hk
          injection hk with hk
          subst hk
          exact ⟨le_refl _, rfl, by simp, by simp⟩
        · have : (hStep freq Φ x0 q .fresh).1.err = 0 := h2
          rw [this]
          obtain ⟨_, i, _, _, hx, _⟩ := h1
          have hx' : (hStep freq Φ x0 q .fresh).1.x = Φ^[(hStep freq Φ x0 q .fresh).1.n] x0 := hx
          rw [hx', show (hStep freq Φ x0 q .fresh).1.n = 0 from h3]; simp
      | again => exact absurd (by simp) hes
      | step =>
        obtain ⟨h1, h2, h3⟩ := step_good Φ x0 freq 0 q.1 q.2 hs
        rw [hr]
        refine ⟨h1, ?_, fun _ _ _ _ => h2⟩
        intro k hk
        rcases h3 k hk with h | h
        · exact h
        · exact hc k h
      | crashPickUp =>
        rw [hr]
        have nd : ∀ e es', es ++ [HEvent.crashPickUp] = es' ++ [e] → Dumps e → False := by
          intro e es' h hd; rw [← last e es' h] at hd; exact hd
        unfold hStep pickUpHistory
        cases h : q.2 with
        | none => exact ⟨by simpa [h] using hs, by simp [h], fun e es' h' hd => (nd e es' h' hd).elim⟩
        | some k =>
          exact ⟨⟨rfl, k.init, rfl, hc k h⟩, fun k' hk' => hc k' (h ▸ hk'), fun e es' h' hd => (nd e es' h' hd).elim⟩
      | pickUp =>
        rw [hr]
        have nd : ∀ e es', es ++ [HEvent.pickUp] = es' ++ [e] → Dumps e → False := by
          intro e es' h hd; rw [← last e es' h] at hd; exact hd
        unfold hStep pickUpHistory
        cases h : q.2 with
        | none => exact ⟨by simpa [h] using hs, by simp [h], fun e es' h' hd => (nd e es' h' hd).elim⟩
        | some k =>
          exact ⟨⟨rfl, k.init, rfl, hc k h⟩, fun k' hk' => hc k' (h ▸ hk'), fun e es' h' hd => (nd e es' h' hd).elim⟩
  obtain ⟨⟨_, i, hi, _, hx, hini, hcum⟩, _, herr⟩ := main
  refine ⟨hx, by rw [hi, hini]; rfl, ?_, ?_⟩
  · rw [hcum]
    congr 1
    ext j; simp
  · intro e es' h hd
    rw [herr e es' h hd, ← hx]

/-- Not vacuous: two steps, a crash that loses the second (checkpoints every second dump), the pick-up and a step. -/
example (r : HSt ℤ × Option (Ckpt ℤ)) (hr : r = [HEvent.step, .crashPickUp, .step].foldl (hStep 2 (fun x : ℤ => 2 * x) 3)
      (startHistory 2 (newProcess 3) none)) : r.1.n = 1 ∧ r.1.err = 3 ∧ r.1.cum = 9 := by subst hr; decide

/-- C92, discrepancy: calling `run` a second time in the same process without picking up forgets the initial state and the
sum: the error is then measured from the start of the second run. -/
theorem C92_second_run_refuted (freq : ℕ) (s : HSt V) (c : Option (Ckpt V)) :
    (startHistory freq s c).1.err = 0 ∧ (startHistory freq s c).1.cum = s.x ∧
      (startHistory freq s c).1.init = some s.x := by
  unfold startHistory dumpHistory computeHistory setupHistory
  cases s.init <;> simp

/-- C92, discrepancy: an initial field supplied by the user under the name that the diagnostic uses is overwritten by the
setup (when not picking up). -/
theorem C92_user_field_refuted (s : HSt V) (v : V) (h : s.init = some v) :
    (setupHistory s).init = some s.x := by
  simp [setupHistory, h]

/-- C92: the perturbation plus the reference profile is the field; without a reference profile it is the field itself. -/
theorem C92_perturbation (x bar : V) : perturbation x (some bar) + bar = x ∧ perturbation x none = x := by
  simp [perturbation]

end History

end Gusto.Props.DiagProps
