import Verif.Model.Predictor
import Verif.Props.QNMass
import Mathlib.Analysis.SpecialFunctions.Exp
import Mathlib.Analysis.Complex.Exponential
import Mathlib.Analysis.Normed.Module.Basic

set_option autoImplicit false
set_option linter.unusedSectionVars false
set_option linter.unusedSimpArgs false

/-!
# C148: the divergence predictor
-/

namespace Gusto.Props.PredictorProps
open Gusto QN Gusto.Props.QNProps Gusto.Props.QNMassProps

section general
variable {ι : Type*} [DecidableEq ι] {K : Type*} [Field K] [DecidableEq K] {V : ι → Type*}
  [∀ i, AddCommGroup (V i)] [∀ i, Module K (V i)]

/-- No scheme of the list transports the field by itself: it is transported together with others, or not at all. -/
def NotAlone {u : ι} (p : ι) (active : List (Active V u)) : Prop :=
  ∀ a ∈ active, ∀ name step, a = Active.one name step → name ≠ p

theorem resolve_congr {u : ι} (p : ι) (alpha dt : K) (divMul : ∀ i, V u → V i → V i) (un : V u) (a : Active V u)
    (h : ∀ q, ((1 - alpha) * dt) • divMul p un q = 0) :
    resolve (some p) alpha dt divMul un a = resolve none alpha dt divMul un a := by
  cases a with
  | many names step => rfl
  | one name step =>
    simp only [resolve, Transport.mk.injEq, true_and]
    funext vel xs
    congr 1
    by_cases hp : p = name
    · subst hp
      simp [predictorStep, premultiply, h]
    · simp [hp]

/-- C148: in a step that starts from a wind without divergence the predictor changes nothing, whatever the schemes, the
off-centring, the iterations and the initial guess. -/
theorem C148_no_divergence (m : Siqn K V) (active : List (Active V m.u)) (p : ι) (alpha dt : K)
    (divMul : ∀ i, V m.u → V i → V i) (xn x0 : ∀ i, V i) (h : ∀ q, divMul p (xn m.u) q = 0) :
    predictorTimestep m active (some p) alpha dt divMul xn x0 = predictorTimestep m active none alpha dt divMul xn x0 := by
  rw [predictorTimestep, predictorTimestep, withPredictor, withPredictor]
  congr 2
  refine List.map_congr_left fun a _ => ?_
  exact resolve_congr p alpha dt divMul _ a fun q => by rw [h, smul_zero]

/-- C148: with `alpha = 1` the predictor changes nothing. -/
theorem C148_fully_implicit (m : Siqn K V) (active : List (Active V m.u)) (p : ι) (dt : K)
    (divMul : ∀ i, V m.u → V i → V i) (xn x0 : ∀ i, V i) :
    predictorTimestep m active (some p) 1 dt divMul xn x0 = predictorTimestep m active none 1 dt divMul xn x0 := by
  rw [predictorTimestep, predictorTimestep, withPredictor, withPredictor]
  congr 2
  refine List.map_congr_left fun a _ => ?_
  exact resolve_congr p 1 dt divMul _ a fun q => by simp

/-- C148: throughout the spin-up, however long, a run with the predictor is the run without it: the off-centring in force in step
number `k` of the run is 1 while `k ≤ spinup_steps`. -/
theorem C148_spinup (u : ι) (m : ℕ → Siqn K V) (hu : ∀ j, (m j).u = u) (active : List (Active V u)) (p : ι) (alpha : K) (off : Bool)
    (spinup s0 : ℕ) (dt : K) (divMul : ∀ i, V u → V i → V i) (x : ∀ i, V i) (n : ℕ) (hn : s0 + n ≤ spinup + 1) :
    predictorRun u m hu active (some p) (fun j => (spinRun alpha off spinup s0 j).alpha) dt divMul x n =
      predictorRun u m hu active none (fun j => (spinRun alpha off spinup s0 j).alpha) dt divMul x n := by
  induction n with
  | zero => rfl
  | succ n ih =>
    have h1 : (spinRun alpha off spinup s0 n).alpha = 1 := by rw [C64_spinup, if_pos (by omega)]
    simp only [predictorRun, h1]
    rw [ih (by omega), C148_fully_implicit]

/-- C148: a predictor that names a field transported simultaneously with others, or not transported, or unknown to the equations,
is ignored without a word. -/
theorem C148_not_alone_ignored (m : Siqn K V) (active : List (Active V m.u)) (p : ι) (alpha dt : K)
    (divMul : ∀ i, V m.u → V i → V i) (xn x0 : ∀ i, V i) (h : NotAlone p active) :
    predictorTimestep m active (some p) alpha dt divMul xn x0 = predictorTimestep m active none alpha dt divMul xn x0 := by
  rw [predictorTimestep, predictorTimestep, withPredictor, withPredictor]
  congr 2
  refine List.map_congr_left fun a ha => ?_
  cases a with
  | many names step => rfl
  | one name step =>
    have := h _ ha name step rfl
    simp [resolve, Ne.symm this]

/-- The predicted transport of one field: the increment that the scheme gives to the premultiplied field, added to the field. -/
theorem C148_increment_of_premultiplied {u : ι} (p : ι) (alpha dt : K) (divMul : ∀ i, V u → V i → V i) (un : V u)
    (step : V u → V p → V p) (vel : V u) (xs xp : ∀ i, V i) :
    transportFields [resolve (some p) alpha dt divMul un (.one p step)] vel xs xp =
      Function.update xp p (xs p + (step vel (xs p - ((1 - alpha) * dt) • divMul p un (xs p)) -
        (xs p - ((1 - alpha) * dt) • divMul p un (xs p)))) := by
  funext i
  by_cases h : i = p
  · subst h
    simp [transportFields, resolve, predictorStep, premultiply, add_sub_assoc]
  · simp [transportFields, resolve, h]

/-- C148: for an additive scheme the predictor subtracts from the plain transport the increment that the scheme gives to
`(1 - alpha) dt q div(u)`. -/
theorem C148_linear_scheme {u : ι} (p : ι) (alpha dt : K) (divMul : ∀ i, V u → V i → V i) (un : V u)
    (A : V u → V p →+ V p) (vel : V u) (xs xp : ∀ i, V i) :
    transportFields [resolve (some p) alpha dt divMul un (.one p fun v => A v)] vel xs xp p =
      transportFields [resolve none alpha dt divMul un (.one p fun v => A v)] vel xs xp p -
        (A vel (((1 - alpha) * dt) • divMul p un (xs p)) - ((1 - alpha) * dt) • divMul p un (xs p)) := by
  simp only [transportFields, resolve, predictorStep, premultiply, List.foldl_cons, List.foldl_nil, List.mem_singleton, if_true,
    Function.update_self, reduceCtorEq, if_false, map_sub]
  abel

/-! ### The total is kept -/

/-- Every scheme that advances field `i` keeps its total. -/
def ActiveKeeps {u i : ι} (mu : V i →ₗ[K] K) (active : List (Active V u)) : Prop :=
  ∀ a ∈ active, match a with
    | .many names step => i ∈ names → ∀ vel x, mu (step vel x i) = mu (x i)
    | .one name step => ∀ h : name = i, ∀ vel q, mu (h ▸ step vel q) = mu (h ▸ q)

theorem keeps_resolved {u i : ι} (mu : V i →ₗ[K] K) (active : List (Active V u)) (h : ActiveKeeps mu active) (pred : Option ι)
    (alpha dt : K) (divMul : ∀ i, V u → V i → V i) (un : V u) :
    TransportKeeps mu (active.map (resolve pred alpha dt divMul un)) := by
  intro s hs hi vel x
  obtain ⟨a, ha, rfl⟩ := List.mem_map.1 hs
  have := h a ha
  cases a with
  | many names step => exact this hi vel x
  | one name step =>
    simp only [resolve, List.mem_singleton] at hi ⊢
    subst hi
    have hk : ∀ vel q, mu (step vel q) = mu q := fun vel q => this rfl vel q
    rw [Function.update_self]
    split
    · simp [predictorStep, hk]
    · exact hk _ _

/-- C148: the predictor keeps totals: a step with it keeps the total of every field other than the wind, when the schemes, the
physics, the forcing and the linear solver do; nothing is asked of the divergence, of the interpolation or of the off-centring. -/
theorem C148_mass (m : Siqn K V) (active : List (Active V m.u)) (pred : Option ι) (alpha dt : K)
    (divMul : ∀ i, V m.u → V i → V i) (i : ι) (mu : V i →ₗ[K] K) (h : MassParts { m with transport := [] } i mu)
    (ha : ActiveKeeps mu active) (hu : i ≠ m.u) (xn x0 : ∀ j, V j) (hx : mu (x0 i) = mu (xn i)) :
    mu (predictorTimestep m active pred alpha dt divMul xn x0 i) = mu (xn i) :=
  C118_siqn (withPredictor m active pred alpha dt divMul xn) i mu
    { slow := h.slow, fast := h.fast, inner := h.inner, final := h.final, forceE := h.forceE, forceI := h.forceI,
      transport := keeps_resolved mu active ha pred alpha dt divMul _, solve := h.solve, bcs := h.bcs } hu xn x0 hx

/-- C148: so does a run of any length, through any spin-up. -/
theorem C148_mass_run (u : ι) (m : ℕ → Siqn K V) (hu : ∀ j, (m j).u = u) (active : List (Active V u)) (pred : Option ι)
    (alpha : ℕ → K) (dt : K) (divMul : ∀ i, V u → V i → V i) (i : ι) (mu : V i →ₗ[K] K)
    (h : ∀ j, MassParts { m j with transport := [] } i mu) (ha : ActiveKeeps mu active) (hi : i ≠ u) (x : ∀ j, V j) (n : ℕ) :
    mu (predictorRun u m hu active pred alpha dt divMul x n i) = mu (x i) := by
  induction n with
  | zero => rfl
  | succ n ih =>
    have hk : ActiveKeeps mu (hu n ▸ active : List (Active V (m n).u)) := by
      have : ∀ u' (e : u' = u), ActiveKeeps mu (e ▸ active : List (Active V u')) := by
        intro u' e; subst e; exact ha
      exact this _ (hu n)
    rw [predictorRun, C148_mass (m n) _ pred (alpha n) dt _ i mu (h n) hk (by rw [hu n]; exact hi) _ _ rfl, ih]

end general

/-! ### The size of the change -/

section size
variable {ι : Type*} [DecidableEq ι] {V : ι → Type*} [∀ i, NormedAddCommGroup (V i)] [∀ i, NormedSpace ℝ (V i)]

/-- C148: for a linear scheme whose increment is at most `dt L` times the field, and a divergence bounded by `B`, the predictor changes
the transported field by at most `|1 - alpha| dt² L B` times the field: consistency of order one is kept. -/
theorem C148_change_is_second_order_small {u : ι} (p : ι) (alpha dt : ℝ) (hdt : 0 ≤ dt) (divMul : ∀ i, V u → V i → V i) (un : V u)
    (A : V u → V p →+ V p) (vel : V u) (L B : ℝ) (hL : 0 ≤ L) (hA : ∀ q, ‖A vel q - q‖ ≤ dt * L * ‖q‖)
    (hB : ∀ q, ‖divMul p un q‖ ≤ B * ‖q‖) (xs xp : ∀ i, V i) :
    ‖transportFields [resolve (some p) alpha dt divMul un (.one p fun v => A v)] vel xs xp p -
      transportFields [resolve none alpha dt divMul un (.one p fun v => A v)] vel xs xp p‖ ≤
        |1 - alpha| * dt ^ 2 * L * B * ‖xs p‖ := by
  rw [C148_linear_scheme, sub_sub_cancel_left, norm_neg]
  refine (hA _).trans ?_
  rw [norm_smul, Real.norm_eq_abs, abs_mul, abs_of_nonneg hdt]
  calc dt * L * (|1 - alpha| * dt * ‖divMul p un (xs p)‖)
      ≤ dt * L * (|1 - alpha| * dt * (B * ‖xs p‖)) := by
        have := hB (xs p)
        have h1 : 0 ≤ |1 - alpha| * dt := mul_nonneg (abs_nonneg _) hdt
        exact mul_le_mul_of_nonneg_left (mul_le_mul_of_nonneg_left this h1) (mul_nonneg hdt hL)
    _ = _ := by ring

end size

/-! ### A depth in a uniformly diverging wind -/

section column
/-- The fields: the wind (0), given by its uniform divergence, and the depth (1). -/
abbrev Pool : Fin 2 → Type := fun _ => ℝ

/-- A timestepper whose linear solve is that of the mass matrix, without forcing or physics; `nOuter` and `nInner` are free. -/
noncomputable def pool (nOuter nInner : ℕ) : Siqn ℝ Pool where
  u := 0
  inSolver := fun _ => true
  numOuter := nOuter
  numInner := nInner
  accelerator := false
  alphaU := 1 / 2
  beta := 0
  slow := []
  fast := []
  inner := []
  final := []
  forceE := fun _ => 0
  forceI := fun _ => 0
  transport := []
  solve := fun r => r
  bcs := fun x => x

/-- The exact transport of the depth over a timestep: `D_t = - div(u) D`. -/
noncomputable def exactDepth (dt : ℝ) : Active Pool 0 := .one 1 fun (div : ℝ) (D : ℝ) => (Real.exp (-(dt * div)) * D : ℝ)

/-- The product with the divergence. -/
def poolDiv : ∀ i, Pool 0 → Pool i → Pool i := fun _ (div : ℝ) (q : ℝ) => (div * q : ℝ)

/-- The state with divergence `div` and depth `D`. -/
def poolState (div D : ℝ) : ∀ i, Pool i := fun i => if i = 0 then div else D

/-- The depth after a transport with or without the predictor, relative to the depth before. -/
noncomputable def growth (pred : Bool) (alpha z : ℝ) : ℝ :=
  if pred then 1 + (Real.exp (-z) - 1) * (1 - (1 - alpha) * z) else Real.exp (-z)

theorem pool_step (nOuter nInner : ℕ) (ho : 0 < nOuter) (hi : 0 < nInner) (pred : Bool) (alpha dt div D : ℝ) :
    predictorTimestep (pool nOuter nInner) [exactDepth dt] (if pred then some 1 else none) alpha dt poolDiv
      (poolState div D) (poolState div D) = poolState div (growth pred alpha (dt * div) * D) := by
  set m := withPredictor (pool nOuter nInner) [exactDepth dt] (if pred then some 1 else none) alpha dt poolDiv (poolState div D)
    with hm
  set y := poolState div (growth pred alpha (dt * div) * D) with hy
  have hstar : xstarOf m (poolState div D) = poolState div D := by
    simp [xstarOf, hm, withPredictor, pool, applyAll]
  have hub : ∀ D', ubar m (poolState div D) (poolState div D') = div := by
    intro D'
    simp [ubar, hm, withPredictor, pool, poolState]
  have htr : ∀ D1, transportFields m.transport div (poolState div D) (poolState div D1) = y := by
    intro D1
    change transportFields (V := Pool) (u := (0 : Fin 2)) [resolve (if pred then some 1 else none) alpha dt poolDiv div (exactDepth dt)] div
      (poolState div D) (poolState div D1) = y
    funext i
    fin_cases i
    · simp [transportFields, exactDepth, resolve, poolState, hy]
    · cases pred
      · simp [transportFields, exactDepth, resolve, poolState, hy, growth]
      · simp [transportFields, exactDepth, resolve, poolState, hy, growth, predictorStep, premultiply, poolDiv]
        ring
  have hinner : ∀ k x, innerStep m y 0 k x = y := by
    intro k x
    simp [innerStep, xrhsOf, hm, withPredictor, pool]
  have hfold : ∀ x, (List.range nInner).foldl (fun x k => innerStep m y 0 k x) x = y := by
    intro x
    obtain ⟨n, rfl⟩ := Nat.exists_eq_succ_of_ne_zero hi.ne'
    rw [List.range_succ, List.foldl_append, List.foldl_cons, List.foldl_nil, hinner]
  have houter : ∀ D1 D2, outerStep m (poolState div D) (poolState div D) (poolState div D1, poolState div D2) = (y, y) := by
    intro D1 D2
    rw [outerStep]
    simp only [hub, htr]
    have hf : m.fast = [] := rfl
    have hn : m.numInner = nInner := rfl
    simp only [hf, hn, applyAll, List.foldl_nil, sub_self, hfold]
    have hc : copyTracers (fun i => !m.inSolver i) y y = y := by funext i; simp [copyTracers]
    rw [hc]
    rfl
  have hloop : ∀ n, (outerStep m (poolState div D) (poolState div D))^[n + 1] (poolState div D, poolState div D) = (y, y) := by
    intro n
    induction n with
    | zero => exact houter _ _
    | succ n ih => rw [Function.iterate_succ_apply', ih]; exact houter _ _
  obtain ⟨n, rfl⟩ := Nat.exists_eq_succ_of_ne_zero ho.ne'
  rw [predictorTimestep, ← hm, timestep, outerLoop, hstar]
  have hno : m.numOuter = n + 1 := rfl
  rw [hno, hloop]
  rfl

/-- A run of `N` steps. -/
noncomputable def poolRun (nOuter nInner : ℕ) (pred : Bool) (alpha dt div D : ℝ) (N : ℕ) : ∀ i, Pool i :=
  (fun x => predictorTimestep (pool nOuter nInner) [exactDepth dt] (if pred then some 1 else none) alpha dt poolDiv x x)^[N]
    (poolState div D)

theorem pool_run (nOuter nInner : ℕ) (ho : 0 < nOuter) (hi : 0 < nInner) (pred : Bool) (alpha dt div D : ℝ) (N : ℕ) :
    poolRun nOuter nInner pred alpha dt div D N = poolState div (growth pred alpha (dt * div) ^ N * D) := by
  induction N with
  | zero => simp [poolRun]
  | succ N ih =>
    rw [poolRun, Function.iterate_succ_apply']
    rw [poolRun] at ih
    rw [ih, pool_step nOuter nInner ho hi, pow_succ]
    congr 1
    ring

/-- Without the predictor every run is exact. -/
theorem C148_plain_is_exact (nOuter nInner : ℕ) (ho : 0 < nOuter) (hi : 0 < nInner) (alpha dt div D : ℝ) (N : ℕ) :
    poolRun nOuter nInner false alpha dt div D N 1 = Real.exp (-(N * dt * div)) * D := by
  rw [pool_run nOuter nInner ho hi]
  simp only [poolState, growth, Fin.isValue, one_ne_zero, if_false, Bool.false_eq_true, ← Real.exp_nat_mul]
  congr 2
  ring

theorem pow_gain (a b : ℝ) (ha : 0 ≤ a) (hb : 0 ≤ b) (N : ℕ) : a ^ (N + 1) + (N + 1) * a ^ N * b ≤ (a + b) ^ (N + 1) := by
  induction N with
  | zero => simp
  | succ N ih =>
    have h1 : 0 ≤ a ^ N := pow_nonneg ha N
    calc a ^ (N + 1 + 1) + ((N + 1 : ℕ) + 1) * a ^ (N + 1) * b
        ≤ (a ^ (N + 1) + (N + 1) * a ^ N * b) * (a + b) := by
          push_cast
          have : 0 ≤ (N + 1 : ℝ) * a ^ N * b * b := by positivity
          have e : (a ^ (N + 1) + (N + 1) * a ^ N * b) * (a + b) =
              a ^ (N + 1 + 1) + ((N : ℝ) + 1 + 1) * a ^ (N + 1) * b + (N + 1 : ℝ) * a ^ N * b * b := by ring
          rw [e]
          linarith
      _ ≤ (a + b) ^ (N + 1) * (a + b) := mul_le_mul_of_nonneg_right ih (by linarith)
      _ = _ := by ring

theorem half_le_one_sub_exp {z : ℝ} (h0 : 0 ≤ z) (h1 : z ≤ 1) : z / 2 ≤ 1 - Real.exp (-z) := by
  have h2 : 1 + z ≤ Real.exp z := by linarith [Real.add_one_le_exp z]
  have h3 : Real.exp (-z) ≤ 1 / (1 + z) := by
    rw [Real.exp_neg, ← one_div]
    exact one_div_le_one_div_of_le (by linarith) h2
  have h4 : 1 / (1 + z) ≤ 1 - z / 2 := by
    rw [div_le_iff₀ (by linarith)]
    nlinarith
  linarith

/-- The error of the predicted depth at time 1, in a wind of divergence 1, with `N` steps and the default off-centring. -/
theorem C148_error_of_predictor (nOuter nInner : ℕ) (ho : 0 < nOuter) (hi : 0 < nInner) (N : ℕ) :
    Real.exp (-1) / (4 * (N + 1 : ℝ)) ≤
      |poolRun nOuter nInner true (1 / 2) (1 / (N + 1 : ℝ)) 1 1 (N + 1) 1 - Real.exp (-1)| := by
  have hN : (0 : ℝ) < N + 1 := by positivity
  set z : ℝ := 1 / (N + 1) with hz
  have hz0 : 0 < z := by positivity
  have hz1 : z ≤ 1 := by
    rw [hz, div_le_one hN]; linarith [(Nat.cast_nonneg N : (0 : ℝ) ≤ N)]
  have hNz : (N + 1 : ℝ) * z = 1 := by rw [hz]; field_simp
  rw [pool_run nOuter nInner ho hi]
  have hg : growth true (1 / 2) z = Real.exp (-z) + (1 - Real.exp (-z)) * (z / 2) := by
    simp only [growth, if_true]; ring
  simp only [poolState, Fin.isValue, one_ne_zero, if_false, mul_one, hg]
  have hhalf := half_le_one_sub_exp hz0.le hz1
  have hb : 0 ≤ (1 - Real.exp (-z)) * (z / 2) := mul_nonneg (by linarith) (by linarith)
  have h := pow_gain (Real.exp (-z)) ((1 - Real.exp (-z)) * (z / 2)) (Real.exp_pos _).le hb N
  have he : Real.exp (-z) ^ (N + 1) = Real.exp (-1) := by
    rw [← Real.exp_nat_mul]
    congr 1
    push_cast
    linarith
  have heN : Real.exp (-1) ≤ Real.exp (-z) ^ N := by
    rw [← Real.exp_nat_mul]
    apply Real.exp_le_exp.2
    nlinarith
  rw [he] at h
  refine le_trans ?_ (le_abs_self _)
  have h5 : Real.exp (-1) / (4 * (N + 1 : ℝ)) = Real.exp (-1) * (z / 4) := by rw [hz]; field_simp
  have h6 : (N + 1 : ℝ) * Real.exp (-z) ^ N * ((1 - Real.exp (-z)) * (z / 2)) =
      ((N + 1 : ℝ) * z) * (Real.exp (-z) ^ N * ((1 - Real.exp (-z)) / 2)) := by ring
  rw [hNz, one_mul] at h6
  have h7 : Real.exp (-1) * (z / 4) ≤ Real.exp (-z) ^ N * ((1 - Real.exp (-z)) / 2) :=
    mul_le_mul heN (by linarith) (by linarith) (pow_nonneg (Real.exp_pos _).le N)
  rw [h5]
  linarith [h, h6, h7]

/-- C148: the predictor costs the second order.  With the default off-centring and an exact transport scheme, the error at a fixed time
is not bounded by any multiple of the square of the timestep, for any number of outer and inner iterations; without the predictor
there is no error at all (`C148_plain_is_exact`). -/
theorem C148_second_order_refuted (nOuter nInner : ℕ) (ho : 0 < nOuter) (hi : 0 < nInner) :
    ¬ ∃ C : ℝ, ∀ N : ℕ, |poolRun nOuter nInner true (1 / 2) (1 / (N + 1 : ℝ)) 1 1 (N + 1) 1 - Real.exp (-1)| ≤
      C * (1 / (N + 1 : ℝ)) ^ 2 := by
  rintro ⟨C, hC⟩
  obtain ⟨N, hN⟩ := exists_nat_gt (4 * C / Real.exp (-1))
  have hp : (0 : ℝ) < N + 1 := by positivity
  have he := Real.exp_pos (-1)
  have h := (C148_error_of_predictor nOuter nInner ho hi N).trans (hC N)
  rw [div_lt_iff₀ he] at hN
  rw [div_le_iff₀ (by positivity), one_div] at h
  have h2 : C * ((N + 1 : ℝ)⁻¹) ^ 2 * (4 * (N + 1)) * (N + 1) = 4 * C := by field_simp
  nlinarith [mul_le_mul_of_nonneg_right h hp.le]

/-- C148: the predictor does not make large timesteps stable.  In a diverging wind the depth falls; the exact scheme alone lets it fall
for every timestep, and with the predictor it grows, without bound over a run, as soon as `(1 - alpha) dt div(u) > 1`. -/
theorem C148_stability_refuted (nOuter nInner : ℕ) (ho : 0 < nOuter) (hi : 0 < nInner) (alpha dt div D : ℝ) (hD : 0 < D)
    (hz : 0 < dt * div) (h : 1 < (1 - alpha) * (dt * div)) :
    (∀ N, poolRun nOuter nInner false alpha dt div D N 1 ≤ D) ∧
      Filter.Tendsto (fun N => poolRun nOuter nInner true alpha dt div D N 1) Filter.atTop Filter.atTop := by
  constructor
  · intro N
    rw [C148_plain_is_exact nOuter nInner ho hi]
    have : Real.exp (-(N * dt * div)) ≤ 1 := by
      rw [Real.exp_le_one_iff, mul_assoc]
      have := mul_nonneg (Nat.cast_nonneg (α := ℝ) N) hz.le
      linarith
    nlinarith
  · have hg : 1 < growth true alpha (dt * div) := by
      simp only [growth, if_true]
      have : Real.exp (-(dt * div)) < 1 := by rw [Real.exp_lt_one_iff]; linarith
      nlinarith
    have := (tendsto_pow_atTop_atTop_of_one_lt hg).atTop_mul_const hD
    refine this.congr fun N => ?_
    rw [pool_run nOuter nInner ho hi]
    simp [poolState]

/-- The predictor has an effect on the pool when the depth is transported by itself: the hypotheses of the theorems above matter. -/
theorem C148_predictor_acts (nOuter nInner : ℕ) (ho : 0 < nOuter) (hi : 0 < nInner) (alpha dt div D : ℝ) (ha : alpha ≠ 1)
    (hz : dt * div ≠ 0) (hD : D ≠ 0) :
    predictorTimestep (pool nOuter nInner) [exactDepth dt] (some 1) alpha dt poolDiv (poolState div D) (poolState div D) ≠
      predictorTimestep (pool nOuter nInner) [exactDepth dt] none alpha dt poolDiv (poolState div D) (poolState div D) := by
  have h1 := pool_step nOuter nInner ho hi true alpha dt div D
  have h2 := pool_step nOuter nInner ho hi false alpha dt div D
  simp only [if_true, Bool.false_eq_true, if_false] at h1 h2
  rw [h1, h2]
  intro h
  have := congrFun h 1
  simp only [poolState, growth, Fin.isValue, one_ne_zero, if_false, if_true, Bool.false_eq_true] at this
  have h3 := mul_right_cancel₀ hD this
  have h4 : (1 - Real.exp (-(dt * div))) * ((1 - alpha) * (dt * div)) = 0 := by linarith
  rcases mul_eq_zero.1 h4 with h5 | h5
  · have : Real.exp (-(dt * div)) = 1 := by linarith
    rw [Real.exp_eq_one_iff] at this
    exact hz (by linarith)
  · rcases mul_eq_zero.1 h5 with h6 | h6
    · exact ha (by linarith)
    · exact hz h6

/-- The same transport, requested simultaneously with that of the wind. -/
noncomputable def exactBoth (dt : ℝ) : Active Pool 0 :=
  .many [0, 1] fun (div : ℝ) (x : ∀ i, Pool i) => Function.update x 1 (Real.exp (-(dt * div)) * x 1 : ℝ)

/-- C148: the request is dropped in silence when the depth is transported simultaneously with the wind, although transporting the
depth by itself with the same scheme obeys it. -/
theorem C148_request_is_honoured_refuted (nOuter nInner : ℕ) (ho : 0 < nOuter) (hi : 0 < nInner) (alpha dt div D : ℝ) (ha : alpha ≠ 1)
    (hz : dt * div ≠ 0) (hD : D ≠ 0) :
    (∀ x x0, predictorTimestep (pool nOuter nInner) [exactBoth dt] (some 1) alpha dt poolDiv x x0 =
      predictorTimestep (pool nOuter nInner) [exactBoth dt] none alpha dt poolDiv x x0) ∧
    predictorTimestep (pool nOuter nInner) [exactDepth dt] (some 1) alpha dt poolDiv (poolState div D) (poolState div D) ≠
      predictorTimestep (pool nOuter nInner) [exactDepth dt] none alpha dt poolDiv (poolState div D) (poolState div D) := by
  refine ⟨fun x x0 => ?_, C148_predictor_acts nOuter nInner ho hi alpha dt div D ha hz hD⟩
  apply C148_not_alone_ignored (m := pool nOuter nInner)
  intro a haa name step he
  have haa' := List.mem_singleton.1 haa
  rw [haa'] at he
  exact absurd he (by simp [exactBoth])

/-- With `alpha = 1/2` and `dt div(u) = 3` the depth grows without bound. -/
example : Filter.Tendsto (fun N => poolRun 2 2 true (1 / 2) 3 1 1 N 1) Filter.atTop Filter.atTop :=
  (C148_stability_refuted 2 2 (by norm_num) (by norm_num) (1 / 2) 3 1 1 (by norm_num) (by norm_num) (by norm_num)).2

end column

/-! ### The theorems apply -/

section cases
/-- Two cells that exchange fluid: the flux out of the first is the wind of the first face; the divergence of each cell multiplies the
depth of that cell. -/
def chanActive : Active Chan 0 := .one 1 fun (u : ℚ × ℚ) (D : ℚ × ℚ) => ((D.1 - u.1 * D.1 / 4, D.2 + u.1 * D.1 / 4) : ℚ × ℚ)

/-- The product with the divergence, cell by cell. -/
def chanDiv : ∀ i, Chan 0 → Chan i → Chan i := fun _ (u : ℚ × ℚ) (q : ℚ × ℚ) => ((u.1 * q.1, -u.1 * q.2) : ℚ × ℚ)

theorem chan_keeps : ActiveKeeps chanMass [chanActive] := by
  intro a ha
  rw [List.mem_singleton] at ha
  subst ha
  intro h vel q
  simp [chanMass]

/-- The total depth is kept with the predictor on. -/
example (nOuter nInner n : ℕ) (acc : Bool) (alpha : ℕ → ℚ) (dt : ℚ) (x : ∀ i, Chan i) :
    chanMass (predictorRun 0 (fun _ => chan nOuter nInner acc) (fun _ => rfl) [chanActive] (some 1) alpha dt chanDiv x n 1) =
      chanMass (x 1) :=
  C148_mass_run 0 _ _ _ _ alpha dt chanDiv 1 chanMass
    (fun _ => { chan_parts nOuter nInner acc with transport := by intro s hs; cases hs }) chan_keeps (by simp) x n

/-- A wind without divergence. -/
example (alpha dt : ℚ) (x x0 : ∀ i, Chan i) (h : x 0 = ((0, 3) : ℚ × ℚ)) :
    predictorTimestep (chan 2 2 true) [chanActive] (some 1) alpha dt chanDiv x x0 =
      predictorTimestep (chan 2 2 true) [chanActive] none alpha dt chanDiv x x0 :=
  C148_no_divergence (chan 2 2 true) [chanActive] 1 alpha dt chanDiv x x0 fun q => by
    have h' : x (chan 2 2 true).u = ((0, 3) : ℚ × ℚ) := h
    rw [h']; simp [chanDiv]

/-- A spin-up of five steps. -/
example (alpha dt : ℚ) (x : ∀ i, Chan i) :
    predictorRun 0 (fun _ => chan 2 2 true) (fun _ => rfl) [chanActive] (some 1) (fun j => (spinRun alpha false 5 1 j).alpha) dt
      chanDiv x 5 =
    predictorRun 0 (fun _ => chan 2 2 true) (fun _ => rfl) [chanActive] none (fun j => (spinRun alpha false 5 1 j).alpha) dt
      chanDiv x 5 :=
  C148_spinup 0 _ _ _ 1 alpha false 5 1 dt chanDiv x 5 (by norm_num)

end cases
end Gusto.Props.PredictorProps
