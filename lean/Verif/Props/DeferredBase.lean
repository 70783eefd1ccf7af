import Verif.Model.DeferredBase
import Verif.Props.DCConvergence

set_option autoImplicit false
set_option linter.unusedSectionVars false
set_option linter.unusedSimpArgs false

/-!
# C139: the timesteps in deferred correction
-/

namespace Gusto.Props.DeferredBaseProps
open Gusto DeferredBase Finset

variable {K X : Type*} [Field K]

/-! ### A base scheme without subcycling -/

/-- A base scheme without subcycling, before its first call (`captured = none`) or after some steps of SDC. -/
structure Plain (w : World K X) (a : K) : Prop where
  noAdaptive : w.base.adaptive = none
  one : w.base.ncycles = 1
  held : w.base.captured = none ∨ w.base.captured = some (.num a)

theorem apply_plain {w : World K X} {a : K} (hw : Plain w a) (v : K) (hv : w.base.captured = none → v = a) (x : X) :
    ∃ w', DeferredBase.apply (setDt w v) x = .ok (w', w.base.cycle a v x) ∧ Plain w' a ∧ w'.base.captured = some (.num a) ∧
      w'.domainDt = w.domainDt ∧ w'.base.cycle = w.base.cycle := by
  obtain ⟨h1, h2, h3⟩ := hw
  rcases h3 with h3 | h3
  · refine ⟨{ w with base := { w.base with dt := .num v, captured := some (.num v) } }, ?_, ⟨h1, h2, Or.inr ?_⟩, ?_, rfl, rfl⟩
    · rw [← hv h3]
      simp [DeferredBase.apply, updateSubcycling, setDt, h1, h2, h3, World.value, bind, Except.bind, pure, Except.pure]
    · simp [hv h3]
    · simp [hv h3]
  · refine ⟨{ w with base := { w.base with dt := .num v } }, ?_, ⟨h1, h2, Or.inr h3⟩, h3, rfl, rfl⟩
    simp [DeferredBase.apply, updateSubcycling, setDt, h1, h2, h3, World.value, bind, Except.bind, pure, Except.pure]

/-- The first guess of a step: the base scheme goes from node to node, with the spacing of the *first* node in its solver. -/
theorem guess_plain {w : World K X} (dtau : ℕ → K) (hw : Plain w (dtau 0)) (x : X) (n : ℕ) :
    ∃ w' U, guess dtau x n w = .ok (w', U) ∧ Plain w' (dtau 0) ∧ (0 < n → w'.base.captured ≠ none) ∧ w'.domainDt = w.domainDt ∧
      w'.base.cycle = w.base.cycle ∧ U 0 = x ∧ ∀ m < n, U (m + 1) = w.base.cycle (dtau 0) (dtau m) (U m) := by
  induction n with
  | zero => exact ⟨w, _, rfl, hw, fun h => absurd h (lt_irrefl _), rfl, rfl, rfl, fun m hm => by omega⟩
  | succ n ih =>
    obtain ⟨w1, U, e, p1, c1, d1, s1, u0, u1⟩ := ih
    obtain ⟨w2, e2, p2, c2, d2, s2⟩ := apply_plain p1 (dtau n) (fun h => by
      rcases Nat.eq_zero_or_pos n with rfl | hn
      · rfl
      · exact absurd h (c1 hn)) (U n)
    refine ⟨w2, Function.update U (n + 1) (w1.base.cycle (dtau 0) (dtau n) (U n)), ?_, p2, fun _ => by rw [c2]; simp, d2.trans d1, s2.trans s1,
      by rw [Function.update_of_ne (by omega), u0], fun m hm => ?_⟩
    · simp only [guess, e, bind, Except.bind, e2]; rfl
    · by_cases hmn : m = n
      · subst hmn
        rw [Function.update_self, Function.update_of_ne (by omega), s1]
      · rw [Function.update_of_ne (by omega), Function.update_of_ne (by omega), u1 m (by omega)]

/-- C139: with a base scheme that does not subcycle, constructing SDC, setting it up and taking any number of steps never fails and leaves
the timestep of the domain alone, so that the time of the model goes on by `dt` in every step; and in every step the first guess goes
from the old state from node to node with the base scheme, which has the spacing of the *first* node in its cached forms and the spacing
of its own node in the attribute `dt`.  This is the base scheme of the model of SDC. -/
theorem C139_plain_base (dt : K) (cycle : K → K → X → X) (dtau : ℕ → K) (M : ℕ) (xs : List X) :
    ∃ w, setup (sdcInit (make dt none none cycle)) = .ok w ∧ w.domainDt = dt ∧
      ∃ w' Us, guesses dtau M xs w = .ok (w', Us) ∧ w'.domainDt = dt ∧ (∀ t0 N, clock w' t0 N = t0 + N * dt) ∧
        List.Forall₂ (fun x U => U 0 = x ∧ ∀ m < M, U (m + 1) = cycle (dtau 0) (dtau m) (U m)) xs Us := by
  refine ⟨_, rfl, rfl, ?_⟩
  have key : ∀ (w : World K X), Plain w (dtau 0) → w.domainDt = dt → w.base.cycle = cycle → ∃ w' Us, guesses dtau M xs w = .ok (w', Us) ∧
      w'.domainDt = dt ∧ List.Forall₂ (fun x U => U 0 = x ∧ ∀ m < M, U (m + 1) = cycle (dtau 0) (dtau m) (U m)) xs Us := by
    induction xs with
    | nil => intro w _ hd _; exact ⟨w, [], rfl, hd, .nil⟩
    | cons x xs ih =>
      intro w hw hd hc
      obtain ⟨w1, U, e1, p1, -, d1, s1, u0, u1⟩ := guess_plain dtau hw x M
      obtain ⟨w2, Us, e2, d2, f2⟩ := ih w1 p1 (d1.trans hd) (s1.trans hc)
      refine ⟨w2, U :: Us, ?_, d2, .cons ⟨u0, fun m hm => hc ▸ u1 m hm⟩ f2⟩
      simp only [guesses, e1, bind, Except.bind, e2]; rfl
  obtain ⟨w', Us, e, d, f⟩ := key { sdcInit (make dt none none cycle) with
    base := { (sdcInit (make dt none none cycle)).base with ncycles := 1 } } ⟨rfl, rfl, Or.inl rfl⟩ rfl rfl
  refine ⟨w', Us, e, d, fun t0 N => ?_, f⟩
  induction N with
  | zero => simp [clock]
  | succ N ih =>
    rw [clock, Function.iterate_succ_apply'] at *
    rw [ih, d]
    push_cast; ring

/-- Backward Euler for `x' = x` with a cached solver, two nodes at 1/3 and 1, three steps of length 1/2. -/
example : ∃ w w' Us, setup (sdcInit (make (1 / 2 : ℚ) none none fun a _ x => x / (1 - a))) = .ok w ∧
    guesses (fun m => if m = 0 then 1 / 6 else 1 / 3) 2 [1, 2, 3] w = .ok (w', Us) ∧ w'.domainDt = 1 / 2 := by
  obtain ⟨w, e, -, w', Us, e', d, -⟩ := C139_plain_base (1 / 2 : ℚ) (fun a _ x => x / (1 - a)) (fun m => if m = 0 then 1 / 6 else 1 / 3) 2 [1, 2, 3]
  exact ⟨w, w', Us, e, e', d⟩

/-- C139: the same for RIDC, where the substeps are equal: the guess is the base scheme with the length of a substep in both places. -/
theorem C139_plain_ridc (dt sub : K) (cycle : K → K → X → X) (M : ℕ) (x : X) :
    ∃ w, setup (make dt none none cycle) = .ok w ∧ w.domainDt = dt ∧
      ∃ w' U, guessRidc sub x M w = .ok (w', U) ∧ w'.domainDt = dt ∧ U 0 = x ∧ ∀ m < M, U (m + 1) = cycle sub sub (U m) := by
  refine ⟨_, rfl, rfl, ?_⟩
  obtain ⟨w', U, e, -, -, d, -, u0, u1⟩ := guess_plain (w := setDt { (make dt none none cycle) with
    base := { (make dt none none cycle).base with ncycles := 1 } } sub) (fun _ => sub) ⟨rfl, rfl, Or.inl rfl⟩ x M
  exact ⟨w', U, e, d, u0, u1⟩

/-- C139: the base scheme takes the step from node to node only if it does not keep the timestep in its forms, or the nodes are
equidistant: then every node is reached with its own spacing in both places. -/
theorem C139_step_of_node (cycle : K → K → X → X) (dtau : ℕ → K) (m : ℕ)
    (h : (∀ a a' k, cycle a k = cycle a' k) ∨ dtau m = dtau 0) : cycle (dtau 0) (dtau m) = cycle (dtau m) (dtau m) := by
  rcases h with h | h
  · exact h _ _ _
  · rw [h]

/-- C139 fails: with Lobatto nodes the first node is the start of the step, so that the first spacing is 0, and a base scheme that keeps
the timestep in its forms (a step with the timestep 0 does nothing) does not move at all: the first guess is a copy of the old state. -/
theorem C139_lobatto_refuted (dt : K) (step : K → X → X) (h0 : ∀ x, step 0 x = x) (dtau : ℕ → K) (hd : dtau 0 = 0) (M : ℕ) (x : X) :
    ∃ w w' U, setup (sdcInit (make dt none none fun a _ => step a)) = .ok w ∧ guess dtau x M w = .ok (w', U) ∧ ∀ m ≤ M, U m = x := by
  obtain ⟨w', U, e, -, -, -, -, u0, u1⟩ := guess_plain (w := { sdcInit (make dt none none fun a _ => step a) with
    base := { (sdcInit (make dt none none fun a _ => step a)).base with ncycles := 1 } }) dtau ⟨rfl, rfl, Or.inl rfl⟩ x M
  refine ⟨_, w', U, rfl, e, fun m => ?_⟩
  induction m with
  | zero => intro _; exact u0
  | succ m ih =>
    intro hm
    rw [u1 m hm, ih (by omega)]
    show step (dtau 0) x = x
    rw [hd, h0]

example : ∃ w w' U, setup (sdcInit (make (1 / 2 : ℚ) none none fun a _ x => x / (1 - a))) = .ok w ∧
    guess (fun m => if m = 0 then 0 else 1 / 4) 1 3 w = .ok (w', U) ∧ ∀ m ≤ 3, U m = 1 :=
  C139_lobatto_refuted (1 / 2 : ℚ) (fun a x => x / (1 - a)) (fun x => by simp) _ rfl 3 1

/-! ### A base scheme with a fixed number of subcycles -/

/-- C139 fails: the base scheme of SDC holds the Function of the domain, so that the setup of a base scheme with `n` fixed subcycles
divides the timestep of the *model* by `n`: after `N` steps the clock has gone on by `N dt / n`, although the tables of SDC are those
for `dt`. -/
theorem C139_fixed_subcycles_clock_refuted (dt : K) (n : ℕ) (cycle : K → K → X → X) :
    ∃ w, setup (sdcInit (make dt (some n) none cycle)) = .ok w ∧ w.domainDt = dt / n ∧
      ∀ t0 (N : ℕ), clock w t0 N = t0 + N * (dt / n) := by
  refine ⟨_, rfl, rfl, fun t0 N => ?_⟩
  induction N with
  | zero => simp [clock]
  | succ N ih =>
    rw [clock, Function.iterate_succ_apply'] at *
    rw [ih]
    show _ + dt / (n : K) = _
    push_cast; ring

/-- C139, what the clock means for the user: with two subcycles of the base scheme the model says that half of the time has passed,
while the solution of `x' = 1` by SDC has gone on by the whole of it. -/
theorem C139_model_time_refuted (c : SDC.Config ℝ ℝ ℝ) (hR : c.R = DCConvergenceProps.clockR)
    (hc : DCConvergenceProps.Usable c (LinearEquiv.refl ℝ ℝ) fun _ => 0) (hM : 0 < c.M)
    (hq : Convergence.IntegratesNodes (c.formulation == "Z2N") (DCConvergenceProps.withZero c.nodes) c.Q c.M 1)
    (hk : 0 < c.maxk) (hf : c.finalUpdate = false) (hend : c.nodes (c.M - 1) = 1) (dt : ℝ) (cycle : ℝ → ℝ → ℝ → ℝ) (N : ℕ) :
    ∃ w, setup (sdcInit (make dt (some 2) none cycle)) = .ok w ∧
      clock w 0 N = N * dt / 2 ∧ (SDC.steps (SDC.init c dt) N (SDC.fresh c dt, 0)).2 = N * dt := by
  obtain ⟨w, e, -, cl⟩ := C139_fixed_subcycles_clock_refuted dt 2 cycle
  refine ⟨w, e, ?_, ?_⟩
  · rw [cl]; push_cast; ring
  · rw [DCConvergenceProps.C126_interior_last_node_refuted c hR hc hM hq (Or.inl ⟨hk, hf⟩) dt N, hend, one_mul]

/-- One node at the end of the step. -/
noncomputable def end1 : SDC.Config ℝ ℝ ℝ where
  R := DCConvergenceProps.clockR
  M := 1
  maxk := 1
  formulation := "N2N"
  nodes := fun _ => 1
  weights := fun _ => 1
  Q := fun _ _ => 1
  Qi := fun _ _ => 1
  Qe := fun _ _ => 0
  base := fun _ k x => x + k
  initialGuess := "base"
  finalUpdate := false
  solve := choiceSolve

example : ∃ w, setup (sdcInit (make (1 : ℝ) (some 2) none fun _ k x => x + k)) = .ok w ∧
    clock w 0 10 = 5 ∧ (SDC.steps (SDC.init end1 1) 10 (SDC.fresh end1 1, 0)).2 = 10 := by
  obtain ⟨w, e, h1, h2⟩ := C139_model_time_refuted end1 rfl (by
    obtain ⟨a, b, c, d, e, f, g⟩ := DCConvergenceProps.gauss1_usable 1
    exact ⟨a, b, c, d, e, f, fun _ _ _ _ => rfl⟩) one_pos (fun m hm j hj => by
    obtain rfl : m = 0 := by simp [end1] at hm; omega
    obtain rfl : j = 0 := by omega
    simp [end1, DCConvergenceProps.withZero]) one_pos rfl rfl 1 (fun _ k x => x + k) 10
  refine ⟨w, e, ?_, ?_⟩
  · rw [h1]; norm_num
  · rw [h2]; norm_num

/-- C139 fails: with `n` fixed subcycles the base scheme covers the way from a node to the next not in `n` cycles of an `n`-th of it but
in `n` cycles of its full length, since SDC sets the attribute `dt` to the full spacing after `setup` has divided it. -/
theorem C139_fixed_subcycles_guess_refuted (dt : K) (n : ℕ) (cycle : K → K → X → X) (dtau : ℕ → K) (M : ℕ) (x : X) :
    ∃ w w' U, setup (sdcInit (make dt (some n) none cycle)) = .ok w ∧ guess dtau x M w = .ok (w', U) ∧ U 0 = x ∧
      ∀ m < M, U (m + 1) = (cycle (dtau 0) (dtau m))^[n] (U m) := by
  let w0 : World K X := { sdcInit (make dt (some n) none cycle) with
    domainDt := dt / n, base := { (sdcInit (make dt (some n) none cycle)).base with ncycles := n } }
  have step : ∀ (w : World K X) (v : K), w.base.adaptive = none → w.base.ncycles = n → w.base.cycle = cycle →
      (w.base.captured = none → v = dtau 0) → (w.base.captured = none ∨ w.base.captured = some (.num (dtau 0))) → ∀ x,
      ∃ w', DeferredBase.apply (setDt w v) x = .ok (w', (cycle (dtau 0) v)^[n] x) ∧ w'.base.adaptive = none ∧ w'.base.ncycles = n ∧
        w'.base.cycle = cycle ∧ w'.base.captured = some (.num (dtau 0)) := by
    intro w v h1 h2 h4 hv h3 x
    rcases h3 with h3 | h3
    · refine ⟨{ w with base := { w.base with dt := .num v, captured := some (.num v) } }, ?_, h1, h2, h4, by simp [hv h3]⟩
      rw [← hv h3]
      simp [DeferredBase.apply, updateSubcycling, setDt, h1, h2, h3, h4, World.value, bind, Except.bind, pure, Except.pure]
    · refine ⟨{ w with base := { w.base with dt := .num v } }, ?_, h1, h2, h4, h3⟩
      simp [DeferredBase.apply, updateSubcycling, setDt, h1, h2, h3, h4, World.value, bind, Except.bind, pure, Except.pure]
  have loop : ∀ j, ∃ w' U, guess dtau x j w0 = .ok (w', U) ∧ w'.base.adaptive = none ∧ w'.base.ncycles = n ∧ w'.base.cycle = cycle ∧
      (j = 0 ∧ w'.base.captured = none ∨ w'.base.captured = some (.num (dtau 0))) ∧ U 0 = x ∧
      ∀ m < j, U (m + 1) = (cycle (dtau 0) (dtau m))^[n] (U m) := by
    intro j
    induction j with
    | zero => exact ⟨w0, _, rfl, rfl, rfl, rfl, Or.inl ⟨rfl, rfl⟩, rfl, fun m hm => by omega⟩
    | succ j ih =>
      obtain ⟨w1, U, e, a1, n1, s1, c1, u0, u1⟩ := ih
      obtain ⟨w2, e2, a2, n2, s2, c2⟩ := step w1 (dtau j) a1 n1 s1 (fun h => by
        rcases c1 with ⟨rfl, _⟩ | c1
        · rfl
        · rw [c1] at h; simp at h) (by rcases c1 with ⟨_, c1⟩ | c1 <;> simp [c1]) (U j)
      refine ⟨w2, Function.update U (j + 1) ((cycle (dtau 0) (dtau j))^[n] (U j)), ?_, a2, n2, s2, Or.inr c2,
        by rw [Function.update_of_ne (by omega), u0], fun m hm => ?_⟩
      · simp only [guess, e, bind, Except.bind, e2]; rfl
      · by_cases hmn : m = j
        · subst hmn
          rw [Function.update_self, Function.update_of_ne (by omega)]
        · rw [Function.update_of_ne (by omega), Function.update_of_ne (by omega), u1 m (by omega)]
  obtain ⟨w', U, e, -, -, -, -, u0, u1⟩ := loop M
  exact ⟨w0, w', U, rfl, e, u0, u1⟩

/-- For `x' = 1` with forward Euler, two subcycles and two equal spacings of 1/2 the guess at the end of the step is 2, not 1. -/
example : ∃ w w' U, setup (sdcInit (make (1 : ℚ) (some 2) none fun _ k x => x + k)) = .ok w ∧
    guess (fun _ => 1 / 2) 0 2 w = .ok (w', U) ∧ U 2 = 2 := by
  obtain ⟨w, w', U, e, e', u0, u1⟩ := C139_fixed_subcycles_guess_refuted (1 : ℚ) 2 (fun _ k x => x + k) (fun _ => 1 / 2) 2 0
  refine ⟨w, w', U, e, e', ?_⟩
  rw [u1 1 (by omega), u1 0 (by omega), u0]
  norm_num [Function.iterate_succ]

/-- C139 fails: a base scheme that subcycles by the Courant number fails in the first step, because SDC has replaced its timestep by a
Python number, which has no `assign`. -/
theorem C139_adaptive_refuted (dt : K) (n : ℕ) (cycle : K → K → X → X) (dtau : ℕ → K) (M : ℕ) (x : X) :
    ∃ w, setup (sdcInit (make dt none (some n) cycle)) = .ok w ∧ guess dtau x (M + 1) w = .error "AttributeError" := by
  refine ⟨_, rfl, ?_⟩
  induction M with
  | zero => rfl
  | succ M ih =>
    rw [guess, ih]
    rfl

/-! ### The price of the held timestep -/

open SDC SDCProps Convergence DCConvergenceProps
open Gusto.LForm Gusto.TimeDisc Gusto.Spec
open Gusto.Props.StageConvergenceProps (rhs)

/-- The residual of `x' = x`, treated implicitly. -/
noncomputable def growthR : LForm ℝ ℝ :=
  [ { labels := [.timeDerivative], op := fun x => x, subj := 0 }, { labels := [.implicit], op := fun x => -x, subj := 0 } ]

/-- SDC for `x' = x` with two Radau nodes, one Picard sweep (`qdelta_imp="PIC"`) and no final update. -/
noncomputable def growth (B : ℝ → ℝ → ℝ → ℝ) : Config ℝ ℝ ℝ where
  R := growthR
  M := 2
  maxk := 1
  formulation := "Z2N"
  nodes := fun m => if m = 0 then 1 / 3 else 1
  weights := fun m => if m = 0 then 3 / 4 else 1 / 4
  Q := fun m k => if m = 0 then (if k = 0 then 5 / 12 else -1 / 12) else (if k = 0 then 3 / 4 else 1 / 4)
  Qi := fun _ _ => 0
  Qe := fun _ _ => 0
  base := B
  initialGuess := "base"
  finalUpdate := false
  solve := choiceSolve

/-- Backward Euler for `x' = x` with the timestep `k`. -/
noncomputable def beStep (k x : ℝ) : ℝ := x / (1 - k)

theorem growth_usable (B : ℝ → ℝ → ℝ → ℝ) : Usable (growth B) (LinearEquiv.refl ℝ ℝ) fun _ => 0 where
  exact := choiceSolve_exact
  clean := by intro t ht; simp [growth, growthR] at ht; rcases ht with rfl | rfl <;> simp
  one := by intro t ht; simp [growth, growthR] at ht; rcases ht with rfl | rfl <;> simp
  mass := fun x => by simp [growth, mass, part, growthR]
  noLimiter := rfl
  src := fun dt x out => by simp [growth, srcPart, part, growthR]
  lower := fun m i _ _ => rfl

theorem growth_impl (B : ℝ → ℝ → ℝ → ℝ) (x : ℝ) : implPart (growth B).R x = -x := by simp [growth, implPart, part, growthR]

theorem growth_expl (B : ℝ → ℝ → ℝ → ℝ) (x : ℝ) : explPart (growth B).R x = 0 := by simp [growth, explPart, part, growthR]

/-- One step of the scheme: the quadrature of the guess. -/
theorem growth_apply (B : ℝ → ℝ → ℝ → ℝ) (h : ℝ) (st : State ℝ ℝ) (hst : st.solvers.getD st.qdeltaImp = fun _ _ => h * 0) (x : ℝ) :
    (SDC.apply (init (growth B) h) st x).2 =
      x + h * (3 / 4 * B (h * (1 / 3)) (h * (1 / 3)) x + 1 / 4 * B (h * (1 / 3)) (h * (2 / 3)) (B (h * (1 / 3)) (h * (1 / 3)) x)) := by
  have hc := growth_usable B
  have good : ∀ dt, Good (init (growth B) h) (fun _ _ => h * 0) dt fun _ => 0 := fun dt => ⟨hc.exact, hc.clean, hc.one, ⟨fun x y => by
      show mass (growth B).R _ = mass (growth B).R _ + mass (growth B).R _
      rw [hc.mass, hc.mass, hc.mass]; rfl, fun a x => by
      show mass (growth B).R _ = a • mass (growth B).R _
      rw [hc.mass, hc.mass]; rfl⟩, fun d => ⟨d, hc.mass d, fun y hy => (hc.mass y).symm.trans hy⟩, fun m _ d => ⟨d, by
      show mass (growth B).R d + (h * 0) • implPart (growth B).R d = d
      rw [hc.mass, mul_zero, zero_smul, add_zero]; rfl, fun y hy => by
      have hy : mass (growth B).R y + (h * 0) • implPart (growth B).R y = d := hy
      rw [hc.mass, mul_zero, zero_smul, add_zero] at hy
      exact hy⟩, hc.noLimiter, fun x out => hc.src dt x out⟩
  have low : ∀ m i, m ≤ i → i < (init (growth B) h).M → (init (growth B) h).Qe m i = 0 := fun m i _ _ => mul_zero h
  have res := (C24_apply_result (init (growth B) h) st x (fun _ => 0) (by rw [hst]; exact good _) low).1 (Or.inr rfl)
  rw [res]
  obtain ⟨e0, sw⟩ := C24_apply_sweeps (init (growth B) h) st x (fun _ => 0) (by rw [hst]; exact good _) low 0
  have e := sw.2 1 (by show 1 < 2; omega)
  have n1 := (start_nodes (init (growth B) h) st x).1 rfl 0 (by show 0 < 2; omega)
  have n2 := (start_nodes (init (growth B) h) st x).1 rfl 1 (by show 1 < 2; omega)
  rw [base_eq, e0] at n1
  rw [base_eq, n1] at n2
  rw [hst] at e
  show SDCProps.nodes (init (growth B) h) st x 1 2 = _
  have hR' : (init (growth B) h).R = (growth B).R := rfl
  have hM' : (init (growth B) h).M = 2 := rfl
  have hz : (init (growth B) h).z2n = true := rfl
  have hQe : ∀ m k, (init (growth B) h).Qe m k = h * 0 := fun m k => rfl
  have hQ : ∀ k, (init (growth B) h).Q 1 k = h * (if k = 0 then 3 / 4 else 1 / 4) := fun k => rfl
  have w1 : h * (withZero (growth B).nodes (0 + 1) - withZero (growth B).nodes 0) = h * (1 / 3) := by
    congr 1; simp [withZero, growth]
  have w2 : h * (withZero (growth B).nodes (1 + 1) - withZero (growth B).nodes 1) = h * (2 / 3) := by
    congr 1; simp [withZero, growth]; norm_num
  have w0 : h * (growth B).nodes 0 = h * (1 / 3) := by simp [growth]
  have wB : (growth B).base = B := rfl
  rw [w0, w1, wB] at n1
  rw [w0, w1, w2, wB] at n2
  simp only [hR', hM', hz, hQe, hQ, hc.mass, growth_impl, growth_expl, LinearEquiv.refl_apply, mul_zero, zero_smul, Finset.sum_const_zero,
    add_zero, sub_zero, zero_add, startNode, if_true, sw.1, e0, Finset.sum_range_succ, Finset.sum_range_zero, n1, n2, smul_eq_mul] at e
  rw [e]
  norm_num
  ring

/-- `N` steps of a linear scheme. -/
theorem growth_steps (B : ℝ → ℝ → ℝ → ℝ) (h R : ℝ)
    (hR : ∀ x, x + h * (3 / 4 * B (h * (1 / 3)) (h * (1 / 3)) x + 1 / 4 * B (h * (1 / 3)) (h * (2 / 3)) (B (h * (1 / 3)) (h * (1 / 3)) x)) = R * x)
    (N : ℕ) : (steps (init (growth B) h) N (fresh (growth B) h, 1)).2 = R ^ N := by
  induction N with
  | zero => rfl
  | succ N ih =>
    show (SDC.apply (init (growth B) h) _ _).2 = _
    rw [growth_apply B h _ (solvers_steps (init (growth B) h) (fresh (growth B) h) 1 N), hR, ih, pow_succ']

theorem growth_R {h : ℝ} (h0 : 0 < h) (h1 : h ≤ 1 / 8) :
    1 + h * (3 / 4 / (1 - h / 3) + 1 / 4 / (1 - h / 3) ^ 2) ≤ Real.exp (h - h ^ 2 / 24) := by
  have hu : 0 ≤ h - h ^ 2 / 24 := by nlinarith
  refine le_trans ?_ (Real.quadratic_le_exp_of_nonneg hu)
  have hp : 0 < 1 - h / 3 := by linarith
  rw [show 1 + h * (3 / 4 / (1 - h / 3) + 1 / 4 / (1 - h / 3) ^ 2) = (((1 - h / 3) ^ 2) + h * (3 / 4 * (1 - h / 3) + 1 / 4)) / (1 - h / 3) ^ 2 by
    have : 3 - h ≠ 0 := by linarith
    field_simp]
  rw [div_le_iff₀ (by positivity)]
  have h2 : 0 < h ^ 2 := by positivity
  have h4 : 0 < h ^ 4 := by positivity
  have h6 : 0 < h ^ 6 := by positivity
  have i1 := mul_le_mul_of_nonneg_left h1 h2.le
  have i2 := mul_le_mul_of_nonneg_left h1 h4.le
  nlinarith

/-- C126 fails for a base scheme that holds the first spacing in its solver: one sweep from backward Euler on two Radau nodes should be of
the second order, but the error at the time 1 of a run with `N` steps is at least a constant times the timestep `1 / N`. -/
theorem C126_held_step_refuted : ∃ c : ℝ, 0 < c ∧ ∀ N : ℕ, 8 ≤ N →
    c * (1 / N : ℝ) ≤ |(steps (init (growth fun a _ => beStep a) (1 / N)) N (fresh (growth fun a _ => beStep a) (1 / N), 1)).2 - Real.exp 1| := by
  refine ⟨1 / 48, by norm_num, fun N hN => ?_⟩
  have hN0 : (0 : ℝ) < N := by exact_mod_cast (by omega : 0 < N)
  have hN4 : (8 : ℝ) ≤ N := by exact_mod_cast hN
  set h : ℝ := 1 / N with hh
  have h0 : 0 < h := by positivity
  have h1 : h ≤ 1 / 8 := by rw [hh]; exact one_div_le_one_div_of_le (by norm_num) hN4
  have hNh : N * h = 1 := by rw [hh]; field_simp
  rw [growth_steps _ h (1 + h * (3 / 4 / (1 - h / 3) + 1 / 4 / (1 - h / 3) ^ 2)) (fun x => by
    have hp : 1 - h / 3 ≠ 0 := by linarith
    have hp' : 1 - h * (1 / 3) = 1 - h / 3 := by ring
    simp only [beStep, hp']
    field_simp)]
  have hR := growth_R h0 h1
  have hR0 : 0 ≤ 1 + h * (3 / 4 / (1 - h / 3) + 1 / 4 / (1 - h / 3) ^ 2) := by
    have hp : 0 < 1 - h / 3 := by linarith
    positivity
  have pw := pow_le_pow_left₀ hR0 hR N
  rw [← Real.exp_nat_mul, show N * (h - h ^ 2 / 24) = 1 + -(h / 24) by linear_combination (1 - h / 24) * hNh, Real.exp_add] at pw
  have e1 : Real.exp (-(h / 24)) ≤ 1 - h / 48 := by
    have := Real.one_sub_le_exp_neg (h / 24)
    have b := Real.abs_exp_sub_one_le (x := -(h / 24)) (by rw [abs_neg, abs_of_nonneg (by positivity)]; linarith)
    have q := Real.add_one_le_exp (h / 24)
    rw [Real.exp_neg]
    rw [inv_le_comm₀ (Real.exp_pos _) (by linarith)]
    refine le_trans ?_ q
    rw [inv_le_comm₀ (by linarith) (by positivity)]
    rw [inv_le_comm₀ (by positivity) (by linarith)]
    rw [inv_eq_one_div, div_le_iff₀ (by linarith)]
    nlinarith
  have e2 : (1 : ℝ) ≤ Real.exp 1 := by have := Real.add_one_le_exp (1 : ℝ); linarith
  have e3 : Real.exp 1 * Real.exp (-(h / 24)) ≤ Real.exp 1 * (1 - h / 48) := mul_le_mul_of_nonneg_left e1 (by positivity)
  rw [abs_sub_comm]
  refine le_trans ?_ (le_abs_self _)
  nlinarith

/-- Backward Euler for `x' = x` is of the first order along the solution. -/
theorem be_accurate : AccurateAlong beStep Real.exp 1 1 := by
  refine ⟨1 / 2, Real.exp 1 * 2, 2, by norm_num, by positivity, by norm_num, fun k k0 k1 t t0 tT x => ?_⟩
  have hp : 0 < 1 - k := by linarith
  have hi : 1 / (1 - k) ≤ 1 + k * 2 := by rw [div_le_iff₀ hp]; nlinarith
  have e : beStep k x - Real.exp (t + k) = 1 / (1 - k) * (x - Real.exp t) + Real.exp t * (1 / (1 - k) - Real.exp k) := by
    rw [Real.exp_add, beStep]; ring
  have d : |1 / (1 - k) - Real.exp k| ≤ 2 * k ^ 2 := by
    have l := Real.add_one_le_exp k
    have u : Real.exp k ≤ 1 / (1 - k) := by
      have := Real.one_sub_le_exp_neg k
      rw [le_div_iff₀ hp]
      calc Real.exp k * (1 - k) ≤ Real.exp k * Real.exp (-k) := mul_le_mul_of_nonneg_left this (by positivity)
        _ = 1 := by rw [← Real.exp_add]; simp
    rw [abs_of_nonneg (by linarith)]
    have : 1 / (1 - k) ≤ 1 + k + 2 * k ^ 2 := by rw [div_le_iff₀ hp]; nlinarith [mul_nonneg k0 k0]
    linarith
  have et : Real.exp t ≤ Real.exp 1 := Real.exp_le_exp.2 (by linarith)
  rw [e]
  refine (norm_add_le _ _).trans (add_le_add ?_ ?_)
  · rw [norm_mul, Real.norm_of_nonneg (by positivity)]
    gcongr
  · rw [norm_mul, Real.norm_of_nonneg (by positivity), Real.norm_eq_abs]
    calc Real.exp t * |1 / (1 - k) - Real.exp k| ≤ Real.exp 1 * (2 * k ^ 2) := by gcongr
      _ = Real.exp 1 * 2 * k ^ (1 + 1) := by ring

/-- If the base scheme took the step that it is told, the same scheme would be of the second order: the hypotheses of `C126_last_node`
are met. -/
theorem growth_told (B : ℝ → ℝ → ℝ → ℝ) (r : ℕ) (hr : GuessOrder (growth B) Real.exp 1 r) :
    ∃ H C : ℝ, 0 < H ∧ ∀ h, 0 ≤ h → h ≤ H → ∀ N : ℕ, N * h ≤ 1 →
      ‖(steps (init (growth B) h) N (fresh (growth B) h, Real.exp 0)).2 - Real.exp (N * h)‖ ≤ C * h ^ min r 2 := by
  have e1 : rhs (LinearEquiv.refl ℝ ℝ) (implPart (growth B).R) = fun x => x := by
    funext x
    rw [rhs, growth_impl]; simp
  have e2 : rhs (LinearEquiv.refl ℝ ℝ) (fun x => explPart (growth B).R x + 0) = fun _ => 0 := by
    funext x
    rw [rhs, growth_expl]; simp
  have e : (fun x => rhs (LinearEquiv.refl ℝ ℝ) (implPart (growth B).R) x + rhs (LinearEquiv.refl ℝ ℝ) (fun x => explPart (growth B).R x + 0) x)
      = fun x => x := by rw [e1, e2]; simp
  have := C126_last_node (p := 2) (r := r) (c := growth B) (growth_usable B)
    ⟨by simp [withZero], fun m hm => by
      have hm : m ≤ 2 := hm
      interval_cases m <;> simp [withZero, growth] <;> norm_num, fun m hm => by
      have hm : m < 2 := hm
      interval_cases m <;> simp [withZero, growth] <;> norm_num⟩
    (fun m hm j hj => by
      have hm : m < 2 := hm
      interval_cases m <;> interval_cases j <;> simp [withZero, growth, Finset.sum_range_succ] <;> norm_num)
    (Or.inl rfl) (by simp [withZero, growth]) (L := 1) (L' := 0)
    (by rw [e1]; exact ⟨zero_le_one, fun x y => by simp⟩) (by rw [e2]; exact ⟨le_rfl, fun x y => by simp⟩)
    (by rw [e]; exact contDiff_id) (y := Real.exp) (T := 1) one_pos
    (by rw [e]; exact fun t _ => (Real.hasDerivAt_exp t).hasDerivWithinAt) hr
  rw [show min (r + (growth B).maxk - 1) 2 = min r 2 from rfl] at this
  exact this

example : ∃ H C : ℝ, 0 < H ∧ ∀ h, 0 ≤ h → h ≤ H → ∀ N : ℕ, N * h ≤ 1 →
    ‖(steps (init (growth fun _ => beStep) h) N (fresh (growth fun _ => beStep) h, Real.exp 0)).2 - Real.exp (N * h)‖ ≤ C * h ^ 2 :=
  growth_told (fun _ => beStep) 2 (GuessOrder.base 1 beStep rfl (fun _ _ _ => rfl) be_accurate)

/-- The held timestep leaves the first order: the hypotheses of `C126_last_node` with `GuessOrder.captured` are met. -/
example : ∃ H C : ℝ, 0 < H ∧ ∀ h, 0 ≤ h → h ≤ H → ∀ N : ℕ, N * h ≤ 1 →
    ‖(steps (init (growth fun a _ => beStep a) h) N (fresh (growth fun a _ => beStep a) h, Real.exp 0)).2 - Real.exp (N * h)‖ ≤ C * h ^ 1 := by
  refine growth_told (fun a _ => beStep a) 1 (GuessOrder.captured rfl ⟨1 / 2, 2 * Real.exp 1, by norm_num, by positivity,
    fun h h0 h1 a k a0 ah _ _ t t0 tT x => ?_⟩)
  have hp : 0 < 1 - a := by linarith
  have e : beStep a x - x = a / (1 - a) * x := by
    have : 1 - a ≠ 0 := hp.ne'
    rw [beStep]; field_simp; ring
  have q : a / (1 - a) ≤ 2 * h := by rw [div_le_iff₀ hp]; nlinarith
  have q0 : 0 ≤ a / (1 - a) := by positivity
  have et : Real.exp t ≤ Real.exp 1 := Real.exp_le_exp.2 (by linarith)
  have e2 : (1 : ℝ) ≤ Real.exp 1 := by have := Real.add_one_le_exp (1 : ℝ); linarith
  have nx : ‖x‖ ≤ Real.exp 1 * (1 + ‖x - Real.exp t‖) := by
    have : ‖x‖ ≤ ‖x - Real.exp t‖ + ‖Real.exp t‖ := by
      have := norm_add_le (x - Real.exp t) (Real.exp t)
      simpa using this
    rw [Real.norm_of_nonneg (Real.exp_pos t).le] at this
    have n0 := norm_nonneg (x - Real.exp t)
    nlinarith
  show ‖beStep a x - x‖ ≤ _
  rw [e, norm_mul, Real.norm_of_nonneg q0]
  calc a / (1 - a) * ‖x‖ ≤ 2 * h * (Real.exp 1 * (1 + ‖x - Real.exp t‖)) := by gcongr
    _ = 2 * Real.exp 1 * h * (1 + ‖x - Real.exp t‖) := by ring

end Gusto.Props.DeferredBaseProps
