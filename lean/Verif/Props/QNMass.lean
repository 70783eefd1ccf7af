import Verif.Props.QuasiNewton
import Mathlib.Algebra.Module.LinearMap.Defs
import Mathlib.Algebra.Order.BigOperators.Group.List
import Mathlib.LinearAlgebra.Prod
import Mathlib.Tactic.Module
import Mathlib.Tactic.Linarith

set_option autoImplicit false
set_option linter.unusedSectionVars false
set_option linter.unusedSimpArgs false

/-!
# C118: conservation of mass by the quasi-Newton timesteppers
-/

namespace Gusto.Props.QNMassProps
open Gusto QN Gusto.Props.QNProps

section
variable {ι : Type*} [DecidableEq ι] {K : Type*} [Field K] [DecidableEq K] {V : ι → Type*}
  [∀ i, AddCommGroup (V i)] [∀ i, Module K (V i)]

/-- A scheme keeps the total of field `i`. -/
def Keeps {i : ι} (mu : V i →ₗ[K] K) (s : (∀ j, V j) → ∀ j, V j) : Prop := ∀ x, mu (s x i) = mu (x i)

/-- A forcing does not act on the total of field `i`: its increment integrates to zero. -/
def NoSource {i : ι} (mu : V i →ₗ[K] K) (f : (∀ j, V j) → ∀ j, V j) : Prop := ∀ x, mu (f x i) = 0

/-- A transport scheme that names field `i` keeps its total, whatever the velocity. -/
def TransportKeeps {u i : ι} (mu : V i →ₗ[K] K) (ts : List (Transport V u)) : Prop :=
  ∀ s ∈ ts, i ∈ s.fields → ∀ vel x, mu (s.step vel x i) = mu (x i)

/-- The linear solver passes the total of the right-hand side of field `i` to the increment. -/
def SolveKeeps {i : ι} (mu : V i →ₗ[K] K) (on : Bool) (solve : (∀ j, V j) → ∀ j, V j) : Prop :=
  ∀ r, mu (solve r i) = if on then mu (r i) else 0

/-- C118: the linear system of the quasi-Newton solver passes the total of the right-hand side of a field to the increment, when
testing the mass row with a constant gives the total (`nu (mass v) = mu v`) and testing the linearised terms of that row gives
nothing, as for the divergence of a flux. -/
theorem C118_linear_solver (i : ι) (mu nu : V i →ₗ[K] K) (inSolver : ι → Bool) (mass : ∀ i, V i → V i)
    (lin linImp : ∀ i, (∀ j, V j) → V i) (tau : ι → K) (dt : K) (solve : (∀ i, V i) → ∀ i, V i)
    (hs : Solves inSolver mass lin linImp tau dt solve)
    (hm : ∀ v, nu (mass i v) = mu v) (hl : ∀ y, nu (lin i y) = 0) (hli : ∀ y, nu (linImp i y) = 0) :
    SolveKeeps mu (inSolver i) solve := by
  intro r
  have h := congrArg nu (congrFun (hs r) i)
  cases hi : inSolver i
  · simpa [linearForm, linearRhs, zeroNonPrognostics, hi, hm] using h
  · simpa [linearForm, linearRhs, zeroNonPrognostics, hi, hm, hl, hli] using h

theorem keeps_applyAll {i : ι} (mu : V i →ₗ[K] K) (ss : List ((∀ j, V j) → ∀ j, V j)) (h : ∀ s ∈ ss, Keeps mu s) :
    Keeps mu (applyAll ss) := by
  intro x
  unfold applyAll
  induction ss generalizing x with
  | nil => rfl
  | cons s ss ih =>
    rw [List.foldl_cons, ih (fun s' hs' => h s' (List.mem_cons_of_mem _ hs')), h s List.mem_cons_self]

theorem inc_zero {i : ι} (mu : V i →ₗ[K] K) (ss : List ((∀ j, V j) → ∀ j, V j)) (h : ∀ s ∈ ss, Keeps mu s) (x : ∀ j, V j) :
    mu ((ss.map fun s => s x - x).sum i) = 0 := by
  induction ss with
  | nil => simp
  | cons s ss ih =>
    rw [List.map_cons, List.sum_cons, Pi.add_apply, map_add, ih (fun s' hs' => h s' (List.mem_cons_of_mem _ hs')),
      Pi.sub_apply, map_sub, h s List.mem_cons_self]
    simp

theorem transport_total {u i : ι} (mu : V i →ₗ[K] K) (ts : List (Transport V u)) (h : TransportKeeps mu ts) (vel : V u)
    (xstar xp : ∀ j, V j) (c : K) (h1 : mu (xstar i) = c) (h2 : mu (xp i) = c) : mu (transportFields ts vel xstar xp i) = c := by
  rw [transportFields_apply]
  cases hf : ts.reverse.find? (fun s => decide (i ∈ s.fields)) with
  | none => exact h2
  | some s =>
    have hm : s ∈ ts := List.mem_reverse.1 (List.mem_of_find?_eq_some hf)
    have hi : i ∈ s.fields := by simpa using List.find?_some hf
    simp only
    rw [h s hm hi, h1]

/-- What the parts of a `SemiImplicitQuasiNewton` must do for the total of field `i` to be kept. -/
structure MassParts (m : Siqn K V) (i : ι) (mu : V i →ₗ[K] K) : Prop where
  slow : ∀ s ∈ m.slow, Keeps mu s
  fast : ∀ s ∈ m.fast, Keeps mu s
  inner : ∀ s ∈ m.inner, Keeps mu s
  final : ∀ s ∈ m.final, Keeps mu s
  forceE : NoSource mu m.forceE
  forceI : NoSource mu m.forceI
  transport : TransportKeeps mu m.transport
  solve : SolveKeeps mu (m.inSolver i) m.solve
  bcs : Keeps mu m.bcs

theorem xstar_total (m : Siqn K V) (i : ι) (mu : V i →ₗ[K] K) (h : MassParts m i mu) (xn : ∀ j, V j) :
    mu (xstarOf m xn i) = mu (xn i) := by
  rw [C22_xstar, Pi.add_apply, Pi.add_apply, map_add, map_add, Pi.smul_apply, map_smul, innerInc, inc_zero mu _ h.inner,
    h.forceE, keeps_applyAll mu _ h.slow]
  simp

theorem inner_total (m : Siqn K V) (i : ι) (mu : V i →ₗ[K] K) (h : MassParts m i mu) (hu : i ≠ m.u) (hs : m.inSolver i = true)
    (xp phys : ∀ j, V j) (k : ℕ) (x : ∀ j, V j) :
    mu (innerStep m xp phys k x i) = if k = 0 ∨ m.accelerator = false then mu (xp i) + mu (phys i) else mu (x i) := by
  rw [innerStep, Pi.add_apply, map_add, h.solve, hs, if_pos rfl]
  by_cases hk : k = 0 ∨ m.accelerator = false
  · rw [if_pos hk, xrhsOf_plain m xp phys k x hk]
    simp only [Pi.sub_apply, Pi.add_apply, Pi.smul_apply, map_sub, map_add, map_smul, innerInc, inc_zero mu _ h.inner,
      h.forceI x]
    simp
  · rw [if_neg hk]
    push Not at hk
    rw [xrhsOf_accel m xp phys k x (Nat.pos_of_ne_zero hk.1) (by simpa using hk.2), if_neg hu, Pi.smul_apply, map_smul, innerInc,
      inc_zero mu _ h.inner]
    simp

theorem inner_loop_total (m : Siqn K V) (i : ι) (mu : V i →ₗ[K] K) (h : MassParts m i mu) (hu : i ≠ m.u)
    (hs : m.inSolver i = true) (xp phys : ∀ j, V j) (n : ℕ) (x : ∀ j, V j) :
    mu ((List.range n).foldl (fun x k => innerStep m xp phys k x) x i) =
      if n = 0 then mu (x i) else mu (xp i) + mu (phys i) := by
  induction n with
  | zero => simp
  | succ n ih =>
    rw [List.range_succ, List.foldl_append, List.foldl_cons, List.foldl_nil, inner_total m i mu h hu hs, ih]
    by_cases hn : n = 0
    · simp [hn]
    · by_cases ha : m.accelerator = false <;> simp [hn, ha]

/-- Both halves of the state of the outer loop have the right total, from the first iteration on whatever the initial guess. -/
theorem outer_total (m : Siqn K V) (i : ι) (mu : V i →ₗ[K] K) (h : MassParts m i mu) (hu : i ≠ m.u)
    (xn x0 : ∀ j, V j) (n : ℕ) :
    mu (((outerStep m xn (xstarOf m xn))^[n] (xstarOf m xn, x0)).1 i) = mu (xn i) ∧
    (mu (x0 i) = mu (xn i) ∨ (0 < n ∧ (0 < m.numInner ∨ m.inSolver i = false)) →
      mu (((outerStep m xn (xstarOf m xn))^[n] (xstarOf m xn, x0)).2 i) = mu (xn i)) := by
  induction n with
  | zero =>
    refine ⟨xstar_total m i mu h xn, fun hx => ?_⟩
    rcases hx with hx | hx
    · exact hx
    · exact absurd hx.1 (lt_irrefl 0)
  | succ n ih =>
    rw [Function.iterate_succ_apply', outerStep]
    have hxp := transport_total mu m.transport h.transport
      (ubar m xn ((outerStep m xn (xstarOf m xn))^[n] (xstarOf m xn, x0)).2) _ _ _ (xstar_total m i mu h xn) ih.1
    refine ⟨hxp, fun hx => ?_⟩
    simp only
    rw [h.bcs, copyTracers]
    cases hi : m.inSolver i
    · simp only [Bool.not_false, if_true]
      rw [keeps_applyAll mu _ h.fast, hxp]
    · simp only [Bool.not_true, Bool.false_eq_true, if_false]
      rw [inner_loop_total m i mu h hu hi]
      by_cases hn : m.numInner = 0
      · rw [if_pos hn]
        apply ih.2
        rcases hx with hx | hx
        · exact Or.inl hx
        · rcases hx.2 with h0 | h0
          · omega
          · rw [hi] at h0; cases h0
      · rw [if_neg hn, Pi.sub_apply, map_sub, keeps_applyAll mu _ h.fast, hxp]
        ring

/-- C118: one timestep of `SemiImplicitQuasiNewton` keeps the total of every field other than the wind, whatever the numbers of
outer and inner iterations, with or without the accelerator, when transport, physics, forcing and boundary conditions do; no
convergence of the iterations is needed. -/
theorem C118_siqn (m : Siqn K V) (i : ι) (mu : V i →ₗ[K] K) (h : MassParts m i mu) (hu : i ≠ m.u) (xn x0 : ∀ j, V j)
    (hx : mu (x0 i) = mu (xn i)) : mu (timestep m xn x0 i) = mu (xn i) := by
  rw [timestep, keeps_applyAll mu _ h.final]
  exact (outer_total m i mu h hu xn x0 m.numOuter).2 (Or.inl hx)

/-- C118: with at least one outer and one inner iteration the initial guess does not matter at all. -/
theorem C118_siqn_any_guess (m : Siqn K V) (i : ι) (mu : V i →ₗ[K] K) (h : MassParts m i mu) (hu : i ≠ m.u)
    (hn : 0 < m.numOuter) (hk : 0 < m.numInner) (xn x0 : ∀ j, V j) : mu (timestep m xn x0 i) = mu (xn i) := by
  rw [timestep, keeps_applyAll mu _ h.final]
  exact (outer_total m i mu h hu xn x0 m.numOuter).2 (Or.inr ⟨hn, Or.inl hk⟩)

/-- A run of the timestepper: every step starts from the previous result, which is also the initial guess. -/
def siqnRun (m : Siqn K V) (n : ℕ) (x : ∀ j, V j) : ∀ j, V j := (fun x => timestep m x x)^[n] x

/-- C118: no run of any length changes the total. -/
theorem C118_siqn_run (m : Siqn K V) (i : ι) (mu : V i →ₗ[K] K) (h : MassParts m i mu) (hu : i ≠ m.u) (n : ℕ)
    (x : ∀ j, V j) : mu (siqnRun m n x i) = mu (x i) := by
  induction n with
  | zero => rfl
  | succ n ih => rw [siqnRun, Function.iterate_succ_apply', C118_siqn m i mu h hu _ _ rfl]; exact ih

/-- C118: sources are budgeted exactly.  With fast and final physics that may change the total, and no other source, the change of
the total over a timestep is what the final schemes and the last evaluation of the fast schemes added. -/
theorem C118_siqn_budget (m : Siqn K V) (i : ι) (mu : V i →ₗ[K] K) (hu : i ≠ m.u)
    (h : MassParts { m with fast := [], final := [] } i mu)
    (hn : 0 < m.numOuter) (hk : 0 < m.numInner) (xn x0 : ∀ j, V j) :
    ∃ xp : ∀ j, V j, mu (xp i) = mu (xn i) ∧
      mu (timestep m xn x0 i) = mu (xn i) + (mu (applyAll m.fast xp i) - mu (xp i)) +
        (mu (timestep m xn x0 i) - mu ((outerLoop m xn x0).2 i)) ∧
      mu ((outerLoop m xn x0).2 i) = mu (applyAll m.fast xp i) := by
  obtain ⟨n, hn'⟩ := Nat.exists_eq_add_of_lt hn
  have hstar : mu (xstarOf m xn i) = mu (xn i) := xstar_total { m with fast := [], final := [] } i mu h xn
  have hall : ∀ n, mu (((outerStep m xn (xstarOf m xn))^[n] (xstarOf m xn, x0)).1 i) = mu (xn i) := by
    intro n
    induction n with
    | zero => exact hstar
    | succ n ih =>
      rw [Function.iterate_succ_apply', outerStep]
      exact transport_total mu m.transport h.transport _ _ _ _ hstar ih
  have key : mu ((outerLoop m xn x0).2 i) =
      mu (applyAll m.fast ((outerStep m xn (xstarOf m xn))^[m.numOuter] (xstarOf m xn, x0)).1 i) := by
    have hno : m.numOuter = n + 1 := by omega
    rw [outerLoop, hno, Function.iterate_succ_apply']
    generalize (outerStep m xn (xstarOf m xn))^[n] (xstarOf m xn, x0) = s
    rw [outerStep]
    simp only
    rw [h.bcs, copyTracers]
    cases hi : m.inSolver i
    · simp
    · simp only [Bool.not_true, Bool.false_eq_true, if_false]
      have := inner_loop_total { m with fast := [], final := [] } i mu h hu hi
        (transportFields m.transport (ubar m xn s.2) (xstarOf m xn) s.1)
        (applyAll m.fast (transportFields m.transport (ubar m xn s.2) (xstarOf m xn) s.1) -
          transportFields m.transport (ubar m xn s.2) (xstarOf m xn) s.1) m.numInner s.2
      rw [if_neg hk.ne'] at this
      refine Eq.trans this ?_
      rw [Pi.sub_apply, map_sub]
      ring
  refine ⟨_, hall m.numOuter, ?_, key⟩
  rw [hall, key]
  ring

/-! ### TR-BDF2 -/

/-- What the parts of a `TRBDF2QuasiNewton` must do for the total of field `i` to be kept. -/
structure TrMassParts (m : TrBdf2 K V) (i : ι) (mu : V i →ₗ[K] K) (on : Bool) : Prop where
  slow : ∀ s ∈ m.slow, Keeps mu s
  final : ∀ s ∈ m.final, Keeps mu s
  trE : NoSource mu m.trE
  trI : NoSource mu m.trI
  bdfI : NoSource mu m.bdfI
  transport : TransportKeeps mu m.transport
  trSolve : SolveKeeps mu on m.trSolve
  bdfSolve : SolveKeeps mu on m.bdfSolve
  bcs : Keeps mu m.bcs

theorem trInner_total (u i : ι) (hu : i ≠ u) (mu : V i →ₗ[K] K) (on : Bool) (force solve : (∀ j, V j) → ∀ j, V j)
    (hf : NoSource mu force) (hs : SolveKeeps mu on solve) (xp : ∀ j, V j) (k : ℕ) (x : ∀ j, V j) (c : K)
    (hp : mu (xp i) = c) (hx : mu (x i) = c) : mu (trInner u force solve xp k x i) = c := by
  rw [trInner]
  rw [Pi.add_apply, map_add, hs, hx]
  cases on
  · simp
  · rw [if_pos rfl, Pi.sub_apply, map_sub, hx]
    by_cases hk : k > 0
    · simp [hk, hu, hx]
    · simp [hk, hp, hf x]

theorem trLoop_total (u i : ι) (hu : i ≠ u) (mu : V i →ₗ[K] K) (on : Bool) (force solve : (∀ j, V j) → ∀ j, V j)
    (hf : NoSource mu force) (hs : SolveKeeps mu on solve) (xp : ∀ j, V j) (l : List ℕ) (x : ∀ j, V j) (c : K)
    (hp : mu (xp i) = c) (hx : mu (x i) = c) : mu (l.foldl (fun x k => trInner u force solve xp k x) x i) = c := by
  induction l generalizing x with
  | nil => exact hx
  | cons k l ih => exact ih _ (trInner_total u i hu mu on force solve hf hs xp k x c hp hx)

theorem trStage_total (m : TrBdf2 K V) (i : ι) (mu : V i →ₗ[K] K) (on : Bool) (h : TrMassParts m i mu on) (hu : i ≠ m.u)
    (xn : ∀ j, V j) : mu (trStage m xn i) = mu (xn i) := by
  have hstar : mu ((applyAll m.slow xn + m.trE xn) i) = mu (xn i) := by
    rw [Pi.add_apply, map_add, keeps_applyAll mu _ h.slow, h.trE, add_zero]
  have : ∀ n, mu (((trOuter m xn (applyAll m.slow xn + m.trE xn))^[n] (applyAll m.slow xn + m.trE xn, xn)).1 i) = mu (xn i) ∧
      mu (((trOuter m xn (applyAll m.slow xn + m.trE xn))^[n] (applyAll m.slow xn + m.trE xn, xn)).2 i) = mu (xn i) := by
    intro n
    induction n with
    | zero => exact ⟨hstar, rfl⟩
    | succ n ih =>
      rw [Function.iterate_succ_apply', trOuter]
      have hxp := transport_total mu m.transport h.transport
        (trUbar (xn m.u) (((trOuter m xn (applyAll m.slow xn + m.trE xn))^[n]
          (applyAll m.slow xn + m.trE xn, xn)).2 m.u) (2 * m.gamma)) _ _ _ hstar ih.1
      refine ⟨hxp, ?_⟩
      simp only
      rw [h.bcs, copyTracers]
      split_ifs
      · exact hxp
      · exact trLoop_total _ i hu mu on _ _ h.trI h.trSolve _ _ _ _ hxp ih.2
  exact (this m.nOuterTr).2

/-- C118: one timestep of `TRBDF2QuasiNewton` keeps the total of every field other than the wind, for every `gamma` and all numbers of
iterations of the two stages. -/
theorem C118_tr_bdf2 (m : TrBdf2 K V) (i : ι) (mu : V i →ₗ[K] K) (on : Bool) (h : TrMassParts m i mu on) (hu : i ≠ m.u)
    (xn : ∀ j, V j) : mu (trBdf2Step m xn i) = mu (xn i) := by
  rw [trBdf2Step, keeps_applyAll mu _ h.final, bdfStage]
  have hm := trStage_total m i mu on h hu xn
  generalize trStage m xn = xm at *
  have : ∀ n, mu (((bdfOuter m xn xm)^[n] ⟨xn, xm, xn⟩).xp i) = mu (xn i) ∧
      mu (((bdfOuter m xn xm)^[n] ⟨xn, xm, xn⟩).xpm i) = mu (xn i) ∧
      mu (((bdfOuter m xn xm)^[n] ⟨xn, xm, xn⟩).x i) = mu (xn i) := by
    intro n
    induction n with
    | zero => exact ⟨rfl, hm, rfl⟩
    | succ n ih =>
      rw [Function.iterate_succ_apply']
      generalize (bdfOuter m xn xm)^[n] ⟨xn, xm, xn⟩ = s at *
      obtain ⟨i1, i2, i3⟩ := ih
      have hpm := transport_total mu m.transport h.transport (trUbar (s.x m.u) (s.x m.u) (1 - 2 * m.gamma)) xm s.xpm _ hm i2
      have hp := transport_total mu m.transport h.transport (trUbar (s.x m.u) (s.x m.u) (1 : K)) xn s.xp _ rfl i1
      have hmix : mu (((1 - gamma3 m.gamma) • transportFields m.transport (trUbar (s.x m.u) (s.x m.u) (1 : K)) xn s.xp +
          gamma3 m.gamma • transportFields m.transport (trUbar (s.x m.u) (s.x m.u) (1 - 2 * m.gamma)) xm s.xpm) i) =
          mu (xn i) := by
        rw [Pi.add_apply, map_add, Pi.smul_apply, Pi.smul_apply, map_smul, map_smul, hp, hpm, smul_eq_mul, smul_eq_mul]
        ring
      rw [bdfOuter]
      refine ⟨hmix, hpm, ?_⟩
      simp only
      rw [h.bcs, copyTracers]
      split_ifs
      · exact hmix
      · exact trLoop_total _ i hu mu on _ _ h.bdfI h.bdfSolve _ _ _ _ hmix i3
  exact (this m.nOuterBdf).2.2

/-- C118: no run of `TRBDF2QuasiNewton` changes the total. -/
theorem C118_tr_bdf2_run (m : TrBdf2 K V) (i : ι) (mu : V i →ₗ[K] K) (on : Bool) (h : TrMassParts m i mu on) (hu : i ≠ m.u)
    (n : ℕ) (x : ∀ j, V j) : mu ((trBdf2Step m)^[n] x i) = mu (x i) := by
  induction n with
  | zero => rfl
  | succ n ih => rw [Function.iterate_succ_apply', C118_tr_bdf2 m i mu on h hu]; exact ih

end

/-! ### A two-cell channel: every hypothesis is met by a non-trivial model -/
section channel

/-- The state: two velocities (index 0) and two depths (index 1) on a periodic channel of two cells. -/
abbrev Chan : Fin 2 → Type := fun _ => ℚ × ℚ

/-- The solution of the coupled wave system `du - s(d) = r`, `dd + w(u) = q` with `s` and `w` differences across the cells. -/
def chanSolve (r : ∀ i, Chan i) : ∀ i, Chan i := fun i =>
  let w := (((r 0).1 - (r 0).2) + 2 * ((r 1).1 - (r 1).2)) / 5
  let s := ((r 1).1 - (r 1).2) - 2 * w
  if i = 0 then ((r 0).1 + s, (r 0).2 - s) else ((r 1).1 - w, (r 1).2 + w)

/-- The linearised terms: pressure gradient and divergence. -/
def chanLin (i : Fin 2) (y : ∀ i, Chan i) : Chan i :=
  if i = 0 then (-((y 1).1 - (y 1).2), (y 1).1 - (y 1).2) else ((y 0).1 - (y 0).2, (y 0).2 - (y 0).1)

/-- A shallow-water-like model: depth transported by a flux through the faces, wind forced by the pressure gradient, rain exchanged
between the cells by fast physics. -/
def chan (nOuter nInner : ℕ) (acc : Bool) : Siqn ℚ Chan where
  u := 0
  inSolver := fun _ => true
  numOuter := nOuter
  numInner := nInner
  accelerator := acc
  alphaU := 1 / 2
  beta := 1 / 2
  slow := []
  fast := [fun x i => if i = 0 then x 0 else ((x 1).2, (x 1).1)]
  inner := [fun x i => if i = 0 then x 0 else ((x 1).1 + (x 1).2, 0)]
  final := []
  forceE := fun x i => if i = 0 then chanLin 0 x else 0
  forceI := fun x i => if i = 0 then chanLin 0 x else 0
  transport := [⟨[1], fun vel x _ => ((x 1).1 - vel.1 * (x 1).1 + vel.2 * (x 1).2, (x 1).2 + vel.1 * (x 1).1 - vel.2 * (x 1).2)⟩]
  solve := chanSolve
  bcs := fun x i => if i = 0 then 0 else x i

/-- The total depth. -/
def chanMass : Chan 1 →ₗ[ℚ] ℚ := LinearMap.fst ℚ ℚ ℚ + LinearMap.snd ℚ ℚ ℚ

theorem chan_solves : Solves (V := Chan) (fun _ => true) (fun _ v => v) chanLin (fun _ _ => 0) (fun _ => (1 : ℚ)) 1 chanSolve := by
  intro r
  funext i
  fin_cases i <;>
  · simp only [linearForm, linearRhs, zeroNonPrognostics, chanSolve, chanLin, if_true, one_mul, one_smul, smul_zero, add_zero,
      Fin.isValue, Fin.zero_eta, Fin.mk_one, one_ne_zero, if_false]
    ext <;> simp <;> ring

theorem chan_parts (nOuter nInner : ℕ) (acc : Bool) : MassParts (chan nOuter nInner acc) 1 chanMass where
  slow := by simp [chan]
  fast := by
    intro s hs
    simp only [chan, List.mem_singleton] at hs
    subst hs
    intro x; simp [chanMass, add_comm]
  inner := by
    intro s hs
    simp only [chan, List.mem_singleton] at hs
    subst hs
    intro x; simp [chanMass]
  final := by simp [chan]
  forceE := by intro x; simp [chan]
  forceI := by intro x; simp [chan]
  transport := by
    intro s hs _ vel x
    have hs' := List.mem_singleton.1 hs
    subst hs'
    simp [chanMass]
  solve := by
    apply C118_linear_solver 1 chanMass chanMass (fun _ => true) (fun _ v => v) chanLin (fun _ _ => 0) (fun _ => (1 : ℚ)) 1
      chanSolve chan_solves
    · intro v; rfl
    · intro y; simp [chanMass, chanLin]
    · intro y; simp
  bcs := by intro x; simp [chan]

/-- The total depth of the channel is kept by every run, although the depths themselves change. -/
example (nOuter nInner n : ℕ) (acc : Bool) (x : ∀ i, Chan i) :
    chanMass (siqnRun (chan nOuter nInner acc) n x 1) = chanMass (x 1) :=
  C118_siqn_run _ 1 chanMass (chan_parts nOuter nInner acc) (by simp [chan]) n x

example : siqnRun (chan 2 2 true) 1 (fun i => if i = 0 then (1, 2) else (3, 5)) 1 ≠ ((3 : ℚ), (5 : ℚ)) := by
  decide +kernel

/-- The same channel under TR-BDF2. -/
def chanTr (g : ℚ) (a b c d : ℕ) : TrBdf2 ℚ Chan where
  gamma := g
  u := 0
  copied := fun _ => false
  nOuterTr := a
  nInnerTr := b
  nOuterBdf := c
  nInnerBdf := d
  slow := []
  final := []
  trE := (chan 1 1 true).forceE
  trI := (chan 1 1 true).forceI
  bdfI := (chan 1 1 true).forceI
  transport := (chan 1 1 true).transport
  trSolve := chanSolve
  bdfSolve := chanSolve
  bcs := (chan 1 1 true).bcs

example (g : ℚ) (a b c d n : ℕ) (x : ∀ i, Chan i) :
    chanMass ((trBdf2Step (chanTr g a b c d))^[n] x 1) = chanMass (x 1) :=
  have h := chan_parts 1 1 true
  C118_tr_bdf2_run (chanTr g a b c d) 1 chanMass true
    ⟨by simp [chanTr], by simp [chanTr], h.forceE, h.forceI, h.forceI, h.transport, h.solve, h.solve, h.bcs⟩ (by simp [chanTr]) n x

end channel

end Gusto.Props.QNMassProps
