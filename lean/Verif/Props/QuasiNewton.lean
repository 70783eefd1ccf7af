import Verif.Model.QuasiNewton
import Verif.Lemmas.FML
import Mathlib.Tactic.Module
import Mathlib.Tactic.Linarith
import Mathlib.Tactic.LinearCombination
import Mathlib.Tactic.FieldSimp
import Mathlib.Data.Rat.Init
import Mathlib.Algebra.Order.Ring.Rat
import Mathlib.Order.Fin.Basic

set_option autoImplicit false
set_option linter.unusedSectionVars false
set_option linter.unusedSimpArgs false

/-!
# C22, C23, C64-C66: the quasi-Newton timesteppers
-/

namespace Gusto.Props
open Gusto

namespace QNProps
open QN LForm

/-! ### Forcing -/
section forcing
variable {K X D : Type*} [Field K] [AddCommGroup D] [Module K D]

/-- A term that is treated by transport, diffusion or physics schemes instead. -/
def Elsewhere (t : Term X D) : Prop :=
  Label.transport ∈ t.labels ∨ Label.diffusion ∈ t.labels ∨ t.physIdx.isSome = true

/-- A term that is always implicit. -/
def AlwaysImplicit (t : Term X D) : Prop :=
  Label.named "incompressible" ∈ t.labels ∨ Label.named "sponge" ∈ t.labels

/-- Hydrostatic terms. -/
def Hydro (t : Term X D) : Prop := Label.named "hydrostatic" ∈ t.labels

instance (t : Term X D) : Decidable (Elsewhere t) := by unfold Elsewhere; infer_instance
instance (t : Term X D) : Decidable (AlwaysImplicit t) := by unfold AlwaysImplicit; infer_instance
instance (t : Term X D) : Decidable (Hydro t) := by unfold Hydro; infer_instance

/-- The off-centred forcing `F(x)`. -/
def ordinary (R : LForm X D) (x : X) : D :=
  Spec.part (fun t => ¬ Elsewhere t ∧ Label.timeDerivative ∉ t.labels ∧ ¬ Hydro t ∧
    ¬ AlwaysImplicit t) R x
/-- The always implicit forcing `G(x)`. -/
def always (R : LForm X D) (x : X) : D :=
  Spec.part (fun t => ¬ Elsewhere t ∧ AlwaysImplicit t) R x
/-- The hydrostatic part `H(x)`. -/
def hydro (R : LForm X D) (x : X) : D := Spec.part (fun t => ¬ Elsewhere t ∧ Hydro t) R x

theorem eval_forcing_map (R : LForm X D) (p : Term X D → Bool)
    (P : Term X D → Prop) [DecidablePred P] (x : X) (hp : ∀ t, p t = true ↔ P t) :
    eval ((forcingResidual R).labelMap p (replaceSubject x) drop) =
      Spec.part (fun t => ¬ Elsewhere t ∧ P t) R x ∧
    eval ((forcingResidual R).labelMap p drop (replaceSubject x)) =
      Spec.part (fun t => ¬ Elsewhere t ∧ ¬ P t) R x := by
  have hE : ∀ t : Term X D, isNotForcing t = true ↔ Elsewhere t := by
    intro t; simp [isNotForcing, Elsewhere, Term.has, or_assoc]
  induction R with
  | nil => exact ⟨rfl, rfl⟩
  | cons t R ih =>
    have hcons : forcingResidual (t :: R) =
        (if isNotForcing t then [] else [t]) ++ forcingResidual R := by
      simp [forcingResidual, labelMap_cons, LForm.drop, LForm.keep]
    have hpart : ∀ (Q : Term X D → Prop) [DecidablePred Q], Spec.part Q (t :: R) x =
        (if Q t then t.op x else 0) + Spec.part Q R x := by
      intro Q _
      by_cases h : Q t <;> simp [Spec.part, h]
    rw [hcons, labelMap_append, labelMap_append, eval_append, eval_append, hpart, hpart,
      ih.1, ih.2]
    by_cases h : isNotForcing t = true
    · have h' := (hE t).1 h
      simp [h, h', labelMap_nil]
    · have h' : ¬ Elsewhere t := fun h'' => h ((hE t).2 h'')
      by_cases hP : P t
      · have := (hp t).2 hP
        simp [h, h', hP, this, labelMap_cons, labelMap_nil, replaceSubject, LForm.drop, Term.eval]
      · have : p t = false := by
          rw [← Bool.not_eq_true]; exact fun h'' => hP ((hp t).1 h'')
        simp [h, h', hP, this, labelMap_cons, labelMap_nil, replaceSubject, LForm.drop, Term.eval]

/-- C22: the explicit forcing is `-(1-alpha) dt F(x_n) (+ H)`, the implicit one
`-alpha dt F(x) - dt G(x) (- H)`: the two weights of every off-centred term add up to one
timestep and every always-implicit term gets a whole implicit timestep, for every labelled
residual. -/
theorem C22_forcing (R : LForm X D) (alpha dt : K) (x : X) :
    eval (lExplicit R alpha dt x) = -((1 - alpha) * dt) • ordinary R x + hydro R x ∧
    eval (lImplicit R alpha dt x) =
      -(alpha * dt) • ordinary R x - dt • always R x - hydro R x := by
  have hI : ∀ t : Term X D, isImplicitTerm t = true ↔ AlwaysImplicit t := by
    intro t
    unfold isImplicitTerm AlwaysImplicit Term.has
    rw [Bool.or_eq_true, decide_eq_true_iff, decide_eq_true_iff]; rfl
  have hH : ∀ t : Term X D, t.has hydrostatic = true ↔ Hydro t := by
    intro t
    unfold Hydro Term.has
    rw [decide_eq_true_iff]; rfl
  have hX : ∀ t : Term X D, isExcluded t = true ↔
      (Label.timeDerivative ∈ t.labels ∨ Hydro t ∨ AlwaysImplicit t) := by
    intro t; simp only [isExcluded, Bool.or_eq_true, hI, hH, or_assoc]; simp [Term.has]
  have e1 : eval ((forcingResidual R).labelMap isExcluded drop (replaceSubject x)) =
      ordinary R x := by
    rw [(eval_forcing_map R isExcluded _ x hX).2]
    simp only [ordinary, not_or]
  have e2 := (eval_forcing_map R isImplicitTerm _ x hI).1
  have e3 := (eval_forcing_map R (fun t => t.has hydrostatic) _ x hH).1
  have e4 : ((forcingResidual R).any fun t => t.has hydrostatic) = false → hydro R x = 0 := by
    intro h
    rw [hydro, ← e3, eval_labelMap]
    rw [List.any_eq_false] at h
    have : ∀ t ∈ forcingResidual R,
        (if t.has hydrostatic = true then eval (replaceSubject x t) else eval (drop t)) = 0 := by
      intro t ht; simp [h t ht, LForm.drop]
    rw [List.map_congr_left this]; simp
  change _ ∧ _
  rw [lExplicit, lImplicit]
  have hn : ∀ v : D, (-(1 - alpha) * dt) • v = -((1 - alpha) * dt) • v := by
    intro v; rw [neg_mul]
  have hn' : ∀ v : D, (-alpha * dt) • v = -(alpha * dt) • v := by
    intro v; rw [neg_mul]
  cases h : (forcingResidual R).any fun t => t.has hydrostatic
  · simp only [h, Bool.false_eq_true, if_false, eval_smul, eval_sub, e1, e2, hn, hn']
    rw [e4 h]
    refine ⟨by abel, by rw [always]; abel⟩
  · simp only [h, if_true, eval_smul, eval_sub, eval_add, e1, e2, e3, hn, hn']
    refine ⟨rfl, rfl⟩

/-- A residual with a mass term, an ordinary term, a sponge and a transport term. -/
example : let R : LForm ℚ ℚ :=
    [⟨[.timeDerivative], id, 0, []⟩, ⟨[.named "coriolis"], fun x => 2 * x, 0, []⟩,
     ⟨[.named "sponge"], fun x => 3 * x, 0, []⟩, ⟨[.transport], fun x => 5 * x, 0, []⟩]
    eval (lImplicit R (1 / 2 : ℚ) 10 1) = -40 := by decide +kernel

end forcing

/-! ### The linear solver -/
section linear
variable {ι : Type*} [DecidableEq ι] {K : Type*} [Field K] {V : ι → Type*}
  [∀ i, AddCommGroup (V i)] [∀ i, Module K (V i)]

/-- `solve` solves the linear system assembled by the solver object. -/
def Solves (inSolver : ι → Bool) (mass : ∀ i, V i → V i) (lin linImp : ∀ i, (∀ j, V j) → V i)
    (tau : ι → K) (dt : K) (solve : (∀ i, V i) → ∀ i, V i) : Prop :=
  ∀ r, linearForm inSolver mass lin linImp tau dt (solve r) = linearRhs inSolver mass r

/-- The consequence used below: non-solver fields get no increment, and the increment is zero
exactly when the residual of the solver fields is zero. -/
def GoodSolve (inSolver : ι → Bool) (solve : (∀ i, V i) → ∀ i, V i) : Prop :=
  (∀ r i, inSolver i = false → solve r i = 0) ∧
  (∀ r, solve r = 0 ↔ ∀ i, inSolver i = true → r i = 0)

/-- C22: the linear system of the quasi-Newton solver leaves every field that is not a solver
prognostic alone, and its increment vanishes exactly when the residual vanishes in the solver
prognostics (mass and linearised operators injective and zero at zero, as for bilinear forms). -/
theorem C22_linear_solve (inSolver : ι → Bool) (mass : ∀ i, V i → V i)
    (lin linImp : ∀ i, (∀ j, V j) → V i) (tau : ι → K) (dt : K)
    (solve : (∀ i, V i) → ∀ i, V i)
    (hs : Solves inSolver mass lin linImp tau dt solve)
    (hm : ∀ i v, mass i v = 0 ↔ v = 0)
    (hl : ∀ i, lin i 0 = 0) (hli : ∀ i, linImp i 0 = 0)
    (hinj : ∀ dy, linearForm inSolver mass lin linImp tau dt dy = 0 → dy = 0) :
    GoodSolve inSolver solve := by
  refine ⟨fun r i hi => ?_, fun r => ⟨fun h i hi => ?_, fun h => ?_⟩⟩
  · have := congrFun (hs r) i
    simp only [linearForm, linearRhs, zeroNonPrognostics, hi, Bool.false_eq_true, if_false] at this
    rw [(hm i 0).2 rfl] at this
    exact (hm i _).1 this
  · have := congrFun (hs r) i
    rw [h] at this
    simp only [linearForm, linearRhs, zeroNonPrognostics, hi, if_true, Pi.zero_apply, hl, hli,
      smul_zero, add_zero, (hm i 0).2 rfl] at this
    exact (hm i _).1 this.symm
  · apply hinj
    rw [hs r]
    funext i
    cases hi : inSolver i
    · simp [linearRhs, zeroNonPrognostics, hi, (hm i 0).2 rfl]
    · simp [linearRhs, zeroNonPrognostics, hi, h i hi, (hm i 0).2 rfl]

end linear

/-! ### The semi-implicit quasi-Newton loop -/
section siqn
variable {ι : Type*} [DecidableEq ι] {K : Type*} [Field K] [DecidableEq K] {V : ι → Type*}
  [∀ i, AddCommGroup (V i)] [∀ i, Module K (V i)]

/-- Total increment of the inner physics schemes evaluated at `x`. -/
def innerInc (m : Siqn K V) (x : ∀ i, V i) : ∀ i, V i := (m.inner.map fun s => s x - x).sum

theorem foldl_inner (ss : List ((∀ i, V i) → ∀ i, V i)) (c : K) (x r : ∀ i, V i) :
    ss.foldl (fun r s => r + c • (s x - x)) r = r + c • (ss.map fun s => s x - x).sum := by
  induction ss generalizing r with
  | nil => simp
  | cons s ss ih => rw [List.foldl_cons, ih]; simp [smul_add, add_assoc]

/-- C22: `xstar` is slow physics plus explicit forcing plus `(1-beta)` times the explicit inner
physics. -/
theorem C22_xstar (m : Siqn K V) (xn : ∀ i, V i) :
    xstarOf m xn = applyAll m.slow xn + m.forceE xn + (1 - m.beta) • innerInc m xn := by
  unfold xstarOf innerInc
  by_cases h : m.beta - 1 = 0
  · have : (1 : K) - m.beta = 0 := by linear_combination -h
    simp [h, this]
  · simp only [ne_eq, h, not_false_eq_true, if_true]
    exact foldl_inner _ _ _ _

theorem xrhsOf_plain (m : Siqn K V) (xp phys : ∀ i, V i) (k : ℕ) (x : ∀ i, V i)
    (hk : k = 0 ∨ m.accelerator = false) :
    xrhsOf m xp phys k x = xp + m.forceI x + phys + m.beta • innerInc m x - x := by
  have hk' : ¬ (k > 0 ∧ m.accelerator = true) := by
    rintro ⟨h1, h2⟩; rcases hk with h | h
    · omega
    · rw [h] at h2; cases h2
  unfold xrhsOf innerInc
  by_cases h : m.beta = 0
  · simp [h, hk']
  · simp only [ne_eq, h, not_false_eq_true, if_true, hk', if_false]
    rw [foldl_inner]

theorem xrhsOf_accel (m : Siqn K V) (xp phys : ∀ i, V i) (k : ℕ) (x : ∀ i, V i)
    (hk : k > 0) (ha : m.accelerator = true) (i : ι) :
    xrhsOf m xp phys k x i =
      if i = m.u then (xp + m.forceI x + phys + m.beta • innerInc m x - x) i
      else (m.beta • innerInc m x) i := by
  unfold xrhsOf innerInc
  by_cases h : m.beta = 0
  · by_cases hi : i = m.u <;> simp [h, hk, ha, hi]
  · simp only [ne_eq, h, not_false_eq_true, if_true, hk, ha, and_self]
    rw [foldl_inner]
    by_cases hi : i = m.u <;> simp [hi]

/-- C22: an inner iteration changes only the solver prognostics. -/
theorem C22_nonsolver_untouched (m : Siqn K V) (hg : GoodSolve m.inSolver m.solve)
    (xp phys : ∀ i, V i) (k : ℕ) (x : ∀ i, V i) (i : ι) (hi : m.inSolver i = false) :
    innerStep m xp phys k x i = x i := by
  simp [innerStep, hg.1 _ i hi]

/-- C22: an (unaccelerated) inner iteration leaves the state unchanged if and only if every
solver prognostic satisfies
`x = xp + implicit forcing(x) + fast physics increment + beta * inner physics increment(x)`. -/
theorem C22_inner_fixed_iff (m : Siqn K V) (hg : GoodSolve m.inSolver m.solve)
    (xp phys : ∀ i, V i) (k : ℕ) (x : ∀ i, V i) (hk : k = 0 ∨ m.accelerator = false) :
    innerStep m xp phys k x = x ↔ ∀ i, m.inSolver i = true →
      x i = xp i + m.forceI x i + phys i + m.beta • innerInc m x i := by
  rw [innerStep, add_eq_left, hg.2, xrhsOf_plain m xp phys k x hk]
  refine forall_congr' fun i => imp_congr_right fun _ => ?_
  simp only [Pi.sub_apply, Pi.add_apply, Pi.smul_apply, sub_eq_zero]
  exact eq_comm

/-- C22: an accelerated inner iteration (`inner > 0`, the default) is stationary if and only if
the wind equation holds and the inner physics increment of every other solver prognostic is
zero: it does not test the other equations at all. -/
theorem C22_accelerated_fixed_iff (m : Siqn K V) (hg : GoodSolve m.inSolver m.solve)
    (xp phys : ∀ i, V i) (k : ℕ) (x : ∀ i, V i) (hk : k > 0) (ha : m.accelerator = true) :
    innerStep m xp phys k x = x ↔
      (m.inSolver m.u = true →
        x m.u = xp m.u + m.forceI x m.u + phys m.u + m.beta • innerInc m x m.u) ∧
      (∀ i, m.inSolver i = true → i ≠ m.u → m.beta • innerInc m x i = 0) := by
  rw [innerStep, add_eq_left, hg.2]
  constructor
  · intro h
    refine ⟨fun hu => ?_, fun i hi hne => ?_⟩
    · have := h m.u hu
      rw [xrhsOf_accel m xp phys k x hk ha, if_pos rfl] at this
      simp only [Pi.sub_apply, Pi.add_apply, Pi.smul_apply, sub_eq_zero] at this
      exact this.symm
    · have := h i hi
      rw [xrhsOf_accel m xp phys k x hk ha, if_neg hne] at this
      exact this
  · rintro ⟨h1, h2⟩ i hi
    rw [xrhsOf_accel m xp phys k x hk ha]
    by_cases hne : i = m.u
    · subst hne
      rw [if_pos rfl]
      simp only [Pi.sub_apply, Pi.add_apply, Pi.smul_apply, sub_eq_zero]
      exact (h1 hi).symm
    · rw [if_neg hne]; exact h2 i hi hne

/-- Specification: the transported state.  Field `i` is advanced by the last scheme that names
it, from `xstar` with velocity `vel`; fields without a scheme keep `xstar`. -/
def transported {u : ι} (ts : List (Transport V u)) (vel : V u) (xstar : ∀ i, V i) : ∀ i, V i :=
  fun i => match ts.reverse.find? (fun s => decide (i ∈ s.fields)) with
    | some s => s.step vel xstar i
    | none => xstar i

theorem transportFields_apply {u : ι} (ts : List (Transport V u)) (vel : V u)
    (xstar xp : ∀ i, V i) (i : ι) :
    transportFields ts vel xstar xp i =
      match ts.reverse.find? (fun s => decide (i ∈ s.fields)) with
      | some s => s.step vel xstar i
      | none => xp i := by
  induction ts generalizing xp with
  | nil => rfl
  | cons s ts ih =>
    rw [transportFields, List.foldl_cons]
    have := ih (fun i => if i ∈ s.fields then s.step vel xstar i else xp i)
    rw [transportFields] at this
    rw [this, List.reverse_cons, List.find?_append]
    cases ts.reverse.find? (fun s => decide (i ∈ s.fields)) with
    | some s' => rfl
    | none =>
      by_cases hi : i ∈ s.fields <;> simp [hi]

theorem transportFields_eq {u : ι} (ts : List (Transport V u)) (vel : V u)
    (xstar xp : ∀ i, V i)
    (h : ∀ i, (∀ s ∈ ts, i ∉ s.fields) → xp i = xstar i) :
    transportFields ts vel xstar xp = transported ts vel xstar := by
  funext i
  rw [transportFields_apply, transported]
  cases hf : ts.reverse.find? (fun s => decide (i ∈ s.fields)) with
  | some s => rfl
  | none =>
    simp only
    apply h
    intro s hs
    have := List.find?_eq_none.1 hf s (List.mem_reverse.2 hs)
    simpa using this

/-- Specification: `x` solves the time-discrete equations of the timestepper.  With `xstar` the
explicit part and `xp` its transport by the off-centred velocity,
solver prognostics satisfy the implicit equation, the others equal the transported and
fast-physics value, and the boundary conditions hold. -/
structure IsSolution (m : Siqn K V) (xn x : ∀ i, V i) : Prop where
  eqn : ∀ i, m.inSolver i = true →
    let xp := transported m.transport (xn m.u + m.alphaU • (x m.u - xn m.u)) (xstarOf m xn)
    x i = applyAll m.fast xp i + m.forceI x i + m.beta • innerInc m x i
  other : ∀ i, m.inSolver i = false →
    let xp := transported m.transport (xn m.u + m.alphaU • (x m.u - xn m.u)) (xstarOf m xn)
    x i = applyAll m.fast xp i
  bc : m.bcs x = x

/-- C22: `xp` in every outer iteration is the transport of `xstar`. -/
theorem xp_invariant (m : Siqn K V) (xn x0 : ∀ i, V i) (n : ℕ) :
    ∀ i, (∀ s ∈ m.transport, i ∉ s.fields) →
      ((outerStep m xn (xstarOf m xn))^[n] (xstarOf m xn, x0)).1 i = xstarOf m xn i := by
  induction n with
  | zero => intro i _; rfl
  | succ n ih =>
    intro i hi
    rw [Function.iterate_succ_apply', outerStep]
    simp only
    rw [transportFields_eq _ _ _ _ ih]
    simp only [transported]
    have : m.transport.reverse.find? (fun s => decide (i ∈ s.fields)) = none := by
      rw [List.find?_eq_none]
      intro s hs; simpa using hi s (List.mem_reverse.1 hs)
    rw [this]

/-- C22: whatever the numbers of outer and inner iterations, a state that solves the
time-discrete equations is reproduced exactly by the whole loop (when inner physics is not
combined with the accelerator; see the refutation below). -/
theorem C22_solution_is_fixed (m : Siqn K V) (hg : GoodSolve m.inSolver m.solve)
    (xn x : ∀ i, V i) (hx : IsSolution m xn x)
    (hph : m.accelerator = false ∨ m.beta = 0 ∨ m.inner = []) :
    (outerLoop m xn x).2 = x := by
  have hinner : ∀ (xp : ∀ i, V i), xp = transported m.transport
        (xn m.u + m.alphaU • (x m.u - xn m.u)) (xstarOf m xn) → ∀ k,
      innerStep m xp (applyAll m.fast xp - xp) k x = x := by
    intro xp hxp k
    have heq : ∀ i, m.inSolver i = true → x i = xp i + m.forceI x i +
        (applyAll m.fast xp - xp) i + m.beta • innerInc m x i := by
      intro i hi
      have := hx.eqn i hi
      simp only [← hxp] at this
      rw [Pi.sub_apply]
      conv_lhs => rw [this]
      abel
    by_cases hk : k = 0 ∨ m.accelerator = false
    · exact (C22_inner_fixed_iff m hg _ _ k x hk).2 heq
    · push Not at hk
      have ha : m.accelerator = true := by simpa using hk.2
      rw [C22_accelerated_fixed_iff m hg _ _ k x (Nat.pos_of_ne_zero hk.1) ha]
      refine ⟨fun hu => heq m.u hu, fun i _ _ => ?_⟩
      rcases hph with h | h | h
      · exact absurd h hk.2
      · rw [h, zero_smul]
      · simp [innerInc, h]
  have hfold : ∀ (xp : ∀ i, V i), xp = transported m.transport
        (xn m.u + m.alphaU • (x m.u - xn m.u)) (xstarOf m xn) → ∀ l : List ℕ,
      l.foldl (fun y k => innerStep m xp (applyAll m.fast xp - xp) k y) x = x := by
    intro xp hxp l
    induction l with
    | nil => rfl
    | cons k l ih => rw [List.foldl_cons, hinner xp hxp k, ih]
  have hn : ∀ n, ((outerStep m xn (xstarOf m xn))^[n] (xstarOf m xn, x)).2 = x := by
    intro n
    induction n with
    | zero => rfl
    | succ n ih =>
      rw [Function.iterate_succ_apply', outerStep]
      simp only [ih, ubar]
      rw [transportFields_eq _ _ _ _ (xp_invariant m xn x n)]
      rw [hfold _ rfl]
      have : copyTracers (fun i => !m.inSolver i) (applyAll m.fast (transported m.transport
          (xn m.u + m.alphaU • (x m.u - xn m.u)) (xstarOf m xn))) x = x := by
        funext i
        unfold copyTracers
        cases hi : m.inSolver i
        · simpa [hi] using (hx.other i hi).symm
        · simp [hi]
      rw [this, hx.bc]
  exact hn m.numOuter

/-- C22, converse: if an outer iteration with a single inner iteration reproduces its state, that
state solves the time-discrete equations (without boundary conditions). -/
theorem C22_stationary_solves (m : Siqn K V) (hg : GoodSolve m.inSolver m.solve)
    (xn x0 : ∀ i, V i) (n : ℕ) (hb : ∀ y, m.bcs y = y) (h1 : m.numInner = 1)
    (hst : ((outerStep m xn (xstarOf m xn))^[n + 1] (xstarOf m xn, x0)).2 =
      ((outerStep m xn (xstarOf m xn))^[n] (xstarOf m xn, x0)).2) :
    IsSolution m xn ((outerStep m xn (xstarOf m xn))^[n] (xstarOf m xn, x0)).2 := by
  have hxp := xp_invariant m xn x0 n
  generalize hs : (outerStep m xn (xstarOf m xn))^[n] (xstarOf m xn, x0) = s at *
  rw [Function.iterate_succ_apply', hs, outerStep] at hst
  simp only [ubar, h1, hb] at hst
  rw [transportFields_eq _ _ _ _ hxp] at hst
  generalize htr : transported m.transport (xn m.u + m.alphaU • (s.2 m.u - xn m.u))
    (xstarOf m xn) = xp at hst
  have hrange : List.range 1 = [0] := rfl
  rw [hrange] at hst
  simp only [List.foldl_cons, List.foldl_nil] at hst
  have hcomp : ∀ i, (if m.inSolver i = false then applyAll m.fast xp i
      else innerStep m xp (applyAll m.fast xp - xp) 0 s.2 i) = s.2 i := by
    intro i
    have := congrFun hst i
    unfold copyTracers at this
    cases hi : m.inSolver i <;> simpa [hi] using this
  have hfix : innerStep m xp (applyAll m.fast xp - xp) 0 s.2 = s.2 := by
    funext i
    cases hi : m.inSolver i
    · exact C22_nonsolver_untouched m hg _ _ _ _ _ hi
    · have := hcomp i; simpa [hi] using this
  refine ⟨fun i hi => ?_, fun i hi => ?_, hb _⟩
  · have := (C22_inner_fixed_iff m hg _ _ 0 s.2 (Or.inl rfl)).1 hfix i hi
    simp only [htr]
    rw [Pi.sub_apply] at this
    conv_lhs => rw [this]
    abel
  · have := hcomp i
    simp only [hi, if_true] at this
    simp only [htr]
    exact this.symm

/-- C22: after every outer iteration the fields that are not solver prognostics hold their
transported and fast-physics value (where boundary conditions do not act). -/
theorem C22_nonsolver_copied (m : Siqn K V) (xn xstar : ∀ i, V i)
    (s : (∀ i, V i) × (∀ i, V i)) (i : ι) (hi : m.inSolver i = false)
    (hb : ∀ y : ∀ i, V i, m.bcs y i = y i) :
    (outerStep m xn xstar s).2 i =
      applyAll m.fast (transportFields m.transport (ubar m xn s.2) xstar s.1) i := by
  simp [outerStep, hb, copyTracers, hi]

end siqn

/-! ### Witnesses -/
section witness

/-- Two fields: the wind (`0`) and another (`1`); exact solve; the only process is an inner
physics scheme that adds `P` to the second field. -/
def accel (P beta : ℚ) (nInner : ℕ) (a : Bool) : Siqn ℚ (fun _ : Fin 2 => ℚ) where
  u := 0
  inSolver := fun _ => true
  numOuter := 1
  numInner := nInner
  accelerator := a
  alphaU := 1 / 2
  beta := beta
  slow := []
  fast := []
  inner := [fun x i => if i = 1 then x i + P else x i]
  final := []
  forceE := fun _ => 0
  forceI := fun _ => 0
  transport := []
  solve := id
  bcs := id

theorem accel_good (P beta : ℚ) (n : ℕ) (a : Bool) :
    GoodSolve (accel P beta n a).inSolver (accel P beta n a).solve := by
  refine ⟨fun r i hi => by simp [accel] at hi, fun r => ?_⟩
  simp only [accel, id, forall_true_left, funext_iff, Pi.zero_apply]

/-- The state `x_n` plus one physics increment solves the equations. -/
theorem accel_solution (P beta : ℚ) (n : ℕ) (a : Bool) (xn : Fin 2 → ℚ) :
    IsSolution (accel P beta n a) xn (fun i => if i = 1 then xn i + P else xn i) := by
  have hx : xstarOf (accel P beta n a) xn = fun i => if i = 1 then xn i + (1 - beta) * P
      else xn i := by
    rw [C22_xstar]
    funext i
    by_cases hi : i = 1 <;> simp [accel, applyAll, innerInc, hi]
  refine ⟨fun i _ => ?_, fun i hi => by simp [accel] at hi, rfl⟩
  rw [hx]
  by_cases hi : i = 1 <;> simp [accel, applyAll, transported, innerInc, hi]
  ring

/-- C22 is false with inner physics and the accelerator (the default): every inner iteration
after the first adds `beta * P` again, so the step advances the physics by
`(1 + (num_inner - 1) beta) P` instead of `P`, although `x_n + P` solves the equations and is
what the loop returns without the accelerator. -/
theorem C22_accelerator_inner_physics_refuted (P beta : ℚ) (n : ℕ) (xn : Fin 2 → ℚ) :
    (outerLoop (accel P beta (n + 1) true) xn xn).2 1 = xn 1 + (1 + n * beta) * P ∧
    (outerLoop (accel P beta (n + 1) false) xn xn).2 1 = xn 1 + P := by
  have hx : ∀ a, xstarOf (accel P beta (n + 1) a) xn =
      fun i => if i = 1 then xn i + (1 - beta) * P else xn i := by
    intro a
    rw [C22_xstar]
    funext i
    by_cases hi : i = 1 <;> simp [accel, applyAll, innerInc, hi]
  have hin : ∀ a (x : Fin 2 → ℚ), innerInc (accel P beta (n + 1) a) x =
      fun i => if i = 1 then P else 0 := by
    intro a x; funext i
    by_cases hi : i = 1 <;> simp [accel, innerInc, hi]
  have h0 : ∀ a x, innerStep (accel P beta (n + 1) a)
      (fun i => if i = 1 then xn i + (1 - beta) * P else xn i) 0 0 x 1 = xn 1 + P := by
    intro a x
    rw [innerStep, xrhsOf_plain _ _ _ _ _ (Or.inl rfl), hin]
    simp [accel]; ring
  have hk : ∀ k x, k > 0 → innerStep (accel P beta (n + 1) true)
      (fun i => if i = 1 then xn i + (1 - beta) * P else xn i) 0 k x 1 = x 1 + beta * P := by
    intro k x hk
    have := xrhsOf_accel (accel P beta (n + 1) true)
      (fun i => if i = 1 then xn i + (1 - beta) * P else xn i) 0 k x hk rfl 1
    rw [hin] at this
    simp only [innerStep, Pi.add_apply]
    rw [show (accel P beta (n + 1) true).solve = id from rfl, id, this]
    simp [accel]
  have hk' : ∀ k x, innerStep (accel P beta (n + 1) false)
      (fun i => if i = 1 then xn i + (1 - beta) * P else xn i) 0 k x 1 = xn 1 + P := by
    intro k x
    rw [innerStep, xrhsOf_plain _ _ _ _ _ (Or.inr rfl), hin]
    simp [accel]; ring
  have hout : ∀ a, (outerLoop (accel P beta (n + 1) a) xn xn).2 =
      (List.range (n + 1)).foldl (fun x k => innerStep (accel P beta (n + 1) a)
        (fun i => if i = 1 then xn i + (1 - beta) * P else xn i) 0 k x) xn := by
    intro a
    rw [outerLoop, show (accel P beta (n + 1) a).numOuter = 1 from rfl, Function.iterate_one,
      outerStep, hx]
    simp only [show (accel P beta (n + 1) a).transport = [] from rfl,
      show (accel P beta (n + 1) a).fast = [] from rfl,
      show (accel P beta (n + 1) a).bcs = id from rfl,
      show (accel P beta (n + 1) a).numInner = n + 1 from rfl, transportFields, applyAll,
      List.foldl_nil, sub_self, id]
    funext i
    simp [copyTracers, accel]
  constructor
  · rw [hout]
    have : ∀ j : ℕ, ((List.range (j + 1)).foldl (fun x k => innerStep (accel P beta (n + 1) true)
        (fun i => if i = 1 then xn i + (1 - beta) * P else xn i) 0 k x) xn) 1 =
        xn 1 + (1 + j * beta) * P := by
      intro j
      induction j with
      | zero => simp [List.range_succ, h0]
      | succ j ih =>
        rw [List.range_succ, List.foldl_append]
        simp only [List.foldl_cons, List.foldl_nil]
        rw [hk _ _ (Nat.succ_pos j), ih]
        push_cast; ring
    exact this n
  · rw [hout, List.range_succ, List.foldl_append]
    exact hk' _ _

end witness

/-! ### Spin-up -/
section spin
variable {K : Type*} [Field K]

/-- The state after the steps `s0, s0+1, ..., s0+j` of a run. -/
def spinRun (alpha : K) (off : Bool) (spinup s0 : ℕ) : ℕ → Spin K
  | 0 => spinStep alpha spinup s0 (spinInit alpha off)
  | j + 1 => spinStep alpha spinup (s0 + (j + 1)) (spinRun alpha off spinup s0 j)

/-- C64: in a run whose first step has number `s0` (1, or the number in the checkpoint), the
off-centring used in step `k` is 1 exactly while `k ≤ spinup_steps` and the requested value
afterwards, for every length of the spin-up and every starting step. -/
theorem C64_spinup (alpha : K) (off : Bool) (spinup s0 j : ℕ) :
    (spinRun alpha off spinup s0 j).alpha = if s0 + j ≤ spinup then 1 else alpha := by
  suffices h : (spinRun alpha off spinup s0 j).alpha = (if s0 + j ≤ spinup then 1 else alpha) ∧
      ((spinRun alpha off spinup s0 j).begun = true ↔ s0 ≤ spinup) ∧
      ((spinRun alpha off spinup s0 j).done = true ↔ spinup < s0 + j) from h.1
  induction j with
  | zero =>
    simp only [spinRun, spinStep, spinInit, add_zero]
    by_cases h : s0 < spinup + 1
    · have : s0 ≤ spinup := by omega
      simp [h, this]
    · have h2 : ¬ s0 ≤ spinup := by omega
      have h3 : spinup < s0 := by omega
      have h4 : spinup + 1 ≤ s0 := h3
      simp [h, h2, h3, h4]
  | succ j ih =>
    obtain ⟨i1, i2, i3⟩ := ih
    simp only [spinRun, spinStep]
    by_cases h : s0 + (j + 1) < spinup + 1
    · have a1 : s0 ≤ spinup := by omega
      have a2 : s0 + (j + 1) ≤ spinup := by omega
      have a3 : ¬ spinup < s0 + (j + 1) := by omega
      have a4 : s0 + j ≤ spinup := by omega
      have a5 : ¬ spinup < s0 + j := by omega
      have hb := i2.2 a1
      have a6 : ¬ (s0 + (j + 1) ≥ spinup + 1) := by omega
      rw [if_neg (by simp [hb]), if_neg (fun hh => a6 hh.1)]
      refine ⟨?_, ?_, ?_⟩
      · rw [i1, if_pos a4, if_pos a2]
      · exact i2
      · rw [i3]; exact ⟨fun hh => absurd hh a5, fun hh => absurd hh a3⟩
    · have a2 : ¬ s0 + (j + 1) ≤ spinup := by omega
      have a3 : spinup < s0 + (j + 1) := by omega
      rw [if_neg (fun hh => h hh.1)]
      by_cases hd : (spinRun alpha off spinup s0 j).done = true
      · have := i3.1 hd
        have a4 : ¬ s0 + j ≤ spinup := by omega
        rw [if_neg (by simp [hd])]
        refine ⟨by rw [i1, if_neg a4, if_neg a2], i2, ?_⟩
        rw [i3]; exact ⟨fun _ => a3, fun _ => this⟩
      · have a7 : s0 + (j + 1) ≥ spinup + 1 := by omega
        rw [if_pos ⟨a7, by simpa using hd⟩]
        refine ⟨by rw [if_neg a2], i2, ?_⟩
        simp [a3]

example : (spinRun (1 / 2 : ℚ) false 3 1 1).alpha = 1 ∧ (spinRun (1 / 2 : ℚ) false 3 1 5).alpha = 1 / 2
    := by simp [C64_spinup]

/-- C64, the transporting velocity: its off-centring is never changed by spin-up (so with
`off_centred_u` it differs from the alpha in force during spin-up). -/
theorem C64_velocity_not_spun_up (alpha : K) (off : Bool) (spinup s0 j : ℕ) :
    (spinRun alpha off spinup s0 j).alphaU = if off then alpha else 1 / 2 := by
  induction j with
  | zero =>
    simp only [spinRun, spinStep, spinInit]
    split
    · rfl
    · split <;> rfl
  | succ j ih =>
    rw [spinRun, spinStep]
    split
    · exact ih
    · split <;> exact ih

end spin

/-! ### Reference profiles -/
section ref
variable {K X : Type*} [Field K] [LinearOrder K] [IsStrictOrderedRing K]

/-- The updates made by the successive steps of a run at times `ts` with states `xs`. -/
def refRun (freq : Option K) : List (K × X) → Ref K X → Option (List Bool × Ref K X)
  | [], r => some ([], r)
  | (t, x) :: rest, r =>
    match updateRef freq t x r with
    | .typeError => none
    | .ok b r' => (refRun freq rest r').map fun q => (b :: q.1, q.2)

/-- C23 is false: with any frequency `f ≥ 0`, at every step of a run whose times increase
strictly, the reference profiles are updated, however short the time since the last update. -/
theorem C23_every_step_refuted (f : K) (hf : 0 ≤ f) (steps : List (K × X)) (r : Ref K X) (l : K)
    (hl : r.last = some l) (hlt : ∀ p ∈ steps, l < p.1)
    (hinc : steps.Pairwise (fun p q => p.1 < q.1)) :
    ∃ r', refRun (some f) steps r = some (steps.map (fun _ => true), r') := by
  induction steps generalizing r l with
  | nil => exact ⟨r, rfl⟩
  | cons p steps ih =>
    obtain ⟨t, x⟩ := p
    have h1 : t + f > l := by
      have := hlt (t, x) (by simp); simp only at this; linarith
    rw [List.pairwise_cons] at hinc
    obtain ⟨r', hr'⟩ := ih { r with last := some t, profile := x, solverProfile := x } t rfl
      (fun q hq => hinc.1 q hq) hinc.2
    refine ⟨r', ?_⟩
    simp only [refRun, updateRef, hl, h1, if_true, hr']
    rfl

/-- A run of three steps of one second with an update frequency of an hour: three updates. -/
example : ∃ r, refRun (some (3600 : ℚ)) [(0, 10), (1, 11), (2, 12)]
    ⟨some (-1), false, (0 : ℚ), 0⟩ = some ([true, true, true], r) :=
  C23_every_step_refuted 3600 (by norm_num) _ _ (-1) rfl (by decide +kernel) (by decide +kernel)

/-- C23, the part that holds: a run that starts afresh with a frequency updates the profiles in
its first step, to the state at that step. -/
theorem C23_first_step_updates (f : K) (hf : 0 ≤ f) (t dt : K) (hdt : 0 < dt) (init : Bool)
    (chk : Option K) (r : Ref K X) (x : X) :
    ∃ r0 r1, prepareRef false init (some f) t dt chk r = some r0 ∧
      updateRef (some f) t x r0 = .ok true r1 ∧ r1.profile = x ∧ r1.solverProfile = x ∧
      r1.last = some t := by
  refine ⟨{ r with last := some (t - dt) }, ⟨some t, r.toUpdate, x, x⟩, ?_, ?_, rfl, rfl, rfl⟩
  · simp [prepareRef]
  · have : t + f > t - dt := by linarith
    simp [updateRef, this]

/-- C23, frequency None: the run is refused without initialised profiles; otherwise the solver
receives the initial profiles at the first step and they are never changed again. -/
theorem C23_no_frequency (t dt : K) (chk : Option K) (r : Ref K X) (pickUp : Bool)
    (steps : List (K × X)) (hne : steps ≠ []) :
    prepareRef false false none t dt chk r = none ∧
    ∃ r0 r1, prepareRef pickUp true none t dt chk r = some r0 ∧
      refRun none steps r0 = some (true :: List.replicate (steps.length - 1) false, r1) ∧
      r1.profile = r.profile ∧ r1.solverProfile = r.profile := by
  refine ⟨by simp [prepareRef], ?_⟩
  have hrest : ∀ (l : List (K × X)) (q : Ref K X), q.toUpdate = false →
      refRun none l q = some (List.replicate l.length false, q) := by
    intro l
    induction l with
    | nil => intro q _; rfl
    | cons a l ih =>
      intro q hq
      simp [refRun, updateRef, hq, ih q hq, List.replicate_succ]
  obtain ⟨⟨t0, x0⟩, rest, rfl⟩ := List.exists_cons_of_ne_nil hne
  cases pickUp
  · refine ⟨{ r with toUpdate := true },
      { r with toUpdate := false, solverProfile := r.profile }, by simp [prepareRef], ?_, rfl, rfl⟩
    simp [refRun, updateRef, hrest rest]
  · refine ⟨{ r with toUpdate := true, last := chk },
      { r with toUpdate := false, solverProfile := r.profile, last := chk },
      by simp [prepareRef], ?_, rfl, rfl⟩
    simp [refRun, updateRef, hrest rest]

/-- C23 is false on pick-up: resuming with a frequency from a checkpoint of a run that had none
(so that it holds no update time) raises TypeError in the first step. -/
theorem C23_pickup_refuted (f t t' dt : K) (init : Bool) (r : Ref K X) (x : X) :
    ∃ r0, prepareRef true init (some f) t dt none r = some r0 ∧
      updateRef (some f) t' x r0 = .typeError :=
  ⟨{ r with last := none }, by simp [prepareRef], by simp [updateRef]⟩

end ref

/-! ### TR-BDF2 -/
section trbdf2
variable {ι : Type*} [DecidableEq ι] {K : Type*} [Field K] [DecidableEq K] {V : ι → Type*}
  [∀ i, AddCommGroup (V i)] [∀ i, Module K (V i)]

/-- C65: the coefficients are those of TR-BDF2 with intermediate time `c dt`, `c = 2 gamma`. -/
theorem C65_coefficients (g : K) (h2 : (2 : K) ≠ 0) (h0 : g ≠ 0) (h1 : g ≠ 1) :
    gamma2 g = (1 - 2 * g) / (2 - 2 * g) ∧ gamma3 g = 1 / ((2 * g) * (2 - 2 * g)) := by
  refine ⟨rfl, ?_⟩
  have h3 : (2 : K) - 2 * g ≠ 0 := by
    intro h
    have : (2 : K) * (1 - g) = 0 := by linear_combination h
    rcases mul_eq_zero.1 this with h | h
    · exact h2 h
    · exact h1 (by linear_combination -h)
  unfold gamma3 gamma2
  field_simp
  ring

/-- C65, order: on `dx/dt = lambda x` with `z = lambda dt` the converged scheme multiplies by
`N/D`, and `D * (1 + z + z^2/2) - N` is divisible by `z^3`: second order for every gamma. -/
theorem C65_second_order (g : K) (h2 : (2 : K) ≠ 0) (h0 : g ≠ 0) (h1 : g ≠ 1) :
    ∃ c d : K, ∀ z xn xm xnp1 : K,
      xm = xn + g * z * xn + g * z * xm →
      xnp1 = (1 - gamma3 g) * xn + gamma3 g * xm + gamma2 g * z * xnp1 →
      (1 - g * z) * (1 - gamma2 g * z) * (xnp1 - (1 + z + z ^ 2 / 2) * xn) =
        z ^ 3 * (c + d * z) * xn := by
  have h3 : (2 : K) - 2 * g ≠ 0 := by
    intro h
    have : (2 : K) * (1 - g) = 0 := by linear_combination h
    rcases mul_eq_zero.1 this with h | h
    · exact h2 h
    · exact h1 (by linear_combination -h)
  obtain ⟨e2, e3⟩ := C65_coefficients g h2 h0 h1
  have hg3 : gamma3 g * (2 * g) = 1 - gamma2 g := by
    rw [e3, e2]; field_simp; ring
  have hg2 : gamma2 g * (2 - 2 * g) = 1 - 2 * g := by rw [e2]; field_simp
  refine ⟨-(gamma2 g * g) + (g + gamma2 g) / 2, -(gamma2 g * g) / 2, fun z xn xm xnp1 hm hp => ?_⟩
  have hm' : (1 - g * z) * xm = (1 + g * z) * xn := by linear_combination hm
  have hp' : (1 - gamma2 g * z) * xnp1 = (1 - gamma3 g) * xn + gamma3 g * xm := by
    linear_combination hp
  have key : (1 - g * z) * (1 - gamma2 g * z) * xnp1 =
      (1 - gamma3 g) * (1 - g * z) * xn + gamma3 g * (1 + g * z) * xn := by
    linear_combination (1 - g * z) * hp' + gamma3 g * hm'
  have e : (1 - g * z) * (1 - gamma2 g * z) * (xnp1 - (1 + z + z ^ 2 / 2) * xn) =
      (1 - gamma3 g) * (1 - g * z) * xn + gamma3 g * (1 + g * z) * xn
      - (1 - g * z) * (1 - gamma2 g * z) * (1 + z + z ^ 2 / 2) * xn := by
    linear_combination key
  rw [e]
  have hh : (z ^ 2 / 2 : K) * 2 = z ^ 2 := by field_simp
  field_simp
  linear_combination (2 * z * xn) * hg3 + (z ^ 2 * xn) * hg2

/-- Hypotheses of `C65_second_order` for a concrete step: gamma = 1/4, z = -1. -/
example : ∃ xm xnp1 : ℚ, xm = 1 + 1 / 4 * (-1) * 1 + 1 / 4 * (-1) * xm ∧
    xnp1 = (1 - gamma3 (1 / 4)) * 1 + gamma3 (1 / 4) * xm + gamma2 (1 / 4) * (-1) * xnp1 :=
  ⟨3 / 5, 7 / 20, by norm_num, by norm_num [gamma2, gamma3]⟩

/-- C65: the first inner iteration of either stage is stationary if and only if its implicit
equation holds for the solver prognostics; later inner iterations test the wind only. -/
theorem C65_inner_fixed_iff (inSolver : ι → Bool) (u : ι)
    (force solve : (∀ i, V i) → ∀ i, V i) (hg : GoodSolve inSolver solve)
    (xp x : ∀ i, V i) (k : ℕ) :
    (trInner u force solve xp 0 x = x ↔
      ∀ i, inSolver i = true → x i = xp i + force x i) ∧
    (k > 0 → (trInner u force solve xp k x = x ↔
      (inSolver u = true → x u = xp u + force x u))) := by
  refine ⟨?_, fun hk => ?_⟩
  · simp only [trInner, gt_iff_lt, lt_self_iff_false, if_false]
    rw [add_eq_left, hg.2]
    refine forall_congr' fun i => imp_congr_right fun _ => ?_
    simp only [Pi.sub_apply, Pi.add_apply, sub_eq_zero]
    exact eq_comm
  · simp only [trInner, hk, if_true]
    rw [add_eq_left, hg.2]
    constructor
    · intro h hu
      have := h u hu
      simp only [Pi.sub_apply, Pi.add_apply, if_true, sub_eq_zero] at this
      exact this.symm
    · intro h i hi
      by_cases hiu : i = u
      · subst hiu
        simp only [Pi.sub_apply, Pi.add_apply, if_true, sub_eq_zero]
        exact (h hi).symm
      · simp [hiu]

/-- C65, BDF stage: a transported field enters with `(1-gamma3) T_dt(x_n) + gamma3 T(x_m)` in
every outer iteration. -/
theorem C65_bdf_transported (m : TrBdf2 K V) (xn xm : ∀ i, V i) (s : BdfState V) (i : ι)
    (hi : ∃ t ∈ m.transport, i ∈ t.fields) :
    (bdfOuter m xn xm s).xp i =
      (1 - gamma3 m.gamma) • transported m.transport
          (trUbar (s.x m.u) (s.x m.u) (1 : K)) xn i +
        gamma3 m.gamma • transported m.transport
          (trUbar (s.x m.u) (s.x m.u) (1 - 2 * m.gamma)) xm i := by
  have h : ∀ (vel : V m.u) (xs xp : ∀ i, V i),
      transportFields m.transport vel xs xp i = transported m.transport vel xs i := by
    intro vel xs xp
    rw [transportFields_apply, transported]
    cases hf : m.transport.reverse.find? (fun s => decide (i ∈ s.fields)) with
    | some s => rfl
    | none =>
      obtain ⟨t, ht, hit⟩ := hi
      have := List.find?_eq_none.1 hf t (List.mem_reverse.2 ht)
      simp [hit] at this
  simp [bdfOuter, h]

/-- C65 is false for fields without a transport scheme: their explicit part is combined again in
every outer iteration, so after `n` iterations it is
`(1-gamma3)^n x_n + (1-(1-gamma3)^n) x_m` instead of `(1-gamma3) x_n + gamma3 x_m`. -/
theorem C65_bdf_untransported_refuted (m : TrBdf2 K V) (xn xm : ∀ i, V i) (i : ι)
    (hi : ∀ t ∈ m.transport, i ∉ t.fields) (n : ℕ) :
    ((bdfOuter m xn xm)^[n] ⟨xn, xm, xn⟩).xp i =
      (1 - gamma3 m.gamma) ^ n • xn i + (1 - (1 - gamma3 m.gamma) ^ n) • xm i := by
  have h : ∀ (vel : V m.u) (xs xp : ∀ i, V i),
      transportFields m.transport vel xs xp i = xp i := by
    intro vel xs xp
    rw [transportFields_apply]
    have : m.transport.reverse.find? (fun s => decide (i ∈ s.fields)) = none := by
      rw [List.find?_eq_none]
      intro s hs; simpa using hi s (List.mem_reverse.1 hs)
    rw [this]
  suffices ((bdfOuter m xn xm)^[n] ⟨xn, xm, xn⟩).xp i =
      (1 - gamma3 m.gamma) ^ n • xn i + (1 - (1 - gamma3 m.gamma) ^ n) • xm i ∧
      ((bdfOuter m xn xm)^[n] ⟨xn, xm, xn⟩).xpm i = xm i from this.1
  induction n with
  | zero => simp
  | succ n ih =>
    rw [Function.iterate_succ_apply']
    refine ⟨?_, ?_⟩
    · simp only [bdfOuter, Pi.add_apply, Pi.smul_apply, h, ih.1, ih.2]
      rw [pow_succ]
      module
    · simp only [bdfOuter, h, ih.2]

/-- The two differ already for gamma = 1/4 and the default two outer iterations. -/
example : ((1 : ℚ) - gamma3 (1 / 4)) ^ 2 ≠ 1 - gamma3 (1 / 4) := by norm_num [gamma3, gamma2]

/-- C65 is false for prognostics that are neither solver prognostics nor active tracers: no part
of the timestep changes them (SemiImplicitQuasiNewton copies all non-solver prognostics). -/
theorem C65_forgotten_field_refuted (m : TrBdf2 K V) (inSolver : ι → Bool)
    (hgb : GoodSolve inSolver m.bdfSolve) (i : ι)
    (hs : inSolver i = false) (hc : m.copied i = false) (hb : ∀ y : ∀ i, V i, m.bcs y i = y i)
    (hf : m.final = []) (xn : ∀ i, V i) :
    trBdf2Step m xn i = xn i := by
  have hin : ∀ (force solve : (∀ i, V i) → ∀ i, V i), GoodSolve inSolver solve →
      ∀ (xp : ∀ i, V i) (l : List ℕ) (x : ∀ i, V i),
      (l.foldl (fun x k => trInner m.u force solve xp k x) x) i = x i := by
    intro force solve hg xp l
    induction l with
    | nil => intro x; rfl
    | cons k l ih =>
      intro x
      rw [List.foldl_cons, ih]
      simp [trInner, hg.1 _ i hs]
  have hbdf : ∀ xm n, ((bdfOuter m xn xm)^[n] ⟨xn, xm, xn⟩).x i = xn i := by
    intro xm n
    induction n with
    | zero => rfl
    | succ n ih =>
      rw [Function.iterate_succ_apply']
      simp only [bdfOuter, hb, copyTracers, hc, Bool.false_eq_true, if_false]
      rw [hin _ _ hgb, ih]
  rw [trBdf2Step, hf]
  exact hbdf _ _

/-- A single prognostic `x` with a constant slow-physics increment `P`, no forcing, transport or
boundary conditions, exact solves. -/
def slowOnly (g P : ℚ) (nt nb : ℕ) : TrBdf2 ℚ (fun _ : Unit => ℚ) where
  gamma := g
  u := ()
  copied := fun _ => false
  nOuterTr := nt
  nInnerTr := 1
  nOuterBdf := nb
  nInnerBdf := 1
  slow := [fun x i => x i + P]
  final := []
  trE := fun _ => 0
  trI := fun _ => 0
  bdfI := fun _ => 0
  transport := []
  trSolve := id
  bdfSolve := id
  bcs := id

/-- C66 is false for slow physics in TRBDF2QuasiNewton: a slow physics scheme whose own step adds
`P` advances the state by `gamma3 * P` (with one outer BDF iteration), for every `x_n`, `P` and
every admissible gamma; `gamma3 = 1` only for gamma = 1/2. -/
theorem C66_slow_physics_refuted (g P : ℚ) (nt : ℕ) (xn : Unit → ℚ) :
    trBdf2Step (slowOnly g P (nt + 1) 1) xn () = xn () + gamma3 g * P := by
  have htr : ∀ n, ((trOuter (slowOnly g P (nt + 1) 1) xn (fun i => xn i + P))^[n + 1]
      (fun i => xn i + P, xn)) = (fun i => xn i + P, fun i => xn i + P) := by
    intro n
    induction n with
    | zero =>
      simp only [zero_add, Function.iterate_one]
      simp [trOuter, slowOnly, transportFields, trInner]
      rfl
    | succ n ih =>
      rw [Function.iterate_succ_apply', ih]
      simp [trOuter, slowOnly, transportFields, trInner]
      rfl
  have hstage : trStage (slowOnly g P (nt + 1) 1) xn = fun i => xn i + P := by
    rw [trStage]
    have : applyAll (slowOnly g P (nt + 1) 1).slow xn + (slowOnly g P (nt + 1) 1).trE xn =
        fun i => xn i + P := by
      funext i; simp [applyAll, slowOnly]
    rw [this]
    exact congrArg Prod.snd (htr nt)
  rw [trBdf2Step, hstage, bdfStage]
  simp [slowOnly, bdfOuter, applyAll, transportFields, trInner, copyTracers]
  ring

/-- C66, SemiImplicitQuasiNewton: with no other process, slow physics is applied exactly once
(the state after slow physics is `xstar`), whatever the loop counts. -/
theorem C66_siqn_slow_physics (m : Siqn K V) (hg : GoodSolve m.inSolver m.solve)
    (xn : ∀ i, V i) (hE : ∀ x, m.forceE x = 0) (hI : ∀ x, m.forceI x = 0) (hf : m.fast = [])
    (hin : m.inner = []) (ht : m.transport = []) (hb : ∀ y, m.bcs y = y) :
    (outerLoop m xn (applyAll m.slow xn)).2 = applyAll m.slow xn := by
  apply C22_solution_is_fixed m hg _ _ _ (Or.inr (Or.inr hin))
  have hx : xstarOf m xn = applyAll m.slow xn := by rw [C22_xstar, hE]; simp [innerInc, hin]
  have htr : ∀ v, transported m.transport v (xstarOf m xn) = applyAll m.slow xn := by
    intro v; funext i; rw [hx]; simp [transported, ht]
  refine ⟨fun i _ => ?_, fun i _ => ?_, hb _⟩
  · simp [htr, hf, hI, applyAll, innerInc, hin]
  · simp [htr, hf, applyAll]

/-- C66, SemiImplicitQuasiNewton, from any first guess: with no other process and a linear solver without linearised terms (it returns the
residual of the solver prognostics), at least one outer and one inner iteration, accelerated or not, the result is the state after
one application of the slow physics. -/
theorem C66_siqn_once (m : Siqn K V) (hs : ∀ r i, m.solve r i = if m.inSolver i then r i else 0)
    (xn x0 : ∀ i, V i) (hE : ∀ x, m.forceE x = 0) (hI : ∀ x, m.forceI x = 0) (hf : m.fast = [])
    (hin : m.inner = []) (ht : m.transport = []) (hb : ∀ y, m.bcs y = y) (ho : m.numOuter ≠ 0) (hn : m.numInner ≠ 0) :
    (outerLoop m xn x0).2 = applyAll m.slow xn := by
  have hx : xstarOf m xn = applyAll m.slow xn := by rw [C22_xstar, hE]; simp [innerInc, hin]
  have hfirst : ∀ (xp x : ∀ i, V i) (i : ι), innerStep m xp 0 0 x i = if m.inSolver i then xp i else x i := by
    intro xp x i
    simp only [innerStep, xrhsOf, hI, hin, Pi.add_apply, hs]
    by_cases h : m.inSolver i <;> simp [h]
  have hlater : ∀ (k : ℕ) (xp x : ∀ i, V i), (∀ i, m.inSolver i = true → x i = xp i) →
      ∀ i, innerStep m xp 0 k x i = x i := by
    intro k xp x h i
    simp only [innerStep, xrhsOf, hI, hin, Pi.add_apply, hs]
    by_cases hi : m.inSolver i
    · by_cases hk : k > 0 ∧ m.accelerator = true
      · by_cases hu : i = m.u
        · subst hu; simp [hk, hi, h _ hi]
        · simp [hk, hi, hu]
      · simp [hk, hi, h i hi]
    · simp [hi]
  have hfold : ∀ n, n ≠ 0 → ∀ (xp x : ∀ i, V i) (i : ι),
      (List.range n).foldl (fun x k => innerStep m xp 0 k x) x i = if m.inSolver i then xp i else x i := by
    intro n
    induction n with
    | zero => intro h; exact absurd rfl h
    | succ n ih =>
      intro _ xp x i
      rw [List.range_succ, List.foldl_append, List.foldl_cons, List.foldl_nil]
      by_cases h0 : n = 0
      · subst h0; simpa using hfirst xp x i
      · rw [hlater]
        · exact ih h0 xp x i
        · intro j hj; rw [ih h0]; simp [hj]
  have hstep : ∀ s : (∀ i, V i) × (∀ i, V i), outerStep m xn (xstarOf m xn) s = (s.1, s.1) := by
    intro s
    simp only [outerStep, ht, transportFields, List.foldl_nil, hf, applyAll, sub_self, hb]
    refine Prod.ext rfl ?_
    funext i
    simp only [copyTracers]
    by_cases hi : m.inSolver i
    · simp [hi, hfold _ hn]
    · simp [hi]
  obtain ⟨n, hn'⟩ := Nat.exists_eq_succ_of_ne_zero ho
  have : ∀ n, ∀ s : (∀ i, V i) × (∀ i, V i), ((outerStep m xn (xstarOf m xn))^[n + 1] s) = (s.1, s.1) := by
    intro n
    induction n with
    | zero => intro s; exact hstep s
    | succ n ih => intro s; rw [Function.iterate_succ_apply, hstep, ih]
  rw [outerLoop, hn', this, hx]

/-- The hypotheses hold for one solver field with an accelerated scheme of two inner iterations and slow physics adding 5. -/
example : (outerLoop (K := ℚ) (V := fun _ : Unit => ℚ) ⟨(), fun _ => true, 2, 2, true, 1, 1, [fun x => x + fun _ => 5], [], [], [],
    fun _ => 0, fun _ => 0, [], fun r => r, fun x => x⟩ (fun _ => 1) (fun _ => 0)).2 = applyAll [fun x => x + fun _ => 5] fun _ => 1 :=
  C66_siqn_once _ (by intro r i; simp) _ _ (fun _ => rfl) (fun _ => rfl) rfl rfl rfl (fun _ => rfl) (by simp) (by simp)

end trbdf2

end QNProps
end Gusto.Props
