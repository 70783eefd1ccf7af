import Verif.Lemmas.SiqnConvergence
import Mathlib.Analysis.Calculus.Deriv.Prod
import Mathlib.Analysis.Calculus.Deriv.Pow

set_option autoImplicit false
set_option linter.unusedSectionVars false
set_option linter.unusedSimpArgs false

/-!
# C129: the semi-implicit quasi-Newton timestepper converges
-/

namespace Gusto.Props.SiqnConvergenceProps
open Topology Filter Gusto.Convergence Gusto.QN Gusto.Props.QNProps Gusto.SiqnConv

variable {ι : Type*} [Fintype ι] [DecidableEq ι] {V : ι → Type*} [∀ i, NormedAddCommGroup (V i)] [∀ i, NormedSpace ℝ (V i)]

/-! ### What is asked of the ingredients -/

/-- Each physics scheme is a first-order method for the tendency that stands beside it. -/
def Treats (ss : List (ℝ → (∀ i, V i) → ∀ i, V i)) (gs : List ((∀ i, V i) → ∀ i, V i)) : Prop :=
  List.Forall₂ (fun φ g => LocalLip g ∧ StepOf 1 φ fun _ => g) ss gs

/-- The sum of a list of tendencies. -/
def total (gs : List ((∀ i, V i) → ∀ i, V i)) (x : ∀ i, V i) : ∀ i, V i := (gs.map fun g => g x).sum

/-- Each transport scheme adds `h A(v, x)` to the fields it advances, up to `O(h^(p+1))`, for every transporting velocity `v`; fields
without a transport scheme have no transport tendency. -/
structure Advances (p : ℕ) (d : SiqnFamily V) (A : ℝ → V d.u × (∀ i, V i) → ∀ i, V i) : Prop where
  schemes : ∀ s ∈ d.transport, ∀ i ∈ s.1, ∃ τ : ℝ → V d.u × (∀ i, V i) → V i, UL τ ∧ Near p τ (fun h z => A h z i) ∧
    ∀ᶠ h in 𝓝[≥] (0 : ℝ), ∀ v x, s.2 h v x i = x i + h • τ h (v, x)
  others : ∀ i, (∀ s ∈ d.transport, i ∉ s.1) → ∀ h z, A h z i = 0

/-- The linear solver solves the system assembled by the code for all small timesteps, with invertible mass and bounded linearised
operators. -/
def SolvesLinear (d : SiqnFamily V) : Prop :=
  ∃ (mass : ∀ i, V i ≃L[ℝ] V i) (lin linImp : ∀ i, (∀ j, V j) →L[ℝ] V i) (tau : ι → ℝ), ∀ᶠ h in 𝓝[≥] (0 : ℝ),
    Solves d.inSolver (fun i => mass i) (fun i => lin i) (fun i => linImp i) tau h (d.solve h)

/-! ### The parts of a timestep -/

theorem total_nil : total ([] : List ((∀ i, V i) → ∀ i, V i)) = fun _ => 0 := funext fun x => by simp [total]

theorem total_cons (g : (∀ i, V i) → ∀ i, V i) (gs : List ((∀ i, V i) → ∀ i, V i)) : total (g :: gs) = fun x => g x + total gs x :=
  funext fun x => by simp [total]

theorem total_lip {ss : List (ℝ → (∀ i, V i) → ∀ i, V i)} {gs : List ((∀ i, V i) → ∀ i, V i)} (h : Treats ss gs) :
    LocalLip (total gs) := by
  induction h with
  | nil => rw [total_nil]; exact LocalLip.zero
  | cons h1 _ ih => rw [total_cons]; exact h1.1.add ih

theorem applyAll_step {ss : List (ℝ → (∀ i, V i) → ∀ i, V i)} {gs : List ((∀ i, V i) → ∀ i, V i)} (h : Treats ss gs) :
    StepOf 1 (fun h x => applyAll (ss.map fun s => s h) x) (fun _ => total gs) := by
  induction h with
  | nil => rw [total_nil]; exact StepOf.id (E := ∀ i, V i) 1
  | cons h1 h2 ih =>
    have := StepOf.comp (total_lip h2) h1.2 ih
    rw [total_cons]
    exact this

theorem inner_parts {ss : List (ℝ → (∀ i, V i) → ∀ i, V i)} {gs : List ((∀ i, V i) → ∀ i, V i)} (h : Treats ss gs) :
    ∃ q : ℝ → (∀ i, V i) → ∀ i, V i, UL q ∧ Near 1 q (fun _ => total gs) ∧
      ∀ᶠ h in 𝓝[≥] (0 : ℝ), ∀ x, ((ss.map fun s => s h).map fun s => s x - x).sum = h • q h x := by
  induction h with
  | nil => exact ⟨fun _ _ => 0, UL.const 0, by rw [total_nil]; exact Near.refl 1 _, Eventually.of_forall fun h x => by simp⟩
  | cons h1 h2 ih =>
    obtain ⟨q, hq, hqn, hqi⟩ := ih
    obtain ⟨r, hr, hrn, hri⟩ := h1.2
    refine ⟨fun h x => r h x + q h x, hr.add hq, by rw [total_cons]; exact hrn.add hqn, ?_⟩
    filter_upwards [hqi, hri] with h e1 e2 x
    have := e1 x
    simp only [List.map_cons, List.sum_cons, this, e2, smul_add]
    abel

theorem transport_parts {p : ℕ} {d : SiqnFamily V} {A : ℝ → V d.u × (∀ i, V i) → ∀ i, V i} (hA : Advances p d A) :
    ∃ τ : ℝ → V d.u × (∀ i, V i) → ∀ i, V i, UL τ ∧ Near p τ A ∧
      ∀ᶠ h in 𝓝[≥] (0 : ℝ), ∀ v x, transported (d.at h).transport v x = x + h • τ h (v, x) := by
  have key : ∀ i, ∃ τ : ℝ → V d.u × (∀ i, V i) → V i, UL τ ∧ Near p τ (fun h z => A h z i) ∧
      ∀ᶠ h in 𝓝[≥] (0 : ℝ), ∀ (v : V d.u) x, transported (u := d.u) (d.transport.map fun s => ⟨s.1, s.2 h⟩) v x i =
        x i + h • τ h (v, x) := by
    intro i
    have hfind : ∀ h : ℝ, (d.transport.map fun s => (⟨s.1, s.2 h⟩ : Transport V d.u)).reverse.find? (fun s => decide (i ∈ s.fields)) =
        (d.transport.reverse.find? fun s => decide (i ∈ s.1)).map fun s => ⟨s.1, s.2 h⟩ := by
      intro h
      rw [← List.map_reverse, List.find?_map]
      rfl
    cases hf : d.transport.reverse.find? (fun s => decide (i ∈ s.1)) with
    | none =>
      refine ⟨fun _ _ => 0, UL.const 0, ?_, Eventually.of_forall fun h v x => ?_⟩
      · have : ∀ h z, A h z i = 0 := hA.others i fun s hs => by
          have := List.find?_eq_none.1 hf s (List.mem_reverse.2 hs)
          simpa using this
        simp only [this]
        exact Near.refl _ _
      · simp only [transported, hfind, hf, Option.map_none, smul_zero, add_zero]
    | some s =>
      have hs : s ∈ d.transport := List.mem_reverse.1 (List.mem_of_find?_eq_some hf)
      have hi : i ∈ s.1 := by simpa using List.find?_some hf
      obtain ⟨τ, h1, h2, h3⟩ := hA.schemes s hs i hi
      refine ⟨τ, h1, h2, ?_⟩
      filter_upwards [h3] with h e v x
      simp only [transported, hfind, hf, Option.map_some]
      exact e v x
  choose τ h1 h2 h3 using key
  refine ⟨fun h z i => τ i h z, UL.pi h1, Near.pi h2, ?_⟩
  filter_upwards [eventually_all.2 h3] with h e v x
  funext i
  exact e i v x

/-! ### Convergence -/

/-- The right-hand side of the equation a model solves: forcing, always implicit forcing, transport of the state by its own wind, and
the physics tendencies. -/
def rhs (d : SiqnFamily V) (G : V d.u × (∀ i, V i) → ∀ i, V i) (gS gF gI gE : List ((∀ i, V i) → ∀ i, V i)) (x : ∀ i, V i) :
    ∀ i, V i :=
  d.F x + d.Fi x + G (x d.u, x) + total gS x + total gF x + total gI x + total gE x

/-- C129: **the semi-implicit quasi-Newton timestepper converges with the first order** to the equation made of all its parts, for any
off-centring, any numbers of iterations and any list of first-order schemes, on every interval on which the equation has a solution.
Fields outside the solver must have no implicit part (see the refutation), and inner physics must not be combined with the accelerator
and several inner iterations (C22). -/
theorem C129_first_order (d : SiqnFamily V) (G : V d.u × (∀ i, V i) → ∀ i, V i) (gS gF gI gE : List ((∀ i, V i) → ∀ i, V i))
    (hout : 1 ≤ d.numOuter) (hinn : 1 ≤ d.numInner) (hsolve : SolvesLinear d)
    (hF : LocalLip d.F) (hFi : LocalLip d.Fi) (hG : LocalLip G) (htr : Advances 1 d fun _ => G)
    (hS : Treats d.slow gS) (hFa : Treats d.fast gF) (hI : Treats d.inner gI) (hE : Treats d.final gE)
    (hacc : d.accelerator = true → d.beta = 0 ∨ d.inner = [] ∨ d.numInner ≤ 1)
    (hnon : ∀ i, d.inSolver i = false → ∀ x, d.alpha • d.F x i + d.Fi x i + d.beta • total gI x i = 0)
    (y : ℝ → ∀ i, V i) (T : ℝ) (hT : 0 ≤ T) (hy : IsSol (rhs d G gS gF gI gE) y T) :
    ∃ C h0 : ℝ, 0 < h0 ∧ ∀ h, 0 ≤ h → h ≤ h0 → ∀ N : ℕ, N * h ≤ T → ‖d.run h N (y 0) - y (N * h)‖ ≤ C * h := by
  obtain ⟨mass, lin, linImp, tau, hsol⟩ := hsolve
  obtain ⟨τ, t1, t2, t3⟩ := transport_parts htr
  obtain ⟨σ, s1, s2, s3⟩ := applyAll_step hS
  obtain ⟨κ, k1, k2, k3⟩ := applyAll_step hFa
  obtain ⟨ιnc, i1, i2, i3⟩ := inner_parts hI
  have lS := total_lip hS
  have lF := total_lip hFa
  have lI := total_lip hI
  have lE := total_lip hE
  set e : ℝ → (∀ i, V i) → ∀ i, V i := fun h x => σ h x + (1 - d.alpha) • d.F x + (1 - d.beta) • ιnc h x with he
  have hparts : Parts d e κ ιnc τ := by
    refine ⟨solver_ok _ mass lin linImp tau _ hsol, hF, hFi, (s1.add ((UL.of_lip hF).smul _)).add (i1.smul _), k1, i1, t1, ?_, k3, i3,
      t3, hacc, hinn⟩
    filter_upwards [s3, i3] with h e1 e2 x
    rw [C22_xstar]
    have e1' : applyAll (d.at h).slow x = x + h • σ h x := e1 x
    have e2' : innerInc (d.at h) x = h • ιnc h x := e2 x
    rw [e1', e2', he]
    simp only [SiqnFamily.at]
    module
  have hfirst := outer_first hparts (s1 := fun x => total gS x + (1 - d.alpha) • d.F x + (1 - d.beta) • total gI x)
    (k1 := total gF) (i1 := total gI) (G := G)
    ((s2.add (Near.refl 1 fun _ x => (1 - d.alpha) • d.F x)).add (i2.smul _)) k2 i2 t2
    ((lS.add (hF.smul _)).add (lI.smul _)) lF lI hG hnon d.numOuter
  obtain ⟨r, hr, hri, hrn⟩ := hfirst
  set f0 : (∀ i, V i) → ∀ i, V i := fun x => d.F x + d.Fi x + G (x d.u, x) + total gS x + total gF x + total gI x with hf0
  have e0 : ∀ x, rhs0 d (fun x => total gS x + (1 - d.alpha) • d.F x + (1 - d.beta) • total gI x) (total gF) (total gI) G x = f0 x := by
    intro x
    simp only [rhs0, hf0]
    module
  have hstep0 : StepOf 1 (fun h x => (afterOuter d d.numOuter h x).2) (fun _ => f0) := by
    refine ⟨r, hr, Near.pi fun i => ?_, hri⟩
    have := hrn hout i
    simp only [e0] at this
    exact this
  have hstep : StepOf 1 d.step (fun _ => rhs d G gS gF gI gE) :=
    StepOf.comp (f := f0) (φ := fun h x => (afterOuter d d.numOuter h x).2) lE hstep0 (applyAll_step hE)
  have hlip : LocalLip (rhs d G gS gF gI gE) := by
    have hG0 : LocalLip (fun x : ∀ i, V i => G (x d.u, x)) := fun B => by
      obtain ⟨c, c0, hc⟩ := hG B
      refine ⟨c, c0, fun x z hx hz => ?_⟩
      have n1 : ∀ w : ∀ i, V i, ‖(w d.u, w)‖ = ‖w‖ := fun w => by
        rw [Prod.norm_def]; exact max_eq_right (norm_le_pi_norm w d.u)
      have := hc (x d.u, x) (z d.u, z) (by rwa [n1]) (by rwa [n1])
      have e : ((x d.u, x) - (z d.u, z) : V d.u × (∀ i, V i)) = ((x - z) d.u, x - z) := rfl
      rwa [e, n1] at this
    exact ((((((hF.add hFi).add hG0).add lS).add lF).add lI).add lE)
  exact hstep.converges1 hlip hT hy

/-- C129: **with centred weights, two outer iterations and no physics the timestepper converges with the second order**, if the transport
schemes are of the second order for a frozen transporting velocity.  One outer iteration is not enough (see the refutation). -/
theorem C129_second_order (d : SiqnFamily V) (hout : 2 ≤ d.numOuter) (hinn : 1 ≤ d.numInner) (hsolve : SolvesLinear d)
    (ha : d.alpha = 1 / 2) (hau : d.alphaU = 1 / 2) (hFi : ∀ x, d.Fi x = 0)
    (hsl : d.slow = []) (hfa : d.fast = []) (hin : d.inner = []) (hfi : d.final = [])
    (F' : (∀ i, V i) → (∀ i, V i) →L[ℝ] (∀ i, V i)) (hF : LocalSmooth d.F F')
    (G : V d.u × (∀ i, V i) → ∀ i, V i) (G' : V d.u × (∀ i, V i) → V d.u × (∀ i, V i) →L[ℝ] (∀ i, V i)) (hG : LocalSmooth G G')
    (htr : Advances 2 d fun h z => G z + (h / 2) • G' z (0, G z))
    (hnon : ∀ i, d.inSolver i = false → ∀ x, d.F x i = 0)
    (y : ℝ → ∀ i, V i) (T : ℝ) (hT : 0 ≤ T) (hy : IsSol (fun x => d.F x + G (x d.u, x)) y T) :
    ∃ C h0 : ℝ, 0 < h0 ∧ ∀ h, 0 ≤ h → h ≤ h0 → ∀ N : ℕ, N * h ≤ T → ‖d.run h N (y 0) - y (N * h)‖ ≤ C * h ^ 2 := by
  obtain ⟨mass, lin, linImp, tau, hsol⟩ := hsolve
  obtain ⟨τ, t1, t2, t3⟩ := transport_parts htr
  have hFi0 : d.Fi = fun _ => 0 := funext hFi
  have hparts : Parts d (fun _ x => (1 / 2 : ℝ) • d.F x) (fun _ _ => 0) (fun _ _ => 0) τ := by
    refine ⟨solver_ok _ mass lin linImp tau _ hsol, hF.localLip, by rw [hFi0]; exact LocalLip.zero, (UL.of_lip hF.localLip).smul _,
      UL.const 0, UL.const 0, t1, ?_, ?_, ?_, t3, fun _ => Or.inr (Or.inl hin), hinn⟩
    · refine Eventually.of_forall fun h x => ?_
      change xstarOf (d.at h) x = x + h • ((1 / 2 : ℝ) • d.F x)
      rw [C22_xstar]
      simp only [SiqnFamily.at, innerInc, hin, hsl, List.map_nil, List.sum_nil, applyAll, List.foldl_nil, ha, smul_zero, add_zero]
      module
    · exact Eventually.of_forall fun h x => by simp [SiqnFamily.at, hfa, applyAll]
    · exact Eventually.of_forall fun h x => by simp [SiqnFamily.at, hin, innerInc]
  obtain ⟨m, hm⟩ : ∃ m, d.numOuter = m + 1 := ⟨d.numOuter - 1, by omega⟩
  obtain ⟨r, hr, hri, hrn⟩ := outer_second hparts ha hau hFi hF hG t2 hnon m (by omega)
  set f' : (∀ i, V i) → (∀ i, V i) →L[ℝ] (∀ i, V i) := fun x => F' x + (G' (x d.u, x)).comp
    ((ContinuousLinearMap.proj (R := ℝ) (φ := V) d.u).prod (ContinuousLinearMap.id ℝ _)) with hf'
  have hsm : LocalSmooth (fun x => d.F x + G (x d.u, x)) f' := by
    have hpr : ∀ x : ∀ i, V i, HasFDerivAt (fun x : ∀ i, V i => (x d.u, x))
        ((ContinuousLinearMap.proj (R := ℝ) (φ := V) d.u).prod (ContinuousLinearMap.id ℝ _)) x := fun x =>
      ((ContinuousLinearMap.proj (R := ℝ) (φ := V) d.u).prod (ContinuousLinearMap.id ℝ (∀ i, V i))).hasFDerivAt
    refine ⟨fun x => (hF.deriv x).add (HasFDerivAt.comp (f := fun x : ∀ i, V i => (x d.u, x)) x (hG.deriv (x d.u, x)) (hpr x)), ?_⟩
    refine hF.lip.add fun B => ?_
    obtain ⟨c, c0, hc⟩ := hG.lip B
    set P := (ContinuousLinearMap.proj (R := ℝ) (φ := V) d.u).prod (ContinuousLinearMap.id ℝ (∀ i, V i)) with hP
    refine ⟨c * ‖P‖, by positivity, fun x z hx hz => ?_⟩
    have n1 : ∀ w : ∀ i, V i, ‖(w d.u, w)‖ = ‖w‖ := fun w => by
      rw [Prod.norm_def]; exact max_eq_right (norm_le_pi_norm w d.u)
    have h1 := hc (x d.u, x) (z d.u, z) (by rwa [n1]) (by rwa [n1])
    have e : ((x d.u, x) - (z d.u, z) : V d.u × (∀ i, V i)) = ((x - z) d.u, x - z) := rfl
    rw [e, n1] at h1
    rw [← ContinuousLinearMap.sub_comp]
    refine (ContinuousLinearMap.opNorm_comp_le _ _).trans ?_
    calc _ ≤ c * ‖x - z‖ * ‖P‖ := mul_le_mul_of_nonneg_right h1 (norm_nonneg _)
      _ = _ := by ring
  have hstep : StepOf 2 d.step (fun h x => (d.F x + G (x d.u, x)) + (h / 2) • f' x (d.F x + G (x d.u, x))) := by
    refine ⟨r, hr, Near.pi fun i => ?_, ?_⟩
    · exact hrn i
    · filter_upwards [hri] with h e x
      have : d.step h x = (afterOuter d d.numOuter h x).2 := by
        simp [SiqnFamily.step, timestep, SiqnFamily.at, hfi, applyAll, afterOuter, outerLoop]
      rw [this, hm]
      exact e x
  exact hstep.converges2 hsm hT hy

/-! ### The ingredients in terms of the code -/

/-- C129: the forcing of a family is what `Forcing.apply` adds: for every labelled residual without hydrostatic terms, with `F` and `Fi`
minus the mass solves of its ordinary and of its always implicit terms. -/
theorem C129_forcing {D : Type*} [AddCommGroup D] [Module ℝ D] (R : LForm (∀ i, V i) D) (massSolve : D →ₗ[ℝ] (∀ i, V i))
    (d : SiqnFamily V) (hyd : ∀ x, hydro R x = 0) (hF : ∀ x, d.F x = - massSolve (ordinary R x))
    (hFi : ∀ x, d.Fi x = - massSolve (always R x)) (h : ℝ) (xin x : ∀ i, V i) :
    forcingApply massSolve (lExplicit R d.alpha h) xin x = xin + (d.at h).forceE x ∧
    forcingApply massSolve (lImplicit R d.alpha h) xin x = xin + (d.at h).forceI x := by
  obtain ⟨e1, e2⟩ := C22_forcing R d.alpha h x
  simp only [forcingApply, e1, e2, hyd, SiqnFamily.at, hF, hFi]
  refine ⟨?_, ?_⟩
  · simp only [map_add, map_smul, map_zero, add_zero, neg_smul, smul_neg, map_neg]
  · simp only [map_sub, map_smul, map_zero, sub_zero, neg_smul, smul_neg, map_neg]
    abel

/-- C129: what a scheme must do to be second order for a frozen velocity: Heun's method (`SSPRK2`, `Heun`) does it for every smooth
transport tendency, and forward Euler is first order. -/
theorem C129_transport_schemes {U : Type*} [NormedAddCommGroup U] [NormedSpace ℝ U] {G : U × (∀ i, V i) → ∀ i, V i}
    {G' : U × (∀ i, V i) → U × (∀ i, V i) →L[ℝ] (∀ i, V i)} (hG : LocalSmooth G G') (i : ι) :
    (∃ τ : ℝ → U × (∀ i, V i) → V i, UL τ ∧ Near 1 τ (fun _ z => G z i) ∧
      ∀ᶠ h in 𝓝[≥] (0 : ℝ), ∀ v x, (x + h • G (v, x)) i = x i + h • τ h (v, x)) ∧
    (∃ τ : ℝ → U × (∀ i, V i) → V i, UL τ ∧ Near 2 τ (fun h z => (G z + (h / 2) • G' z (0, G z)) i) ∧
      ∀ᶠ h in 𝓝[≥] (0 : ℝ), ∀ v x, (x + h • ((1 / 2 : ℝ) • (G (v, x) + G (v, x + h • G (v, x))))) i = x i + h • τ h (v, x)) := by
  have uG := UL.of_lip hG.localLip
  refine ⟨⟨fun _ z => G z i, uG.coord i, Near.refl _ _, Eventually.of_forall fun h v x => rfl⟩,
    ⟨fun h z => ((1 / 2 : ℝ) • (G z + G (z.1, z.2 + h • G z))) i, ?_, ?_, Eventually.of_forall fun h v x => rfl⟩⟩
  · have harg : UL (fun h (z : U × (∀ i, V i)) => (z.1, z.2 + h • G z)) :=
      UL.prod ((UL.id (E := U × (∀ i, V i))).clm (ContinuousLinearMap.fst ℝ U (∀ i, V i)))
        (((UL.id (E := U × (∀ i, V i))).clm (ContinuousLinearMap.snd ℝ U (∀ i, V i))).add uG.smulH)
    exact ((uG.add (uG.comp harg)).smul (1 / 2)).coord i
  · have hb : UL (fun (_ : ℝ) (z : U × (∀ i, V i)) => ((0, G z) : U × (∀ i, V i))) := UL.prod (UL.const 0) uG
    have t := Near.taylor hG UL.id hb
    have t' : Near 2 (fun h (z : U × (∀ i, V i)) => G (z.1, z.2 + h • G z)) (fun h z => G z + h • G' z (0, G z)) := by
      have e : ∀ (h : ℝ) (z : U × (∀ i, V i)), z + h • ((0, G z) : U × (∀ i, V i)) = (z.1, z.2 + h • G z) := by
        intro h z; ext1 <;> simp
      simp only [e] at t
      exact t
    have t2 := (((Near.refl 2 fun _ z => G z).add t').smul (1 / 2)).coord i
    refine t2.trans ?_
    have e : ∀ (h : ℝ) (z : U × (∀ i, V i)), (1 / 2 : ℝ) • (G z + (G z + h • G' z (0, G z))) = G z + (h / 2) • G' z (0, G z) := by
      intro h z; module
    simp only [e]
    exact Near.refl 2 _

/-! ### Cases -/

/-- A wind forced by one and a field transported with tendency `u`: `u' = 1`, `x' = u`. -/
noncomputable def ramp (n : ℕ) : SiqnFamily (fun _ : Fin 2 => ℝ) where
  u := 0
  inSolver := fun _ => true
  numOuter := n
  numInner := 2
  accelerator := true
  alpha := 1 / 2
  alphaU := 1 / 2
  beta := 1 / 2
  slow := []
  fast := []
  inner := []
  final := []
  F := fun _ i => if i = 0 then 1 else 0
  Fi := fun _ => 0
  transport := [([1], fun h v x i => if i = 1 then x i + h * v else x i)]
  solve := fun _ r => r

/-- Its transport tendency. -/
def rampG (z : ℝ × (Fin 2 → ℝ)) : Fin 2 → ℝ := fun i => if i = 1 then z.1 else 0

/-- Its solution from rest. -/
noncomputable def rampSol (t : ℝ) : Fin 2 → ℝ := fun i => if i = 0 then t else t ^ 2 / 2

/-- The derivative of `rampG`. -/
noncomputable def rampG' : ℝ × (Fin 2 → ℝ) →L[ℝ] (Fin 2 → ℝ) :=
  ContinuousLinearMap.pi fun i => if i = 1 then ContinuousLinearMap.fst ℝ ℝ (Fin 2 → ℝ) else 0

theorem rampG_eq (z : ℝ × (Fin 2 → ℝ)) : rampG z = rampG' z := by
  funext i
  simp only [rampG, rampG', ContinuousLinearMap.pi_apply]
  split_ifs <;> simp

theorem rampG_smooth : LocalSmooth rampG (fun _ => rampG') :=
  ⟨fun z => by
    have : rampG = fun z => rampG' z := funext rampG_eq
    rw [this]; exact rampG'.hasFDerivAt, fun B => ⟨0, le_rfl, by simp⟩⟩

theorem ramp_solves (n : ℕ) : SolvesLinear (ramp n) := by
  refine ⟨fun _ => ContinuousLinearEquiv.refl ℝ ℝ, fun _ => 0, fun _ => 0, fun _ => 0, Eventually.of_forall fun h r => ?_⟩
  funext i
  simp [ramp, linearForm, linearRhs, zeroNonPrognostics]

theorem ramp_advances (n : ℕ) : Advances 2 (ramp n) fun h z => rampG z + (h / 2) • rampG' (0, rampG z) := by
  refine ⟨fun s hs i hi => ?_, fun i hi h z => ?_⟩
  · simp only [ramp, List.mem_singleton] at hs
    subst hs
    simp only [List.mem_singleton] at hi
    subst hi
    refine ⟨fun _ z => z.1, UL.id.clm (ContinuousLinearMap.fst ℝ ℝ (Fin 2 → ℝ)), ?_, Eventually.of_forall fun h v x => by simp⟩
    have : ∀ (h : ℝ) (z : ℝ × (Fin 2 → ℝ)), (rampG z + (h / 2) • rampG' (0, rampG z)) 1 = z.1 := by
      intro h z; simp [rampG, rampG']
    have e : (fun (h : ℝ) (z : ℝ × (Fin 2 → ℝ)) => (rampG z + (h / 2) • rampG' (0, rampG z)) 1) = fun _ z => z.1 := by
      funext h z; exact this h z
    change Near 2 (fun (_ : ℝ) (z : ℝ × (Fin 2 → ℝ)) => z.1)
      (fun (h : ℝ) (z : ℝ × (Fin 2 → ℝ)) => (rampG z + (h / 2) • rampG' (0, rampG z)) 1)
    rw [e]
    exact Near.refl 2 _
  · have : i ≠ 1 := by
      intro h1
      exact hi _ List.mem_cons_self (by simp [h1])
    simp [rampG, rampG', this]

theorem ramp_sol (n : ℕ) (T : ℝ) : IsSol (fun x => (ramp n).F x + rampG (x (ramp n).u, x)) rampSol T := by
  intro t _
  refine HasDerivAt.hasDerivWithinAt (hasDerivAt_pi.2 fun i => ?_)
  by_cases hi : i = 0
  · subst hi
    simpa [rampSol, ramp, rampG] using hasDerivAt_id' t
  · have h1 : i = 1 := by omega
    subst h1
    have := ((hasDerivAt_id t).pow 2).div_const 2
    simpa [rampSol, ramp, rampG] using this

/-- The hypotheses of `C129_second_order` hold for `ramp` with two outer iterations. -/
example (T : ℝ) (hT : 0 ≤ T) : ∃ C h0 : ℝ, 0 < h0 ∧ ∀ h, 0 ≤ h → h ≤ h0 → ∀ N : ℕ, N * h ≤ T →
    ‖(ramp 2).run h N (rampSol 0) - rampSol (N * h)‖ ≤ C * h ^ 2 :=
  C129_second_order (ramp 2) le_rfl (by simp [ramp]) (ramp_solves 2) rfl rfl (fun _ => rfl) rfl rfl rfl rfl (fun _ => 0)
    ⟨fun x => hasFDerivAt_const _ _, fun B => ⟨0, le_rfl, by simp⟩⟩ rampG (fun _ => rampG') rampG_smooth (ramp_advances 2)
    (fun i hi => by simp [ramp] at hi) rampSol T hT (ramp_sol 2 T)

/-- The hypotheses of `C129_first_order` hold for `ramp` with one outer iteration and a slow physics scheme that forces the wind too:
`u' = 2`, `x' = u`. -/
example (T : ℝ) (hT : 0 ≤ T) : ∃ C h0 : ℝ, 0 < h0 ∧ ∀ h, 0 ≤ h → h ≤ h0 → ∀ N : ℕ, N * h ≤ T →
    ‖({ ramp 1 with slow := [fun h x i => if i = 0 then x i + h else x i] } : SiqnFamily (fun _ : Fin 2 => ℝ)).run h N (0 : Fin 2 → ℝ) -
      (fun i => if i = 0 then 2 * (N * h) else (N * h) ^ 2)‖ ≤ C * h := by
  have hc : LocalLip (fun _ : Fin 2 → ℝ => (fun i => if i = 0 then 1 else 0 : Fin 2 → ℝ)) := fun _ => ⟨0, le_rfl, by simp⟩
  have h1 := C129_first_order { ramp 1 with slow := [fun h x i => if i = 0 then x i + h else x i] } rampG
    [fun _ i => if i = 0 then 1 else 0] [] [] [] le_rfl (by simp [ramp]) (ramp_solves 1)
    (fun _ => ⟨0, le_rfl, by simp [ramp]⟩) (fun _ => ⟨0, le_rfl, by simp [ramp]⟩) rampG_smooth.localLip
    ⟨fun s hs i hi => by
      simp only [ramp, List.mem_singleton] at hs
      subst hs
      simp only [List.mem_singleton] at hi
      subst hi
      exact ⟨fun _ z => z.1, UL.id.clm (ContinuousLinearMap.fst ℝ ℝ (Fin 2 → ℝ)), Near.refl 1 _,
        Eventually.of_forall fun h v x => by simp⟩,
     fun i hi h z => by
      have : i ≠ 1 := fun h1 => hi _ List.mem_cons_self (by simp [h1])
      simp [rampG, this]⟩
    (List.Forall₂.cons ⟨hc, fun _ _ i => if i = 0 then 1 else 0, UL.of_lip hc, Near.refl 1 _, Eventually.of_forall fun h x => by
      funext i; by_cases hi : i = 0 <;> simp [hi]⟩ List.Forall₂.nil) List.Forall₂.nil List.Forall₂.nil List.Forall₂.nil
    (fun _ => Or.inr (Or.inl rfl)) (fun i hi => by simp [ramp] at hi)
    (fun t i => if i = 0 then 2 * t else t ^ 2) T hT (by
      intro t _
      refine HasDerivAt.hasDerivWithinAt (hasDerivAt_pi.2 fun i => ?_)
      by_cases hi : i = 0
      · subst hi
        have := (hasDerivAt_id' t).const_mul (2 : ℝ)
        have e : rhs { ramp 1 with slow := [fun h x i => if i = 0 then x i + h else x i] } rampG
            [fun _ i => if i = 0 then 1 else 0] [] [] [] (fun i => if i = 0 then 2 * t else t ^ 2) 0 = 2 * 1 := by
          simp [rhs, ramp, rampG, total]; norm_num
        rw [e]
        simpa using this
      · have h1 : i = 1 := by omega
        subst h1
        have := hasDerivAt_pow 2 t
        have e : rhs { ramp 1 with slow := [fun h x i => if i = 0 then x i + h else x i] } rampG
            [fun _ i => if i = 0 then 1 else 0] [] [] [] (fun i => if i = 0 then 2 * t else t ^ 2) 1 = 2 * t := by
          simp [rhs, ramp, rampG, total]
        rw [e]
        simpa using this)
  have e0 : (fun i : Fin 2 => if i = 0 then 2 * (0 : ℝ) else 0 ^ 2) = 0 := by funext i; simp
  simp only [e0] at h1
  exact h1

theorem ramp_step_one (h : ℝ) (x : Fin 2 → ℝ) : (ramp 1).step h x = fun i => if i = 0 then x 0 + h else x 1 + h * x 0 := by
  have hr : List.range 2 = [0, 1] := rfl
  funext i
  fin_cases i <;>
  · simp [SiqnFamily.step, timestep, SiqnFamily.at, ramp, applyAll, outerLoop, outerStep, transportFields, xstarOf, ubar, copyTracers, hr,
      innerStep, xrhsOf]
    try ring

theorem ramp_run_one (h : ℝ) (N : ℕ) : (ramp 1).run h N (rampSol 0) = fun i => if i = 0 then N * h else
    (N * h) ^ 2 / 2 - N * h ^ 2 / 2 := by
  induction N with
  | zero => funext i; simp [SiqnFamily.run, rampSol]
  | succ N ih =>
    have : (ramp 1).run h (N + 1) (rampSol 0) = (ramp 1).step h ((ramp 1).run h N (rampSol 0)) := by
      rw [SiqnFamily.run, Function.iterate_succ_apply']; rfl
    rw [this, ih, ramp_step_one]
    funext i
    by_cases hi : i = 0
    · simp [hi]; ring
    · simp [hi]; ring

/-- C129 is false at the second order with one outer iteration, however centred the weights are: the transporting velocity is then the
old wind, and the error after a fixed time is `T h / 2`. -/
theorem C129_one_outer_refuted : ¬ ∃ C h0 : ℝ, 0 < h0 ∧ ∀ h, 0 ≤ h → h ≤ h0 → ∀ N : ℕ, N * h ≤ 1 →
    ‖(ramp 1).run h N (rampSol 0) - rampSol (N * h)‖ ≤ C * h ^ 2 := by
  rintro ⟨C, h0, hh0, hall⟩
  obtain ⟨N, hN⟩ := exists_nat_gt (max (1 / h0) (2 * |C| + 1))
  have hN0 : (0 : ℝ) < N := lt_of_lt_of_le (by positivity) (((le_max_right _ _).trans hN.le))
  have h1 : (1 : ℝ) / N ≤ h0 := by
    have := (le_max_left _ _).trans hN.le
    rw [div_le_iff₀ hh0] at this
    rw [div_le_iff₀ hN0]; linarith
  have h2 := hall (1 / N) (by positivity) h1 N (by field_simp; exact le_rfl)
  have h3 := (norm_le_pi_norm _ (1 : Fin 2)).trans h2
  rw [ramp_run_one] at h3
  simp only [Pi.sub_apply, rampSol, show (1 : Fin 2) ≠ 0 by decide, if_false, Real.norm_eq_abs] at h3
  have e : ((N : ℝ) * (1 / N)) ^ 2 / 2 - N * (1 / N) ^ 2 / 2 - ((N : ℝ) * (1 / N)) ^ 2 / 2 = -(1 / (2 * N)) := by field_simp; ring
  rw [e, abs_neg, abs_of_pos (by positivity)] at h3
  have h4 : (2 * |C| + 1 : ℝ) < N := (le_max_right _ _).trans_lt hN
  have h5 : C * (1 / (N : ℝ)) ^ 2 ≤ |C| * (1 / (N : ℝ)) ^ 2 := mul_le_mul_of_nonneg_right (le_abs_self C) (by positivity)
  have h6 : 1 / (2 * (N : ℝ)) ≤ |C| * (1 / (N : ℝ)) ^ 2 := h3.trans h5
  rw [div_pow, one_pow, mul_one_div, div_le_div_iff₀ (by positivity) (by positivity)] at h6
  nlinarith

/-- A field outside the solver with a constant forcing. -/
noncomputable def outside (α : ℝ) (n k : ℕ) : SiqnFamily (fun _ : Fin 2 => ℝ) where
  u := 0
  inSolver := fun i => decide (i = 0)
  numOuter := n
  numInner := k
  accelerator := false
  alpha := α
  alphaU := 1 / 2
  beta := 0
  slow := []
  fast := []
  inner := []
  final := []
  F := fun _ i => if i = 1 then 1 else 0
  Fi := fun _ => 0
  transport := []
  solve := fun _ r => zeroNonPrognostics (fun i => decide (i = 0)) r

/-- C129 is false for a field outside the solver with a forcing: it only gets the explicit part of it, `(1 - alpha)` of the whole, at
every timestep and with any numbers of iterations. -/
theorem C129_outside_solver_refuted (α h : ℝ) (n k N : ℕ) (x : Fin 2 → ℝ) :
    (outside α (n + 1) k).run h N x 1 = x 1 + (1 - α) * (N * h) := by
  have hstep : ∀ x : Fin 2 → ℝ, (outside α (n + 1) k).step h x 1 = x 1 + (1 - α) * h := by
    intro x
    set d := outside α (n + 1) k with hd
    have : (outerLoop (d.at h) x x).2 1 = xstarOf (d.at h) x 1 := by
      rw [outerLoop, show (d.at h).numOuter = n + 1 from rfl, Function.iterate_succ_apply', C22_nonsolver_copied _ _ _ _ 1 rfl
        (fun _ => rfl)]
      exact xp_invariant (d.at h) x x n 1 (fun s hs => nomatch (show s ∈ [] from hs))
    rw [SiqnFamily.step, timestep]
    change (outerLoop (d.at h) x x).2 1 = _
    rw [this, C22_xstar]
    simp [hd, outside, SiqnFamily.at, applyAll, innerInc]
  induction N with
  | zero => simp [SiqnFamily.run]
  | succ N ih =>
    have : (outside α (n + 1) k).run h (N + 1) x = (outside α (n + 1) k).step h ((outside α (n + 1) k).run h N x) := by
      rw [SiqnFamily.run, Function.iterate_succ_apply']; rfl
    rw [this, hstep, ih]
    push_cast
    ring

end Gusto.Props.SiqnConvergenceProps
