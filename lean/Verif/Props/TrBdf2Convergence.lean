import Verif.Lemmas.TrBdf2Convergence

set_option autoImplicit false
set_option linter.unusedSectionVars false
set_option linter.unusedSimpArgs false

/-!
# C130: the TR-BDF2 quasi-Newton timestepper converges
-/

namespace Gusto.Props.TrBdf2ConvergenceProps
open Topology Filter Gusto.Convergence Gusto.QN Gusto.Props.QNProps Gusto.SiqnConv Gusto.Props.SiqnConvergenceProps Gusto.TrBdf2Conv

variable {ι : Type*} [Fintype ι] [DecidableEq ι] {V : ι → Type*} [∀ i, NormedAddCommGroup (V i)] [∀ i, NormedSpace ℝ (V i)]

/-! ### What is asked of the ingredients -/

/-- Each transport scheme adds `h A(v, x)` to the fields it advances, up to `O(h^(p+1))`, for every transporting velocity `v`; fields
without a transport scheme have no transport tendency. -/
structure Moves (p : ℕ) (d : TrBdf2Family V) (A : ℝ → V d.u × (∀ i, V i) → ∀ i, V i) : Prop where
  schemes : ∀ s ∈ d.transport, ∀ i ∈ s.1, ∃ τ : ℝ → V d.u × (∀ i, V i) → V i, UL τ ∧ Near p τ (fun h z => A h z i) ∧
    ∀ᶠ h in 𝓝[≥] (0 : ℝ), ∀ v x, s.2 h v x i = x i + h • τ h (v, x)
  others : ∀ i, (∀ s ∈ d.transport, i ∉ s.1) → ∀ h z, A h z i = 0

/-- A linear solver solves the system assembled by the code for all small timesteps, with invertible mass and bounded linearised
operators, for the fields that are not copied as tracers. -/
def SolvesFor (d : TrBdf2Family V) (S : ℝ → (∀ i, V i) → ∀ i, V i) : Prop :=
  ∃ (mass : ∀ i, V i ≃L[ℝ] V i) (lin linImp : ∀ i, (∀ j, V j) →L[ℝ] V i) (tau : ι → ℝ), ∀ᶠ h in 𝓝[≥] (0 : ℝ),
    Solves (fun i => !d.copied i) (fun i => mass i) (fun i => lin i) (fun i => linImp i) tau h (S h)

theorem SolvesFor.ok {d : TrBdf2Family V} {S : ℝ → (∀ i, V i) → ∀ i, V i} (h : SolvesFor d S) : SolverOK (fun i => !d.copied i) S := by
  obtain ⟨mass, lin, linImp, tau, hs⟩ := h
  exact solver_ok _ mass lin linImp tau _ hs

theorem moves_parts {p : ℕ} {d : TrBdf2Family V} {A : ℝ → V d.u × (∀ i, V i) → ∀ i, V i} (hA : Moves p d A) :
    ∃ τ : ℝ → V d.u × (∀ i, V i) → ∀ i, V i, UL τ ∧ Near p τ A ∧
      ∀ᶠ h in 𝓝[≥] (0 : ℝ), ∀ v x, transported (d.at h).transport v x = x + h • τ h (v, x) :=
  transport_parts (d := { trFam d with transport := d.transport }) ⟨hA.schemes, hA.others⟩

/-! ### Convergence -/

/-- C130: **the TR-BDF2 quasi-Newton timestepper converges with the first order**, for every `gamma` in `(0, 1/2]`, any numbers of
iterations and any lists of first-order transport and physics schemes, on every interval on which the equation has a solution; but the
equation has its slow physics multiplied by `gamma3`.  Every field must have a transport scheme unless there is one outer iteration of
the BDF stage (see the refutation). -/
theorem C130_first_order (d : TrBdf2Family V) (G : V d.u × (∀ i, V i) → ∀ i, V i) (gS gE : List ((∀ i, V i) → ∀ i, V i))
    (hg0 : 0 < d.gamma) (hg1 : d.gamma ≤ 1 / 2) (ht1 : 1 ≤ d.nOuterTr) (ht2 : 1 ≤ d.nInnerTr) (hb1 : 1 ≤ d.nOuterBdf)
    (hb2 : 1 ≤ d.nInnerBdf) (hall : (∀ i, ∃ s ∈ d.transport, i ∈ s.1) ∨ d.nOuterBdf = 1)
    (hst : SolvesFor d d.trSolve) (hsb : SolvesFor d d.bdfSolve)
    (hF : LocalLip d.F) (hFi : LocalLip d.Fi) (hG : LocalLip G) (hh : Homogeneous G) (htr : Moves 1 d fun _ => G)
    (hS : Treats d.slow gS) (hE : Treats d.final gE)
    (hnon : ∀ i, d.copied i = true → ∀ x, d.F x i = 0 ∧ d.Fi x i = 0)
    (y : ℝ → ∀ i, V i) (T : ℝ) (hT : 0 ≤ T)
    (hy : IsSol (fun x => d.F x + d.Fi x + G (x d.u, x) + gamma3 d.gamma • total gS x + total gE x) y T) :
    ∃ C h0 : ℝ, 0 < h0 ∧ ∀ h, 0 ≤ h → h ≤ h0 → ∀ N : ℕ, N * h ≤ T → ‖d.run h N (y 0) - y (N * h)‖ ≤ C * h := by
  obtain ⟨τ, t1, t2, t3⟩ := moves_parts htr
  obtain ⟨σ, s1, s2, s3⟩ := applyAll_step hS
  have lS := total_lip hS
  have lE := total_lip hE
  have hparts := tr_parts hst.ok hF hFi t1 s1 t3 s3 ht2
  have h2g : (0 : ℝ) ≤ 2 * d.gamma := by linarith
  have lGt : LocalLip (fun z : V d.u × (∀ i, V i) => (2 * d.gamma) • G z) := hG.smul _
  have hτt : Near 1 (tauTr d τ) (fun _ z => (2 * d.gamma) • G z) := by
    have := t2.comp_left (UL.scaled (2 * d.gamma))
    simp only [hh _ h2g] at this
    exact this
  obtain ⟨rm, hrm, hrmi, hrmn⟩ := outer_first (d := trFam d) hparts
    (s1 := fun x => total gS x + (1 / 2 : ℝ) • (2 * d.gamma) • d.F x) (k1 := fun _ => 0) (i1 := fun _ => 0)
    (G := fun z => (2 * d.gamma) • G z)
    (s2.add (Near.refl 1 fun _ x => (1 / 2 : ℝ) • (2 * d.gamma) • d.F x)) (Near.refl _ _) (Near.refl _ _) hτt
    (lS.add ((hF.smul _).smul _)) LocalLip.zero LocalLip.zero lGt
    (fun i hi x => by
      obtain ⟨a, b⟩ := hnon i (by simpa [trFam] using hi) x
      simp [trFam, a, b]) d.nOuterTr
  have hr1 : Near 1 rm fun _ x => total gS x + (2 * d.gamma) • (d.F x + d.Fi x + G (x d.u, x)) := by
    refine Near.pi fun i => ?_
    have := hrmn ht1 i
    have e : ∀ x, rhs0 (trFam d) (fun x => total gS x + (1 / 2 : ℝ) • (2 * d.gamma) • d.F x) (fun _ => 0) (fun _ => 0)
        (fun z => (2 * d.gamma) • G z) x = total gS x + (2 * d.gamma) • (d.F x + d.Fi x + G (x d.u, x)) := by
      intro x
      simp only [rhs0, trFam, smul_zero, add_zero]
      module
    simp only [e] at this
    exact this
  have hm : Inc (fun h x => trStage (d.at h) x) rm := by
    filter_upwards [hrmi] with h e x
    rw [tr_stage]; exact e x
  obtain ⟨r, hr, hri, hrn⟩ := bdf_first hg0 hg1 hsb.ok hF hFi hG lS hh t1 hrm t2 hr1 t3 hm hb2 hnon d.nOuterBdf
    (hall.imp_right fun h => by omega)
  have hstep0 : StepOf 1 (fun h x => (afterBdf d d.nOuterBdf h x).x) (fun _ => rhsB d (total gS) G) :=
    ⟨r, hr, Near.pi fun i => hrn hb1 i, hri⟩
  have hstep : StepOf 1 (fun h x => trBdf2Step (d.at h) x) (fun _ x => rhsB d (total gS) G x + total gE x) :=
    StepOf.comp (f := rhsB d (total gS) G) (φ := fun h x => (afterBdf d d.nOuterBdf h x).x) lE hstep0 (applyAll_step hE)
  have hlip : LocalLip (fun x => rhsB d (total gS) G x + total gE x) :=
    (((hF.add hFi).add (LocalLip.diag (d := d) hG)).add (lS.smul _)).add lE
  exact hstep.converges1 hlip hT hy

/-- C130: **without physics the timestepper converges with the second order** with at least two outer iterations of each stage, for
every `gamma` in `(0, 1/2]`, if every field has a transport scheme and the schemes are of the second order for a frozen transporting
velocity. -/
theorem C130_second_order (d : TrBdf2Family V) (hg0 : 0 < d.gamma) (hg1 : d.gamma ≤ 1 / 2) (ht1 : 2 ≤ d.nOuterTr)
    (ht2 : 1 ≤ d.nInnerTr) (hb1 : 2 ≤ d.nOuterBdf) (hb2 : 1 ≤ d.nInnerBdf) (hall : ∀ i, ∃ s ∈ d.transport, i ∈ s.1)
    (hst : SolvesFor d d.trSolve) (hsb : SolvesFor d d.bdfSolve) (hFi : ∀ x, d.Fi x = 0) (hsl : d.slow = []) (hfi : d.final = [])
    (F' : (∀ i, V i) → (∀ i, V i) →L[ℝ] (∀ i, V i)) (hF : LocalSmooth d.F F')
    (G : V d.u × (∀ i, V i) → ∀ i, V i) (G' : V d.u × (∀ i, V i) → V d.u × (∀ i, V i) →L[ℝ] (∀ i, V i)) (hG : LocalSmooth G G')
    (hh : Homogeneous G) (htr : Moves 2 d fun h z => G z + (h / 2) • G' z (0, G z))
    (hnon : ∀ i, d.copied i = true → ∀ x, d.F x i = 0)
    (y : ℝ → ∀ i, V i) (T : ℝ) (hT : 0 ≤ T) (hy : IsSol (fun x => d.F x + G (x d.u, x)) y T) :
    ∃ C h0 : ℝ, 0 < h0 ∧ ∀ h, 0 ≤ h → h ≤ h0 → ∀ N : ℕ, N * h ≤ T → ‖d.run h N (y 0) - y (N * h)‖ ≤ C * h ^ 2 := by
  obtain ⟨τ, t1, t2, t3⟩ := moves_parts htr
  have h2g : (0 : ℝ) ≤ 2 * d.gamma := by linarith
  have hFi0 : d.Fi = fun _ => 0 := funext hFi
  have lFi : LocalLip d.Fi := by rw [hFi0]; exact LocalLip.zero
  have hparts0 := tr_parts (σ := fun _ _ => 0) hst.ok hF.localLip lFi t1 (UL.const 0) t3
    (Eventually.of_forall fun h x => by simp [hsl, applyAll]) ht2
  have hparts : Parts (trFam d) (fun _ x => (1 / 2 : ℝ) • (trFam d).F x) (fun _ _ => 0) (fun _ _ => 0) (tauTr d τ) := by
    simpa [trFam] using hparts0
  have hFt : LocalSmooth (trFam d).F (fun x => (2 * d.gamma) • F' x) :=
    ⟨fun x => (hF.deriv x).const_smul (2 * d.gamma), hF.lip.smul _⟩
  have hGt : LocalSmooth (fun z : V d.u × (∀ i, V i) => (2 * d.gamma) • G z) (fun z => (2 * d.gamma) • G' z) :=
    ⟨fun z => (hG.deriv z).const_smul (2 * d.gamma), hG.lip.smul _⟩
  have hτt : Near 2 (tauTr d τ) (fun h z => (2 * d.gamma) • G z + (h / 2) • ((2 * d.gamma) • G' z) (0, (2 * d.gamma) • G z)) := by
    have := t2.comp_left (UL.scaled (2 * d.gamma))
    have e : ∀ (z : V d.u × (∀ i, V i)) (w : ∀ i, V i), G' ((2 * d.gamma) • z.1, z.2) (0, w) = ((2 * d.gamma) • G' z) (0, w) := by
      intro z w
      have := hh.deriv hG h2g z.1 0 z.2 w
      rw [smul_zero] at this
      exact this
    simp only [hh _ h2g, e] at this
    exact this
  obtain ⟨mt, hmt⟩ : ∃ m, d.nOuterTr = m + 1 := ⟨d.nOuterTr - 1, by omega⟩
  obtain ⟨mb, hmb⟩ : ∃ m, d.nOuterBdf = m + 1 := ⟨d.nOuterBdf - 1, by omega⟩
  obtain ⟨rm, hrm, hrmi, hrmn⟩ := outer_second (d := trFam d) hparts rfl rfl (fun x => by simp [trFam, hFi]) hFt hGt hτt
    (fun i hi x => by simp [trFam, hnon i (by simpa [trFam] using hi) x]) mt (by omega)
  have hr2 : Near 2 rm fun h x => (2 * d.gamma) • (d.F x + G (x d.u, x)) +
      (h / 2) • (2 * d.gamma) • (2 * d.gamma) • slope d F' G G' x := by
    refine Near.pi fun i => (hrmn i).trans ?_
    have e : ∀ (h : ℝ) (x : ∀ i, V i), ((trFam d).F x + (2 * d.gamma) • G (x (trFam d).u, x) +
        (h / 2) • (((2 * d.gamma) • F' x) ((trFam d).F x + (2 * d.gamma) • G (x (trFam d).u, x)) +
        ((2 * d.gamma) • G' (x (trFam d).u, x)) (((trFam d).F x + (2 * d.gamma) • G (x (trFam d).u, x)) (trFam d).u,
          (trFam d).F x + (2 * d.gamma) • G (x (trFam d).u, x)))) =
        (2 * d.gamma) • (d.F x + G (x d.u, x)) + (h / 2) • (2 * d.gamma) • (2 * d.gamma) • slope d F' G G' x := by
      intro h x
      have e1 : (trFam d).F x + (2 * d.gamma) • G (x (trFam d).u, x) = (2 * d.gamma) • (d.F x + G (x d.u, x)) := by
        simp only [trFam, smul_add]
      have e2 : (((2 * d.gamma) • (d.F x + G (x d.u, x))) d.u, (2 * d.gamma) • (d.F x + G (x d.u, x))) =
          (2 * d.gamma) • ((d.F x + G (x d.u, x)) d.u, d.F x + G (x d.u, x)) := rfl
      rw [e1]
      change _ + (h / 2) • (((2 * d.gamma) • F' x) ((2 * d.gamma) • (d.F x + G (x d.u, x))) +
        ((2 * d.gamma) • G' (x d.u, x)) (((2 * d.gamma) • (d.F x + G (x d.u, x))) d.u, (2 * d.gamma) • (d.F x + G (x d.u, x)))) = _
      rw [e2, map_smul, map_smul, TrBdf2Conv.slope]
      simp only [ContinuousLinearMap.smul_apply, smul_add]
    have e' : (fun (h : ℝ) (x : ∀ i, V i) => ((trFam d).F x + (2 * d.gamma) • G (x (trFam d).u, x) +
        (h / 2) • (((2 * d.gamma) • F' x) ((trFam d).F x + (2 * d.gamma) • G (x (trFam d).u, x)) +
        ((2 * d.gamma) • G' (x (trFam d).u, x)) (((trFam d).F x + (2 * d.gamma) • G (x (trFam d).u, x)) (trFam d).u,
          (trFam d).F x + (2 * d.gamma) • G (x (trFam d).u, x)))) i) = fun (h : ℝ) (x : ∀ i, V i) =>
        ((2 * d.gamma) • (d.F x + G (x d.u, x)) + (h / 2) • (2 * d.gamma) • (2 * d.gamma) • slope d F' G G' x) i := by
      funext h x; exact congrFun (e h x) i
    rw [← e']
    exact Near.refl 2 _
  have hm : Inc (fun h x => trStage (d.at h) x) rm := by
    filter_upwards [hrmi] with h e x
    rw [tr_stage, hmt]; exact e x
  obtain ⟨r, hr, hri, hrn⟩ := bdf_second hG hF hFi hg0 hg1 hsb.ok hh t1 hrm t2 hr2 t3 hm hb2 hnon mb (by omega) hall
  set f' : (∀ i, V i) → (∀ i, V i) →L[ℝ] (∀ i, V i) := fun x => F' x + (G' (x d.u, x)).comp
    ((ContinuousLinearMap.proj (R := ℝ) (φ := V) d.u).prod (ContinuousLinearMap.id ℝ _)) with hf'
  have hsm : LocalSmooth (fun x => d.F x + G (x d.u, x)) f' := by
    have hpr : ∀ x : ∀ i, V i, HasFDerivAt (fun x : ∀ i, V i => (x d.u, x))
        ((ContinuousLinearMap.proj (R := ℝ) (φ := V) d.u).prod (ContinuousLinearMap.id ℝ _)) x := fun x =>
      ((ContinuousLinearMap.proj (R := ℝ) (φ := V) d.u).prod (ContinuousLinearMap.id ℝ (∀ i, V i))).hasFDerivAt
    refine ⟨fun x => (hF.deriv x).add (HasFDerivAt.comp (f := fun x : ∀ i, V i => (x d.u, x)) x (hG.deriv (x d.u, x)) (hpr x)), ?_⟩
    refine hF.lip.add fun B => ?_
    obtain ⟨c, c0, hc⟩ := hG.lip B
    set P := (ContinuousLinearMap.proj (R := ℝ) (φ := V) d.u).prod (ContinuousLinearMap.id ℝ (∀ i, V i)) with hP
    refine ⟨c * ‖P‖, by positivity, fun x z hx hz => ?_⟩
    have n1 : ∀ w : ∀ i, V i, ‖(w d.u, w)‖ = ‖w‖ := fun w => by
      rw [Prod.norm_def]; exact max_eq_right (norm_le_pi_norm w d.u)
    have h1 := hc (x d.u, x) (z d.u, z) (by rwa [n1]) (by rwa [n1])
    have e : ((x d.u, x) - (z d.u, z) : V d.u × (∀ i, V i)) = ((x - z) d.u, x - z) := rfl
    rw [e, n1] at h1
    rw [← ContinuousLinearMap.sub_comp]
    refine (ContinuousLinearMap.opNorm_comp_le _ _).trans ?_
    calc _ ≤ c * ‖x - z‖ * ‖P‖ := mul_le_mul_of_nonneg_right h1 (norm_nonneg _)
      _ = _ := by ring
  have hstep : StepOf 2 (fun h x => trBdf2Step (d.at h) x)
      (fun h x => (d.F x + G (x d.u, x)) + (h / 2) • f' x (d.F x + G (x d.u, x))) := by
    refine ⟨r, hr, Near.pi fun i => ?_, ?_⟩
    · exact hrn i
    · filter_upwards [hri] with h e x
      have : trBdf2Step (d.at h) x = (afterBdf d d.nOuterBdf h x).x := by
        simp [trBdf2Step, TrBdf2Family.at, hfi, applyAll, afterBdf, bdfStage]
      rw [this, hmb]
      exact e x
  exact hstep.converges2 hsm hT hy

/-! ### Cases -/

/-- A wind forced by one and a field transported with tendency `u`: `u' = 1`, `x' = u`, with `nt` and `nb` outer iterations. -/
noncomputable def ramp (g : ℝ) (nt nb : ℕ) : TrBdf2Family (fun _ : Fin 2 => ℝ) where
  gamma := g
  u := 0
  copied := fun _ => false
  nOuterTr := nt
  nInnerTr := 2
  nOuterBdf := nb
  nInnerBdf := 2
  slow := []
  final := []
  F := fun _ i => if i = 0 then 1 else 0
  Fi := fun _ => 0
  transport := [([0, 1], fun h v x i => if i = 1 then x i + h * v else x i)]
  trSolve := fun _ r => r
  bdfSolve := fun _ r => r

theorem ramp_solves (g : ℝ) (nt nb : ℕ) : SolvesFor (ramp g nt nb) fun _ r => r := by
  refine ⟨fun _ => ContinuousLinearEquiv.refl ℝ ℝ, fun _ => 0, fun _ => 0, fun _ => 0, Eventually.of_forall fun h r => ?_⟩
  funext i
  simp [ramp, linearForm, linearRhs, zeroNonPrognostics]

theorem ramp_all (g : ℝ) (nt nb : ℕ) (i : Fin 2) : ∃ s ∈ (ramp g nt nb).transport, i ∈ s.1 :=
  ⟨_, List.mem_cons_self, by fin_cases i <;> simp⟩

theorem rampG_hom : Homogeneous rampG := fun c _ v x => by
  funext i
  simp only [rampG, Pi.smul_apply, smul_eq_mul]
  split_ifs <;> simp

theorem ramp_moves (g : ℝ) (nt nb : ℕ) : Moves 2 (ramp g nt nb) fun h z => rampG z + (h / 2) • rampG' (0, rampG z) := by
  refine ⟨fun s hs i hi => ?_, fun i hi h z => ?_⟩
  · simp only [ramp, List.mem_singleton] at hs
    subst hs
    refine ⟨fun _ z => rampG z i, (UL.of_lip rampG_smooth.localLip).coord i, ?_, Eventually.of_forall fun h v x => ?_⟩
    · have e : (fun (h : ℝ) (z : ℝ × (Fin 2 → ℝ)) => (rampG z + (h / 2) • rampG' (0, rampG z)) i) = fun _ z => rampG z i := by
        funext h z
        by_cases h1 : i = 1 <;> simp [rampG, rampG', h1]
      change Near 2 (fun (_ : ℝ) (z : ℝ × (Fin 2 → ℝ)) => rampG z i)
        (fun (h : ℝ) (z : ℝ × (Fin 2 → ℝ)) => (rampG z + (h / 2) • rampG' (0, rampG z)) i)
      rw [e]
      exact Near.refl 2 _
    · by_cases h1 : i = 1 <;> simp [rampG, h1]
  · obtain ⟨s, hs, his⟩ := ramp_all g nt nb i
    exact absurd his (hi s hs)

theorem ramp_sol (g : ℝ) (nt nb : ℕ) (T : ℝ) :
    IsSol (fun x => (ramp g nt nb).F x + rampG (x (ramp g nt nb).u, x)) rampSol T :=
  SiqnConvergenceProps.ramp_sol 1 T

/-- The hypotheses of `C130_second_order` hold for `ramp` with two outer iterations of each stage and any `gamma`. -/
example (g T : ℝ) (hg0 : 0 < g) (hg1 : g ≤ 1 / 2) (hT : 0 ≤ T) : ∃ C h0 : ℝ, 0 < h0 ∧ ∀ h, 0 ≤ h → h ≤ h0 → ∀ N : ℕ, N * h ≤ T →
    ‖(ramp g 2 2).run h N (rampSol 0) - rampSol (N * h)‖ ≤ C * h ^ 2 :=
  C130_second_order (ramp g 2 2) hg0 hg1 le_rfl (by simp [ramp]) le_rfl (by simp [ramp]) (ramp_all g 2 2) (ramp_solves g 2 2)
    (ramp_solves g 2 2) (fun _ => rfl) rfl rfl (fun _ => 0) ⟨fun x => hasFDerivAt_const _ _, fun B => ⟨0, le_rfl, by simp⟩⟩ rampG
    (fun _ => rampG') rampG_smooth rampG_hom (ramp_moves g 2 2) (fun i hi => by simp [ramp] at hi) rampSol T hT (ramp_sol g 2 2 T)

/-- The hypotheses of `C130_first_order` hold for `ramp` with one outer iteration of each stage. -/
example (g T : ℝ) (hg0 : 0 < g) (hg1 : g ≤ 1 / 2) (hT : 0 ≤ T) : ∃ C h0 : ℝ, 0 < h0 ∧ ∀ h, 0 ≤ h → h ≤ h0 → ∀ N : ℕ, N * h ≤ T →
    ‖(ramp g 1 1).run h N (rampSol 0) - rampSol (N * h)‖ ≤ C * h :=
  C130_first_order (ramp g 1 1) rampG [] [] hg0 hg1 le_rfl (by simp [ramp]) le_rfl (by simp [ramp]) (Or.inl (ramp_all g 1 1))
    (ramp_solves g 1 1) (ramp_solves g 1 1) (fun _ => ⟨0, le_rfl, by simp [ramp]⟩) (fun _ => ⟨0, le_rfl, by simp [ramp]⟩)
    rampG_smooth.localLip rampG_hom
    ⟨fun s hs i hi => by
      simp only [ramp, List.mem_singleton] at hs
      subst hs
      exact ⟨fun _ z => rampG z i, (UL.of_lip rampG_smooth.localLip).coord i, Near.refl 1 _, Eventually.of_forall fun h v x => by
        by_cases h1 : i = 1 <;> simp [rampG, h1]⟩,
     fun i hi => by
      obtain ⟨s, hs, his⟩ := ramp_all g 1 1 i
      exact absurd his (hi s hs)⟩
    List.Forall₂.nil List.Forall₂.nil (fun i hi => by simp [ramp] at hi) rampSol T hT (by
      have := ramp_sol g 1 1 T
      simpa [total, show ∀ x, (ramp g 1 1).Fi x = 0 from fun _ => rfl] using this)

/-! ### What fails -/

/-- C130: the slow physics is counted with the weight one only for `gamma = 1/2`; for the default `gamma = 1 - sqrt(2)/2` with the weight
`(1 + sqrt 2)/2`. -/
theorem C130_slow_weight_refuted (g : ℝ) (h0 : 0 < g) (h1 : g ≤ 1 / 2) :
    (gamma3 g = 1 ↔ g = 1 / 2) ∧ gamma3 (1 - Real.sqrt 2 / 2) = (1 + Real.sqrt 2) / 2 := by
  obtain ⟨-, e3, e4, e5⟩ := gammas h0 h1
  constructor
  · rw [e3, div_eq_one_iff_eq (mul_ne_zero (mul_ne_zero four_ne_zero e4) e5)]
    constructor
    · intro h
      nlinarith [sq_nonneg (2 * g - 1)]
    · rintro rfl; norm_num
  · have hs : Real.sqrt 2 ^ 2 = 2 := Real.sq_sqrt (by norm_num)
    have h2 : Real.sqrt 2 < 2 := by nlinarith [Real.sqrt_nonneg 2]
    have h3 : 1 < Real.sqrt 2 := by nlinarith [Real.sqrt_nonneg 2]
    obtain ⟨-, e, -, -⟩ := gammas (g := 1 - Real.sqrt 2 / 2) (by linarith) (by linarith)
    rw [e, div_eq_div_iff (by nlinarith) two_ne_zero]
    nlinarith

/-- One field with a constant forcing and no transport scheme. -/
noncomputable def still (g : ℝ) (nt nb : ℕ) : TrBdf2Family (fun _ : Unit => ℝ) where
  gamma := g
  u := ()
  copied := fun _ => false
  nOuterTr := nt
  nInnerTr := 2
  nOuterBdf := nb
  nInnerBdf := 2
  slow := []
  final := []
  F := fun _ _ => 1
  Fi := fun _ => 0
  transport := []
  trSolve := fun _ r => r
  bdfSolve := fun _ r => r

theorem still_tr (g h : ℝ) (nt nb : ℕ) (x : Unit → ℝ) : trStage ((still g (nt + 1) nb).at h) x = fun _ => x () + 2 * g * h := by
  have hr : List.range 2 = [0, 1] := rfl
  have key : ∀ n s, s.1 = x + ((still g (nt + 1) nb).at h).trE x →
      ((trOuter ((still g (nt + 1) nb).at h) x (x + ((still g (nt + 1) nb).at h).trE x))^[n + 1] s).2 = fun _ => x () + 2 * g * h := by
    intro n
    induction n with
    | zero =>
      intro s hs
      funext i
      simp [trOuter, still, TrBdf2Family.at, transportFields, trInner, copyTracers, hr] at hs ⊢
      rw [hs]
      simp
      ring
    | succ n ih =>
      intro s hs
      rw [Function.iterate_succ_apply]
      exact ih _ (by simpa [trOuter, still, TrBdf2Family.at, transportFields] using hs)
  exact key nt _ rfl

/-- C130 is false for a field that is forced but has no transport scheme, as in a linear model, with two or more outer iterations of the
BDF stage: with a forcing of one it grows by `2 gamma (1 - (1 - gamma3)^n) + gamma2` per unit of time at every timestep. -/
theorem C130_untransported_refuted (g h : ℝ) (nt nb N : ℕ) (x : Unit → ℝ) :
    (still g (nt + 1) (nb + 1)).run h N x () = x () + (2 * g * (1 - (1 - gamma3 g) ^ (nb + 1)) + gamma2 g) * (N * h) := by
  have hr : List.range 2 = [0, 1] := rfl
  set d := still g (nt + 1) (nb + 1) with hd
  have hstep : ∀ x : Unit → ℝ, trBdf2Step (d.at h) x () = x () + (2 * g * (1 - (1 - gamma3 g) ^ (nb + 1)) + gamma2 g) * h := by
    intro x
    have hx := C65_bdf_untransported_refuted (d.at h) x (trStage (d.at h) x) () (fun t ht => nomatch (show t ∈ [] from ht)) (nb + 1)
    have htr := congrFun (still_tr g h nt (nb + 1) x) ()
    rw [htr] at hx
    have hl : (bdfStage (d.at h) x (trStage (d.at h) x)).x () = (bdfStage (d.at h) x (trStage (d.at h) x)).xp () + gamma2 g * h := by
      rw [bdfStage, show (d.at h).nOuterBdf = nb + 1 from rfl, Function.iterate_succ_apply']
      generalize (bdfOuter (d.at h) x (trStage (d.at h) x))^[nb] ⟨x, trStage (d.at h) x, x⟩ = s
      simp [bdfOuter, hd, still, TrBdf2Family.at, trInner, copyTracers, hr]
      try ring
    change (bdfStage (d.at h) x (trStage (d.at h) x)).x () = _
    rw [hl]
    change (((bdfOuter (d.at h) x (trStage (d.at h) x))^[nb + 1] ⟨x, trStage (d.at h) x, x⟩).xp ()) + _ = _
    rw [hx]
    simp only [show (d.at h).gamma = g from rfl, smul_eq_mul]
    ring
  induction N with
  | zero => simp [TrBdf2Family.run]
  | succ N ih =>
    have : d.run h (N + 1) x = trBdf2Step (d.at h) (d.run h N x) := by
      rw [TrBdf2Family.run, Function.iterate_succ_apply']; rfl
    rw [this, hstep, ih]
    push_cast
    ring

/-- The factor is one with one outer iteration, and differs from one with two unless `gamma = 1/2`. -/
theorem untransported_factor (g : ℝ) (h0 : 0 < g) (h1 : g ≤ 1 / 2) :
    2 * g * (1 - (1 - gamma3 g) ^ 1) + gamma2 g = 1 ∧ (2 * g * (1 - (1 - gamma3 g) ^ 2) + gamma2 g = 1 ↔ g = 1 / 2) := by
  obtain ⟨e2, e3, e4, e5⟩ := gammas h0 h1
  have a : 2 * g * gamma3 g + gamma2 g = 1 := by rw [e2, e3]; field_simp; ring
  refine ⟨by linear_combination a, ?_⟩
  have e : 2 * g * (1 - (1 - gamma3 g) ^ 2) + gamma2 g = 1 + 2 * g * gamma3 g * (1 - gamma3 g) := by linear_combination a
  have hne : 2 * g * gamma3 g ≠ 0 := by rw [e3]; field_simp; norm_num; exact e5
  rw [e, ← (C130_slow_weight_refuted g h0 h1).1]
  constructor
  · intro h
    have : 2 * g * gamma3 g * (1 - gamma3 g) = 0 := by linarith
    rcases mul_eq_zero.1 this with h' | h'
    · exact absurd h' hne
    · linarith
  · intro h; rw [h]; ring

theorem ramp_step_21 (g h : ℝ) (h0 : 0 < g) (h1 : g ≤ 1 / 2) (x : Fin 2 → ℝ) : trBdf2Step ((ramp g 2 1).at h) x =
    fun i => if i = 0 then x 0 + h else x 1 + h * x 0 + g / (2 * (1 - g)) * h ^ 2 := by
  obtain ⟨e2, e3, e4, e5⟩ := gammas h0 h1
  have hr : List.range 2 = [0, 1] := rfl
  funext i
  fin_cases i <;>
  · simp [trBdf2Step, bdfStage, trStage, bdfOuter, trOuter, TrBdf2Family.at, ramp, applyAll, transportFields, trUbar, copyTracers, hr,
      trInner]
    rw [e2, e3]
    field_simp
    ring

theorem ramp_step_12 (g h : ℝ) (h0 : 0 < g) (h1 : g ≤ 1 / 2) (x : Fin 2 → ℝ) : trBdf2Step ((ramp g 1 2).at h) x =
    fun i => if i = 0 then x 0 + h else x 1 + h * x 0 + gamma2 g * h ^ 2 := by
  obtain ⟨e2, e3, e4, e5⟩ := gammas h0 h1
  have hr : List.range 2 = [0, 1] := rfl
  funext i
  fin_cases i <;>
  · simp [trBdf2Step, bdfStage, trStage, bdfOuter, trOuter, TrBdf2Family.at, ramp, applyAll, transportFields, trUbar, copyTracers, hr,
      trInner]
    rw [e2, e3]
    field_simp
    ring

theorem ramp_run (κ h : ℝ) (d : TrBdf2Family (fun _ : Fin 2 => ℝ))
    (hd : ∀ x : Fin 2 → ℝ, trBdf2Step (d.at h) x = fun i => if i = 0 then x 0 + h else x 1 + h * x 0 + κ * h ^ 2) (N : ℕ) :
    d.run h N (rampSol 0) = fun i => if i = 0 then N * h else (N * h) ^ 2 / 2 + (κ - 1 / 2) * (N * h ^ 2) := by
  induction N with
  | zero => funext i; simp [TrBdf2Family.run, rampSol]
  | succ N ih =>
    have : d.run h (N + 1) (rampSol 0) = trBdf2Step (d.at h) (d.run h N (rampSol 0)) := by
      rw [TrBdf2Family.run, Function.iterate_succ_apply']; rfl
    rw [this, ih, hd]
    funext i
    by_cases hi : i = 0
    · simp [hi]; ring
    · simp [hi]; ring

theorem not_second (κ : ℝ) (hκ : κ ≠ 1 / 2) (d : TrBdf2Family (fun _ : Fin 2 => ℝ))
    (hd : ∀ h, ∀ x : Fin 2 → ℝ, trBdf2Step (d.at h) x = fun i => if i = 0 then x 0 + h else x 1 + h * x 0 + κ * h ^ 2) :
    ¬ ∃ C h0 : ℝ, 0 < h0 ∧ ∀ h, 0 ≤ h → h ≤ h0 → ∀ N : ℕ, N * h ≤ 1 → ‖d.run h N (rampSol 0) - rampSol (N * h)‖ ≤ C * h ^ 2 := by
  rintro ⟨C, h0, hh0, hall⟩
  have hk : 0 < |κ - 1 / 2| := abs_pos.2 (sub_ne_zero.2 hκ)
  obtain ⟨N, hN⟩ := exists_nat_gt (max (1 / h0) ((|C| + 1) / |κ - 1 / 2|))
  have hN0 : (0 : ℝ) < N := lt_of_lt_of_le (by positivity) (((le_max_right _ _).trans hN.le))
  have h1 : (1 : ℝ) / N ≤ h0 := by
    have := (le_max_left _ _).trans hN.le
    rw [div_le_iff₀ hh0] at this
    rw [div_le_iff₀ hN0]; linarith
  have h2 := hall (1 / N) (by positivity) h1 N (by field_simp; exact le_rfl)
  have h3 := (norm_le_pi_norm _ (1 : Fin 2)).trans h2
  rw [ramp_run κ _ d (hd _)] at h3
  simp only [Pi.sub_apply, rampSol, show (1 : Fin 2) ≠ 0 by decide, if_false, Real.norm_eq_abs] at h3
  have e : ((N : ℝ) * (1 / N)) ^ 2 / 2 + (κ - 1 / 2) * (N * (1 / N) ^ 2) - ((N : ℝ) * (1 / N)) ^ 2 / 2 = (κ - 1 / 2) * (1 / N) := by
    field_simp; ring
  rw [e, abs_mul, abs_of_pos (show (0 : ℝ) < 1 / N by positivity)] at h3
  have h4 : (|C| + 1) / |κ - 1 / 2| < N := (le_max_right _ _).trans_lt hN
  rw [div_lt_iff₀ hk] at h4
  have h5 : C * (1 / (N : ℝ)) ^ 2 ≤ |C| * (1 / (N : ℝ)) ^ 2 := mul_le_mul_of_nonneg_right (le_abs_self C) (by positivity)
  have h6 : |κ - 1 / 2| * (1 / (N : ℝ)) ≤ |C| * (1 / (N : ℝ)) ^ 2 := h3.trans h5
  have h7 : |κ - 1 / 2| * N ≤ |C| := by
    have := mul_le_mul_of_nonneg_right h6 (show (0 : ℝ) ≤ (N : ℝ) ^ 2 by positivity)
    have a1 : |κ - 1 / 2| * (1 / (N : ℝ)) * (N : ℝ) ^ 2 = |κ - 1 / 2| * N := by field_simp
    have a2 : |C| * (1 / (N : ℝ)) ^ 2 * (N : ℝ) ^ 2 = |C| := by field_simp
    rwa [a1, a2] at this
  linarith

/-- C130 is false at the second order with one outer iteration of either stage, for every `gamma` in `(0, 1/2)`. -/
theorem C130_one_outer_refuted (g : ℝ) (h0 : 0 < g) (h1 : g < 1 / 2) (nt nb : ℕ) (hn : (nt = 2 ∧ nb = 1) ∨ (nt = 1 ∧ nb = 2)) :
    ¬ ∃ C δ : ℝ, 0 < δ ∧ ∀ h, 0 ≤ h → h ≤ δ → ∀ N : ℕ, N * h ≤ 1 →
      ‖(ramp g nt nb).run h N (rampSol 0) - rampSol (N * h)‖ ≤ C * h ^ 2 := by
  obtain ⟨e2, e3, e4, e5⟩ := gammas h0 h1.le
  rcases hn with ⟨rfl, rfl⟩ | ⟨rfl, rfl⟩
  · refine not_second (g / (2 * (1 - g))) ?_ _ fun h x => ramp_step_21 g h h0 h1.le x
    intro h
    rw [div_eq_div_iff (mul_ne_zero two_ne_zero e5) two_ne_zero] at h
    linarith
  · refine not_second (gamma2 g) ?_ _ fun h x => ramp_step_12 g h h0 h1.le x
    rw [e2]
    intro h
    rw [div_eq_div_iff (mul_ne_zero two_ne_zero e5) two_ne_zero] at h
    linarith

end Gusto.Props.TrBdf2ConvergenceProps
