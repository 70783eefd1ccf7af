import Verif.Model.TrBdf2Family
import Verif.Props.SiqnConvergence

set_option autoImplicit false
set_option linter.unusedSectionVars false
set_option linter.unusedSimpArgs false

/-! # One TR-BDF2 quasi-Newton timestep as a family of maps -/

namespace Gusto.TrBdf2Conv
open Topology Filter Gusto.Convergence Gusto.QN Gusto.Props.QNProps Gusto.SiqnConv Gusto.Props.SiqnConvergenceProps

variable {ι : Type*} [Fintype ι] [DecidableEq ι] {V : ι → Type*} [∀ i, NormedAddCommGroup (V i)] [∀ i, NormedSpace ℝ (V i)]

/-! ### The TR stage is a semi-implicit outer loop -/

/-- The semi-implicit timestepper whose outer loop is the TR stage. -/
noncomputable def trFam (d : TrBdf2Family V) : SiqnFamily V where
  u := d.u
  inSolver := fun i => !d.copied i
  numOuter := d.nOuterTr
  numInner := d.nInnerTr
  accelerator := true
  alpha := 1 / 2
  alphaU := 1 / 2
  beta := 0
  slow := d.slow
  fast := []
  inner := []
  final := []
  F := fun x => (2 * d.gamma) • d.F x
  Fi := fun x => (2 * d.gamma) • d.Fi x
  transport := d.transport.map fun s => (s.1, fun h v x => s.2 h ((2 * d.gamma) • v) x)
  solve := d.trSolve

/-- The semi-implicit timestepper whose inner loop is that of the BDF stage. -/
noncomputable def bdfFam (d : TrBdf2Family V) : SiqnFamily V where
  u := d.u
  inSolver := fun i => !d.copied i
  numOuter := d.nOuterBdf
  numInner := d.nInnerBdf
  accelerator := true
  alpha := 1
  alphaU := 1
  beta := 0
  slow := []
  fast := []
  inner := []
  final := []
  F := fun x => gamma2 d.gamma • d.F x
  Fi := fun x => gamma2 d.gamma • d.Fi x
  transport := []
  solve := d.bdfSolve

theorem transportFields_scaled {u : ι} (ts : List (List ι × (ℝ → V u → (∀ i, V i) → ∀ i, V i))) (c h : ℝ) (v : V u) (xs xp : ∀ i, V i) :
    transportFields ((ts.map fun s => (s.1, fun h v x => s.2 h (c • v) x)).map fun s => (⟨s.1, s.2 h⟩ : Transport V u)) v xs xp =
      transportFields (ts.map fun s => (⟨s.1, s.2 h⟩ : Transport V u)) (c • v) xs xp := by
  unfold transportFields
  induction ts generalizing xp with
  | nil => rfl
  | cons s ts ih => simp only [List.map_cons, List.foldl_cons]; exact ih _

theorem inner_eq (m : Siqn ℝ V) (hacc : m.accelerator = true) (hb : m.beta = 0) (xp : ∀ i, V i) (k : ℕ) (x : ∀ i, V i) :
    innerStep m xp 0 k x = trInner m.u m.forceI m.solve xp k x := by
  simp [innerStep, xrhsOf, trInner, hacc, hb]

theorem tr_inner (d : TrBdf2Family V) (h : ℝ) (xp : ∀ i, V i) (k : ℕ) (x : ∀ i, V i) :
    trInner (d.at h).u (d.at h).trI (d.at h).trSolve xp k x = innerStep ((trFam d).at h) xp 0 k x := by
  rw [inner_eq _ rfl rfl]
  have : (d.at h).trI = ((trFam d).at h).forceI := by
    funext x
    simp only [TrBdf2Family.at, SiqnFamily.at, trFam]
    module
  rw [this]
  rfl

theorem bdf_inner (d : TrBdf2Family V) (h : ℝ) (xp : ∀ i, V i) (k : ℕ) (x : ∀ i, V i) :
    trInner (d.at h).u (d.at h).bdfI (d.at h).bdfSolve xp k x = innerStep ((bdfFam d).at h) xp 0 k x := by
  rw [inner_eq _ rfl rfl]
  have : (d.at h).bdfI = ((bdfFam d).at h).forceI := by
    funext x
    simp only [TrBdf2Family.at, SiqnFamily.at, bdfFam]
    module
  rw [this]
  rfl

theorem tr_outer (d : TrBdf2Family V) (h : ℝ) (xn xstar : ∀ i, V i) (s : (∀ i, V i) × (∀ i, V i)) :
    trOuter (d.at h) xn xstar s = outerStep ((trFam d).at h) xn xstar s := by
  have hu : (trUbar (xn (d.at h).u) (s.2 (d.at h).u) (2 * (d.at h).gamma) : V d.u) =
      (2 * d.gamma) • (ubar ((trFam d).at h) xn s.2 : V d.u) := by
    change (2 * d.gamma * (1 / 2)) • (xn d.u + s.2 d.u) = (2 * d.gamma) • (xn d.u + (1 / 2 : ℝ) • (s.2 d.u - xn d.u))
    module
  have ht : transportFields (d.at h).transport (trUbar (xn (d.at h).u) (s.2 (d.at h).u) (2 * (d.at h).gamma)) xstar s.1 =
      transportFields ((trFam d).at h).transport (ubar ((trFam d).at h) xn s.2) xstar s.1 := by
    refine (congrArg (fun v : V d.u => transportFields (d.at h).transport v xstar s.1) hu).trans ?_
    exact (transportFields_scaled d.transport (2 * d.gamma) h _ xstar s.1).symm
  rw [trOuter, outerStep]
  simp only [ht, tr_inner]
  simp [SiqnFamily.at, TrBdf2Family.at, trFam, applyAll]

theorem tr_stage (d : TrBdf2Family V) (h : ℝ) (x : ∀ i, V i) : trStage (d.at h) x = (afterOuter (trFam d) d.nOuterTr h x).2 := by
  have hs : applyAll (d.at h).slow x + (d.at h).trE x = xstarOf ((trFam d).at h) x := by
    rw [C22_xstar]
    simp only [TrBdf2Family.at, SiqnFamily.at, trFam, innerInc, List.map_nil, List.sum_nil, smul_zero, add_zero]
    module
  have ho : trOuter (d.at h) x (xstarOf ((trFam d).at h) x) = outerStep ((trFam d).at h) x (xstarOf ((trFam d).at h) x) :=
    funext fun s => tr_outer d h x _ s
  simp only [trStage, hs, ho, afterOuter]
  rfl

/-! ### The BDF stage -/

/-- The state after `n` outer iterations of the BDF stage. -/
noncomputable def afterBdf (d : TrBdf2Family V) (n : ℕ) (h : ℝ) (x : ∀ i, V i) : BdfState V :=
  (bdfOuter (d.at h) x (trStage (d.at h) x))^[n] ⟨x, trStage (d.at h) x, x⟩

/-- The combined transported states, minus the old state, divided by the timestep. -/
noncomputable def bdfP (d : TrBdf2Family V) (τ : ℝ → V d.u × (∀ i, V i) → ∀ i, V i) (r q : ℝ → (∀ i, V i) → ∀ i, V i) :
    ℝ → (∀ i, V i) → ∀ i, V i :=
  fun h x => (1 - gamma3 d.gamma) • τ h (x d.u + h • q h x d.u, x) +
    gamma3 d.gamma • (r h x + τ h ((1 - 2 * d.gamma) • (x d.u + h • q h x d.u), x + h • r h x))

theorem UL.argN {d : TrBdf2Family V} {q : ℝ → (∀ i, V i) → ∀ i, V i} (hq : UL q) :
    UL (fun h (x : ∀ i, V i) => (x d.u + h • q h x d.u, x)) :=
  UL.prod (((UL.id (E := ∀ i, V i)).coord d.u).add (hq.coord d.u).smulH) UL.id

theorem UL.argM {d : TrBdf2Family V} {q r : ℝ → (∀ i, V i) → ∀ i, V i} (hq : UL q) (hr : UL r) :
    UL (fun h (x : ∀ i, V i) => ((1 - 2 * d.gamma) • (x d.u + h • q h x d.u), x + h • r h x)) :=
  UL.prod ((((UL.id (E := ∀ i, V i)).coord d.u).add (hq.coord d.u).smulH).smul _) (UL.id.add hr.smulH)

theorem UL.bdfP {d : TrBdf2Family V} {τ : ℝ → V d.u × (∀ i, V i) → ∀ i, V i} {r q : ℝ → (∀ i, V i) → ∀ i, V i} (hτ : UL τ)
    (hr : UL r) (hq : UL q) : UL (bdfP d τ r q) :=
  ((hτ.comp (UL.argN hq)).smul _).add ((hr.add (hτ.comp (UL.argM hq hr))).smul _)

/-- One more outer iteration of the BDF stage gains an order. -/
theorem bdf_pass {d : TrBdf2Family V} {τ : ℝ → V d.u × (∀ i, V i) → ∀ i, V i} {rm : ℝ → (∀ i, V i) → ∀ i, V i}
    (hS : SolverOK (fun i => !d.copied i) d.bdfSolve) (hF : LocalLip d.F) (hFi : LocalLip d.Fi) (hτ : UL τ) (hrm : UL rm)
    (htr : ∀ᶠ h in 𝓝[≥] (0 : ℝ), ∀ v x, transported (d.at h).transport v x = x + h • τ h (v, x))
    (hm : Inc (fun h x => trStage (d.at h) x) rm) (hinn : 1 ≤ d.nInnerBdf) {n m : ℕ}
    (hall : (∀ i, ∃ s ∈ d.transport, i ∈ s.1) ∨ m = 0) {q a : ℝ → (∀ i, V i) → ∀ i, V i} (hq : UL q)
    (hy : Inc (fun h x => (afterBdf d m h x).x) q) (hqa : ∀ i, Near n (fun h x => q h x i) (fun h x => a h x i))
    (haim : ∀ r : ℝ → (∀ i, V i) → ∀ i, V i, UL r → (∀ i, Near n (fun h x => r h x i) (fun h x => a h x i)) →
      ∀ i, d.copied i = false → Near (n + 1) (fun h x => (bdfP d τ rm q h x +
        (gamma2 d.gamma • d.F (x + h • r h x) + gamma2 d.gamma • d.Fi (x + h • r h x))) i) (fun h x => a h x i))
    (hnon : ∀ i, d.copied i = true → Near (n + 1) (fun h x => bdfP d τ rm q h x i) (fun h x => a h x i)) :
    ∃ r : ℝ → (∀ i, V i) → ∀ i, V i, UL r ∧ Inc (fun h x => (afterBdf d (m + 1) h x).x) r ∧
      ∀ i, Near (n + 1) (fun h x => r h x i) (fun h x => a h x i) := by
  have hp : UL (bdfP d τ rm q) := UL.bdfP hτ hrm hq
  set xp : ℝ → (∀ i, V i) → ∀ i, V i := fun h x => (afterBdf d (m + 1) h x).xp with hxpdef
  have hit : ∀ h x, afterBdf d (m + 1) h x = bdfOuter (d.at h) x (trStage (d.at h) x) (afterBdf d m h x) := by
    intro h x; rw [afterBdf, Function.iterate_succ_apply']; rfl
  have hx0 : ∀ h x i, (∀ s ∈ (d.at h).transport, i ∉ s.fields) →
      (afterBdf d m h x).xp i = x i ∧ (afterBdf d m h x).xpm i = trStage (d.at h) x i := by
    intro h x i hi
    rcases hall with hall | rfl
    · obtain ⟨s, hs, his⟩ := hall i
      exact absurd his (hi ⟨s.1, s.2 h⟩ (List.mem_map_of_mem (f := fun s => (⟨s.1, s.2 h⟩ : Transport V d.u)) hs))
    · exact ⟨rfl, rfl⟩
  have hxp : Inc xp (bdfP d τ rm q) := by
    filter_upwards [hm, hy, htr] with h e1 e2 e3 x
    have h1 := transportFields_eq (d.at h).transport
      (trUbar ((afterBdf d m h x).x (d.at h).u) ((afterBdf d m h x).x (d.at h).u) (1 : ℝ)) x (afterBdf d m h x).xp
      (fun i hi => (hx0 h x i hi).1)
    have h2 := transportFields_eq (d.at h).transport
      (trUbar ((afterBdf d m h x).x (d.at h).u) ((afterBdf d m h x).x (d.at h).u) (1 - 2 * (d.at h).gamma))
      (trStage (d.at h) x) (afterBdf d m h x).xpm (fun i hi => (hx0 h x i hi).2)
    have hu : ∀ c : ℝ, (trUbar ((afterBdf d m h x).x (d.at h).u) ((afterBdf d m h x).x (d.at h).u) c : V d.u) =
        c • (x d.u + h • q h x d.u) := by
      intro c
      have : (afterBdf d m h x).x = x + h • q h x := e2 x
      rw [this]
      change (c * (1 / 2)) • ((x + h • q h x) d.u + (x + h • q h x) d.u) = _
      simp only [Pi.add_apply, Pi.smul_apply]
      module
    have hv1 : (transported (d.at h).transport
        (trUbar ((afterBdf d m h x).x (d.at h).u) ((afterBdf d m h x).x (d.at h).u) (1 : ℝ)) x) =
        x + h • τ h (x d.u + h • q h x d.u, x) := by
      refine (e3 _ _).trans ?_
      have := hu 1
      rw [one_smul] at this
      exact congrArg (fun v : V d.u => x + h • τ h (v, x)) this
    have hv2 : (transported (d.at h).transport
        (trUbar ((afterBdf d m h x).x (d.at h).u) ((afterBdf d m h x).x (d.at h).u) (1 - 2 * (d.at h).gamma))
        (trStage (d.at h) x)) = (x + h • rm h x) +
        h • τ h ((1 - 2 * d.gamma) • (x d.u + h • q h x d.u), x + h • rm h x) := by
      refine (e3 _ _).trans ?_
      have hm' : trStage (d.at h) x = x + h • rm h x := e1 x
      rw [hm']
      exact congrArg (fun v : V d.u => (x + h • rm h x) + h • τ h (v, x + h • rm h x)) (hu (1 - 2 * d.gamma))
    simp only [hxpdef, hit, bdfOuter, h1, h2, hv1, hv2, bdfP]
    simp only [show (d.at h).gamma = d.gamma from rfl]
    module
  have haimed : ∀ r : ℝ → (∀ i, V i) → ∀ i, V i, ∀ h x, aimed (bdfFam d) (bdfP d τ rm q) (fun _ _ => 0) (fun _ _ => 0) r h x =
      bdfP d τ rm q h x + (gamma2 d.gamma • d.F (x + h • r h x) + gamma2 d.gamma • d.Fi (x + h • r h x)) := by
    intro r h x; simp [aimed, bdfFam]
  obtain ⟨r, hr, hri, -, hrs⟩ := inner_loop (d := bdfFam d) hS (hF.smul _) (hFi.smul _) (n := n) (phys := fun _ _ => 0)
    (φ := fun _ _ => 0) (ιnc := fun _ _ => 0) (a := a) hp (UL.const 0) (UL.const 0) hq hxp
    (Eventually.of_forall fun h x => by simp) (Eventually.of_forall fun h x => by simp [innerInc, SiqnFamily.at, bdfFam]) hy
    (fun _ => Or.inl rfl) hqa (fun r hr hra i hi => by
      simp only [haimed]; exact haim r hr hra i (by simpa [bdfFam] using hi)) d.nInnerBdf le_rfl
  refine ⟨fun h x i => if d.copied i then bdfP d τ rm q h x i else r h x i, ?_, ?_, fun i => ?_⟩
  · refine UL.pi fun i => ?_
    split_ifs
    · exact hp.coord i
    · exact hr.coord i
  · filter_upwards [hri, hxp] with h e1 e2 x
    have hx : (afterBdf d (m + 1) h x).x = copyTracers d.copied (xp h x)
        ((List.range d.nInnerBdf).foldl (fun z k => innerStep ((bdfFam d).at h) (xp h x) 0 k z) (afterBdf d m h x).x) := by
      simp only [hxpdef, hit, bdfOuter, bdf_inner]
      rfl
    rw [hx]
    funext i
    have e1' := congrFun (e1 x) i
    have e2' := congrFun (e2 x) i
    simp only [copyTracers, Pi.add_apply, Pi.smul_apply] at e1' e2' ⊢
    cases hi : d.copied i
    · simpa using e1'
    · simpa using e2'
  · cases hi : d.copied i
    · simpa [hi] using hrs hinn i (by simp [bdfFam, hi])
    · simpa [hi] using hnon i hi

/-! ### Homogeneous transport -/

/-- Transport by `c` times a velocity is `c` times as strong, for factors `c ≥ 0`. -/
def Homogeneous {U W Z : Type*} [SMul ℝ U] [SMul ℝ Z] (G : U × W → Z) : Prop := ∀ c : ℝ, 0 ≤ c → ∀ v x, G (c • v, x) = c • G (v, x)

theorem Homogeneous.deriv {U W Z : Type*} [NormedAddCommGroup U] [NormedSpace ℝ U] [NormedAddCommGroup W] [NormedSpace ℝ W]
    [NormedAddCommGroup Z] [NormedSpace ℝ Z] {G : U × W → Z} {G' : U × W → U × W →L[ℝ] Z} (hG : LocalSmooth G G')
    (hh : Homogeneous G) {c : ℝ} (hc : 0 ≤ c) (v v' : U) (x w : W) : G' (c • v, x) (c • v', w) = c • G' (v, x) (v', w) := by
  set L : U × W →L[ℝ] U × W := (c • ContinuousLinearMap.fst ℝ U W).prod (ContinuousLinearMap.snd ℝ U W) with hL
  have h1 : HasFDerivAt (fun z : U × W => G (c • z.1, z.2)) ((G' (c • v, x)).comp L) (v, x) :=
    HasFDerivAt.comp (f := fun z : U × W => (c • z.1, z.2)) (v, x) (hG.deriv (c • v, x)) (L.hasFDerivAt (x := (v, x)))
  have h2 : HasFDerivAt (fun z : U × W => G (c • z.1, z.2)) (c • G' (v, x)) (v, x) := by
    have : (fun z : U × W => G (c • z.1, z.2)) = fun z => c • G z := funext fun z => hh c hc z.1 z.2
    rw [this]
    exact (hG.deriv (v, x)).const_smul c
  have := congrArg (fun L => L (v', w)) (h1.unique h2)
  simpa [hL] using this

/-! ### What the transport adds in the TR stage -/

theorem transported_scaled (d : TrBdf2Family V) (h : ℝ) (v : V d.u) (x : ∀ i, V i) :
    transported ((trFam d).at h).transport v x = transported (d.at h).transport ((2 * d.gamma) • v) x := by
  have h1 := transportFields_eq ((trFam d).at h).transport v x x (fun _ _ => rfl)
  have h2 := transportFields_eq (d.at h).transport ((2 * d.gamma) • v : V d.u) x x (fun _ _ => rfl)
  rw [← h1]
  exact (transportFields_scaled d.transport (2 * d.gamma) h v x x).trans h2

/-- The transport increment of the TR stage. -/
def tauTr (d : TrBdf2Family V) (τ : ℝ → V d.u × (∀ i, V i) → ∀ i, V i) : ℝ → V d.u × (∀ i, V i) → ∀ i, V i :=
  fun h z => τ h ((2 * d.gamma) • z.1, z.2)

theorem UL.scaled {U W : Type*} [NormedAddCommGroup U] [NormedSpace ℝ U] [NormedAddCommGroup W] [NormedSpace ℝ W] (c : ℝ) :
    UL (fun (_ : ℝ) (z : U × W) => (c • z.1, z.2)) :=
  UL.prod ((UL.id.clm (ContinuousLinearMap.fst ℝ U W)).smul c) (UL.id.clm (ContinuousLinearMap.snd ℝ U W))

theorem UL.tauTr {d : TrBdf2Family V} {τ : ℝ → V d.u × (∀ i, V i) → ∀ i, V i} (hτ : UL τ) : UL (tauTr d τ) :=
  hτ.comp (UL.scaled _)

theorem tr_parts {d : TrBdf2Family V} {τ : ℝ → V d.u × (∀ i, V i) → ∀ i, V i} {σ : ℝ → (∀ i, V i) → ∀ i, V i}
    (hS : SolverOK (fun i => !d.copied i) d.trSolve) (hF : LocalLip d.F) (hFi : LocalLip d.Fi) (hτ : UL τ) (hσ : UL σ)
    (htr : ∀ᶠ h in 𝓝[≥] (0 : ℝ), ∀ v x, transported (d.at h).transport v x = x + h • τ h (v, x))
    (hslow : ∀ᶠ h in 𝓝[≥] (0 : ℝ), ∀ x, applyAll (d.slow.map fun s => s h) x = x + h • σ h x) (hinn : 1 ≤ d.nInnerTr) :
    Parts (trFam d) (fun h x => σ h x + (1 / 2 : ℝ) • (2 * d.gamma) • d.F x) (fun _ _ => 0) (fun _ _ => 0) (tauTr d τ) := by
  refine ⟨hS, hF.smul _, hFi.smul _, hσ.add (((UL.of_lip hF).smul _).smul _), UL.const 0, UL.const 0, UL.tauTr hτ, ?_, ?_, ?_, ?_,
    fun _ => Or.inl rfl, hinn⟩
  · filter_upwards [hslow] with h e x
    rw [C22_xstar]
    have e' : applyAll ((trFam d).at h).slow x = x + h • σ h x := e x
    rw [e']
    simp only [SiqnFamily.at, trFam, innerInc, List.map_nil, List.sum_nil, smul_zero, add_zero]
    module
  · exact Eventually.of_forall fun h x => by simp [SiqnFamily.at, trFam, applyAll]
  · exact Eventually.of_forall fun h x => by simp [SiqnFamily.at, trFam, innerInc]
  · filter_upwards [htr] with h e v x
    exact (transported_scaled d h v x).trans (e _ _)

/-! ### First order -/

theorem UL.arg0 (d : TrBdf2Family V) : UL (fun (_ : ℝ) (x : ∀ i, V i) => (x d.u, x)) :=
  UL.prod ((UL.id (E := ∀ i, V i)).coord d.u) UL.id

theorem near_argN {d : TrBdf2Family V} {q : ℝ → (∀ i, V i) → ∀ i, V i} (hq : UL q) :
    Near 1 (fun h (x : ∀ i, V i) => (x d.u + h • q h x d.u, x)) (fun _ x => (x d.u, x)) :=
  Near.prod (Near.drop (hq.coord d.u)) (Near.refl _ _)

theorem near_argM {d : TrBdf2Family V} {q r : ℝ → (∀ i, V i) → ∀ i, V i} (hq : UL q) (hr : UL r) :
    Near 1 (fun h (x : ∀ i, V i) => ((1 - 2 * d.gamma) • (x d.u + h • q h x d.u), x + h • r h x))
      (fun _ x => ((1 - 2 * d.gamma) • x d.u, x)) :=
  Near.prod ((Near.drop (hq.coord d.u)).smul _) (Near.drop hr)

theorem UL.arg0M (d : TrBdf2Family V) (c : ℝ) : UL (fun (_ : ℝ) (x : ∀ i, V i) => (c • x d.u, x)) :=
  UL.prod (((UL.id (E := ∀ i, V i)).coord d.u).smul c) UL.id

theorem gammas {g : ℝ} (h0 : 0 < g) (h1 : g ≤ 1 / 2) : gamma2 g = (1 - 2 * g) / (2 * (1 - g)) ∧ gamma3 g = 1 / (4 * g * (1 - g)) ∧
    g ≠ 0 ∧ (1 - g) ≠ 0 := by
  obtain ⟨a, b⟩ := C65_coefficients g two_ne_zero h0.ne' (by linarith)
  exact ⟨by rw [a]; ring, by rw [b]; ring, h0.ne', by linarith⟩

theorem near_bdfP {d : TrBdf2Family V} {τ : ℝ → V d.u × (∀ i, V i) → ∀ i, V i} {rm q : ℝ → (∀ i, V i) → ∀ i, V i}
    {G : V d.u × (∀ i, V i) → ∀ i, V i} {r1 : (∀ i, V i) → ∀ i, V i} (hg1 : d.gamma ≤ 1 / 2) (hq : UL q) (hrm : UL rm)
    (hG : LocalLip G) (hh : Homogeneous G) (hτ1 : Near 1 τ fun _ => G) (hr1 : Near 1 rm fun _ => r1) :
    Near 1 (bdfP d τ rm q) (fun _ x => (1 - gamma3 d.gamma) • G (x d.u, x) + gamma3 d.gamma • (r1 x + (1 - 2 * d.gamma) • G (x d.u, x))) := by
  have t1 := (hτ1.comp_left (UL.argN (d := d) hq)).trans
    (Near.comp (q := fun _ => G) (UL.of_lip hG) (UL.argN hq) (UL.arg0 d) (near_argN hq))
  have t2 := (hτ1.comp_left (UL.argM (d := d) hq hrm)).trans
    (Near.comp (q := fun _ => G) (UL.of_lip hG) (UL.argM hq hrm) (UL.arg0M d _) (near_argM hq hrm))
  simp only [hh _ (by linarith : (0 : ℝ) ≤ 1 - 2 * d.gamma)] at t2
  exact (t1.smul _).add ((hr1.add t2).smul _)

theorem LocalLip.diag {d : TrBdf2Family V} {G : V d.u × (∀ i, V i) → ∀ i, V i} (hG : LocalLip G) :
    LocalLip (fun x : ∀ i, V i => G (x d.u, x)) := fun B => by
  obtain ⟨c, c0, hc⟩ := hG B
  refine ⟨c, c0, fun x z hx hz => ?_⟩
  have n1 : ∀ w : ∀ i, V i, ‖(w d.u, w)‖ = ‖w‖ := fun w => by
    rw [Prod.norm_def]; exact max_eq_right (norm_le_pi_norm w d.u)
  have := hc (x d.u, x) (z d.u, z) (by rwa [n1]) (by rwa [n1])
  have e : ((x d.u, x) - (z d.u, z) : V d.u × (∀ i, V i)) = ((x - z) d.u, x - z) := rfl
  rwa [e, n1] at this

/-- The right-hand side the two stages aim at: the slow physics `s1` counts `gamma3` times. -/
noncomputable def rhsB (d : TrBdf2Family V) (s1 : (∀ i, V i) → ∀ i, V i) (G : V d.u × (∀ i, V i) → ∀ i, V i) (x : ∀ i, V i) : ∀ i, V i :=
  d.F x + d.Fi x + G (x d.u, x) + gamma3 d.gamma • s1 x

/-- The BDF stage is of the first order after at least one outer iteration if the TR stage is. -/
theorem bdf_first {d : TrBdf2Family V} {τ : ℝ → V d.u × (∀ i, V i) → ∀ i, V i} {rm : ℝ → (∀ i, V i) → ∀ i, V i}
    {G : V d.u × (∀ i, V i) → ∀ i, V i} {s1 : (∀ i, V i) → ∀ i, V i} (hg0 : 0 < d.gamma) (hg1 : d.gamma ≤ 1 / 2)
    (hS : SolverOK (fun i => !d.copied i) d.bdfSolve) (hF : LocalLip d.F) (hFi : LocalLip d.Fi) (hG : LocalLip G) (ls : LocalLip s1)
    (hh : Homogeneous G) (hτ : UL τ) (hrm : UL rm) (hτ1 : Near 1 τ fun _ => G)
    (hr1 : Near 1 rm fun _ x => s1 x + (2 * d.gamma) • (d.F x + d.Fi x + G (x d.u, x)))
    (htr : ∀ᶠ h in 𝓝[≥] (0 : ℝ), ∀ v x, transported (d.at h).transport v x = x + h • τ h (v, x))
    (hm : Inc (fun h x => trStage (d.at h) x) rm) (hinn : 1 ≤ d.nInnerBdf)
    (hnon : ∀ i, d.copied i = true → ∀ x, d.F x i = 0 ∧ d.Fi x i = 0) (m : ℕ)
    (hall : (∀ i, ∃ s ∈ d.transport, i ∈ s.1) ∨ m ≤ 1) :
    ∃ r : ℝ → (∀ i, V i) → ∀ i, V i, UL r ∧ Inc (fun h x => (afterBdf d m h x).x) r ∧
      (1 ≤ m → ∀ i, Near 1 (fun h x => r h x i) (fun _ x => rhsB d s1 G x i)) := by
  obtain ⟨e2, e3, e4, e5⟩ := gammas hg0 hg1
  have hul : UL (fun (_ : ℝ) x => rhsB d s1 G x) :=
    UL.of_lip (((hF.add hFi).add (LocalLip.diag (d := d) hG)).add (ls.smul _))
  induction m with
  | zero => exact ⟨fun _ _ => 0, UL.const 0, Eventually.of_forall fun h x => by simp [afterBdf], by omega⟩
  | succ m ih =>
    obtain ⟨q, hq, hqi, -⟩ := ih (hall.imp_right fun h => by omega)
    have hp := near_bdfP hg1 hq hrm hG hh hτ1 hr1
    have hsum : ∀ x, (1 - gamma3 d.gamma) • G (x d.u, x) + gamma3 d.gamma •
        (s1 x + (2 * d.gamma) • (d.F x + d.Fi x + G (x d.u, x)) + (1 - 2 * d.gamma) • G (x d.u, x)) +
        (gamma2 d.gamma • d.F x + gamma2 d.gamma • d.Fi x) = rhsB d s1 G x := by
      intro x
      rw [rhsB, e2, e3]
      match_scalars <;> field_simp <;> ring
    obtain ⟨r, hr, hri, hrn⟩ := bdf_pass hS hF hFi hτ hrm htr hm hinn (n := 0) (m := m) (hall.imp_right fun h => by omega)
      (a := fun _ => rhsB d s1 G) hq hqi (fun i => Near.zero (hq.coord i) (hul.coord i))
      (fun r hr _ i _ => by
        have hb : UL (fun h x => x + h • r h x) := UL.id.add hr.smulH
        have hn : ∀ {f : (∀ i, V i) → ∀ i, V i}, LocalLip f → Near 1 (fun h x => f (x + h • r h x)) (fun _ => f) := fun {f} hf =>
          Near.comp (q := fun _ => f) (UL.of_lip hf) hb UL.id (Near.drop hr)
        have := (hp.add (((hn hF).smul (gamma2 d.gamma)).add ((hn hFi).smul (gamma2 d.gamma)))).coord i
        simp only [hsum] at this
        exact this)
      (fun i hi => by
        have := hp.coord i
        have e : ∀ x, ((1 - gamma3 d.gamma) • G (x d.u, x) + gamma3 d.gamma •
          (s1 x + (2 * d.gamma) • (d.F x + d.Fi x + G (x d.u, x)) + (1 - 2 * d.gamma) • G (x d.u, x))) i = rhsB d s1 G x i := by
          intro x
          rw [← hsum]
          simp [hnon i hi x]
        simp only [e] at this
        exact this)
    exact ⟨r, hr, hri, fun _ => hrn⟩

/-! ### Second order -/

/-- The derivative of `F(x) + G(x_u, x)` along itself. -/
noncomputable def slope (d : TrBdf2Family V) (F' : (∀ i, V i) → (∀ i, V i) →L[ℝ] (∀ i, V i)) (G : V d.u × (∀ i, V i) → ∀ i, V i)
    (G' : V d.u × (∀ i, V i) → V d.u × (∀ i, V i) →L[ℝ] (∀ i, V i)) (x : ∀ i, V i) : ∀ i, V i :=
  F' x (d.F x + G (x d.u, x)) + G' (x d.u, x) ((d.F x + G (x d.u, x)) d.u, d.F x + G (x d.u, x))

theorem deriv_zero {f : (∀ i, V i) → ∀ i, V i} {f' : (∀ i, V i) → (∀ i, V i) →L[ℝ] (∀ i, V i)} (hf : LocalSmooth f f') (i : ι)
    (h0 : ∀ x, f x i = 0) (x v : ∀ i, V i) : f' x v i = 0 := by
  have h1 : HasFDerivAt (fun x => f x i) ((ContinuousLinearMap.proj i).comp (f' x)) x :=
    (ContinuousLinearMap.proj (R := ℝ) (φ := V) i).hasFDerivAt.comp x (hf.deriv x)
  have h2 : HasFDerivAt (fun x => f x i) (0 : (∀ i, V i) →L[ℝ] V i) x := by
    have : (fun x => f x i) = fun _ => (0 : V i) := funext h0
    rw [this]; exact hasFDerivAt_const _ _
  have := congrArg (fun L => L v) (h1.unique h2)
  simpa using this

/-- The combined transported states to the second order. -/
theorem near_bdfP2 {d : TrBdf2Family V} {τ : ℝ → V d.u × (∀ i, V i) → ∀ i, V i} {rm q : ℝ → (∀ i, V i) → ∀ i, V i}
    {G : V d.u × (∀ i, V i) → ∀ i, V i} {G' : V d.u × (∀ i, V i) → V d.u × (∀ i, V i) →L[ℝ] (∀ i, V i)} (hG : LocalSmooth G G')
    {f s : (∀ i, V i) → ∀ i, V i} (hf : LocalLip f) (hs : UL (fun (_ : ℝ) => s))
    (hg1 : d.gamma ≤ 1 / 2) (hq : UL q) (hrm : UL rm) (hh : Homogeneous G)
    (hτ2 : Near 2 τ fun h z => G z + (h / 2) • G' z (0, G z)) (hq1 : Near 1 q fun _ => f)
    (hr2 : Near 2 rm fun h x => (2 * d.gamma) • f x + (h / 2) • (2 * d.gamma) • (2 * d.gamma) • s x) :
    Near 2 (bdfP d τ rm q) (fun h x => (1 - gamma3 d.gamma) • (G (x d.u, x) + h • G' (x d.u, x) (f x d.u, 0) +
        h • ((1 / 2 : ℝ) • G' (x d.u, x) (0, G (x d.u, x)))) +
      gamma3 d.gamma • ((2 * d.gamma) • f x + (h / 2) • (2 * d.gamma) • (2 * d.gamma) • s x +
        ((1 - 2 * d.gamma) • G (x d.u, x) + h • ((1 - 2 * d.gamma) • G' (x d.u, x) (f x d.u, (2 * d.gamma) • f x)) +
        h • ((1 / 2 : ℝ) • ((1 - 2 * d.gamma) • G' (x d.u, x) (0, (1 - 2 * d.gamma) • G (x d.u, x))))))) := by
  have lG : LocalLip G := hG.localLip
  have hc : (0 : ℝ) ≤ 1 - 2 * d.gamma := by linarith
  set c : ℝ := 1 - 2 * d.gamma with hcdef
  have hhalf : ∀ (h : ℝ) (v : ∀ i, V i), (h / 2) • v = h • ((1 / 2 : ℝ) • v) := by
    intro h v; rw [smul_smul]; congr 1; ring
  have ulf : UL (fun (_ : ℝ) => f) := UL.of_lip hf
  have ulG' : UL (fun (_ : ℝ) (x : ∀ i, V i) => G' (x d.u, x)) := (UL.of_lip hG.lip).comp (UL.arg0 d)
  have ulGc : UL (fun (_ : ℝ) (x : ∀ i, V i) => G' (c • x d.u, x)) := (UL.of_lip hG.lip).comp (UL.arg0M d c)
  have hK : UL (fun (_ : ℝ) z => (1 / 2 : ℝ) • G' z (0, G z)) :=
    ((UL.of_lip hG.lip).apply (UL.prod (UL.const 0) (UL.of_lip lG))).smul _
  have hr1 : Near 1 rm fun _ x => (2 * d.gamma) • f x := by
    refine (hr2.mono one_le_two).trans ?_
    have := Near.drop (q := fun _ x => (2 * d.gamma) • f x) (((hs.smul (2 * d.gamma)).smul (2 * d.gamma)).smul (1 / 2))
    simpa [hhalf] using this
  -- transport of the old state
  have tN : Near 2 (fun h x => τ h (x d.u + h • q h x d.u, x)) (fun h x => G (x d.u, x) + h • G' (x d.u, x) (f x d.u, 0) +
        h • ((1 / 2 : ℝ) • G' (x d.u, x) (0, G (x d.u, x)))) := by
    refine (hτ2.comp_left (UL.argN (d := d) hq)).trans ?_
    have b1 : UL (fun h (x : ∀ i, V i) => ((q h x d.u, 0) : V d.u × (∀ i, V i))) := UL.prod (hq.coord d.u) (UL.const 0)
    have t1 := Near.taylor hG (UL.arg0 d) b1
    have t1' : Near 2 (fun h (x : ∀ i, V i) => G (x d.u + h • q h x d.u, x))
        (fun h x => G (x d.u, x) + h • G' (x d.u, x) (q h x d.u, 0)) := by
      have e : ∀ (h : ℝ) (x : ∀ i, V i), ((x d.u, x) + h • ((q h x d.u, 0) : V d.u × (∀ i, V i))) = (x d.u + h • q h x d.u, x) := by
        intro h x; ext1 <;> simp
      simp only [e] at t1
      exact t1
    have t2 : Near 1 (fun h (x : ∀ i, V i) => G' (x d.u, x) (q h x d.u, 0)) (fun h x => G' (x d.u, x) (f x d.u, 0)) :=
      Near.apply ulG' (UL.prod (ulf.coord d.u) (UL.const 0)) (Near.refl _ _) (Near.prod (hq1.coord d.u) (Near.refl _ _))
    have t3 := Near.comp hK (UL.argN (d := d) hq) (UL.arg0 d) (near_argN hq)
    have t4 := (t1'.trans ((Near.refl 2 fun _ (x : ∀ i, V i) => G (x d.u, x)).add t2.smulH)).add t3.smulH
    simpa [hhalf] using t4
  -- transport of the intermediate state
  have tM : Near 2 (fun h x => τ h (c • (x d.u + h • q h x d.u), x + h • rm h x)) (fun h x => c • G (x d.u, x) +
        h • (c • G' (x d.u, x) (f x d.u, (2 * d.gamma) • f x)) +
        h • ((1 / 2 : ℝ) • (c • G' (x d.u, x) (0, c • G (x d.u, x))))) := by
    refine (hτ2.comp_left (UL.argM (d := d) hq hrm)).trans ?_
    have b1 : UL (fun h (x : ∀ i, V i) => ((c • q h x d.u, rm h x) : V d.u × (∀ i, V i))) := UL.prod ((hq.coord d.u).smul c) hrm
    have t1 := Near.taylor hG (UL.arg0M d c) b1
    have t1' : Near 2 (fun h (x : ∀ i, V i) => G (c • (x d.u + h • q h x d.u), x + h • rm h x))
        (fun h x => G (c • x d.u, x) + h • G' (c • x d.u, x) (c • q h x d.u, rm h x)) := by
      have e : ∀ (h : ℝ) (x : ∀ i, V i), ((c • x d.u, x) + h • ((c • q h x d.u, rm h x) : V d.u × (∀ i, V i))) =
          (c • (x d.u + h • q h x d.u), x + h • rm h x) := by
        intro h x
        ext1
        · simp only [Prod.fst_add, Prod.smul_fst, smul_add]; rw [smul_comm]
        · rfl
      simp only [e] at t1
      exact t1
    have t2 : Near 1 (fun h (x : ∀ i, V i) => G' (c • x d.u, x) (c • q h x d.u, rm h x))
        (fun h x => G' (c • x d.u, x) (c • f x d.u, (2 * d.gamma) • f x)) :=
      Near.apply ulGc (UL.prod ((ulf.coord d.u).smul c) (ulf.smul _)) (Near.refl _ _) (Near.prod ((hq1.coord d.u).smul c) hr1)
    have t3 := Near.comp hK (UL.argM (d := d) hq hrm) (UL.arg0M d c) (near_argM hq hrm)
    have t4 := (t1'.trans ((Near.refl 2 fun _ (x : ∀ i, V i) => G (c • x d.u, x)).add t2.smulH)).add t3.smulH
    have e0 : ∀ x w : ∀ i, V i, G' (c • x d.u, x) (0, w) = c • G' (x d.u, x) (0, w) := by
      intro x w
      have := hh.deriv hG hc (x d.u) 0 x w
      rwa [smul_zero] at this
    have e : (fun (h : ℝ) (x : ∀ i, V i) => c • G (x d.u, x) + h • (c • G' (x d.u, x) (f x d.u, (2 * d.gamma) • f x)) +
        h • ((1 / 2 : ℝ) • (c • G' (x d.u, x) (0, c • G (x d.u, x))))) = fun (h : ℝ) (x : ∀ i, V i) => G (c • x d.u, x) +
        h • G' (c • x d.u, x) (c • f x d.u, (2 * d.gamma) • f x) + h • ((1 / 2 : ℝ) • G' (c • x d.u, x) (0, G (c • x d.u, x))) := by
      funext h x
      rw [hh.deriv hG hc, hh c hc, e0]
    rw [e]
    simpa [hhalf] using t4
  exact (tN.smul _).add ((hr2.add tM).smul _)

/-- The BDF stage is of the second order after at least two outer iterations if the TR stage is. -/
theorem bdf_second {d : TrBdf2Family V} {τ : ℝ → V d.u × (∀ i, V i) → ∀ i, V i} {rm : ℝ → (∀ i, V i) → ∀ i, V i}
    {G : V d.u × (∀ i, V i) → ∀ i, V i} {G' : V d.u × (∀ i, V i) → V d.u × (∀ i, V i) →L[ℝ] (∀ i, V i)} (hG : LocalSmooth G G')
    {F' : (∀ i, V i) → (∀ i, V i) →L[ℝ] (∀ i, V i)} (hF : LocalSmooth d.F F') (hFi : ∀ x, d.Fi x = 0)
    (hg0 : 0 < d.gamma) (hg1 : d.gamma ≤ 1 / 2) (hS : SolverOK (fun i => !d.copied i) d.bdfSolve)
    (hh : Homogeneous G) (hτ : UL τ) (hrm : UL rm) (hτ2 : Near 2 τ fun h z => G z + (h / 2) • G' z (0, G z))
    (hr2 : Near 2 rm fun h x => (2 * d.gamma) • (d.F x + G (x d.u, x)) + (h / 2) • (2 * d.gamma) • (2 * d.gamma) • slope d F' G G' x)
    (htr : ∀ᶠ h in 𝓝[≥] (0 : ℝ), ∀ v x, transported (d.at h).transport v x = x + h • τ h (v, x))
    (hm : Inc (fun h x => trStage (d.at h) x) rm) (hinn : 1 ≤ d.nInnerBdf)
    (hnon : ∀ i, d.copied i = true → ∀ x, d.F x i = 0) (m : ℕ) (hm1 : 1 ≤ m) (hall : ∀ i, ∃ s ∈ d.transport, i ∈ s.1) :
    ∃ r : ℝ → (∀ i, V i) → ∀ i, V i, UL r ∧ Inc (fun h x => (afterBdf d (m + 1) h x).x) r ∧
      ∀ i, Near 2 (fun h x => r h x i) (fun h x => (d.F x + G (x d.u, x) + (h / 2) • slope d F' G G' x) i) := by
  obtain ⟨e2, e3, e4, e5⟩ := gammas hg0 hg1
  have lF : LocalLip d.F := hF.localLip
  have lG : LocalLip G := hG.localLip
  have lFi : LocalLip d.Fi := by rw [show d.Fi = fun _ => 0 from funext hFi]; exact LocalLip.zero
  have hhalf : ∀ (h : ℝ) (v : ∀ i, V i), (h / 2) • v = h • ((1 / 2 : ℝ) • v) := by
    intro h v; rw [smul_smul]; congr 1; ring
  have lf : LocalLip (fun x => d.F x + G (x d.u, x)) := lF.add (LocalLip.diag (d := d) lG)
  have ulf : UL (fun (_ : ℝ) x => d.F x + G (x d.u, x)) := UL.of_lip lf
  have ulG' : UL (fun (_ : ℝ) (x : ∀ i, V i) => G' (x d.u, x)) := (UL.of_lip hG.lip).comp (UL.arg0 d)
  have ulA : UL (fun (_ : ℝ) => slope d F' G G') :=
    ((UL.of_lip hF.lip).apply ulf).add (ulG'.apply (UL.prod (ulf.coord d.u) ulf))
  have hτ1 : Near 1 τ fun _ => G := by
    refine (hτ2.mono one_le_two).trans ?_
    have hu : UL (fun (_ : ℝ) z => (1 / 2 : ℝ) • G' z (0, G z)) :=
      ((UL.of_lip hG.lip).apply (UL.prod (UL.const 0) (UL.of_lip lG))).smul _
    have := Near.drop (q := fun _ z => G z) hu
    simpa [hhalf] using this
  have hr1 : Near 1 rm fun _ x => (fun _ => (0 : ∀ i, V i)) x + (2 * d.gamma) • (d.F x + d.Fi x + G (x d.u, x)) := by
    simp only [hFi, add_zero, zero_add]
    refine (hr2.mono one_le_two).trans ?_
    have := Near.drop (q := fun _ x => (2 * d.gamma) • (d.F x + G (x d.u, x))) (((ulA.smul (2 * d.gamma)).smul (2 * d.gamma)).smul (1 / 2))
    simpa [hhalf] using this
  obtain ⟨q, hq, hqi, hqn⟩ := bdf_first (s1 := fun _ => 0) hg0 hg1 hS lF lFi lG LocalLip.zero hh hτ hrm hτ1 hr1 htr hm hinn
    (fun i hi x => ⟨hnon i hi x, by rw [hFi]; rfl⟩) m (Or.inl hall)
  have hq1 : Near 1 q fun _ x => d.F x + G (x d.u, x) := by
    refine Near.pi fun i => ?_
    have := hqn hm1 i
    simpa [rhsB, hFi] using this
  have hp := near_bdfP2 hG lf ulA hg1 hq hrm hh hτ2 hq1 hr2
  -- the coefficients
  have hsum : ∀ (h : ℝ) (x : ∀ i, V i), ((1 - gamma3 d.gamma) • (G (x d.u, x) + h • G' (x d.u, x) ((d.F x + G (x d.u, x)) d.u, 0) +
        h • ((1 / 2 : ℝ) • G' (x d.u, x) (0, G (x d.u, x)))) +
      gamma3 d.gamma • ((2 * d.gamma) • (d.F x + G (x d.u, x)) + (h / 2) • (2 * d.gamma) • (2 * d.gamma) • slope d F' G G' x +
        ((1 - 2 * d.gamma) • G (x d.u, x) +
        h • ((1 - 2 * d.gamma) • G' (x d.u, x) ((d.F x + G (x d.u, x)) d.u, (2 * d.gamma) • (d.F x + G (x d.u, x)))) +
        h • ((1 / 2 : ℝ) • ((1 - 2 * d.gamma) • G' (x d.u, x) (0, (1 - 2 * d.gamma) • G (x d.u, x))))))) +
      gamma2 d.gamma • (d.F x + h • F' x (d.F x + G (x d.u, x))) =
      d.F x + G (x d.u, x) + (h / 2) • slope d F' G G' x := by
    intro h x
    have s1 : ∀ v : V d.u, ∀ w : ∀ i, V i, G' (x d.u, x) (v, w) = G' (x d.u, x) (v, 0) + G' (x d.u, x) (0, w) := by
      intro v w; rw [← map_add]; simp
    have s2 : ∀ (b : ℝ) (w : ∀ i, V i), G' (x d.u, x) (0, b • w) = b • G' (x d.u, x) (0, w) := by
      intro b w; rw [← map_smul]; simp
    have s3 : ∀ w w' : ∀ i, V i, G' (x d.u, x) (0, w + w') = G' (x d.u, x) (0, w) + G' (x d.u, x) (0, w') := by
      intro w w'; rw [← map_add]; simp
    rw [slope, s1 _ (d.F x + G (x d.u, x)), s1 _ ((2 * d.gamma) • (d.F x + G (x d.u, x))), s2, s2, s3]
    generalize G' (x d.u, x) ((d.F x + G (x d.u, x)) d.u, 0) = a
    generalize G' (x d.u, x) (0, d.F x) = b1
    generalize G' (x d.u, x) (0, G (x d.u, x)) = b2
    generalize F' x (d.F x + G (x d.u, x)) = c1
    rw [e2, e3]
    match_scalars <;> field_simp <;> ring
  refine bdf_pass hS lF lFi hτ hrm htr hm hinn (n := 1) (m := m) (Or.inl hall)
    (a := fun h x => d.F x + G (x d.u, x) + (h / 2) • slope d F' G G' x) hq hqi (fun i => ?_) (fun r hr hra i _ => ?_) fun i hi => ?_
  · have := ((Near.drop (q := fun _ x => d.F x + G (x d.u, x)) (ulA.smul (1 / 2))).coord i).symm
    refine (hq1.coord i).trans ?_
    simpa [hhalf] using this
  · have hr1 : Near 1 r (fun _ x => d.F x + G (x d.u, x)) := by
      refine Near.pi fun j => (hra j).trans ?_
      have := (Near.drop (q := fun _ x => d.F x + G (x d.u, x)) (ulA.smul (1 / 2))).coord j
      simpa [hhalf] using this
    have t1 := Near.taylor hF UL.id hr
    have t2 : Near 1 (fun h x => F' x (r h x)) (fun _ x => F' x (d.F x + G (x d.u, x))) :=
      Near.apply (UL.of_lip hF.lip) ulf (Near.refl _ _) hr1
    have t3 := (t1.trans ((Near.refl 2 fun _ x => d.F x).add t2.smulH)).smul (gamma2 d.gamma)
    have t4 := (hp.add t3).coord i
    simp only [hsum] at t4
    simpa [hFi] using t4
  · have t4 := hp.coord i
    refine t4.trans ?_
    have e : ∀ (h : ℝ) (x : ∀ i, V i), ((1 - gamma3 d.gamma) • (G (x d.u, x) + h • G' (x d.u, x) ((d.F x + G (x d.u, x)) d.u, 0) +
        h • ((1 / 2 : ℝ) • G' (x d.u, x) (0, G (x d.u, x)))) +
      gamma3 d.gamma • ((2 * d.gamma) • (d.F x + G (x d.u, x)) + (h / 2) • (2 * d.gamma) • (2 * d.gamma) • slope d F' G G' x +
        ((1 - 2 * d.gamma) • G (x d.u, x) +
        h • ((1 - 2 * d.gamma) • G' (x d.u, x) ((d.F x + G (x d.u, x)) d.u, (2 * d.gamma) • (d.F x + G (x d.u, x)))) +
        h • ((1 / 2 : ℝ) • ((1 - 2 * d.gamma) • G' (x d.u, x) (0, (1 - 2 * d.gamma) • G (x d.u, x))))))) i =
      (d.F x + G (x d.u, x) + (h / 2) • slope d F' G G' x) i := by
      intro h x
      rw [← hsum]
      have a1 := hnon i hi x
      have a2 := deriv_zero hF i (hnon i hi) x (d.F x + G (x d.u, x))
      simp only [Pi.add_apply, Pi.smul_apply, a1, a2, smul_zero, add_zero]
    simp only [e]
    exact Near.refl 2 _

end Gusto.TrBdf2Conv
