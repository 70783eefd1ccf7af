import Verif.Model.CompressibleSolver
import Verif.Props.EulerHydrostatic
import Verif.Props.Solvers

set_option autoImplicit false
set_option linter.unusedSectionVars false
set_option linter.unusedSimpArgs false

/-!
# C102: the hybridised preconditioner of the compressible Euler equations
-/

namespace Gusto.Props.SCPCProps
open Gusto.DG Gusto.EqSet Gusto.SW Gusto.Bou Gusto.Thermo Gusto.Euler Gusto.SCPC Gusto.Solvers
open Gusto.EqnDiag (pgf MTracer Phase)
open Gusto.Props.DGProps Gusto.Props.SWProps Gusto.Props.BouProps Gusto.Props.EulerProps Gusto.Props.HydroProps
open Gusto.Props.SolversProps (qn_value_gen effG factor)

variable {d : ℕ} {C F B : Type*} [Fintype C] [Fintype F] [Fintype B]

/-- The mass form of the three fields. -/
noncomputable def massE (M : Mesh ℝ d C F B) (X v : EuSt d C F B) : ℝ :=
  (∑ x, M.wC x * dot (X.u.c x) (v.u.c x)) + (∑ x, M.wC x * (X.rho.c x * v.rho.c x)) + ∑ x, M.wC x * (X.th.c x * v.th.c x)

/-- The quasi-Newton operator of the compressible Euler equations, for a reference state at rest. -/
theorem euler_qn (c : ECfg d C F B) (hR : GoodC c.base.R) (Xref : EuSt d C F B) (hu : Xref.u = Ve.zero)
    (res : List (ET d C F B)) (h : euler c (fun _ => true) Xref = .ok res) (tau : String → ℝ) (dt : ℝ)
    (op : Option ((Fin d → ℝ) → Fin d → ℝ)) (ho : corOp c.base = .ok op) :
    ∃ q, quasiNewton res ["u", "rho", "theta"] tau dt = .ok q ∧ ∀ X v, q X v = massE c.base.M X v
      + tau "u" * dt * (pgf c.base.M c.vert c.P.cp v.u (dThetaV c.tracers Xref X) (exnerF c.P Xref)
        + pgf c.base.M c.vert c.P.cp v.u (thetaV c.tracers Xref) (dExner c.P Xref X) + corE c op X v)
      + dt * spongeE c X v
      + tau "rho" * dt * contCells c.base.M v.rho Xref.rho X.u
      + tau "theta" * dt * (advCells c.base.M v.th Xref.th X.u
        + if c.tracers.isEmpty then 0 else ∑ x, c.base.M.wC x * (v.th.c x * Xref.th.c x * X.u.div x * moistAt c Xref x)) := by
  obtain ⟨ut, op', sp, hut, ho', hs, rfl⟩ := builtE c _ Xref res h
  rw [ho] at ho'; cases ho'
  set P : List String := ["u", "rho", "theta"] with hP
  obtain ⟨q, hq, hv⟩ := qn_value_gen (termsE c (fun _ => true) Xref ut op sp) Xref P tau dt (by
    intro t ht htd
    have : t ∈ (termsE c (fun _ => true) Xref ut op sp).filter (fun t => decide ("time_derivative" ∈ t.labels)) :=
      List.mem_filter.2 ⟨ht, htd⟩
    rw [termsE_temporal c _ Xref ut op sp hut hs] at this
    simp only [List.mem_cons, List.not_mem_nil, or_false] at this
    rcases this with rfl | rfl | rfl <;> rfl)
  refine ⟨q, hq, fun X v => ?_⟩
  rw [hv]
  have eU : ((ut.map lift).map fun t => factor P tau dt t * effG Xref t X v).sum = 0 := by
    have hd : (cells c.base.M fun x => v.u.div x * dot (X.u.c x) ((Ve.zero : Ve ℝ d C F B).c x)) = 0 := by
      unfold cells
      exact Finset.sum_eq_zero fun x _ => by simp [Ve.zero, dot]
    have hk : kinE c.base.M v.u X.u (Ve.zero : Ve ℝ d C F B) = 0 := by rw [kinE_comm, kin_zero]
    unfold Bou.uTransport at hut
    cases hc : c.base.uopt <;> rw [hc] at hut <;> cases hut
    · simp [attach, effG, lift, toSt, hu, bcirc_zero_q c.base hR, bcirc_zero_u c.base hR, hd]
    · simp [attach, effG, lift, toSt, hu, bcirc_zero_q c.base hR, bcirc_zero_u c.base hR, kin_zero, hk]
    · simp [effG, lift, toSt, hu, adv_zero_q, adv_zero_u]
  have eM1 : factor P tau dt (Euler.massU c.base.M) = 1 := by simp [factor, isTD, Euler.massU]
  have eM2 : factor P tau dt (massRho c.base.M) = 1 := by simp [factor, isTD, massRho]
  have eM3 : factor P tau dt (massTh c.base.M) = 1 := by simp [factor, isTD, massTh]
  have f1 : factor P tau dt (rhoAdv c (fun _ => true) Xref) = tau "rho" * dt := by
    simp [factor, isTD, isProg, isImplicit, rhoAdv, attachE_labels, hP]
  have f2 : factor P tau dt (thAdv c (fun _ => true) Xref) = tau "theta" * dt := by
    simp [factor, isTD, isProg, isImplicit, thAdv, attachE_labels, hP]
  have f3 : factor P tau dt (pg c) = tau "u" * dt := by simp [factor, isTD, isProg, isImplicit, pg, hP]
  have g1 : effG Xref (rhoAdv c (fun _ => true) Xref) X v = contCells c.base.M v.rho Xref.rho X.u := by
    have : contCells c.base.M v.rho X.rho (Ve.zero : Ve ℝ d C F B) = 0 := by
      unfold contCells
      exact Finset.sum_eq_zero fun x _ => by simp [Ve.zero, dot, DG.Ve.div]
    simp [rhoAdv, attachE, effG, hu, this]
  have g2 : effG Xref (thAdv c (fun _ => true) Xref) X v = advCells c.base.M v.th Xref.th X.u := by
    simp [thAdv, attachE, effG, hu, advs_zero]
  have g4 : effG Xref (Euler.grav c) X v = 0 := rfl
  have eM : ((moistTerms c).map fun t => factor P tau dt t * effG Xref t X v).sum = tau "theta" * dt *
      if c.tracers.isEmpty then 0 else ∑ x, c.base.M.wC x * (v.th.c x * Xref.th.c x * X.u.div x * moistAt c Xref x) := by
    unfold moistTerms
    split_ifs
    · simp
    · have z1 : moistForm c.base.M v.th X.th (Ve.zero : Ve ℝ d C F B) (moistAt c Xref) = 0 := by
        unfold moistForm cells
        exact Finset.sum_eq_zero fun x _ => by simp [Ve.zero, DG.Ve.div]
      have z2 : moistForm c.base.M v.th Xref.th (Ve.zero : Ve ℝ d C F B) (dMoistAt c Xref X) = 0 := by
        unfold moistForm cells
        exact Finset.sum_eq_zero fun x _ => by simp [Ve.zero, DG.Ve.div]
      have fm : factor P tau dt (moist c) = tau "theta" * dt := by simp [factor, isTD, isProg, isImplicit, moist, hP]
      have gm : effG Xref (moist c) X v = ∑ x, c.base.M.wC x * (v.th.c x * Xref.th.c x * X.u.div x * moistAt c Xref x) := by
        simp only [effG, moist, hu, z1, z2]
        simp [moistForm, cells]
      simp [fm, gm]
  have eC : ((Euler.corTerms c op).map fun t => factor P tau dt t * effG Xref t X v).sum = tau "u" * dt * corE c op X v := by
    cases op with
    | none => simp [Euler.corTerms, corE]
    | some f => simp [Euler.corTerms, corE, bcor, cells, effG, factor, isTD, isProg, isImplicit, hP]
  have eS : (sp.map fun t => factor P tau dt t * effG Xref t X v).sum = dt * spongeE c X v := by
    unfold spongeTerms at hs
    unfold spongeE
    cases hsp : c.sponge with
    | none => rw [hsp] at hs; cases hs; simp
    | some s =>
      rw [hsp] at hs
      simp only at hs
      split_ifs at hs
      cases hs
      simp [spongeForm, cells, effG, factor, isTD, isProg, isImplicit, hP]
  have e8 : effG Xref (Euler.massU c.base.M) X v = ∑ x, c.base.M.wC x * dot (X.u.c x) (v.u.c x) := rfl
  have e9 : effG Xref (massRho c.base.M) X v = ∑ x, c.base.M.wC x * (X.rho.c x * v.rho.c x) := rfl
  have e10 : effG Xref (massTh c.base.M) X v = ∑ x, c.base.M.wC x * (X.th.c x * v.th.c x) := rfl
  have e11 : effG Xref (pg c) X v = pgf c.base.M c.vert c.P.cp v.u (dThetaV c.tracers Xref X) (exnerF c.P Xref)
    + pgf c.base.M c.vert c.P.cp v.u (thetaV c.tracers Xref) (dExner c.P Xref X) := rfl
  unfold termsE massE
  simp only [List.map_append, List.sum_append, eU, eM, eC, eS, List.map_cons, List.map_nil, List.sum_cons, List.sum_nil,
    eM1, eM2, eM3, f1, f2, f3, g1, g2, g4, e8, e9, e10, e11]
  ring

/-- The quasi-Newton operator of the hydrostatic equations is that of the compressible ones: the projection leaves the
linearisation alone and the extra term has none. -/
theorem hydro_qn (c : ECfg d C F B) (Xref : EuSt d C F B) (res full : List (ET d C F B))
    (h : Euler.hydrostatic c (fun _ => true) Xref = .ok res) (hf : euler c (fun _ => true) Xref = .ok full)
    (progs : List String) (tau : String → ℝ) (dt : ℝ) :
    quasiNewton res progs tau dt = quasiNewton full progs tau dt := by
  obtain ⟨r, he, rfl⟩ := builtH c _ Xref res h
  rw [hf] at he; cases he
  set P : ET d C F B → ET d C F B := fun t => if "time_derivative" ∈ t.labels then project c.base.k t else t with hP
  have hl : ∀ t, (P t).labels = t.labels := fun t => by rw [hP]; beta_reduce; split_ifs <;> rfl
  have hn : ∀ t, (P t).lin = t.lin := fun t => by rw [hP]; beta_reduce; split_ifs <;> rfl
  have key : ∀ (f : ET d C F B → Bool) (g : ET d C F B → ℝ), (∀ t, f (P t) = f t) → (∀ t, g (P t) = g t) →
      f (hydT c) = false → (((full.map P ++ [hydT c]).filter f).map g) = (full.filter f).map g := by
    intro f g hf hg h0
    rw [List.filter_append, List.filter_cons, h0]
    simp only [Bool.false_eq_true, if_false, List.filter_nil, List.append_nil]
    rw [List.filter_map, List.map_map]
    have : f ∘ P = f := funext hf
    rw [this]
    exact List.map_congr_left fun t _ => hg t
  have hall : ((full.map P ++ [hydT c]).filter isTD).all (fun t => t.lin.isSome) = (full.filter isTD).all (fun t => t.lin.isSome) := by
    rw [List.filter_append, List.filter_cons]
    have : isTD (hydT c) = false := by simp [isTD, hydT]
    rw [this]
    simp only [Bool.false_eq_true, if_false, List.filter_nil, List.append_nil]
    rw [List.filter_map, List.all_map]
    have h2 : isTD ∘ P = (isTD : ET d C F B → Bool) := funext fun t => by simp [isTD, hl]
    have h3 : (fun t : ET d C F B => t.lin.isSome) ∘ P = fun t => t.lin.isSome := funext fun t => by simp [hn]
    rw [h2, h3]
  have hlin : ∀ h v t, linOf (P t) h v = linOf t h v := fun h v t => by unfold linOf; rw [hn]
  change quasiNewton (full.map P ++ [hydT c]) progs tau dt = _
  unfold quasiNewton
  rw [hall]
  split_ifs
  · congr 1
    funext h v
    rw [key isTD _ (fun t => by simp [isTD, hl]) (hlin h v) (by simp [isTD, hydT])]
    congr 2
    refine List.map_congr_left fun n _ => ?_
    rw [key _ _ (fun t => by simp [isTD, isProg, isImplicit, hl, hn]) (fun t => by rw [hlin]) (by simp [hydT]),
      key _ _ (fun t => by simp [isTD, isProg, isImplicit, hl, hn]) (fun t => by rw [hlin]) (by simp [hydT])]
  · rfl

/-! ### Specification -/

/-- Test functions of one equation. -/
noncomputable def testU (w : Ve ℝ d C F B) : EuSt d C F B := ⟨w, Sc.const 0, Sc.const 0, fun _ => Sc.const 0⟩
noncomputable def testTh (g : Sc ℝ d C F B) : EuSt d C F B := ⟨Ve.zero, Sc.const 0, g, fun _ => Sc.const 0⟩

/-- The preconditioner is set up for the equation set: the same vertical, relaxation parameters, timestep and reference
state, and the spaces are spaces. -/
structure Setting (c : ECfg d C F B) (p : PCfg d C F B) (S : Spaces d C F B) (Xref : EuSt d C F B) (tau : String → ℝ)
    (dt : ℝ) : Prop where
  k : ∀ x, p.k.c x = c.base.k x
  dz : ∀ x, p.dz.c x = dot (c.base.k x) (Xref.th.g x)
  bu : p.betaU = dt * tau "u"
  bt : p.betaT = dt * tau "theta"
  br : p.betaR = dt * tau "rho"
  dt : p.dt = dt
  zU : Ve.zero ∈ S.U
  zP : Sc.const 0 ∈ S.P
  zT : (⟨fun _ => 0, fun _ => 0⟩ : Trace F B) ∈ S.T
  /-- The trace space contains the jumps of the normal components ... -/
  jump : ∀ u ∈ S.U, ∃ dl ∈ S.T, (∀ x, dl.f x = jumpVe c.base.M u x) ∧ ∀ x, dl.b x = dot (u.b x) (c.base.M.nB x)
  /-- ... and averaging leaves velocities with continuous normal component and no flow through the boundary alone (C99). -/
  avg : ∀ u ∈ S.U, Flow c.base.M u → S.avg u = u
  wF : ∀ x, 0 < c.base.M.wF x
  wB : ∀ x, 0 < c.base.M.wB x

/-! ### The rows -/

theorem pgf_zero (M : Mesh ℝ d C F B) (vert : F → Bool) (cp : ℝ) (th ex : Sc ℝ d C F B) :
    pgf M vert cp Ve.zero th ex = 0 := by
  unfold pgf
  simp [Ve.zero, dot, DG.Ve.div]

theorem hybRho_zero (c : ECfg d C F B) (p : PCfg d C F B) (Xref : EuSt d C F B) (ri : Sc ℝ d C F B) (u : Ve ℝ d C F B)
    (r : Sc ℝ d C F B) : hybRho c p Xref ri u r (Sc.const 0) = 0 := by
  unfold hybRho
  simp [Sc.const, cells, dot, jumpMul]

theorem hybL_zero (M : Mesh ℝ d C F B) (u : Ve ℝ d C F B) : hybL M u ⟨fun _ => 0, fun _ => 0⟩ = 0 := by
  unfold hybL; simp

theorem vproj_zero (k : Ve ℝ d C F B) (x : C) : (vproj k Ve.zero).div x = 0 := by
  unfold vproj DG.Ve.div dotVe
  simp [Ve.zero, dot]

theorem hybU_zero (c : ECfg d C F B) (p : PCfg d C F B) (hyd : Bool) (op : Option ((Fin d → ℝ) → Fin d → ℝ))
    (mr : Sc ℝ d C F B) (Xref : EuSt d C F B) (ui u : Ve ℝ d C F B) (rho th : Sc ℝ d C F B) (l : Trace F B) :
    hybU c p hyd op mr Xref ui u rho th l Ve.zero = 0 := by
  have h1 : ∀ q x, divMul q (vproj p.k (Ve.zero : Ve ℝ d C F B)) x = 0 := fun q x => by
    unfold divMul; rw [vproj_zero]; simp [vproj, Ve.zero, dot]
  have h2 : ∀ q x, divMul q (Ve.zero : Ve ℝ d C F B) x = 0 := fun q x => by
    simp [divMul, Ve.zero, dot, DG.Ve.div]
  unfold hybU uMass corPC spongePC
  simp only [h1, h2]
  cases c.sponge <;> cases op <;> simp [vproj, Ve.zero, dot, jumpMul, cells, spongeForm]

/-- The constraint gives continuity. -/
theorem flow_of_constraint (c : ECfg d C F B) (p : PCfg d C F B) (S : Spaces d C F B) (Xref : EuSt d C F B)
    (tau : String → ℝ) (dt : ℝ) (hs : Setting c p S Xref tau dt) (u : Ve ℝ d C F B) (hu : u ∈ S.U)
    (h : ∀ dl ∈ S.T, hybL c.base.M u dl = 0) : Flow c.base.M u := by
  obtain ⟨dl, hdl, h1, h2⟩ := hs.jump u hu
  have h0 := h dl hdl
  unfold hybL at h0
  simp only [h1, h2] at h0
  have a1 : ∀ x ∈ Finset.univ, 0 ≤ c.base.M.wF x * (jumpVe c.base.M u x * jumpVe c.base.M u x) := fun x _ =>
    mul_nonneg (hs.wF x).le (mul_self_nonneg _)
  have a2 : ∀ x ∈ Finset.univ, 0 ≤ c.base.M.wB x * (dot (u.b x) (c.base.M.nB x) * dot (u.b x) (c.base.M.nB x)) :=
    fun x _ => mul_nonneg (hs.wB x).le (mul_self_nonneg _)
  have b1 := (Finset.sum_eq_zero_iff_of_nonneg a1).1 (by linarith [Finset.sum_nonneg a1, Finset.sum_nonneg a2])
  have b2 := (Finset.sum_eq_zero_iff_of_nonneg a2).1 (by linarith [Finset.sum_nonneg a1, Finset.sum_nonneg a2])
  refine ⟨fun x => ?_, fun x => ?_⟩
  · rcases mul_eq_zero.1 (b1 x (Finset.mem_univ x)) with h | h
    · exact absurd h (hs.wF x).ne'
    · have := mul_self_eq_zero.1 h
      unfold jumpVe at this
      linarith
  · rcases mul_eq_zero.1 (b2 x (Finset.mem_univ x)) with h | h
    · exact absurd h (hs.wB x).ne'
    · exact mul_self_eq_zero.1 h

/-- What an application returns, in one place. -/
theorem applied_rows (c : ECfg d C F B) (p : PCfg d C F B) (hyd : Bool) (op : Option ((Fin d → ℝ) → Fin d → ℝ))
    (S : Spaces d C F B) (Xref xin y : EuSt d C F B) (tau : String → ℝ) (dt : ℝ) (hs : Setting c p S Xref tau dt)
    (ha : Applied c p hyd op S Xref xin y) : ∃ mr l, mrWater c.tracers Xref = .ok mr ∧ y.u ∈ S.U ∧ Flow c.base.M y.u ∧
      (∀ w ∈ S.U, hybU c p hyd op (Sc.add (Sc.const 1) mr) Xref xin.u y.u y.rho (thetaElim p xin.th y.u) l w = 0) ∧
      (∀ phi ∈ S.P, hybRho c p Xref xin.rho y.u y.rho phi = 0) := by
  obtain ⟨mr, u, l, hmr, hu, hr, hl, heq, hyu, hth, hrec, htr⟩ := ha
  have hF : Flow c.base.M u := flow_of_constraint c p S Xref tau dt hs u hu fun dl hdl => by
    have h0 := heq _ hs.zU _ hs.zP dl hdl
    rw [hybU_zero, hybRho_zero, zero_add, zero_add] at h0
    exact h0
  rw [hyu, hs.avg u hu hF]
  refine ⟨mr, l, hmr, hu, hF, fun w hw => ?_, fun phi hp => ?_⟩
  · have := heq w hw _ hs.zP _ hs.zT
    rw [hybRho_zero, hybL_zero] at this
    linarith
  · have := heq _ hs.zU phi hp _ hs.zT
    rw [hybU_zero, hybL_zero] at this
    linarith

/-- C102, continuity: the velocity has a continuous normal component and no normal flow through the whole boundary. -/
theorem C102_continuity (c : ECfg d C F B) (p : PCfg d C F B) (hyd : Bool) (op : Option ((Fin d → ℝ) → Fin d → ℝ))
    (S : Spaces d C F B) (Xref xin y : EuSt d C F B) (tau : String → ℝ) (dt : ℝ) (hs : Setting c p S Xref tau dt)
    (ha : Applied c p hyd op S Xref xin y) :
    (∀ x, dot (y.u.p x) (c.base.M.nP x) + dot (y.u.m x) (c.base.M.nM x) = 0) ∧ ∀ x, dot (y.u.b x) (c.base.M.nB x) = 0 := by
  obtain ⟨mr, l, _, _, hF, _⟩ := applied_rows c p hyd op S Xref xin y tau dt hs ha
  exact ⟨fun x => by rw [hF.1 x]; ring, hF.2⟩

/-- C102, potential temperature: the increments satisfy the quasi-Newton equation of potential temperature up to the
transport by the horizontal velocity of the reference profile and the moist divergence term of the reference state. -/
theorem C102_theta_row (c : ECfg d C F B) (hR : GoodC c.base.R) (p : PCfg d C F B) (hyd : Bool)
    (op : Option ((Fin d → ℝ) → Fin d → ℝ)) (ho : corOp c.base = .ok op)
    (S : Spaces d C F B) (Xref xin y : EuSt d C F B) (hu : Xref.u = Ve.zero) (res : List (ET d C F B))
    (h : euler c (fun _ => true) Xref = .ok res) (tau : String → ℝ) (dt : ℝ) (hs : Setting c p S Xref tau dt)
    (ha : Applied c p hyd op S Xref xin y) (q : EuSt d C F B → EuSt d C F B → ℝ)
    (hq : quasiNewton res ["u", "rho", "theta"] tau dt = .ok q) (gam : Sc ℝ d C F B) (hg : gam ∈ S.Th) :
    q y (testTh gam) = (∑ x, c.base.M.wC x * (xin.th.c x * gam.c x))
      + tau "theta" * dt * (∑ x, c.base.M.wC x * (gam.c x *
          (dot (y.u.c x) (Xref.th.g x) - dot (y.u.c x) (c.base.k x) * dot (c.base.k x) (Xref.th.g x))))
      + tau "theta" * dt * (if c.tracers.isEmpty then 0 else
          ∑ x, c.base.M.wC x * (gam.c x * Xref.th.c x * y.u.div x * moistAt c Xref x)) := by
  obtain ⟨q', hq', hv⟩ := euler_qn c hR Xref hu res h tau dt op ho
  rw [hq] at hq'; cases hq'
  obtain ⟨_, _, _, _, _, _, _, _, _, _, hrec, _⟩ := ha
  have hr := hrec gam hg
  unfold thetaEqn cells at hr
  simp only [hs.k, hs.bt] at hr
  rw [hv]
  have z1 : corE c op y (testTh gam) = 0 := by unfold corE testTh; cases op <;> simp [Ve.zero, dot]
  have z2 : spongeE c y (testTh gam) = 0 := by unfold spongeE testTh; cases c.sponge <;> simp [Ve.zero, dot]
  have z3 : massE c.base.M y (testTh gam) = ∑ x, c.base.M.wC x * (y.th.c x * gam.c x) := by
    simp [massE, testTh, Ve.zero, dot, Sc.const]
  have z4 : contCells c.base.M (testTh gam).rho Xref.rho y.u = 0 := by simp [contCells, testTh, Sc.const]
  rw [z1, z2, z3, z4]
  have z5 : ∀ a b, pgf c.base.M c.vert c.P.cp (testTh gam).u a b = 0 := fun a b => pgf_zero _ _ _ _ _
  simp only [z5]
  unfold advCells
  have e1 : (∑ x, c.base.M.wC x * (gam.c x *
          (dot (y.u.c x) (Xref.th.g x) - dot (y.u.c x) (c.base.k x) * dot (c.base.k x) (Xref.th.g x)))) =
      (∑ x, c.base.M.wC x * (gam.c x * dot (y.u.c x) (Xref.th.g x))) -
        ∑ x, c.base.M.wC x * (gam.c x * (dot (c.base.k x) (y.u.c x) * dot (c.base.k x) (Xref.th.g x))) := by
    rw [← Finset.sum_sub_distrib]
    exact Finset.sum_congr rfl fun x _ => by rw [dot_comm (c.base.k x) (y.u.c x)]; ring
  have e2 : (∑ x, c.base.M.wC x * (gam.c x * (y.th.c x - xin.th.c x +
        dot (c.base.k x) (y.u.c x) * dot (c.base.k x) (Xref.th.g x) * (dt * tau "theta")))) =
      (∑ x, c.base.M.wC x * (y.th.c x * gam.c x)) - (∑ x, c.base.M.wC x * (xin.th.c x * gam.c x)) +
        tau "theta" * dt * ∑ x, c.base.M.wC x * (gam.c x * (dot (c.base.k x) (y.u.c x) * dot (c.base.k x) (Xref.th.g x))) := by
    rw [Finset.mul_sum, ← Finset.sum_sub_distrib, ← Finset.sum_add_distrib]
    exact Finset.sum_congr rfl fun x _ => by ring
  rw [e1]
  rw [e2] at hr
  simp only [testTh]
  linear_combination hr

/-- C102, density: the increments satisfy the quasi-Newton equation of density up to the jumps of the reference density
across the facets. -/
theorem C102_rho_row (c : ECfg d C F B) (hR : GoodC c.base.R) (p : PCfg d C F B) (hyd : Bool)
    (op : Option ((Fin d → ℝ) → Fin d → ℝ)) (ho : corOp c.base = .ok op)
    (S : Spaces d C F B) (Xref xin y : EuSt d C F B) (hu : Xref.u = Ve.zero) (res : List (ET d C F B))
    (h : euler c (fun _ => true) Xref = .ok res) (tau : String → ℝ) (dt : ℝ) (hs : Setting c p S Xref tau dt)
    (ha : Applied c p hyd op S Xref xin y) (q : EuSt d C F B → EuSt d C F B → ℝ)
    (hq : quasiNewton res ["u", "rho", "theta"] tau dt = .ok q) (phi : Sc ℝ d C F B) (hp : phi ∈ S.P)
    (hd : DivThm c.base.M phi Xref.rho y.u) :
    q y (onlyRho phi) = (∑ x, c.base.M.wC x * (xin.rho.c x * phi.c x))
      + tau "rho" * dt * ∑ x, c.base.M.wF x * (dot (y.u.p x) (c.base.M.nP x) *
          (phi.p x * (Xref.rho.p x - p.rhoAvg.f x) - phi.m x * (Xref.rho.m x - p.rhoAvg.f x))) := by
  obtain ⟨q', hq', hv⟩ := euler_qn c hR Xref hu res h tau dt op ho
  rw [hq] at hq'; cases hq'
  obtain ⟨mr, l, _, _, hF, _, hrho⟩ := applied_rows c p hyd op S Xref xin y tau dt hs ha
  have hr := hrho phi hp
  unfold hybRho cells at hr
  rw [hs.br] at hr
  rw [hv]
  have z1 : corE c op y (onlyRho phi) = 0 := by unfold corE onlyRho; cases op <;> simp [Ve.zero, dot]
  have z2 : spongeE c y (onlyRho phi) = 0 := by unfold spongeE onlyRho; cases c.sponge <;> simp [Ve.zero, dot]
  have z3 : massE c.base.M y (onlyRho phi) = ∑ x, c.base.M.wC x * (y.rho.c x * phi.c x) := by
    simp [massE, onlyRho, Ve.zero, dot, Sc.const]
  have z4 : advCells c.base.M (onlyRho phi).th Xref.th y.u = 0 := by simp [advCells, onlyRho, Sc.const]
  have z6 : (∑ x, c.base.M.wC x * ((onlyRho phi).th.c x * Xref.th.c x * y.u.div x * moistAt c Xref x)) = 0 := by
    simp [onlyRho, Sc.const]
  have z5 : ∀ a b, pgf c.base.M c.vert c.P.cp (onlyRho phi).u a b = 0 := fun a b => pgf_zero _ _ _ _ _
  rw [z1, z2, z3, z4, z6]
  simp only [z5, ite_self]
  have b0 : ∀ r : B → ℝ, (∑ x, c.base.M.wB x * (phi.b x * dot (y.u.b x) (c.base.M.nB x) * r x)) = 0 := fun r =>
    Finset.sum_eq_zero fun x _ => by rw [hF.2 x]; ring
  have b1 : (∑ x, c.base.M.wB x * (phi.b x * Xref.rho.b x * dot (y.u.b x) (c.base.M.nB x))) = 0 :=
    Finset.sum_eq_zero fun x _ => by rw [hF.2 x]; ring
  dsimp only at hr
  rw [b0] at hr
  unfold DivThm at hd
  rw [b1] at hd
  have e1 : (∑ x, c.base.M.wC x * (phi.c x * (y.rho.c x - xin.rho.c x) - dt * tau "rho" * dot (phi.g x) (y.u.c x) * Xref.rho.c x)) =
      (∑ x, c.base.M.wC x * (y.rho.c x * phi.c x)) - (∑ x, c.base.M.wC x * (xin.rho.c x * phi.c x)) -
        tau "rho" * dt * ∑ x, c.base.M.wC x * (dot (phi.g x) (y.u.c x) * Xref.rho.c x) := by
    rw [Finset.mul_sum, ← Finset.sum_sub_distrib, ← Finset.sum_sub_distrib]
    exact Finset.sum_congr rfl fun x _ => by ring
  have e2 : (∑ x, c.base.M.wC x * (dot (phi.g x) (y.u.c x) * Xref.rho.c x + phi.c x * dot (Xref.rho.g x) (y.u.c x) +
        phi.c x * Xref.rho.c x * y.u.div x)) =
      (∑ x, c.base.M.wC x * (dot (phi.g x) (y.u.c x) * Xref.rho.c x)) + contCells c.base.M phi Xref.rho y.u := by
    unfold contCells
    rw [← Finset.sum_add_distrib]
    exact Finset.sum_congr rfl fun x _ => by ring
  have e3 : (∑ x, c.base.M.wF x * (dot (y.u.p x) (c.base.M.nP x) *
          (phi.p x * (Xref.rho.p x - p.rhoAvg.f x) - phi.m x * (Xref.rho.m x - p.rhoAvg.f x)))) =
      (∑ x, c.base.M.wF x * (phi.p x * Xref.rho.p x * dot (y.u.p x) (c.base.M.nP x) +
        phi.m x * Xref.rho.m x * dot (y.u.m x) (c.base.M.nM x))) -
        ∑ x, c.base.M.wF x * (jumpMul c.base.M phi y.u x * p.rhoAvg.f x) := by
    rw [← Finset.sum_sub_distrib]
    refine Finset.sum_congr rfl fun x _ => ?_
    unfold jumpMul
    rw [hF.1 x]; ring
  rw [e1] at hr
  rw [e2] at hd
  rw [e3]
  simp only [onlyRho]
  linear_combination hr + tau "rho" * dt * hd

/-! ### The momentum row -/

/-- The reference state and the eliminated potential temperature fit together: what the momentum row needs.  `mr` is the
sum of the mixing ratios, `th` the increment of potential temperature. -/
structure Balanced (c : ECfg d C F B) (p : PCfg d C F B) (Xref : EuSt d C F B) (th : Sc ℝ d C F B) : Prop where
  /-- All moisture in the pressure gradient is water. -/
  mr : mrWater c.tracers Xref = .ok (mrTotal c.tracers Xref)
  exner : Continuous (exnerF c.P Xref)
  avgF : ∀ x, c.vert x = false → p.exnerAvg.f x = (exnerF c.P Xref).p x
  avgB : ∀ x, p.tb x = true → p.exnerAvg.b x = (exnerF c.P Xref).b x
  thbar : Continuous (thetaV c.tracers Xref)
  th : ∀ x, c.vert x = false → (quot th (mrOne c.tracers Xref)).p x = (quot th (mrOne c.tracers Xref)).m x
  kF : ∀ x, c.vert x = true → dot (p.k.p x) (c.base.M.nP x) = 0 ∧ dot (p.k.m x) (c.base.M.nM x) = 0
  kB : ∀ x, p.tb x = false → dot (p.k.b x) (c.base.M.nB x) = 0

theorem sc_ext (a b : Sc ℝ d C F B) (h1 : a.c = b.c) (h2 : a.g = b.g) (h3 : a.p = b.p) (h4 : a.m = b.m) (h5 : a.b = b.b)
    (h6 : a.gp = b.gp) (h7 : a.gm = b.gm) : a = b := by
  cases a; cases b; simp_all

theorem mrTotal_zero (ts : List MTracer) (X : EuSt d C F B) (h : X.tr = fun _ => Sc.const 0) :
    mrTotal ts X = Sc.const 0 := by
  unfold mrTotal
  rw [h]
  have h0 : Sc.add (Sc.const 0 : Sc ℝ d C F B) (Sc.const 0) = Sc.const 0 := by
    apply sc_ext <;> simp [Sc.add, Sc.const]
  induction ts.filter (·.mixingRatio) with
  | nil => rfl
  | cons t l ih => simp only [List.foldl_cons, h0]; exact ih

theorem dThetaV_dry (ts : List MTracer) (Xref X : EuSt d C F B) (h : X.tr = fun _ => Sc.const 0) :
    dThetaV ts Xref X = quot X.th (mrOne ts Xref) := by
  unfold dThetaV
  rw [mrTotal_zero ts X h]
  apply sc_ext <;> simp [EqnDiag.Sc.sub, Sc.mul, quot, Sc.const]

/-- The vertical part of the pressure gradient, in the form of the preconditioner, by parts. -/
theorem vert_parts (M : Mesh ℝ d C F B) (vert : F → Bool) (tb : B → Bool) (k w : Ve ℝ d C F B) (th ex : Sc ℝ d C F B)
    (a : Trace F B) (hex : Continuous ex) (haF : ∀ x, vert x = false → a.f x = ex.p x)
    (haB : ∀ x, tb x = true → a.b x = ex.b x)
    (kF : ∀ x, vert x = true → dot (k.p x) (M.nP x) = 0 ∧ dot (k.m x) (M.nM x) = 0)
    (kB : ∀ x, tb x = false → dot (k.b x) (M.nB x) = 0) (hd : DivThm M th ex (vproj k w)) :
    -(∑ x, M.wC x * (divMul th (vproj k w) x * ex.c x)) +
      (∑ x, if vert x then 0 else M.wF x * (jumpMul M th (vproj k w) x * a.f x)) +
      (∑ x, if tb x then M.wB x * (th.b x * dot ((vproj k w).b x) (M.nB x) * a.b x) else 0) =
    ∑ x, M.wC x * (th.c x * (dot (w.c x) (k.c x) * dot (k.c x) (ex.g x))) := by
  have hv : ∀ (y n : Fin d → ℝ) (s : ℝ), dot (fun i => y i * s) n = s * dot y n := fun y n s => by
    unfold dot; rw [Finset.mul_sum]; exact Finset.sum_congr rfl fun i _ => by ring
  have f1 : (∑ x, if vert x then 0 else M.wF x * (jumpMul M th (vproj k w) x * a.f x)) =
      ∑ x, M.wF x * (th.p x * ex.p x * dot ((vproj k w).p x) (M.nP x) + th.m x * ex.m x * dot ((vproj k w).m x) (M.nM x)) := by
    refine Finset.sum_congr rfl fun x _ => ?_
    by_cases hx : vert x = true
    · rw [if_pos hx]
      have h1 : dot ((vproj k w).p x) (M.nP x) = 0 := by
        change dot (fun i => k.p x i * dot (w.p x) (k.p x)) _ = 0
        rw [hv, (kF x hx).1]; ring
      have h2 : dot ((vproj k w).m x) (M.nM x) = 0 := by
        change dot (fun i => k.m x i * dot (w.m x) (k.m x)) _ = 0
        rw [hv, (kF x hx).2]; ring
      rw [h1, h2]; ring
    · have hx' : vert x = false := by simpa using hx
      rw [if_neg hx, haF x hx', jumpMul, ← hex x]; ring
  have f2 : (∑ x, if tb x then M.wB x * (th.b x * dot ((vproj k w).b x) (M.nB x) * a.b x) else 0) =
      ∑ x, M.wB x * (th.b x * ex.b x * dot ((vproj k w).b x) (M.nB x)) := by
    refine Finset.sum_congr rfl fun x _ => ?_
    by_cases hx : tb x = true
    · rw [if_pos hx, haB x hx]; ring
    · have hx' : tb x = false := by simpa using hx
      rw [if_neg hx]
      have h1 : dot ((vproj k w).b x) (M.nB x) = 0 := by
        change dot (fun i => k.b x i * dot (w.b x) (k.b x)) _ = 0
        rw [hv, kB x hx']; ring
      rw [h1]; ring
  unfold DivThm at hd
  rw [f1, f2]
  have e : (∑ x, M.wC x * (dot (th.g x) ((vproj k w).c x) * ex.c x + th.c x * dot (ex.g x) ((vproj k w).c x) +
        th.c x * ex.c x * (vproj k w).div x)) = (∑ x, M.wC x * (divMul th (vproj k w) x * ex.c x)) +
        ∑ x, M.wC x * (th.c x * (dot (w.c x) (k.c x) * dot (k.c x) (ex.g x))) := by
    rw [← Finset.sum_add_distrib]
    refine Finset.sum_congr rfl fun x _ => ?_
    have h1 : dot (ex.g x) ((vproj k w).c x) = dot (w.c x) (k.c x) * dot (k.c x) (ex.g x) := by
      change dot (ex.g x) (fun i => k.c x i * dot (w.c x) (k.c x)) = _
      rw [dot_comm, hv]
    unfold divMul
    rw [h1]; ring
  rw [e] at hd
  linarith

/-- C102, momentum: the increments satisfy the quasi-Newton equation of momentum up to the horizontal gradient of the
reference Exner pressure; in the hydrostatic case the vertical velocity is left over too. -/
theorem C102_u_row (c : ECfg d C F B) (hR : GoodC c.base.R) (p : PCfg d C F B) (hyd : Bool)
    (op : Option ((Fin d → ℝ) → Fin d → ℝ)) (ho : corOp c.base = .ok op)
    (S : Spaces d C F B) (Xref xin y : EuSt d C F B) (hu : Xref.u = Ve.zero) (res : List (ET d C F B))
    (h : euler c (fun _ => true) Xref = .ok res) (tau : String → ℝ) (dt : ℝ) (hs : Setting c p S Xref tau dt)
    (ha : Applied c p hyd op S Xref xin y) (q : EuSt d C F B → EuSt d C F B → ℝ)
    (hq : quasiNewton res ["u", "rho", "theta"] tau dt = .ok q)
    (hth : y.th = thetaElim p xin.th y.u) (hb : Balanced c p Xref y.th)
    (w : Ve ℝ d C F B) (hw : w ∈ S.U) (hF : Flow c.base.M w)
    (hd : DivThm c.base.M (quot y.th (mrOne c.tracers Xref)) (exnerF c.P Xref) w)
    (hdv : DivThm c.base.M (quot y.th (mrOne c.tracers Xref)) (exnerF c.P Xref) (vproj p.k w)) :
    q y (testU w) = (∑ x, c.base.M.wC x * dot (xin.u.c x) (w.c x))
      + (if hyd then ∑ x, c.base.M.wC x * (dot (w.c x) (c.base.k x) * dot (y.u.c x) (c.base.k x)) else 0)
      + tau "u" * dt * ∑ x, c.base.M.wC x * (c.P.cp * (y.th.c x / (mrOne c.tracers Xref).c x) *
          (dot (w.c x) ((exnerF c.P Xref).g x) - dot (w.c x) (c.base.k x) * dot (c.base.k x) ((exnerF c.P Xref).g x))) := by
  obtain ⟨q', hq', hv⟩ := euler_qn c hR Xref hu res h tau dt op ho
  rw [hq] at hq'; cases hq'
  obtain ⟨mr, l, hmr, _, _, hmom, _⟩ := applied_rows c p hyd op S Xref xin y tau dt hs ha
  have htr : y.tr = fun _ => Sc.const 0 := by
    obtain ⟨_, _, _, _, _, _, _, _, _, _, _, ht⟩ := ha
    exact ht
  rw [hb.mr] at hmr; cases hmr
  have hr := hmom w hw
  rw [← hth] at hr
  have hmo : Sc.add (Sc.const 1) (mrTotal c.tracers Xref) = mrOne c.tracers Xref := rfl
  rw [hmo] at hr
  unfold hybU at hr
  dsimp only at hr
  rw [hv]
  rw [dThetaV_dry _ _ _ htr]
  change massE c.base.M y (testU w) + tau "u" * dt * (pgf c.base.M c.vert c.P.cp w _ _ + pgf c.base.M c.vert c.P.cp w _ _
    + _) + _ + _ + _ = _
  rw [pgf_parts _ _ _ _ _ _ hF hb.exner hb.th hd]
  have hvp := vert_parts c.base.M c.vert p.tb p.k w (quot y.th (mrOne c.tracers Xref)) (exnerF c.P Xref) p.exnerAvg hb.exner
    hb.avgF hb.avgB hb.kF hb.kB hdv
  -- the other pressure gradient
  have t1 : (∑ x, c.base.M.wF x * (jumpMul c.base.M (quot Xref.th (mrOne c.tracers Xref)) w x * l.f x)) = 0 := by
    refine Finset.sum_eq_zero fun x _ => ?_
    have := hb.thbar x
    unfold thetaV at this
    unfold jumpMul
    rw [this, hF.1 x]; ring
  have t2 : (∑ x, c.base.M.wB x * ((quot Xref.th (mrOne c.tracers Xref)).b x * dot (w.b x) (c.base.M.nB x) * l.b x)) = 0 :=
    Finset.sum_eq_zero fun x _ => by rw [hF.2 x]; ring
  have t3 : pgf c.base.M c.vert c.P.cp w (thetaV c.tracers Xref) (dExner c.P Xref y) =
      -c.P.cp * cells c.base.M fun x => divMul (quot Xref.th (mrOne c.tracers Xref)) w x * exnerPert c.P Xref y.rho y.th x := by
    unfold pgf
    have z : (∑ x, if c.vert x then c.base.M.wF x * (((thetaV c.tracers Xref).p x * dot (w.p x) (c.base.M.nP x) +
        (thetaV c.tracers Xref).m x * dot (w.m x) (c.base.M.nM x)) *
        (1 / 2 * ((dExner c.P Xref y).p x + (dExner c.P Xref y).m x))) else 0) = 0 := by
      refine Finset.sum_eq_zero fun x _ => ?_
      rw [hb.thbar x, hF.1 x]
      split_ifs <;> ring
    rw [z]
    unfold cells
    rw [mul_zero, add_zero]
    congr 1
    refine Finset.sum_congr rfl fun x _ => ?_
    unfold divMul exnerPert thetaV dExner
    ring
  have t4 : spongePC c p w y.u = dt * spongeE c y (testU w) := by
    unfold spongeE spongePC
    cases c.sponge with
    | none => simp
    | some s =>
      simp only [hs.dt, spongeForm, cells, hs.k, testU]
  have t5 : corPC c.base.M p.betaU op w y.u = tau "u" * dt * corE c op y (testU w) := by
    unfold corPC corE
    cases op with
    | none => simp
    | some f => simp only [cells, testU, hs.bu]; ring
  have t6 : uMass c.base.M hyd p.k w y.u xin.u = (∑ x, c.base.M.wC x * dot (y.u.c x) (w.c x)) -
      (∑ x, c.base.M.wC x * dot (xin.u.c x) (w.c x)) -
      (if hyd then ∑ x, c.base.M.wC x * (dot (w.c x) (c.base.k x) * dot (y.u.c x) (c.base.k x)) else 0) := by
    unfold uMass cells
    cases hyd with
    | false =>
      simp only [Bool.false_eq_true, if_false, sub_zero]
      rw [← Finset.sum_sub_distrib]
      refine Finset.sum_congr rfl fun x _ => ?_
      rw [dot_sub, dot_comm (w.c x), dot_comm (w.c x)]; ring
    | true =>
      simp only [if_true]
      rw [← Finset.sum_sub_distrib, ← Finset.sum_sub_distrib]
      refine Finset.sum_congr rfl fun x _ => ?_
      have e : (fun i => y.u.c x i - p.k.c x i * dot (y.u.c x) (p.k.c x) - xin.u.c x i) =
          fun i => (fun i => y.u.c x i - dot (y.u.c x) (c.base.k x) * c.base.k x i) i - xin.u.c x i := by
        funext i; rw [hs.k]; ring
      rw [e, dot_sub, dot_comm (w.c x) (fun i => y.u.c x i - _), dot_proj, dot_comm (w.c x) (xin.u.c x)]; ring
  have t7 : massE c.base.M y (testU w) = ∑ x, c.base.M.wC x * dot (y.u.c x) (w.c x) := by
    simp [massE, testU, Sc.const]
  have t8 : contCells c.base.M (testU w).rho Xref.rho y.u = 0 := by simp [contCells, testU, Sc.const]
  have t9 : advCells c.base.M (testU w).th Xref.th y.u = 0 := by simp [advCells, testU, Sc.const]
  have t10 : (∑ x, c.base.M.wC x * ((testU w).th.c x * Xref.th.c x * y.u.div x * moistAt c Xref x)) = 0 := by
    simp [testU, Sc.const]
  rw [t3, t7, t8, t9, t10]
  simp only [ite_self]
  rw [t1, t2, t4, t5, t6, hs.bu] at hr
  have t11 : (cells c.base.M fun x => divMul (quot y.th (mrOne c.tracers Xref)) (vproj p.k w) x *
      exnerPressure c.P (Xref.rho.c x) (Xref.th.c x)) =
      ∑ x, c.base.M.wC x * (divMul (quot y.th (mrOne c.tracers Xref)) (vproj p.k w) x * (exnerF c.P Xref).c x) := rfl
  rw [t11] at hr
  have t12 : (∑ x, c.base.M.wC x * dot (w.c x) (fun i => c.P.cp * (quot y.th (mrOne c.tracers Xref)).c x * (exnerF c.P Xref).g x i)) =
      c.P.cp * (∑ x, c.base.M.wC x * ((quot y.th (mrOne c.tracers Xref)).c x * (dot (w.c x) (p.k.c x) *
        dot (p.k.c x) ((exnerF c.P Xref).g x)))) +
      ∑ x, c.base.M.wC x * (c.P.cp * (y.th.c x / (mrOne c.tracers Xref).c x) *
          (dot (w.c x) ((exnerF c.P Xref).g x) - dot (w.c x) (c.base.k x) * dot (c.base.k x) ((exnerF c.P Xref).g x))) := by
    rw [Finset.mul_sum, ← Finset.sum_add_distrib]
    refine Finset.sum_congr rfl fun x _ => ?_
    rw [dot_smul, hs.k]
    simp only [quot]
    ring
  rw [t12, ← hvp]
  linear_combination hr

/-! ### The theorems -/

/-- C102, elimination: when the eliminated potential temperature is in the space of potential temperatures, whose mass
matrix is regular, it is what the preconditioner returns. -/
theorem C102_theta_pointwise (c : ECfg d C F B) (p : PCfg d C F B) (hyd : Bool) (op : Option ((Fin d → ℝ) → Fin d → ℝ))
    (S : Spaces d C F B) (Xref xin y : EuSt d C F B) (tau : String → ℝ) (dt : ℝ) (hs : Setting c p S Xref tau dt)
    (ha : Applied c p hyd op S Xref xin y) (hmem : thetaElim p xin.th y.u ∈ S.Th)
    (hreg : ∀ a ∈ S.Th, ∀ b ∈ S.Th, (∀ gam ∈ S.Th, (∑ x, c.base.M.wC x * (gam.c x * (a.c x - b.c x))) = 0) → a = b) :
    y.th = thetaElim p xin.th y.u := by
  obtain ⟨_, _, _, _, _, _, _, _, _, hth, hrec, _⟩ := ha
  refine hreg _ hth _ hmem fun gam hg => ?_
  rw [← hrec gam hg]
  unfold thetaEqn cells
  refine Finset.sum_congr rfl fun x _ => ?_
  simp only [thetaElim, Sc.add, Sc.smul, Sc.mul, dotVe, hs.dz, hs.k]
  ring

/-- C102, averages: the projected average of a field that is continuous and whose values on the facets are in the trace
space is the field. -/
theorem C102_trace_average (M : Mesh ℝ d C F B) (T : Set (Trace F B)) (q : Sc ℝ d C F B) (r : Trace F B)
    (h : IsTraceAvg M T q r) (hq : Continuous q)
    (hsub : (⟨fun x => r.f x - q.p x, fun x => r.b x - q.b x⟩ : Trace F B) ∈ T)
    (wF : ∀ x, 0 < M.wF x) (wB : ∀ x, 0 < M.wB x) : (∀ x, r.f x = q.p x) ∧ ∀ x, r.b x = q.b x := by
  have h1 := h.2 _ hsub
  dsimp only at h1
  have e1 : (∑ x, M.wF x * ((r.f x - q.p x) * (1 / 2 * (q.p x + q.m x)))) = ∑ x, M.wF x * ((r.f x - q.p x) * q.p x) :=
    Finset.sum_congr rfl fun x _ => by rw [← hq x]; ring
  rw [e1] at h1
  have a1 : ∀ x ∈ Finset.univ, 0 ≤ M.wF x * ((r.f x - q.p x) * (r.f x - q.p x)) := fun x _ =>
    mul_nonneg (wF x).le (mul_self_nonneg _)
  have a2 : ∀ x ∈ Finset.univ, 0 ≤ M.wB x * ((r.b x - q.b x) * (r.b x - q.b x)) := fun x _ =>
    mul_nonneg (wB x).le (mul_self_nonneg _)
  have e2 : (∑ x, M.wF x * ((r.f x - q.p x) * (r.f x - q.p x))) + ∑ x, M.wB x * ((r.b x - q.b x) * (r.b x - q.b x)) = 0 := by
    have f1 : (∑ x, M.wF x * ((r.f x - q.p x) * (r.f x - q.p x))) =
        (∑ x, M.wF x * ((r.f x - q.p x) * r.f x)) - ∑ x, M.wF x * ((r.f x - q.p x) * q.p x) := by
      rw [← Finset.sum_sub_distrib]; exact Finset.sum_congr rfl fun x _ => by ring
    have f2 : (∑ x, M.wB x * ((r.b x - q.b x) * (r.b x - q.b x))) =
        (∑ x, M.wB x * ((r.b x - q.b x) * r.b x)) - ∑ x, M.wB x * ((r.b x - q.b x) * q.b x) := by
      rw [← Finset.sum_sub_distrib]; exact Finset.sum_congr rfl fun x _ => by ring
    rw [f1, f2]; linarith
  have b1 := (Finset.sum_eq_zero_iff_of_nonneg a1).1 (by linarith [Finset.sum_nonneg a1, Finset.sum_nonneg a2])
  have b2 := (Finset.sum_eq_zero_iff_of_nonneg a2).1 (by linarith [Finset.sum_nonneg a1, Finset.sum_nonneg a2])
  refine ⟨fun x => ?_, fun x => ?_⟩
  · rcases mul_eq_zero.1 (b1 x (Finset.mem_univ x)) with h | h
    · exact absurd h (wF x).ne'
    · linarith [mul_self_eq_zero.1 h]
  · rcases mul_eq_zero.1 (b2 x (Finset.mem_univ x)) with h | h
    · exact absurd h (wB x).ne'
    · linarith [mul_self_eq_zero.1 h]

/-- The operator is the sum of its rows. -/
theorem qn_rows (c : ECfg d C F B) (hR : GoodC c.base.R) (Xref : EuSt d C F B) (hu : Xref.u = Ve.zero)
    (res : List (ET d C F B)) (h : euler c (fun _ => true) Xref = .ok res) (tau : String → ℝ) (dt : ℝ)
    (op : Option ((Fin d → ℝ) → Fin d → ℝ)) (ho : corOp c.base = .ok op) (q : EuSt d C F B → EuSt d C F B → ℝ)
    (hq : quasiNewton res ["u", "rho", "theta"] tau dt = .ok q) (X v : EuSt d C F B) :
    q X v = q X (testU v.u) + q X (onlyRho v.rho) + q X (testTh v.th) := by
  obtain ⟨q', hq', hv⟩ := euler_qn c hR Xref hu res h tau dt op ho
  rw [hq] at hq'; cases hq'
  have c1 : corE c op X (onlyRho v.rho) = 0 := by unfold corE onlyRho; cases op <;> simp [Ve.zero, dot]
  have c2 : corE c op X (testTh v.th) = 0 := by unfold corE testTh; cases op <;> simp [Ve.zero, dot]
  have c3 : corE c op X (testU v.u) = corE c op X v := by unfold corE testU; cases op <;> rfl
  have s1 : spongeE c X (onlyRho v.rho) = 0 := by unfold spongeE onlyRho; cases c.sponge <;> simp [Ve.zero, dot]
  have s2 : spongeE c X (testTh v.th) = 0 := by unfold spongeE testTh; cases c.sponge <;> simp [Ve.zero, dot]
  have s3 : spongeE c X (testU v.u) = spongeE c X v := by unfold spongeE testU; cases c.sponge <;> rfl
  have p1 : ∀ a b, pgf c.base.M c.vert c.P.cp (onlyRho v.rho).u a b = 0 := fun a b => pgf_zero _ _ _ _ _
  have p2 : ∀ a b, pgf c.base.M c.vert c.P.cp (testTh v.th).u a b = 0 := fun a b => pgf_zero _ _ _ _ _
  rw [hv X v, hv X (testU v.u), hv X (onlyRho v.rho), hv X (testTh v.th)]
  simp only [c1, c2, c3, s1, s2, s3, p1, p2]
  have z1 : ∀ (a : Sc ℝ d C F B) (u : Ve ℝ d C F B), contCells c.base.M (Sc.const 0) a u = 0 := fun a u => by
    simp [contCells, Sc.const]
  have z2 : ∀ (a : Sc ℝ d C F B) (u : Ve ℝ d C F B), advCells c.base.M (Sc.const 0) a u = 0 := fun a u => by
    simp [advCells, Sc.const]
  have z3 : (∑ x, c.base.M.wC x * ((Sc.const 0 : Sc ℝ d C F B).c x * Xref.th.c x * X.u.div x * moistAt c Xref x)) = 0 := by
    simp [Sc.const]
  simp only [testU, onlyRho, testTh, z1, z2, z3, massE, ite_self]
  simp only [Sc.const, Ve.zero, mul_zero, Finset.sum_const_zero]
  have z4 : (∑ x, c.base.M.wC x * dot (X.u.c x) (fun _ => 0)) = 0 := Finset.sum_eq_zero fun x _ => by simp [dot]
  simp only [z4]
  ring

/-- C102: with exact sub-solves one application solves the quasi-Newton system of the compressible Euler equations, for every
mesh, timestep, set of relaxation parameters, sponge, rotation and right-hand side, when the reference state is at rest,
continuous, and uniform along the layers, its moist thermodynamic term vanishes, and the product of vertical velocity and
`d theta/dz` is in the space of potential temperatures. -/
theorem C102_exact (c : ECfg d C F B) (hR : GoodC c.base.R) (p : PCfg d C F B)
    (op : Option ((Fin d → ℝ) → Fin d → ℝ)) (ho : corOp c.base = .ok op)
    (S : Spaces d C F B) (Xref xin y : EuSt d C F B) (hu : Xref.u = Ve.zero) (res : List (ET d C F B))
    (h : euler c (fun _ => true) Xref = .ok res) (tau : String → ℝ) (dt : ℝ) (hs : Setting c p S Xref tau dt)
    (ha : Applied c p false op S Xref xin y) (q : EuSt d C F B → EuSt d C F B → ℝ)
    (hq : quasiNewton res ["u", "rho", "theta"] tau dt = .ok q)
    (hk : ∀ x, dot (c.base.k x) (c.base.k x) = 1)
    (hmem : thetaElim p xin.th y.u ∈ S.Th)
    (hreg : ∀ a ∈ S.Th, ∀ b ∈ S.Th, (∀ gam ∈ S.Th, (∑ x, c.base.M.wC x * (gam.c x * (a.c x - b.c x))) = 0) → a = b)
    (hb : Balanced c p Xref y.th) (hrho : Continuous Xref.rho) (hra : ∀ x, p.rhoAvg.f x = Xref.rho.p x)
    (hmoist : ∀ x, moistAt c Xref x = 0)
    (N Pz : C → ℝ) (hN : ∀ x i, Xref.th.g x i = N x * c.base.k x i)
    (hPz : ∀ x i, (exnerF c.P Xref).g x i = Pz x * c.base.k x i)
    (v : EuSt d C F B) (hvu : v.u ∈ S.U) (hF : Flow c.base.M v.u) (hvr : v.rho ∈ S.P) (hvt : v.th ∈ S.Th)
    (hd : DivThm c.base.M (quot y.th (mrOne c.tracers Xref)) (exnerF c.P Xref) v.u)
    (hdv : DivThm c.base.M (quot y.th (mrOne c.tracers Xref)) (exnerF c.P Xref) (vproj p.k v.u))
    (hdr : DivThm c.base.M v.rho Xref.rho y.u) : q y v = massE c.base.M xin v := by
  have hth := C102_theta_pointwise c p false op S Xref xin y tau dt hs ha hmem hreg
  rw [qn_rows c hR Xref hu res h tau dt op ho q hq,
    C102_u_row c hR p false op ho S Xref xin y hu res h tau dt hs ha q hq hth hb v.u hvu hF hd hdv,
    C102_rho_row c hR p false op ho S Xref xin y hu res h tau dt hs ha q hq v.rho hvr hdr,
    C102_theta_row c hR p false op ho S Xref xin y hu res h tau dt hs ha q hq v.th hvt]
  have along : ∀ (a : Fin d → ℝ) (g : C → Fin d → ℝ) (n : C → ℝ), (∀ x i, g x i = n x * c.base.k x i) → ∀ x,
      dot a (g x) - dot a (c.base.k x) * dot (c.base.k x) (g x) = 0 := by
    intro a g n hg x
    have : g x = fun i => n x * c.base.k x i := funext (hg x)
    rw [this, dot_smul, dot_smul, hk]; ring
  simp only [along _ _ N hN, along _ _ Pz hPz, hmoist, hra, hrho _, mul_zero, sub_self, Finset.sum_const_zero, ite_self,
    Bool.false_eq_true, if_false, add_zero, massE]

/-- C102, hydrostatic, refuted: in the same situation the preconditioner of the hydrostatic equations does not solve their
quasi-Newton system: the vertical velocity is left over, because the preconditioner drops the vertical mass and the
operator (C101) does not. -/
theorem C102_hydrostatic_refuted (c : ECfg d C F B) (hR : GoodC c.base.R) (p : PCfg d C F B)
    (op : Option ((Fin d → ℝ) → Fin d → ℝ)) (ho : corOp c.base = .ok op)
    (S : Spaces d C F B) (Xref xin y : EuSt d C F B) (hu : Xref.u = Ve.zero) (res : List (ET d C F B))
    (h : Euler.hydrostatic c (fun _ => true) Xref = .ok res) (tau : String → ℝ) (dt : ℝ) (hs : Setting c p S Xref tau dt)
    (ha : Applied c p true op S Xref xin y) (q : EuSt d C F B → EuSt d C F B → ℝ)
    (hq : quasiNewton res ["u", "rho", "theta"] tau dt = .ok q)
    (hk : ∀ x, dot (c.base.k x) (c.base.k x) = 1) (hth : y.th = thetaElim p xin.th y.u) (hb : Balanced c p Xref y.th)
    (Pz : C → ℝ) (hPz : ∀ x i, (exnerF c.P Xref).g x i = Pz x * c.base.k x i)
    (w : Ve ℝ d C F B) (hw : w ∈ S.U) (hF : Flow c.base.M w)
    (hd : DivThm c.base.M (quot y.th (mrOne c.tracers Xref)) (exnerF c.P Xref) w)
    (hdv : DivThm c.base.M (quot y.th (mrOne c.tracers Xref)) (exnerF c.P Xref) (vproj p.k w)) :
    q y (testU w) = (∑ x, c.base.M.wC x * dot (xin.u.c x) (w.c x))
      + ∑ x, c.base.M.wC x * (dot (w.c x) (c.base.k x) * dot (y.u.c x) (c.base.k x)) := by
  obtain ⟨full, hf⟩ := (C101_accepts c _ Xref).1 ⟨res, h⟩
  rw [hydro_qn c Xref res full h hf] at hq
  rw [C102_u_row c hR p true op ho S Xref xin y hu full hf tau dt hs ha q hq hth hb w hw hF hd hdv]
  have z : ∀ x, dot (w.c x) ((exnerF c.P Xref).g x) - dot (w.c x) (c.base.k x) * dot (c.base.k x) ((exnerF c.P Xref).g x) = 0 := by
    intro x
    have : (exnerF c.P Xref).g x = fun i => Pz x * c.base.k x i := funext (hPz x)
    rw [this, dot_smul, dot_smul, hk]; ring
  simp only [z, mul_zero, Finset.sum_const_zero, add_zero, if_true]

/-- C102, tracers: the increments of the tracers are zero whatever the right-hand side, also for tracers among the solver
prognostics. -/
theorem C102_tracers_refuted (c : ECfg d C F B) (p : PCfg d C F B) (hyd : Bool) (op : Option ((Fin d → ℝ) → Fin d → ℝ))
    (S : Spaces d C F B) (Xref xin y : EuSt d C F B) (t : String → Sc ℝ d C F B) :
    (Applied c p hyd op S Xref xin y → ∀ n, y.tr n = Sc.const 0) ∧
      (Applied c p hyd op S Xref { xin with tr := t } y ↔ Applied c p hyd op S Xref xin y) :=
  ⟨fun ⟨_, _, _, _, _, _, _, _, _, _, _, ht⟩ n => by rw [ht], Iff.rfl⟩

/-- C102, moisture, refuted: the equations and the preconditioner do not agree about which tracers count.  A mixing ratio
that is not water is in the pressure gradient but not in the preconditioner; water that is not a mixing ratio is
accepted by the equations, and the preconditioner raises. -/
theorem C102_moisture_refuted :
    (∃ (ts : List MTracer) (X : EuSt 1 Unit Unit Unit), mrWater ts X = .ok (Sc.const 0) ∧ (mrTotal ts X).c () = 1) ∧
    (∀ (c : ECfg d C F B) (Xref : EuSt d C F B) (res : List (ET d C F B)) (t : MTracer), t.isWater = true →
      t.mixingRatio = false → euler c (fun _ => true) Xref = .ok res →
      (∃ res', euler { c with tracers := [t] } (fun _ => true) Xref = .ok res') ∧
        ∀ p hyd op S xin y, ¬ Applied { c with tracers := [t] } p hyd op S Xref xin y) := by
  refine ⟨⟨[⟨"ozone", false, true, .gas⟩], ⟨Ve.zero, Sc.const 0, Sc.const 0, fun _ => Sc.const 1⟩, rfl, ?_⟩, ?_⟩
  · simp [mrTotal, Sc.add, Sc.const]
  · intro c Xref res t h1 h2 h
    refine ⟨C100_tracers_refuted c _ Xref [t] ⟨res, h⟩, ?_⟩
    rintro p hyd op S xin y ⟨mr, _, _, hmr, _⟩
    simp only [mrWater, List.foldlM_cons, h1, h2, if_true, Bool.false_eq_true, if_false] at hmr
    cases hmr

/-- C102, moisture: when every tracer is a mixing ratio of water the two agree. -/
theorem C102_moisture (ts : List MTracer) (X : EuSt d C F B) (h : ∀ t ∈ ts, t.isWater = true ∧ t.mixingRatio = true) :
    mrWater ts X = .ok (mrTotal ts X) := by
  have hf : ts.filter (·.mixingRatio) = ts := List.filter_eq_self.2 fun t ht => (h t ht).2
  unfold mrWater mrTotal
  rw [hf]
  clear hf
  generalize (Sc.const 0 : Sc ℝ d C F B) = a
  induction ts generalizing a with
  | nil => rfl
  | cons t l ih =>
    have ht := h t (by simp)
    simp only [List.foldlM_cons, ht.1, ht.2, if_true, List.foldl_cons]
    exact ih (fun t' ht' => h t' (by simp [ht'])) _

/-! ### An application in a column -/

/-- The column of C100, dry and without sponge. -/
noncomputable def dryCfg : ECfg 2 (Fin 2) (Fin 3) (Fin 2) := { colCfg .vectorInvariant with tracers := [], sponge := none }
/-- A cellwise constant function; facet 0 is between the cells, the other two are the sides. -/
noncomputable def cellwise (a b : ℝ) : Sc ℝ 2 (Fin 2) (Fin 3) (Fin 2) where
  c := ![a, b]
  g _ _ := 0
  p := ![a, a, b]
  m := ![b, a, b]
  b := ![a, b]
  gp _ _ := 0
  gm _ _ := 0
/-- Multiples of the vertical velocity `hat`. -/
noncomputable def hats (t : ℝ) : Ve ℝ 2 (Fin 2) (Fin 3) (Fin 2) where
  c _ := ![0, t * (1 / 2)]
  j x := ![![0, 0], ![0, ![t, -t] x]]
  p x := ![![0, t], ![0, t * (1 / 2)], ![0, t * (1 / 2)]] x
  m x := ![![0, t], ![0, t * (1 / 2)], ![0, t * (1 / 2)]] x
  b _ := ![0, 0]
/-- The vertical as a function. -/
noncomputable def kCol : Ve ℝ 2 (Fin 2) (Fin 3) (Fin 2) where
  c _ := ![0, 1]
  j _ _ _ := 0
  p _ := ![0, 1]
  m _ := ![0, 1]
  b _ := ![0, 1]
/-- The preconditioner with `dt = 1` and relaxation parameters 1. -/
noncomputable def pCol (r e : ℝ) : PCfg 2 (Fin 2) (Fin 3) (Fin 2) where
  k := kCol
  tb _ := true
  dz := Sc.const 0
  rhoAvg := ⟨fun _ => r, fun _ => r⟩
  exnerAvg := ⟨fun _ => e, fun _ => e⟩
  dt := 1
  betaU := 1
  betaT := 1
  betaR := 1
/-- A uniform reference state. -/
noncomputable def unifSt : EuSt 2 (Fin 2) (Fin 3) (Fin 2) := ⟨Ve.zero, Sc.const 1, Sc.const 300, fun _ => Sc.const 0⟩
/-- The spaces. -/
noncomputable def sCol : Spaces 2 (Fin 2) (Fin 3) (Fin 2) where
  U := Set.range hats
  P := Set.range fun a : ℝ × ℝ => cellwise a.1 a.2
  T := {⟨fun _ => 0, fun _ => 0⟩}
  Th := Set.range fun a : ℝ => (Sc.const a : Sc ℝ 2 (Fin 2) (Fin 3) (Fin 2))
  avg u := u

theorem hats_flow (t : ℝ) : Flow dryCfg.base.M (hats t) := by
  refine ⟨fun x => ?_, fun x => ?_⟩ <;> fin_cases x <;>
    simp [dryCfg, colCfg, colM, hats, dot, Fin.sum_univ_two]

theorem hats_zero : hats 0 = Ve.zero := by
  unfold hats Ve.zero
  congr 1 <;> (try funext x i) <;> (try funext l) <;> fin_cases x <;> fin_cases i <;> simp <;> (try fin_cases l <;> simp)

theorem setting_col (r e : ℝ) : Setting dryCfg (pCol r e) sCol unifSt (fun _ => 1) 1 where
  k x := rfl
  dz x := by simp [pCol, Sc.const, unifSt, dot]
  bu := by simp [pCol]
  bt := by simp [pCol]
  br := by simp [pCol]
  dt := rfl
  zU := ⟨0, hats_zero⟩
  zP := ⟨(0, 0), by
    change cellwise 0 0 = _
    unfold cellwise Sc.const
    congr 1 <;> funext x <;> fin_cases x <;> rfl⟩
  zT := rfl
  jump := by
    rintro u ⟨t, rfl⟩
    refine ⟨_, rfl, fun x => ?_, fun x => ?_⟩
    · have := (hats_flow t).1 x
      unfold jumpVe
      rw [this]; ring
    · exact ((hats_flow t).2 x).symm
  avg u _ _ := rfl
  wF x := by simp [dryCfg, colCfg, colM]
  wB x := by simp [dryCfg, colCfg, colM]

/-- `d Pi / d rho` and the Exner pressure of the reference state. -/
noncomputable def piR : ℝ := dexnerDrho defaults 1 300
noncomputable def pi0 : ℝ := exnerPressure defaults 1 300
/-- A right-hand side and the increments. -/
noncomputable def xinCol : EuSt 2 (Fin 2) (Fin 3) (Fin 2) :=
  ⟨hats (1 + 1200 * defaults.cp * piR), Sc.const 0, Sc.const 1, fun _ => Sc.const 0⟩
noncomputable def yCol : EuSt 2 (Fin 2) (Fin 3) (Fin 2) := ⟨hats 1, cellwise (-1) 1, Sc.const 1, fun _ => Sc.const 0⟩

theorem elim_col (r e : ℝ) (th : Sc ℝ 2 (Fin 2) (Fin 3) (Fin 2)) (u : Ve ℝ 2 (Fin 2) (Fin 3) (Fin 2)) :
    thetaElim (pCol r e) th u = th := by
  unfold thetaElim
  apply sc_ext <;> simp [Sc.add, Sc.smul, Sc.mul, pCol, Sc.const, dotVe]

theorem quot_one (a : Sc ℝ 2 (Fin 2) (Fin 3) (Fin 2)) : quot a (Sc.add (Sc.const 1) (Sc.const 0)) = a := by
  apply sc_ext <;> simp [quot, Sc.add, Sc.const]

theorem applied_col : Applied dryCfg (pCol 1 pi0) false none sCol unifSt xinCol yCol := by
  refine ⟨Sc.const 0, hats 1, ⟨fun _ => 0, fun _ => 0⟩, rfl, ⟨1, rfl⟩, ⟨(-1, 1), rfl⟩, rfl, ?_, rfl, ⟨1, rfl⟩, ?_, rfl⟩
  · rintro w ⟨s, rfl⟩ phi ⟨⟨a, b⟩, rfl⟩ dl rfl
    rw [elim_col, hybL_zero]
    unfold hybU hybRho
    dsimp only
    rw [quot_one, quot_one]
    have hr : dexnerDrho defaults 1 300 = piR := rfl
    have h0 : exnerPressure defaults 1 300 = pi0 := rfl
    simp only [dryCfg, colCfg, colM, spongePC, corPC, uMass, cells, Fin.sum_univ_two, Fin.sum_univ_three, unifSt, xinCol,
      yCol, pCol, Sc.const, cellwise, divMul, jumpMul, exnerPert, dot, DG.Ve.div, vproj, hats, kCol, dotVe]
    simp [hr, h0]
    ring
  · rintro gam ⟨a, rfl⟩
    simp [thetaEqn, cells, xinCol, yCol, unifSt, Sc.const, pCol, dot]

theorem balanced_col : Balanced dryCfg (pCol 1 pi0) unifSt yCol.th where
  mr := rfl
  exner x := rfl
  avgF x _ := rfl
  avgB x _ := rfl
  thbar x := rfl
  th x _ := rfl
  kF x hx := by fin_cases x <;> simp [dryCfg, colCfg, colM, pCol, kCol, dot, Fin.sum_univ_two] at hx ⊢
  kB x hx := by simp [pCol] at hx

/-- The hypotheses of the exactness theorem hold in the column, where neither the increments nor the coupling vanish, for
all test functions. -/
example : ∃ res q, euler dryCfg (fun _ => true) unifSt = .ok res ∧
    quasiNewton res ["u", "rho", "theta"] (fun _ => 1) 1 = .ok q ∧ ∀ s a b t : ℝ,
      q yCol ⟨hats s, cellwise a b, Sc.const t, fun _ => Sc.const 0⟩ =
        massE dryCfg.base.M xinCol ⟨hats s, cellwise a b, Sc.const t, fun _ => Sc.const 0⟩ := by
  obtain ⟨res, hres⟩ := (C100_accepts dryCfg (fun _ => true) unifSt).2
    ⟨by simp [dryCfg, colCfg], Or.inl rfl, fun s hs => by simp [dryCfg] at hs⟩
  have hR : GoodC dryCfg.base.R := C97_slice_good
  obtain ⟨q, hq, _⟩ := euler_qn dryCfg hR unifSt rfl res hres (fun _ => 1) 1 none rfl
  refine ⟨res, q, hres, hq, fun s a b t => ?_⟩
  have hq1 : quot yCol.th (mrOne dryCfg.tracers unifSt) = Sc.const 1 := quot_one _
  have hg : ∀ x i, (exnerF dryCfg.P unifSt).g x i = 0 := fun x i => by simp [exnerF, unifSt, Sc.const]
  refine C102_exact dryCfg hR (pCol 1 pi0) none rfl sCol unifSt xinCol yCol rfl res hres _ 1 (setting_col 1 pi0) applied_col
    q hq (fun x => by simp [dryCfg, colCfg, dot, Fin.sum_univ_two]) ?_ ?_ balanced_col (fun x => rfl) (fun x => rfl) (fun x => ?_)
    (fun _ => 0) (fun _ => 0) (fun x i => by simp [unifSt, Sc.const]) (fun x i => by rw [hg]; ring) _ ⟨s, rfl⟩ (hats_flow s)
    ⟨(a, b), rfl⟩ ⟨t, rfl⟩ ?_ ?_ ?_
  · rw [elim_col]; exact ⟨1, rfl⟩
  · rintro _ ⟨a, rfl⟩ _ ⟨b, rfl⟩ h
    have := h _ ⟨1, rfl⟩
    simp [dryCfg, colCfg, colM, Sc.const, Fin.sum_univ_two] at this
    have : a = b := by linarith
    rw [this]
  · change moistFactor defaults 0 0 = 0
    exact moistFactor_dry _ (by norm_num [defaults])
  · rw [hq1]
    have h0 : exnerPressure defaults 1 300 = pi0 := rfl
    simp [DivThm, dryCfg, colCfg, colM, Fin.sum_univ_two, Fin.sum_univ_three, exnerF, unifSt, Sc.const, hats, dot, DG.Ve.div]
  · rw [hq1]
    simp [DivThm, dryCfg, colCfg, colM, Fin.sum_univ_two, Fin.sum_univ_three, exnerF, unifSt, Sc.const, hats, dot, DG.Ve.div,
      vproj, pCol, kCol, dotVe]
  · simp [DivThm, dryCfg, colCfg, colM, Fin.sum_univ_two, Fin.sum_univ_three, unifSt, Sc.const, hats, dot, DG.Ve.div,
      cellwise, yCol]

/-! ### No topography, but a horizontal gradient -/

/-- A sawtooth of potential temperature along the layers. -/
noncomputable def sawSt : EuSt 2 (Fin 2) (Fin 3) (Fin 2) :=
  ⟨Ve.zero, Sc.const 1, ⟨fun _ => 300, fun _ => ![1, 0], ![300, 301, 301], ![300, 299, 299], fun _ => 300, fun _ => ![1, 0],
    fun _ => ![1, 0]⟩, fun _ => Sc.const 0⟩
/-- Multiples of the horizontal velocity. -/
noncomputable def wind (t : ℝ) : Ve ℝ 2 (Fin 2) (Fin 3) (Fin 2) where
  c _ := ![t, 0]
  j _ _ _ := 0
  p _ := ![t, 0]
  m _ := ![t, 0]
  b _ := ![t, 0]
noncomputable def sWind : Spaces 2 (Fin 2) (Fin 3) (Fin 2) := { sCol with U := Set.range wind }
noncomputable def windSt (t : ℝ) : EuSt 2 (Fin 2) (Fin 3) (Fin 2) := ⟨wind t, cellwise 0 0, Sc.const 0, fun _ => Sc.const 0⟩

theorem wind_flow (t : ℝ) : Flow dryCfg.base.M (wind t) := by
  refine ⟨fun x => ?_, fun x => ?_⟩ <;> fin_cases x <;>
    simp [dryCfg, colCfg, colM, wind, dot, Fin.sum_univ_two]

theorem setting_wind (r e : ℝ) : Setting dryCfg (pCol r e) sWind sawSt (fun _ => 1) 1 where
  k x := rfl
  dz x := by simp [pCol, Sc.const, sawSt, dot, dryCfg, colCfg]
  bu := by simp [pCol]
  bt := by simp [pCol]
  br := by simp [pCol]
  dt := rfl
  zU := ⟨0, by
    unfold wind Ve.zero
    congr 1 <;> funext x i <;> fin_cases i <;> simp⟩
  zP := (setting_col r e).zP
  zT := rfl
  jump := by
    rintro u ⟨t, rfl⟩
    refine ⟨_, rfl, fun x => ?_, fun x => ?_⟩
    · have := (wind_flow t).1 x
      unfold jumpVe
      rw [this]; ring
    · exact ((wind_flow t).2 x).symm
  avg u _ _ := rfl
  wF x := by simp [dryCfg, colCfg, colM]
  wB x := by simp [dryCfg, colCfg, colM]

theorem applied_wind (t : ℝ) (e : ℝ) : Applied dryCfg (pCol 1 e) false none sWind sawSt (windSt t) (windSt t) := by
  refine ⟨Sc.const 0, wind t, ⟨fun _ => 0, fun _ => 0⟩, rfl, ⟨t, rfl⟩, ⟨(0, 0), rfl⟩, rfl, ?_, rfl, ⟨0, rfl⟩, ?_, rfl⟩
  · rintro w ⟨s, rfl⟩ phi ⟨⟨a, b⟩, rfl⟩ dl rfl
    rw [elim_col, hybL_zero]
    unfold hybU hybRho
    dsimp only
    rw [quot_one, quot_one]
    simp only [dryCfg, colCfg, colM, spongePC, corPC, uMass, cells, Fin.sum_univ_two, Fin.sum_univ_three, sawSt, windSt,
      pCol, Sc.const, cellwise, divMul, jumpMul, exnerPert, dot, DG.Ve.div, vproj, wind, kCol, dotVe]
    simp
  · rintro gam ⟨a, rfl⟩
    simp [thetaEqn, cells, windSt, sawSt, Sc.const, pCol, dot, kCol, wind]

/-- C102, refuted: the documentation says that the elimination of potential temperature "introduces error near topography";
it also does without topography, on flat layers, when the reference potential temperature varies along them: the
increments of a uniform wind `t` miss the quasi-Newton equation by `2 t`. -/
theorem C102_topography_refuted : ∃ res q, euler dryCfg (fun _ => true) sawSt = .ok res ∧
    quasiNewton res ["u", "rho", "theta"] (fun _ => 1) 1 = .ok q ∧ ∀ t e : ℝ,
      Applied dryCfg (pCol 1 e) false none sWind sawSt (windSt t) (windSt t) ∧
      q (windSt t) (testTh (Sc.const 1)) = massE dryCfg.base.M (windSt t) (testTh (Sc.const 1)) + 2 * t := by
  obtain ⟨res, hres⟩ := (C100_accepts dryCfg (fun _ => true) sawSt).2
    ⟨by simp [dryCfg, colCfg], Or.inl rfl, fun s hs => by simp [dryCfg] at hs⟩
  have hR : GoodC dryCfg.base.R := C97_slice_good
  obtain ⟨q, hq, _⟩ := euler_qn dryCfg hR sawSt rfl res hres (fun _ => 1) 1 none rfl
  refine ⟨res, q, hres, hq, fun t e => ⟨applied_wind t e, ?_⟩⟩
  rw [C102_theta_row dryCfg hR (pCol 1 e) false none rfl sWind sawSt (windSt t) (windSt t) rfl res hres _ 1
    (setting_wind 1 e) (applied_wind t e) q hq (Sc.const 1) ⟨1, rfl⟩]
  simp [dryCfg, colCfg, colM, windSt, wind, Sc.const, sawSt, dot, Fin.sum_univ_two, massE, testTh, Ve.zero]

end Gusto.Props.SCPCProps
