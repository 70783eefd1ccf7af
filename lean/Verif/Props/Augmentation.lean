import Verif.Model.Augmentation
import Verif.Props.Limiters
import Mathlib.LinearAlgebra.BilinearMap
import Mathlib.Algebra.Module.Pi
import Mathlib.Tactic.LinearCombination
import Mathlib.Tactic.NormNum
import Mathlib.Tactic.FieldSimp
import Mathlib.Tactic.Linarith

set_option autoImplicit false
set_option linter.unusedSectionVars false
set_option linter.unusedSimpArgs false

/-! # C80, C81: augmentations -/

namespace Gusto.Props.AugProps
open Gusto Gusto.Aug Gusto.Limiters Gusto.Props.LimiterProps

/-! ### C80: the mean mixing ratio -/

section MMR
variable {C F : Type*} [Field F] [LinearOrder F] [IsStrictOrderedRing F]

/-- Specification: `mass c rho m` is the integral over cell `c` of density times mixing ratio, a bilinear function of
the two fields in the cell. -/
abbrev CellMass (C F : Type*) [Field F] := C → (ℕ → F) →ₗ[F] (ℕ → F) →ₗ[F] F

/-- Specification: the DG0 projection conserves the mass of every cell (in which the density has a non-zero integral, so
that the projection exists). -/
def Projects (mass : CellMass C F) (solve : (C → ℕ → F) → (C → ℕ → F) → C → F) : Prop :=
  ∀ rho m c, mass c (rho c) (fun _ => 1) ≠ 0 → mass c (rho c) (fun _ => solve rho m c) = mass c (rho c) (m c)

theorem mass_const (mass : CellMass C F) (c : C) (rho : ℕ → F) (k : F) :
    mass c rho (fun _ => k) = k * mass c rho (fun _ => 1) := by
  have : (fun _ : ℕ => k) = k • (fun _ : ℕ => (1 : F)) := by funext _; simp
  rw [this, map_smul, smul_eq_mul]

theorem fold_update {l : List (ℕ × (C → F))} (hn : (l.map Prod.fst).Nodup) (lam : C → F) (x : Mixed C F) :
    (∀ p ∈ l, (l.foldl (fun (x : Mixed C F) p => Function.update x p.1 fun c j =>
        (1 - lam c) * x p.1 c j + lam c * p.2 c) x) p.1
      = fun c j => (1 - lam c) * x p.1 c j + lam c * p.2 c) ∧
    ∀ k, k ∉ l.map Prod.fst → (l.foldl (fun (x : Mixed C F) p => Function.update x p.1 fun c j =>
        (1 - lam c) * x p.1 c j + lam c * p.2 c) x) k = x k := by
  induction l generalizing x with
  | nil => simp
  | cons q l ih =>
    simp only [List.map_cons, List.nodup_cons] at hn
    obtain ⟨h1, h2⟩ := ih hn.2 (Function.update x q.1 fun c j => (1 - lam c) * x q.1 c j + lam c * q.2 c)
    constructor
    · intro p hp
      rw [List.foldl_cons]
      rcases List.mem_cons.1 hp with rfl | hp
      · rw [h2 _ hn.1]; simp
      · rw [h1 p hp]
        have : p.1 ≠ q.1 := fun e => hn.1 (e ▸ List.mem_map_of_mem hp)
        simp [Function.update_of_ne this]
    · intro k hk
      simp only [List.map_cons, List.mem_cons, not_or] at hk
      rw [List.foldl_cons, h2 k hk.2, Function.update_of_ne hk.1]

theorem meansLoop_ok (solve : (C → ℕ → F) → (C → ℕ → F) → C → F) (x : Mixed C F) (ms rs : List ℕ) :
    (ms.length ≤ rs.length → meansLoop solve x ms rs =
      .ok ((ms.zip rs).map fun p => (p.1, fun c => max (solve (x p.2) (x p.1) c) 0))) ∧
    (rs.length < ms.length → meansLoop solve x ms rs = .error "IndexError") := by
  induction ms generalizing rs with
  | nil => simp [meansLoop]
  | cons m ms ih =>
    cases rs with
    | nil => simp [meansLoop]
    | cons r rs =>
      obtain ⟨h1, h2⟩ := ih rs
      simp only [List.length_cons, Nat.add_le_add_iff_right, Nat.add_lt_add_iff_right]
      exact ⟨fun h => by simp [meansLoop, h1 h], fun h => by simp [meansLoop, h2 h]⟩

/-- **C80** (limiting).  For mixing ratios `ms` (distinct fields) with densities `rs`: limiting succeeds, every value
of every mixing ratio is non-negative afterwards, no other field changes, a cell in which no mixing ratio has a negative
value is unchanged, and in every cell in which the mass of a mixing ratio is not negative this mass is unchanged. -/
theorem C80_limit (n : ℕ) (mass : CellMass C F) (solve : (C → ℕ → F) → (C → ℕ → F) → C → F)
    (hs : Projects mass solve) (ms rs : List ℕ) (hlen : ms.length = rs.length) (hn : ms.Nodup)
    (hd : ∀ r ∈ rs, r ∉ ms) (x : Mixed C F) :
    ∃ x', mmrLimit n solve ms rs x = .ok x' ∧
      (∀ m ∈ ms, ∀ c, ∀ j < n, 0 ≤ x' m c j) ∧
      (∀ k, k ∉ ms → x' k = x k) ∧
      (∀ c, (∀ m ∈ ms, ∀ j < n, 0 ≤ x m c j) → ∀ m, x' m c = x m c) ∧
      (∀ p ∈ ms.zip rs, ∀ c, 0 < mass c (x p.2 c) (fun _ => 1) → 0 ≤ mass c (x p.2 c) (x p.1 c) →
        mass c (x' p.2 c) (x' p.1 c) = mass c (x p.2 c) (x p.1 c)) := by
  set l := (ms.zip rs).map fun p => ((p.1, fun c => max (solve (x p.2) (x p.1) c) 0) : ℕ × (C → F)) with hl
  have hfst : l.map Prod.fst = ms := by
    rw [hl, List.map_map]
    change (ms.zip rs).map Prod.fst = ms
    rw [List.map_fst_zip]; omega
  set lam := fun c => meanLamda n (l.map fun p => (x p.1 c, p.2 c)) with hlam
  have hspec := fun c => meanLamda_spec n (l.map fun p => (x p.1 c, p.2 c)) (by
    intro f hf
    simp only [List.mem_map] at hf
    obtain ⟨q, hq, rfl⟩ := hf
    simp only [hl, List.mem_map] at hq
    obtain ⟨p, _, rfl⟩ := hq
    exact le_max_right _ _)
  obtain ⟨f1, f2⟩ := fold_update (l := l) (by rw [hfst]; exact hn) lam x
  refine ⟨_, by rw [mmrLimit, (meansLoop_ok solve x ms rs).1 hlen.le], ?_, ?_, ?_, ?_⟩
  · intro m hm c j hj
    rw [← hfst, List.mem_map] at hm
    obtain ⟨q, hq, rfl⟩ := hm
    have := f1 q hq
    simp only [← hl] at this ⊢
    rw [this]
    exact (hspec c).2.2.1 (x q.1 c, q.2 c) (List.mem_map_of_mem hq) j hj
  · intro k hk
    exact f2 k (by rw [hfst]; exact hk)
  · intro c hc m
    have h0 : lam c = 0 := by
      refine (hspec c).2.2.2 ?_
      intro f hf i hi
      simp only [List.mem_map] at hf
      obtain ⟨q, hq, rfl⟩ := hf
      exact hc q.1 (by rw [← hfst]; exact List.mem_map_of_mem hq) i hi
    by_cases hm : m ∈ ms
    · rw [← hfst, List.mem_map] at hm
      obtain ⟨q, hq, rfl⟩ := hm
      have := congrFun (f1 q hq) c
      refine this.trans ?_
      funext j
      simp [h0]
    · exact congrFun (f2 m (by rw [hfst]; exact hm)) c
  · intro p hp c hpos hm
    have hr : p.2 ∉ ms := hd _ (List.of_mem_zip hp).2
    have hq : ((p.1, fun c => max (solve (x p.2) (x p.1) c) 0) : ℕ × (C → F)) ∈ l := List.mem_map_of_mem hp
    have e1 := congrFun (f1 _ hq) c
    have e2 := congrFun (f2 p.2 (by rw [hfst]; exact hr)) c
    have hsol := hs (x p.2) (x p.1) c hpos.ne'
    have hnn : 0 ≤ solve (x p.2) (x p.1) c := by
      rw [mass_const] at hsol
      by_contra hneg
      have := mul_neg_of_neg_of_pos (not_le.mp hneg) hpos
      linarith
    have e3 : (fun j => (1 - lam c) * x p.1 c j + lam c * max (solve (x p.2) (x p.1) c) 0)
        = (1 - lam c) • x p.1 c + lam c • (fun _ => solve (x p.2) (x p.1) c) := by
      funext j; simp [max_eq_left hnn]
    refine (congrArg₂ (fun a b => mass c a b) e2 (e1.trans e3)).trans ?_
    simp only [map_add, map_smul, smul_eq_mul, hsol]
    ring

/-- **C80** (correlations).  All mixing ratios of a cell are blended with the same weight, so a linear relation between
mixing ratios with the same density that holds everywhere in a cell still holds after limiting (cells with positive
density and non-negative masses). -/
theorem C80_correlation (n : ℕ) (mass : CellMass C F) (solve : (C → ℕ → F) → (C → ℕ → F) → C → F)
    (hs : Projects mass solve) (ms : List ℕ) (r : ℕ) (hn : ms.Nodup) (hr : r ∉ ms) (x x' : Mixed C F)
    (hx : mmrLimit n solve ms (ms.map fun _ => r) x = .ok x') (c : C) (hpos : 0 < mass c (x r c) (fun _ => 1))
    (hm : ∀ m ∈ ms, 0 ≤ mass c (x r c) (x m c)) (a : ℕ → F) (k : F)
    (hrel : ∀ j, (ms.map fun m => a m * x m c j).sum = k) (j : ℕ) :
    (ms.map fun m => a m * x' m c j).sum = k := by
  have hz : ms.zip (ms.map fun _ => r) = ms.map fun m => (m, r) := by
    clear hx hm hrel hn hr
    induction ms with
    | nil => rfl
    | cons m ms ih => simp only [List.map_cons, List.zip_cons_cons, ih]
  set l := ms.map fun m => ((m, fun c => max (solve (x r) (x m) c) 0) : ℕ × (C → F)) with hl
  have hfst : l.map Prod.fst = ms := by simp [hl, Function.comp_def]
  set lam := fun c => meanLamda n (l.map fun p => (x p.1 c, p.2 c)) with hlam
  have hml := (meansLoop_ok solve x ms (ms.map fun _ => r)).1 (by simp)
  rw [hz, List.map_map] at hml
  have hml' : meansLoop solve x ms (ms.map fun _ => r) = .ok l := hml
  rw [mmrLimit, hml'] at hx
  simp only [Except.ok.injEq] at hx
  have f1 := (fold_update (l := l) (by rw [hfst]; exact hn) lam x).1
  have hval : ∀ m ∈ ms, x' m c j = (1 - lam c) * x m c j + lam c * solve (x r) (x m) c := by
    intro m hmem
    have hq : ((m, fun c => max (solve (x r) (x m) c) 0) : ℕ × (C → F)) ∈ l := List.mem_map_of_mem hmem
    have e1 := congrFun (congrFun (f1 _ hq) c) j
    have hsol := hs (x r) (x m) c hpos.ne'
    have hnn : 0 ≤ solve (x r) (x m) c := by
      rw [mass_const] at hsol
      by_contra hneg
      have := mul_neg_of_neg_of_pos (not_le.mp hneg) hpos
      have := hm m hmem
      linarith
    rw [← hx]
    refine e1.trans ?_
    simp [max_eq_left hnn]
  have hsum : (ms.map fun m => a m * x' m c j).sum =
      (1 - lam c) * (ms.map fun m => a m * x m c j).sum
        + lam c * (ms.map fun m => a m * solve (x r) (x m) c).sum := by
    rw [← List.sum_map_mul_left, ← List.sum_map_mul_left, ← List.sum_map_add]
    congr 1
    refine List.map_congr_left fun m hmem => ?_
    rw [hval m hmem]; ring
  have hmean : (ms.map fun m => a m * solve (x r) (x m) c).sum = k := by
    have h1 : (ms.map fun m => a m * solve (x r) (x m) c).sum * mass c (x r c) (fun _ => 1) =
        (ms.map fun m => a m * mass c (x r c) (x m c)).sum := by
      rw [← List.sum_map_mul_right]
      congr 1
      refine List.map_congr_left fun m _ => ?_
      rw [← hs (x r) (x m) c hpos.ne', mass_const mass c (x r c) (solve (x r) (x m) c)]
      ring
    have h2 : (ms.map fun m => a m * mass c (x r c) (x m c)).sum =
        mass c (x r c) (fun j => (ms.map fun m => a m * x m c j).sum) := by
      clear * -
      induction ms with
      | nil =>
        have : (fun _ : ℕ => (0 : F)) = 0 := rfl
        simp [this]
      | cons m ms ih =>
        have e : (fun j => ((m :: ms).map fun m => a m * x m c j).sum)
            = a m • x m c + fun j => (ms.map fun m => a m * x m c j).sum := by
          funext j; simp
        rw [e, map_add, map_smul, ← ih]
        simp
    have h3 : (fun j => (ms.map fun m => a m * x m c j).sum) = fun _ => k := funext hrel
    rw [h2, h3, mass_const mass c (x r c) k] at h1
    exact mul_right_cancel₀ hpos.ne' h1
  rw [hsum, hrel, hmean]
  ring

/-- Two nodes per cell, mass by the trapezium rule. -/
noncomputable def exMass : CellMass Unit ℚ := fun _ =>
  LinearMap.mk₂ ℚ (fun rho m : ℕ → ℚ => (rho 0 * m 0 + rho 1 * m 1) / 2)
    (by intros; simp; ring) (by intros; simp; ring) (by intros; simp; ring) (by intros; simp; ring)

def exSolve : (Unit → ℕ → ℚ) → (Unit → ℕ → ℚ) → Unit → ℚ := fun rho m c =>
  if rho c 0 + rho c 1 = 0 then 0 else (rho c 0 * m c 0 + rho c 1 * m c 1) / (rho c 0 + rho c 1)

/-- Field 0 is the density, 1 a mixing ratio with a negative value and a positive mass. -/
def exState (a b : ℚ) : Mixed Unit ℚ := fun k _ j => if k = 0 then 1 else if j = 0 then a else b

example : Projects exMass exSolve ∧
    ∃ x', mmrLimit 2 exSolve [1] [0] (exState (-1) 3) = .ok x' ∧ x' 1 () 0 = 0 ∧ x' 1 () 1 = 2 := by
  refine ⟨fun rho m c h => ?_, _, rfl, ?_, ?_⟩
  · simp only [exMass, LinearMap.mk₂_apply, mul_one] at h
    have h' : rho c 0 + rho c 1 ≠ 0 := fun e => h (by rw [e]; simp)
    simp only [exMass, LinearMap.mk₂_apply, exSolve, if_neg h']
    field_simp
  all_goals norm_num [exState, exSolve, meanLamda, lamdaKernel, List.range_succ]

/-- **C80** (negative mass).  Where the mass of a mixing ratio in a cell is negative the mean is clipped, so that the
limiter creates mass. -/
theorem C80_negative_mass_refuted :
    ∃ x' : Mixed Unit ℚ, mmrLimit 2 exSolve [1] [0] (exState (-3) 1) = .ok x' ∧
      exMass () (exState (-3) 1 0 ()) (exState (-3) 1 1 ()) = -1 ∧ exMass () (x' 0 ()) (x' 1 ()) = 0 := by
  refine ⟨_, rfl, ?_, ?_⟩ <;>
    norm_num [exMass, exState, exSolve, meanLamda, lamdaKernel, List.range_succ]

end MMR

/-! ### C80: construction -/

theorem rhoLoop_spec (names : List String) (mX : String) (ts : List (String × Option String))
    (hn : (ts.map Prod.fst).Nodup) :
    (∀ d, (mX, some d) ∈ ts → d ∈ names → rhoLoop names mX ts = .ok [names.idxOf d]) ∧
    ((mX, none) ∈ ts → rhoLoop names mX ts = .error "ValueError") ∧
    (mX ∉ ts.map Prod.fst → rhoLoop names mX ts = .ok []) := by
  induction ts with
  | nil => simp [rhoLoop]
  | cons t ts ih =>
    obtain ⟨name, den⟩ := t
    simp only [List.map_cons, List.nodup_cons] at hn
    obtain ⟨h1, h2, h3⟩ := ih hn.2
    by_cases e : name = mX
    · subst e
      refine ⟨?_, ?_, ?_⟩
      · intro d hd hdn
        rcases List.mem_cons.1 hd with h | h
        · simp only [Prod.mk.injEq, true_and] at h
          subst h
          simp [rhoLoop, hdn, h3 hn.1]
        · exact absurd (List.mem_map_of_mem (f := Prod.fst) h) hn.1
      · intro hd
        rcases List.mem_cons.1 hd with h | h
        · simp only [Prod.mk.injEq, true_and] at h
          subst h
          simp [rhoLoop]
        · exact absurd (List.mem_map_of_mem (f := Prod.fst) h) hn.1
      · intro h; simp at h
    · refine ⟨?_, ?_, ?_⟩
      · intro d hd hdn
        rcases List.mem_cons.1 hd with h | h
        · simp only [Prod.mk.injEq] at h; exact absurd h.1.symm e
        · simp [rhoLoop, e, h1 d h hdn]
      · intro hd
        rcases List.mem_cons.1 hd with h | h
        · simp only [Prod.mk.injEq] at h; exact absurd h.1.symm e
        · simp [rhoLoop, e, h2 h]
      · intro h
        simp only [List.map_cons, List.mem_cons, not_or] at h
        simp [rhoLoop, e, h3 h.2]

/-- **C80** (construction, partial).  If every named mixing ratio is a prognostic and an active tracer with a density
that is a prognostic, construction succeeds and the `i`-th density is the density of the `i`-th mixing ratio.  A name
that is not a prognostic, or a tracer without density, is rejected.  Missing: names that are prognostics but not
active tracers, see the refutation. -/
theorem C80_construct_partial (names : List String) (ts : List (String × Option String))
    (hn : (ts.map Prod.fst).Nodup) (mXs : List String) :
    (∀ den : String → String, (∀ m ∈ mXs, m ∈ names ∧ (m, some (den m)) ∈ ts ∧ den m ∈ names) →
      construct names ts mXs = .ok (mXs.map names.idxOf, mXs.map fun m => names.idxOf (den m))) ∧
    ((∃ m ∈ mXs, m ∉ names ∨ (m, none) ∈ ts) → ∃ e, construct names ts mXs = .error e) := by
  induction mXs with
  | nil => simp [construct]
  | cons m mXs ih =>
    obtain ⟨i1, i2⟩ := ih
    constructor
    · intro den h
      obtain ⟨a, b, c⟩ := h m List.mem_cons_self
      have := i1 den fun m' hm' => h m' (List.mem_cons_of_mem _ hm')
      simp [construct, a, (rhoLoop_spec names m ts hn).1 _ b c, this]
    · rintro ⟨m', hm', h⟩
      by_cases hm : m ∈ names
      · rcases List.mem_cons.1 hm' with rfl | hm'
        · rcases h with h | h
          · exact absurd hm h
          · exact ⟨_, by simp [construct, hm, (rhoLoop_spec names m' ts hn).2.1 h]; rfl⟩
        · obtain ⟨e, he⟩ := i2 ⟨m', hm', h⟩
          cases hr : rhoLoop names m ts with
          | error e' => exact ⟨e', by simp [construct, hm, hr]⟩
          | ok l => exact ⟨e, by simp [construct, hm, hr, he]⟩
      · exact ⟨_, by simp [construct, hm]; rfl⟩

example : construct ["u", "rho_d", "rho_b", "m_v", "m_c"]
    [("rho_d", none), ("rho_b", none), ("m_v", some "rho_d"), ("m_c", some "rho_b")] ["m_v", "m_c"]
      = .ok ([3, 4], [1, 2]) := by decide

/-- **C80** (construction, refuted).  The documented error for a field that is not conservatively transported is not
raised for a prognostic that is not an active tracer: construction succeeds with too few densities, and limiting then
either raises `IndexError` or uses the density of another mixing ratio. -/
theorem C80_construct_refuted :
    (∀ (names : List String) (ts : List (String × Option String)) (m : String), (ts.map Prod.fst).Nodup →
      m ∈ names → m ∉ ts.map Prod.fst → construct names ts [m] = .ok ([names.idxOf m], []) ∧
      ∀ (n : ℕ) (solve : (Unit → ℕ → ℚ) → (Unit → ℕ → ℚ) → Unit → ℚ) (x : Mixed Unit ℚ),
        mmrLimit n solve [names.idxOf m] [] x = .error "IndexError") ∧
    construct ["u", "rho_d", "rho_b", "theta", "m_v", "m_c"]
      [("m_v", some "rho_d"), ("m_c", some "rho_b")] ["theta", "m_v", "m_c"] = .ok ([3, 4, 5], [1, 2]) := by
  refine ⟨fun names ts m hn hm ht => ⟨?_, ?_⟩, by decide⟩
  · simp [construct, hm, (rhoLoop_spec names m ts hn).2.2 ht]
  · intro n solve x
    simp [mmrLimit, meansLoop]

/-! ### C80: use in the Runge-Kutta schemes -/

section RKLimit
variable {K X D : Type*} [Field K] [AddCommGroup X] [Module K X] [AddCommGroup D] [Module K D]

/-- **C80** (predictor formulation).  The result of every step of an explicit Runge-Kutta scheme in predictor
formulation with an augmentation is a result of the `limit` method of the augmentation: whatever `limit` guarantees
for its result holds after the step. -/
theorem C80_predictor (S : RKScheme K X D) (augLimit : X → X) (hS : 0 < S.nStages) (ncycles : ℕ) (hc : 0 < ncycles)
    (st : RKState X) (xIn : X) (P : X → Prop) (hP : ∀ y, P (augLimit y)) :
    P (applyRK .predictor S (some augLimit) ncycles st xIn) := by
  have hcycle : ∀ idx st, P (applyCycleAug .predictor S (some augLimit) ncycles idx st).x1 := by
    intro idx st
    obtain ⟨s, hs⟩ : ∃ s, S.nStages = s + 1 := ⟨S.nStages - 1, by omega⟩
    simp only [applyCycleAug, hs, List.range_succ, List.foldl_append, List.foldl_cons, List.foldl_nil]
    simp only [RK.predStage, hs, Nat.add_sub_cancel, if_true, RK.limit, stageLimiter]
    exact hP _
  obtain ⟨m, hm⟩ : ∃ m, ncycles = m + 1 := ⟨ncycles - 1, by omega⟩
  subst hm
  simp only [applyRK, List.range_succ, List.foldl_append, List.foldl_cons, List.foldl_nil]
  exact hcycle _ _

/-- **C80** (other formulations, refuted).  In the increment formulation (the default) and in the linear formulation
the `limit` method of the augmentation is never called: the step is the one without augmentation. -/
theorem C80_formulation_refuted (f : RK.Formulation) (hf : f ≠ .predictor) (S : RKScheme K X D)
    (augLimit : Option (X → X)) (ncycles : ℕ) (st : RKState X) (xIn : X) :
    applyRK f S augLimit ncycles st xIn = RK.apply f S ncycles st xIn := by
  cases f with
  | predictor => exact absurd rfl hf
  | increment => rfl
  | linear => rfl

/-- **C81** (limiters, refuted).  A limiter given to the scheme is applied to the stages and to the result without
augmentation, and with an augmentation other than `MeanMixingRatio` (whose `limit` is the inherited method that does
nothing) it is dropped from the stages of the predictor formulation. -/
theorem C81_limiter_refuted (limiter : X → X) :
    stageLimiter none (some limiter) = some limiter ∧
    ∀ (U Z : Type) (vort : U → Z) (l : Option (U × Z → U × Z)), stageLimiter (some (vorticity vort).limit) l = some id :=
  ⟨rfl, fun _ _ _ _ => rfl⟩

end RKLimit

/-! ### C81: vorticity -/

section Vort
variable {U Z : Type*}

theorem cycles_eq {X : Type*} (step : X → X) (n : ℕ) (x : X) : cycles step n x = step^[n] x := by
  induction n generalizing x with
  | zero => rfl
  | succ n ih => rw [cycles, ih, Function.iterate_succ_apply]

/-- **C81** (theta methods).  Each step of a theta method with the vorticity augmentation starts from the input
velocity together with the vorticity diagnosed from it, whatever happened before, and returns the velocity part of the
result. -/
theorem C81_theta (vort : U → Z) (step : U × Z → U × Z) (n : ℕ) (xin : U × Z) (u : U) :
    applyTheta (vorticity vort) step n xin u = ((step^[n] (u, vort u)).1, (u, vort u)) := by
  simp [applyTheta, vorticity, cycles_eq]

/-- **C81** (theta methods, whole runs).  In every run of any number of steps, every step starts from a velocity and
its own vorticity. -/
theorem C81_theta_run (vort : U → Z) (step : U × Z → U × Z) (n k : ℕ) (xin : U × Z) (u : U) :
    ∀ s ∈ starts (applyTheta (vorticity vort) step n)
      (fun xin u => (applyTheta (vorticity vort) step n xin u).2) k xin u, s.2 = (s.1, vort s.1) := by
  induction k generalizing xin u with
  | zero => simp [starts]
  | succ k ih =>
    intro s hs
    simp only [starts, List.mem_cons] at hs
    rcases hs with rfl | hs
    · simp [C81_theta]
    · exact ih _ _ s hs

theorem erkCycles_fst (vort : U → Z) (cycle : U × Z → U × Z) (n : ℕ) (x0 xin : U × Z) :
    (erkCycles (vorticity vort) cycle n x0 xin).1 = cycle^[n] x0 ∧
    (0 < n → (erkCycles (vorticity vort) cycle n x0 xin).2 =
      ((cycle^[n - 1] x0).1, vort (cycle^[n - 1] x0).1)) := by
  induction n generalizing x0 xin with
  | zero => exact ⟨rfl, fun h => absurd h (lt_irrefl 0)⟩
  | succ n ih =>
    obtain ⟨h1, h2⟩ := ih (cycle x0) ((vorticity vort).update x0 xin)
    refine ⟨by rw [erkCycles]; simpa [Function.iterate_succ_apply] using h1, fun _ => ?_⟩
    rw [erkCycles]
    rcases Nat.eq_zero_or_pos n with rfl | hn
    · rfl
    · rw [h2 hn]
      obtain ⟨m, rfl⟩ : ∃ m, n = m + 1 := ⟨n - 1, by omega⟩
      simp [Function.iterate_succ_apply]

/-- **C81** (explicit schemes, refuted).  With an explicit Runge-Kutta scheme the vorticity of the start of a step is
not the one of its velocity but the one left in the augmentation: zero (the value `z0` of the new Function) in the
first step, and with one cycle per step the vorticity of the velocity of the previous step afterwards. -/
theorem C81_explicit_refuted (vort : U → Z) (cycle : U × Z → U × Z) (xin : U × Z) (u : U) :
    (∀ n, (applyERK (vorticity vort) cycle n xin u).1 = (cycle^[n] (u, xin.2)).1) ∧
    (applyERK (vorticity vort) cycle 1 xin u).2 = (u, vort u) ∧
    ∀ u', (applyERK (vorticity vort) cycle 1 (applyERK (vorticity vort) cycle 1 xin u).2 u').1
      = (cycle (u', vort u)).1 := by
  refine ⟨fun n => ?_, rfl, fun u' => rfl⟩
  simp only [applyERK]
  have := (erkCycles_fst vort cycle n ((vorticity vort).pre u xin) ((vorticity vort).pre u xin)).1
  rw [this]
  rfl

/-- A transport of the velocity by its vorticity for which this gives another result: the velocity `1` with vorticity
`1` should change, but the first step leaves it unchanged. -/
example : (applyERK (vorticity (fun u : ℤ => u)) (fun x => (x.1 - x.2, x.2)) 1 (0, 0) 1).1 = 1 ∧
    (applyTheta (vorticity (fun u : ℤ => u)) (fun x => (x.1 - x.2, x.2)) 1 (0, 0) 1).1 = 0 := by decide

/-- **C81** (other implicit schemes, refuted).  Schemes that never call `update` start every step of every run with
the initial value of the vorticity Function (zero). -/
theorem C81_implicit_refuted (vort : U → Z) (step : U × Z → U × Z) (n k : ℕ) (xin : U × Z) (u : U) :
    ∀ s ∈ starts (applyPlain (vorticity vort) step n)
      (fun xin u => (applyPlain (vorticity vort) step n xin u).2) k xin u, s.2 = (s.1, xin.2) := by
  induction k generalizing xin u with
  | zero => simp [starts]
  | succ k ih =>
    intro s hs
    simp only [starts, List.mem_cons] at hs
    rcases hs with rfl | hs
    · rfl
    · exact ih (applyPlain (vorticity vort) step n xin u).2 _ s hs

end Vort

end Gusto.Props.AugProps
