import Verif.Props.Microphysics
import Verif.Props.OneStep
import Mathlib.Analysis.SpecialFunctions.ExpDeriv

set_option autoImplicit false
set_option linter.unusedSectionVars false
set_option linter.unusedSimpArgs false

/-! # C46, C47: moist shallow-water physics and terminator chemistry -/

namespace Gusto.Props.SWPhysProps
open Gusto.Physics Real Gusto.Spec MicroProps

variable {dt : ℝ} {x : Local}

/-! ### C46: InstantRain -/

section InstantRain
variable {vn : String} {rain : Option String} {gamma : ℝ} {tau : Option ℝ} {sat : Local → ℝ}

/-- The terms added by InstantRain without convective feedback. -/
noncomputable def rainTerms (vn : String) (rain : Option String) (gamma : ℝ) (tau : Option ℝ)
    (sat : Local → ℝ) (dt : ℝ) (x : Local) : List (String × ℝ) :=
  (instantRain vn rain gamma tau false sat dt x).toOption.getD []

theorem rain_vapour (hne : ∀ r, rain = some r → r ≠ vn) :
    stepWith dt (rainTerms vn rain gamma tau sat dt x) x vn
      = x vn - dt * instantRainSource gamma tau (sat x) (x vn) dt := by
  cases rain with
  | none => simp [stepWith, rainTerms, instantRain, Except.toOption]
  | some r => simp [stepWith, rainTerms, instantRain, Except.toOption, hne r rfl]

theorem rain_rain {r : String} (hne : r ≠ vn) :
    stepWith dt (rainTerms vn (some r) gamma tau sat dt x) x r
      = x r + dt * instantRainSource gamma tau (sat x) (x vn) dt := by
  simp [stepWith, rainTerms, instantRain, Except.toOption, hne.symm]

/-- **C46** (InstantRain, setup).  Without convective feedback the scheme can be set up; with it, it
cannot. -/
theorem C46_instant_rain_setup :
    (∃ l, instantRain vn rain gamma tau false sat dt x = .ok l) ∧
      ∀ l, instantRain vn rain gamma tau true sat dt x ≠ .ok l := by
  refine ⟨⟨_, rfl⟩, fun l h => ?_⟩
  simp [instantRain] at h

/-- **C46** (InstantRain, conservation).  With rain tracked, vapour plus rain is unchanged. -/
theorem C46_instant_rain_conserves {r : String} (hne : r ≠ vn) :
    stepWith dt (rainTerms vn (some r) gamma tau sat dt x) x vn
        + stepWith dt (rainTerms vn (some r) gamma tau sat dt x) x r = x vn + x r := by
  rw [rain_vapour (fun _ h => by cases h; exact hne), rain_rain hne]; ring

/-- **C46** (InstantRain, exact result).  With `tau` unset and `gamma_r = 1` the new vapour is the smaller of
the old vapour and the saturation value. -/
theorem C46_instant_rain_exact (hne : ∀ r, rain = some r → r ≠ vn) (hdt : 0 < dt) :
    stepWith dt (rainTerms vn rain 1 none sat dt x) x vn = min (x vn) (sat x) := by
  rw [rain_vapour hne]
  unfold instantRainSource timescale
  simp only [Option.getD_none]
  split
  · rename_i h
    rw [min_eq_right (le_of_lt h)]
    field_simp
    ring
  · rename_i h
    rw [min_eq_left (not_lt.1 h)]
    ring

/-- **C46** (InstantRain, partial conversion).  With `0 ≤ gamma_r ≤ 1` and a timescale not shorter than the
timestep, vapour never grows, never falls below the smaller of itself and saturation, and rain never
decreases. -/
theorem C46_instant_rain_bounds (hne : ∀ r, rain = some r → r ≠ vn) (hdt : 0 < dt)
    (hg0 : 0 ≤ gamma) (hg1 : gamma ≤ 1) (htau : ∀ t, tau = some t → dt ≤ t) :
    min (x vn) (sat x) ≤ stepWith dt (rainTerms vn rain gamma tau sat dt x) x vn ∧
    stepWith dt (rainTerms vn rain gamma tau sat dt x) x vn ≤ x vn ∧
    (∀ r, rain = some r → x r ≤ stepWith dt (rainTerms vn rain gamma tau sat dt x) x r) := by
  have ht : dt ≤ timescale tau dt := by
    cases tau with
    | none => exact le_refl _
    | some t => exact htau t rfl
  have hb : 0 ≤ dt * instantRainSource gamma tau (sat x) (x vn) dt ∧
      dt * instantRainSource gamma tau (sat x) (x vn) dt ≤ max 0 (x vn - sat x) := by
    unfold instantRainSource
    have htp : 0 < timescale tau dt := hdt.trans_le ht
    split
    · rename_i h
      have hd : 0 ≤ x vn - sat x := by linarith [show sat x < x vn from h]
      have h1 : dt * (1 / timescale tau dt) ≤ 1 := by
        rw [mul_one_div, div_le_one htp]; exact ht
      have h2 : 0 ≤ dt * (1 / timescale tau dt) := by positivity
      rw [max_eq_right hd]
      have h3 : dt * (1 / timescale tau dt) * gamma ≤ 1 := mul_le_one₀ h1 hg0 hg1
      have h4 : 0 ≤ dt * (1 / timescale tau dt) * gamma := mul_nonneg h2 hg0
      constructor
      · calc (0 : ℝ) ≤ (dt * (1 / timescale tau dt) * gamma) * (x vn - sat x) := mul_nonneg h4 hd
          _ = _ := by ring
      · calc dt * (1 / timescale tau dt * gamma * (x vn - sat x))
            = (dt * (1 / timescale tau dt) * gamma) * (x vn - sat x) := by ring
          _ ≤ 1 * (x vn - sat x) := mul_le_mul_of_nonneg_right h3 hd
          _ = _ := one_mul _
    · simp
  rw [rain_vapour hne]
  refine ⟨?_, by linarith [hb.1], ?_⟩
  · rcases le_total (x vn) (sat x) with h | h
    · rw [min_eq_left h]
      have := hb.2
      rw [max_eq_left (by linarith)] at this
      linarith
    · rw [min_eq_right h]
      have := hb.2
      rw [max_eq_right (by linarith)] at this
      linarith
  · rintro r rfl
    rw [rain_rain (hne r rfl)]
    linarith [hb.1]

/-- **C46** (InstantRain, short timescale, refutation).  A given timescale shorter than the timestep makes the
scheme remove more than the excess: vapour can even become negative. -/
theorem C46_instant_rain_short_tau_refuted : ∃ (dt tau : ℝ) (x : Local), 0 < tau ∧ tau < dt ∧
    0 ≤ x "water_vapour" ∧
    stepWith dt (rainTerms "water_vapour" (some "rain") 1 (some tau) (fun _ => 0) dt x) x "water_vapour"
      < 0 := by
  refine ⟨2, 1, exState 1 0 0, one_pos, by norm_num, by rw [exState_vapour]; norm_num, ?_⟩
  rw [rain_vapour (fun r h => by cases h; decide), exState_vapour]
  norm_num [instantRainSource, timescale]

/-- The hypotheses are met. -/
example : (∀ r, (some "rain" : Option String) = some r → r ≠ "water_vapour") ∧
    (∀ t, (some 2 : Option ℝ) = some t → 1 ≤ t) := by
  refine ⟨fun r h => by cases h; decide, fun t h => by cases h; norm_num⟩

end InstantRain

/-! ### C46: SWSaturationAdjustment -/

section SWSat
variable {vn cn : String} {beta1 beta2 : Option ℝ} {gamma : Local → ℝ} {tau : Option ℝ} {sat : Local → ℝ}

/-- Distinct field names. -/
structure SWNames (vn cn : String) : Prop where
  vc : vn ≠ cn
  vD : vn ≠ "D"
  vb : vn ≠ "b"
  cD : cn ≠ "D"
  cb : cn ≠ "b"

example : SWNames "water_vapour" "cloud_water" := by constructor <;> decide

theorem sw_vapour (h : SWNames vn cn) :
    stepWith dt (swSaturationAdjustment vn cn beta1 beta2 gamma tau sat dt x) x vn
      = x vn - dt * swSatRate (gamma x) (sat x) (x vn) (x cn) (timescale tau dt) := by
  have h1 := h.vc.symm
  have h2 := h.vD.symm
  have h3 := h.vb.symm
  cases beta1 <;> cases beta2 <;> simp [stepWith, swSaturationAdjustment, h1, h2, h3]

theorem sw_cloud (h : SWNames vn cn) :
    stepWith dt (swSaturationAdjustment vn cn beta1 beta2 gamma tau sat dt x) x cn
      = x cn + dt * swSatRate (gamma x) (sat x) (x vn) (x cn) (timescale tau dt) := by
  have h1 := h.vc
  have h2 := h.cD.symm
  have h3 := h.cb.symm
  cases beta1 <;> cases beta2 <;> simp [stepWith, swSaturationAdjustment, h1, h2, h3]

/-- **C46** (SWSaturationAdjustment, conservation). -/
theorem C46_sw_conserves (h : SWNames vn cn) :
    stepWith dt (swSaturationAdjustment vn cn beta1 beta2 gamma tau sat dt x) x vn
        + stepWith dt (swSaturationAdjustment vn cn beta1 beta2 gamma tau sat dt x) x cn
      = x vn + x cn := by
  rw [sw_vapour h, sw_cloud h]; ring

/-- **C46** (feedbacks).  With convective feedback `D - beta1*vapour`, and with thermal feedback
`b - beta2*vapour`, is unchanged; without them depth and buoyancy are unchanged; so are all other fields. -/
theorem C46_sw_feedback (h : SWNames vn cn) :
    stepWith dt (swSaturationAdjustment vn cn beta1 beta2 gamma tau sat dt x) x "D"
        - beta1.getD 0 * stepWith dt (swSaturationAdjustment vn cn beta1 beta2 gamma tau sat dt x) x vn
      = x "D" - beta1.getD 0 * x vn ∧
    stepWith dt (swSaturationAdjustment vn cn beta1 beta2 gamma tau sat dt x) x "b"
        - beta2.getD 0 * stepWith dt (swSaturationAdjustment vn cn beta1 beta2 gamma tau sat dt x) x vn
      = x "b" - beta2.getD 0 * x vn ∧
    ∀ f, f ≠ vn → f ≠ cn → f ≠ "D" → f ≠ "b" →
      stepWith dt (swSaturationAdjustment vn cn beta1 beta2 gamma tau sat dt x) x f = x f := by
  rw [sw_vapour h]
  have h1 := h.vD
  have h2 := h.cD
  have h3 := h.vb
  have h4 := h.cb
  have hDb : ¬ ("D" : String) = "b" := by decide
  have hbD : ¬ ("b" : String) = "D" := by decide
  refine ⟨?_, ?_, fun f f1 f2 f3 f4 => ?_⟩
  · cases beta1 <;> cases beta2 <;>
      simp [stepWith, swSaturationAdjustment, h1, h2, h3, h4, hDb, hbD] <;> ring
  · cases beta1 <;> cases beta2 <;>
      simp [stepWith, swSaturationAdjustment, h1, h2, h3, h4, hDb, hbD] <;> ring
  · cases beta1 <;> cases beta2 <;>
      simp [stepWith, swSaturationAdjustment, f1.symm, f2.symm, f3.symm, f4.symm]

theorem sw_amount (hdt : 0 < dt) (g s v c t : ℝ) (ht : dt ≤ t) (hv : 0 ≤ v) (hc : 0 ≤ c) :
    -c ≤ dt * swSatRate g s v c t ∧ dt * swSatRate g s v c t ≤ v := by
  have htp : 0 < t := hdt.trans_le ht
  have hlo : -c / t ≤ swSatRate g s v c t := le_max_right _ _
  have hhi : swSatRate g s v c t ≤ v / t := by
    refine max_le (min_le_right _ _) ?_
    exact div_le_div_of_nonneg_right (by linarith) htp.le
  have hq : dt / t ≤ 1 := (div_le_one htp).2 ht
  have hq0 : 0 ≤ dt / t := div_nonneg hdt.le htp.le
  constructor
  · calc -c ≤ (dt / t) * -c := by nlinarith
      _ = dt * (-c / t) := by ring
      _ ≤ _ := mul_le_mul_of_nonneg_left hlo hdt.le
  · calc dt * swSatRate g s v c t ≤ dt * (v / t) := mul_le_mul_of_nonneg_left hhi hdt.le
      _ = (dt / t) * v := by ring
      _ ≤ v := by nlinarith

/-- **C46** (non-negativity).  If vapour and cloud are non-negative they still are after the step, for any
saturation function and any `gamma_v`, provided the timescale is not shorter than the timestep. -/
theorem C46_sw_nonneg (h : SWNames vn cn) (hdt : 0 < dt) (htau : ∀ t, tau = some t → dt ≤ t)
    (hv : 0 ≤ x vn) (hc : 0 ≤ x cn) :
    0 ≤ stepWith dt (swSaturationAdjustment vn cn beta1 beta2 gamma tau sat dt x) x vn ∧
      0 ≤ stepWith dt (swSaturationAdjustment vn cn beta1 beta2 gamma tau sat dt x) x cn := by
  have ht : dt ≤ timescale tau dt := by
    cases tau with
    | none => exact le_refl _
    | some t => exact htau t rfl
  rw [sw_vapour h, sw_cloud h]
  obtain ⟨h1, h2⟩ := sw_amount hdt (gamma x) (sat x) (x vn) (x cn) _ ht hv hc
  constructor <;> linarith

/-- **C46** (exact result).  With `tau` unset and `gamma_v = 1` the new vapour is the saturation value (zero if
that is negative), or all the water if there is not enough. -/
theorem C46_sw_exact (h : SWNames vn cn) (hdt : 0 < dt) (hg : gamma x = 1) :
    stepWith dt (swSaturationAdjustment vn cn beta1 beta2 gamma none sat dt x) x vn
      = min (max (sat x) 0) (x vn + x cn) := by
  rw [sw_vapour h, hg]
  have e : dt * swSatRate 1 (sat x) (x vn) (x cn) (timescale none dt)
      = max (min (x vn - sat x) (x vn)) (-x cn) := by
    unfold swSatRate timescale
    simp only [Option.getD_none]
    rw [mul_max_of_nonneg _ _ hdt.le, mul_min_of_nonneg _ _ hdt.le]
    congr 1
    · congr 1 <;> field_simp
    · field_simp
  rw [e]
  rcases le_total (sat x) 0 with hs | hs
  · rw [max_eq_right hs, min_eq_right (by linarith)]
    rcases le_total 0 (x vn + x cn) with hw | hw
    · rw [min_eq_left hw, max_eq_left (by linarith)]; ring
    · rw [min_eq_right hw, max_eq_right (by linarith)]; ring
  · rw [max_eq_left hs, min_eq_left (by linarith)]
    rcases le_total (sat x) (x vn + x cn) with hw | hw
    · rw [min_eq_left hw, max_eq_left (by linarith)]; ring
    · rw [min_eq_right hw, max_eq_right (by linarith)]; ring

/-- **C46** (partial conversion).  With `0 ≤ gamma_v ≤ 1` and a timescale not shorter than the timestep, the
vapour moves towards saturation without passing it. -/
theorem C46_sw_towards (h : SWNames vn cn) (hdt : 0 < dt) (htau : ∀ t, tau = some t → dt ≤ t)
    (hg0 : 0 ≤ gamma x) (hg1 : gamma x ≤ 1) (hv : 0 ≤ x vn) (hc : 0 ≤ x cn) (hs : 0 ≤ sat x) :
    min (x vn) (sat x) ≤ stepWith dt (swSaturationAdjustment vn cn beta1 beta2 gamma tau sat dt x) x vn ∧
      stepWith dt (swSaturationAdjustment vn cn beta1 beta2 gamma tau sat dt x) x vn ≤ max (x vn) (sat x) := by
  have ht : dt ≤ timescale tau dt := by
    cases tau with
    | none => exact le_refl _
    | some t => exact htau t rfl
  rw [sw_vapour h]
  obtain ⟨t, hte⟩ : ∃ t, timescale tau dt = t := ⟨_, rfl⟩
  rw [hte] at ht ⊢
  have htp : 0 < t := hdt.trans_le ht
  have hq : dt / t ≤ 1 := (div_le_one htp).2 ht
  have hq0 : 0 ≤ dt / t := div_nonneg hdt.le htp.le
  have hqg0 : 0 ≤ dt / t * gamma x := mul_nonneg hq0 hg0
  have hqg1 : dt / t * gamma x ≤ 1 := mul_le_one₀ hq hg0 hg1
  have e : dt * swSatRate (gamma x) (sat x) (x vn) (x cn) t
      = max (min (dt / t * gamma x * (x vn - sat x)) (dt / t * x vn)) (-(dt / t * x cn)) := by
    unfold swSatRate
    rw [mul_max_of_nonneg _ _ hdt.le, mul_min_of_nonneg _ _ hdt.le]
    congr 1
    · congr 1 <;> ring
    · ring
  rw [e]
  have hcq : 0 ≤ dt / t * x cn := mul_nonneg hq0 hc
  have hvq : 0 ≤ dt / t * x vn := mul_nonneg hq0 hv
  generalize hA : dt / t * gamma x = A at *
  generalize hB : dt / t * x vn = B at *
  generalize hCc : dt / t * x cn = Cc at *
  rcases le_total (x vn) (sat x) with hle | hle
  · rw [min_eq_left hle, max_eq_right hle]
    have h1 : A * (x vn - sat x) ≤ 0 := by nlinarith
    have h2 : x vn - sat x ≤ A * (x vn - sat x) := by nlinarith
    rw [min_eq_left (h1.trans hvq)]
    constructor
    · have := max_le h1 (show -Cc ≤ 0 by linarith); linarith
    · have := le_max_left (A * (x vn - sat x)) (-Cc); linarith
  · rw [min_eq_right hle, max_eq_left hle]
    have h1 : 0 ≤ A * (x vn - sat x) := mul_nonneg hqg0 (by linarith)
    have h2 : A * (x vn - sat x) ≤ x vn - sat x := by nlinarith
    have h3 : 0 ≤ min (A * (x vn - sat x)) B := le_min h1 hvq
    rw [max_eq_left (by linarith)]
    have := min_le_left (A * (x vn - sat x)) B
    constructor <;> linarith

/-- **C46** (short timescale, refutation). -/
theorem C46_sw_short_tau_refuted : ∃ (dt tau : ℝ) (x : Local), 0 < tau ∧ tau < dt ∧
    0 ≤ x "water_vapour" ∧ 0 ≤ x "cloud_water" ∧
    stepWith dt (swSaturationAdjustment "water_vapour" "cloud_water" none none (fun _ => 1) (some tau)
      (fun _ => 0) dt x) x "water_vapour" < 0 := by
  refine ⟨2, 1, exState 1 0 0, one_pos, by norm_num, by rw [exState_vapour]; norm_num,
    by rw [exState_cloud], ?_⟩
  rw [sw_vapour (by constructor <;> decide), exState_vapour, exState_cloud]
  norm_num [swSatRate, timescale]

end SWSat

/-! ### C47: terminator chemistry -/

section Terminator
variable {n1 n2 : String} {k1 k2 : ℝ}

theorem term_one (h : n1 ≠ n2) :
    stepWith dt (terminatorAnalytical n1 n2 k1 k2 dt x) x n1
      = x n1 + dt * terminatorRate k1 k2 (x n1) (x n2) dt := by
  simp [stepWith, terminatorAnalytical, h.symm]

theorem term_two (h : n1 ≠ n2) :
    stepWith dt (terminatorAnalytical n1 n2 k1 k2 dt x) x n2
      = x n2 - dt * terminatorRate k1 k2 (x n1) (x n2) dt / 2 := by
  simp [stepWith, terminatorAnalytical, h]; ring

/-- **C47** (analytical formulation, conservation).  `X + 2*X2` is unchanged. -/
theorem C47_analytical_conserves (h : n1 ≠ n2) :
    stepWith dt (terminatorAnalytical n1 n2 k1 k2 dt x) x n1
        + 2 * stepWith dt (terminatorAnalytical n1 n2 k1 k2 dt x) x n2 = x n1 + 2 * x n2 := by
  rw [term_one h, term_two h]; ring

/-- **C47** (analytical formulation, non-negativity). -/
theorem C47_analytical_nonneg (h : n1 ≠ n2) (hdt : 0 < dt) (h1 : 0 ≤ x n1) (h2 : 0 ≤ x n2) :
    0 ≤ stepWith dt (terminatorAnalytical n1 n2 k1 k2 dt x) x n1 ∧
      0 ≤ stepWith dt (terminatorAnalytical n1 n2 k1 k2 dt x) x n2 := by
  rw [term_one h, term_two h]
  unfold terminatorRate
  dsimp only
  split
  · rename_i hneg
    have e : dt * max (terminatorRaw k1 k2 (x n1) dt) (-x n1 / dt)
        = max (dt * terminatorRaw k1 k2 (x n1) dt) (-x n1) := by
      rw [mul_max_of_nonneg _ _ hdt.le, mul_div_cancel₀ _ hdt.ne']
    rw [e]
    have h3 : max (dt * terminatorRaw k1 k2 (x n1) dt) (-x n1) ≤ 0 :=
      max_le (mul_nonpos_of_nonneg_of_nonpos hdt.le hneg.le) (by linarith)
    have h4 := le_max_right (dt * terminatorRaw k1 k2 (x n1) dt) (-x n1)
    constructor <;> linarith
  · rename_i hneg
    have e : dt * min (terminatorRaw k1 k2 (x n1) dt) (2 * x n2 / dt)
        = min (dt * terminatorRaw k1 k2 (x n1) dt) (2 * x n2) := by
      rw [mul_min_of_nonneg _ _ hdt.le, mul_div_cancel₀ _ hdt.ne']
    rw [e]
    have h3 : 0 ≤ min (dt * terminatorRaw k1 k2 (x n1) dt) (2 * x n2) :=
      le_min (mul_nonneg hdt.le (not_lt.1 hneg)) (by linarith)
    have h4 := min_le_right (dt * terminatorRaw k1 k2 (x n1) dt) (2 * x n2)
    constructor <;> linarith

/-- The hypotheses are met. -/
example : ("X_tracer" : String) ≠ "X2_tracer" ∧ (0 : ℝ) ≤ 4e-6 := by
  refine ⟨by decide, by norm_num⟩

/-- The right-hand side of the documented equation `dX/dt = 2*Kx` when the total `X + 2*X2` is `tot`. -/
noncomputable def reaction (k1 k2 tot s1 : ℝ) : ℝ := 2 * terminatorKx k1 k2 s1 ((tot - s1) / 2)

/-- The value after time `s` predicted by the analytical formula. -/
noncomputable def flow (r d k2 s1 s : ℝ) : ℝ :=
  d * ((s1 + r) * (1 + exp (-4 * k2 * d * s)) + d * (1 - exp (-4 * k2 * d * s)))
    / (d * (1 + exp (-4 * k2 * d * s)) + (s1 + r) * (1 - exp (-4 * k2 * d * s))) - r

theorem flow_den_pos {r d s1 E : ℝ} (hr : 0 < r) (hd : 0 < d) (hs1 : 0 ≤ s1) (hE0 : 0 < E) (hE1 : E ≤ 1) :
    0 < d * (1 + E) + (s1 + r) * (1 - E) := by
  have h1 : 0 < d * (1 + E) := by positivity
  have h2 : 0 ≤ (s1 + r) * (1 - E) := mul_nonneg (by linarith) (by linarith)
  linarith

/-- The two constants of the formula. -/
theorem term_consts (hk1 : 0 < k1) (hk2 : 0 < k2) :
    0 < k1 / (4 * k2) ∧
    0 < √((k1 / (4 * k2)) ^ 2 + 2 * terminatorTotal * (k1 / (4 * k2))) ∧
    √((k1 / (4 * k2)) ^ 2 + 2 * terminatorTotal * (k1 / (4 * k2))) ^ 2
      = (k1 / (4 * k2)) ^ 2 + 2 * terminatorTotal * (k1 / (4 * k2)) := by
  have hr : 0 < k1 / (4 * k2) := by positivity
  have ht : 0 < terminatorTotal := by norm_num [terminatorTotal]
  exact ⟨hr, Real.sqrt_pos.2 (by positivity), Real.sq_sqrt (by positivity)⟩

/-- **C47** (analytical formulation is the exact solution).  Let the total `X + 2*X2` be the `4e-6` built into
the formula, `k1, k2 > 0`, and both species non-negative.  Then there is a solution of the documented
equation `dX/dt = 2*Kx` on `[0, ∞)` starting from the current value, and the forward-Euler step with the
analytical formulation, clipping included, ends exactly on it (the step must not be so small that
`d*k2*dt ≤ 1e-16`). -/
theorem C47_analytical_exact (h : n1 ≠ n2) (hk1 : 0 < k1) (hk2 : 0 < k2) (hdt : 0 < dt)
    (h1 : 0 ≤ x n1) (h2 : 0 ≤ x n2) (htot : x n1 + 2 * x n2 = terminatorTotal)
    (hbig : 1e-16 < √((k1 / (4 * k2)) ^ 2 + 2 * terminatorTotal * (k1 / (4 * k2))) * k2 * dt) :
    ∃ X : ℝ → ℝ, X 0 = x n1 ∧
      (∀ s, 0 ≤ s → HasDerivAt X (reaction k1 k2 terminatorTotal (X s)) s) ∧
      stepWith dt (terminatorAnalytical n1 n2 k1 k2 dt x) x n1 = X dt := by
  obtain ⟨hr, hd, hd2⟩ := term_consts hk1 hk2
  obtain ⟨tot, htt⟩ : ∃ tot, terminatorTotal = tot := ⟨_, rfl⟩
  have htp : 0 < tot := by rw [← htt]; norm_num [terminatorTotal]
  obtain ⟨r, hre⟩ : ∃ r, k1 / (4 * k2) = r := ⟨_, rfl⟩
  have hk1e : k1 = 4 * k2 * r := by rw [← hre]; field_simp
  rw [hre, htt] at hd hd2 hbig
  rw [hre] at hr
  obtain ⟨d, hde⟩ : ∃ d, √(r ^ 2 + 2 * tot * r) = d := ⟨_, rfl⟩
  rw [hde] at hd hd2 hbig
  rw [htt] at htot ⊢
  have hEpos : ∀ s : ℝ, 0 < exp (-4 * k2 * d * s) := fun s => exp_pos _
  have hEle : ∀ s : ℝ, 0 ≤ s → exp (-4 * k2 * d * s) ≤ 1 := fun s hs => by
    rw [← exp_zero]
    apply exp_le_exp.2
    have : 0 ≤ k2 * d * s := by positivity
    linarith
  have hden : ∀ s : ℝ, 0 ≤ s →
      0 < d * (1 + exp (-4 * k2 * d * s)) + (x n1 + r) * (1 - exp (-4 * k2 * d * s)) := fun s hs =>
    flow_den_pos hr hd h1 (hEpos s) (hEle s hs)
  refine ⟨flow r d k2 (x n1), ?_, fun s hs => ?_, ?_⟩
  · unfold flow
    have hd' := hd.ne'
    simp only [mul_zero, exp_zero]
    field_simp
    ring
  · -- the differential equation
    have dE : HasDerivAt (fun s : ℝ => exp (-4 * k2 * d * s)) (exp (-4 * k2 * d * s) * (-4 * k2 * d)) s := by
      have : HasDerivAt (fun s : ℝ => -4 * k2 * d * s) (-4 * k2 * d) s := by
        simpa using (hasDerivAt_id s).const_mul (-4 * k2 * d)
      exact this.exp
    have dnum := ((((dE.const_add 1).const_mul (x n1 + r)).add
      ((dE.const_sub 1).const_mul d)).const_mul d)
    have dden := (((dE.const_add 1).const_mul d).add ((dE.const_sub 1).const_mul (x n1 + r)))
    have dq := (dnum.div dden (hden s hs).ne').sub_const r
    have dX : HasDerivAt (flow r d k2 (x n1)) _ s := dq
    refine dX.congr_deriv ?_
    have hdn := (hden s hs).ne'
    unfold reaction terminatorKx flow
    simp only [Pi.add_apply, Pi.mul_apply]
    obtain ⟨E, hE⟩ : ∃ E, exp (-4 * k2 * d * s) = E := ⟨_, rfl⟩
    rw [hE] at hdn ⊢
    obtain ⟨y, hy⟩ : ∃ y, x n1 + r = y := ⟨_, rfl⟩
    rw [hy] at hdn ⊢
    obtain ⟨D, hD⟩ : ∃ D, d * (1 + E) + y * (1 - E) = D := ⟨_, rfl⟩
    rw [hD] at hdn ⊢
    rw [hk1e]
    have key : d ^ 2 * D ^ 2 - d ^ 2 * (y * (1 + E) + d * (1 - E)) ^ 2
        = 4 * d ^ 2 * E * (d ^ 2 - y ^ 2) := by rw [← hD]; ring
    have hrt : 2 * tot * r = d ^ 2 - r ^ 2 := by linarith
    have lhs : (d * (y * (E * (-4 * k2 * d)) + d * -(E * (-4 * k2 * d))) * D
        - d * (y * (1 + E) + d * (1 - E)) * (d * (E * (-4 * k2 * d)) + y * -(E * (-4 * k2 * d)))) / D ^ 2
        = 8 * k2 * d ^ 2 * E * (d ^ 2 - y ^ 2) / D ^ 2 := by
      rw [← hD]; congr 1; ring
    rw [lhs]
    obtain ⟨Nn, hNn⟩ : ∃ Nn, d * (y * (1 + E) + d * (1 - E)) = Nn := ⟨_, rfl⟩
    have key2 : 4 * d ^ 2 * E * (d ^ 2 - y ^ 2) = d ^ 2 * D ^ 2 - Nn ^ 2 := by
      rw [← hNn, ← key]; ring
    rw [hNn]
    have e8 : 8 * k2 * d ^ 2 * E * (d ^ 2 - y ^ 2) = 2 * k2 * (d ^ 2 * D ^ 2 - Nn ^ 2) := by
      rw [← key2]; ring
    rw [e8]
    have hfin : 2 * ((4 * k2 * r) * ((tot - (Nn / D - r)) / 2) - k2 * (Nn / D - r) ^ 2)
        = 2 * k2 * (d ^ 2 - (Nn / D) ^ 2) := by
      linear_combination (2 * k2) * hrt
    rw [hfin]
    field_simp
  · -- the step
    rw [term_one h]
    have hraw : dt * terminatorRaw k1 k2 (x n1) dt = flow r d k2 (x n1) dt - x n1 := by
      unfold terminatorRaw flow
      dsimp only
      rw [hre, htt, hde]
      have habs : |d * k2 * dt| > 1e-16 := lt_of_lt_of_le hbig (le_abs_self _)
      rw [if_pos habs]
      have hdn := (hden dt hdt.le).ne'
      obtain ⟨E, hE⟩ : ∃ E, exp (-4 * k2 * d * dt) = E := ⟨_, rfl⟩
      rw [hE] at hdn ⊢
      have hd' := hd.ne'
      have hdt' := hdt.ne'
      have e2 : 1 + E + dt * ((1 - E) / (d * dt)) * (x n1 + r)
          = (d * (1 + E) + (x n1 + r) * (1 - E)) / d := by field_simp
      rw [e2]
      obtain ⟨D, hD⟩ : ∃ D, d * (1 + E) + (x n1 + r) * (1 - E) = D := ⟨_, rfl⟩
      rw [hD] at hdn ⊢
      field_simp
      rw [← hD]
      ring
    obtain ⟨E, hE⟩ : ∃ E, exp (-4 * k2 * d * dt) = E := ⟨_, rfl⟩
    have hE0 := hEpos dt
    have hE1 := hEle dt hdt.le
    have hdn := hden dt hdt.le
    rw [hE] at hE0 hE1 hdn
    have hdr : r < d := by nlinarith [mul_pos htp hr]
    have hx1 : x n1 ≤ tot := by linarith
    -- the exact solution stays between 0 and the total
    have hlo : 0 ≤ flow r d k2 (x n1) dt := by
      unfold flow
      rw [hE, sub_nonneg, le_div_iff₀ hdn]
      have a1 : 0 ≤ d * x n1 * (1 + E) := by positivity
      have a2 : 0 ≤ (d ^ 2 - r * (x n1 + r)) * (1 - E) := by
        apply mul_nonneg _ (by linarith)
        rw [hd2]; nlinarith
      nlinarith
    have hhi : flow r d k2 (x n1) dt ≤ tot := by
      unfold flow
      rw [hE, sub_le_iff_le_add, div_le_iff₀ hdn]
      have b1 : 0 ≤ (tot - x n1) * (d * (1 + E) - r * (1 - E)) := by
        apply mul_nonneg (by linarith)
        nlinarith
      have b2 : 0 ≤ tot * x n1 * (1 - E) := by
        apply mul_nonneg (by positivity) (by linarith)
      have b3 : d ^ 2 = r ^ 2 + 2 * tot * r := hd2
      have : (tot + r) * (d * (1 + E) + (x n1 + r) * (1 - E))
          - d * ((x n1 + r) * (1 + E) + d * (1 - E))
          = (tot - x n1) * (d * (1 + E) - r * (1 - E)) + tot * x n1 * (1 - E)
            + (r ^ 2 + 2 * tot * r - d ^ 2) * (1 - E) := by ring
      nlinarith
    have hcl : dt * terminatorRate k1 k2 (x n1) (x n2) dt = dt * terminatorRaw k1 k2 (x n1) dt := by
      unfold terminatorRate
      dsimp only
      split
      · rename_i hneg
        rw [max_eq_left]
        rw [div_le_iff₀ hdt]
        linarith
      · rename_i hneg
        rw [min_eq_left]
        rw [le_div_iff₀ hdt]
        linarith
    rw [hcl, hraw]
    ring

/-- There is such a state. -/
example : (0 : ℝ) ≤ 4e-6 ∧ (4e-6 : ℝ) + 2 * 0 = terminatorTotal ∧
    (1e-16 : ℝ) < √((1 / (4 * 1)) ^ 2 + 2 * terminatorTotal * (1 / (4 * 1))) * 1 * 1 := by
  refine ⟨by norm_num, by norm_num [terminatorTotal], ?_⟩
  rw [mul_one, mul_one]
  apply Real.lt_sqrt_of_sq_lt
  norm_num [terminatorTotal]

/-- **C47** (steady state).  For the built-in total, a state in chemical equilibrium is left unchanged by the
analytical formulation. -/
theorem C47_analytical_steady (h : n1 ≠ n2) (hk1 : 0 < k1) (hk2 : 0 < k2) (hdt : 0 < dt)
    (h1 : 0 ≤ x n1) (h2 : 0 ≤ x n2)
    (htot : x n1 + 2 * x n2 = terminatorTotal) (heq : k1 * x n2 = k2 * x n1 ^ 2) (f : String) :
    stepWith dt (terminatorAnalytical n1 n2 k1 k2 dt x) x f = x f := by
  obtain ⟨hr, hd, hd2⟩ := term_consts hk1 hk2
  have hz : terminatorRaw k1 k2 (x n1) dt = 0 := by
    unfold terminatorRaw
    dsimp only
    obtain ⟨r, hre⟩ : ∃ r, k1 / (4 * k2) = r := ⟨_, rfl⟩
    have hk1e : k1 = 4 * k2 * r := by rw [← hre]; field_simp
    rw [hre] at hr hd hd2 ⊢
    obtain ⟨d, hde⟩ : ∃ d, √(r ^ 2 + 2 * terminatorTotal * r) = d := ⟨_, rfl⟩
    rw [hde] at hd hd2 ⊢
    have hz : (x n1 - d + r) * (x n1 + d + r) = 0 := by
      have h3 : 4 * r * x n2 = x n1 ^ 2 := by
        have : k2 * (4 * r * x n2 - x n1 ^ 2) = 0 := by rw [hk1e] at heq; linarith
        rcases mul_eq_zero.1 this with h | h
        · exact absurd h hk2.ne'
        · linarith
      nlinarith
    rw [mul_assoc, hz, mul_zero, zero_div]
  have hrate : terminatorRate k1 k2 (x n1) (x n2) dt = 0 := by
    unfold terminatorRate
    dsimp only
    rw [hz, if_neg (lt_irrefl _), min_eq_left (by positivity)]
  by_cases f1 : f = n1
  · subst f1; rw [term_one h, hrate]; ring
  by_cases f2 : f = n2
  · subst f2; rw [term_two h, hrate]; ring
  have f1' : ¬ n1 = f := fun e => f1 e.symm
  have f2' : ¬ n2 = f := fun e => f2 e.symm
  simp [stepWith, terminatorAnalytical, f1', f2']

/-- **C47** (other totals, refutation).  The total is hard-wired: a state in chemical equilibrium with a
different total is not left unchanged. -/
theorem C47_other_total_refuted : ∃ (k1 k2 dt : ℝ) (x : Local), 0 < k1 ∧ 0 < k2 ∧ 0 < dt ∧
    0 ≤ x "X_tracer" ∧ 0 ≤ x "X2_tracer" ∧ k1 * x "X2_tracer" = k2 * x "X_tracer" ^ 2 ∧
    stepWith dt (terminatorAnalytical "X_tracer" "X2_tracer" k1 k2 dt x) x "X_tracer" ≠ x "X_tracer" := by
  refine ⟨1, 1, 1, fun f => 1, one_pos, one_pos, one_pos, by norm_num, by norm_num, by norm_num, ?_⟩
  rw [term_one (by decide)]
  simp only [one_mul]
  intro hcon
  have hzero : terminatorRate 1 1 1 1 1 = 0 := by linarith
  obtain ⟨hr, hd, hd2⟩ := term_consts (k1 := 1) (k2 := 1) one_pos one_pos
  have hneg : terminatorRaw 1 1 1 1 < 0 := by
    unfold terminatorRaw
    dsimp only
    obtain ⟨d, hde⟩ : ∃ d, √((1 / (4 * 1)) ^ 2 + 2 * terminatorTotal * (1 / (4 * 1))) = d := ⟨_, rfl⟩
    rw [hde] at hd hd2 ⊢
    have hdlt : d < 1 := by
      have : d ^ 2 < 1 := by rw [hd2]; norm_num [terminatorTotal]
      nlinarith
    have hdgt : 1 / 10 < d := by
      have : (1 / 10) ^ 2 < d ^ 2 := by rw [hd2]; norm_num [terminatorTotal]
      nlinarith
    have habs : |d * 1 * 1| > 1e-16 := by
      rw [mul_one, mul_one, abs_of_pos hd]
      have : (1e-16 : ℝ) < 1 / 10 := by norm_num
      linarith
    rw [if_pos habs]
    have hE0 := exp_pos (-4 * 1 * d * 1)
    have hE1 : exp (-4 * 1 * d * 1) < 1 := by
      rw [exp_lt_one_iff]; linarith
    obtain ⟨E, hE⟩ : ∃ E, exp (-4 * 1 * d * 1) = E := ⟨_, rfl⟩
    rw [hE] at hE0 hE1 ⊢
    have hq : 0 < (1 - E) / (d * 1) := div_pos (by linarith) (by linarith)
    generalize (1 - E) / (d * 1) = q at hq ⊢
    have hnum : -q * (1 - d + 1 / (4 * 1)) * (1 + d + 1 / (4 * 1)) < 0 := by
      have := mul_pos (mul_pos hq (show 0 < 1 - d + 1 / (4 * 1) by linarith))
        (show 0 < 1 + d + 1 / (4 * 1) by linarith)
      linarith
    exact div_neg_of_neg_of_pos hnum (by nlinarith)
  unfold terminatorRate at hzero
  dsimp only at hzero
  rw [if_pos hneg] at hzero
  have := max_lt hneg (show (-1 : ℝ) / 1 < 0 by norm_num)
  linarith

/-! ### General formulation: any scheme -/

variable {V D : Type*} [AddCommGroup V] [Module ℝ V] [AddCommGroup D] [Module ℝ D]

/-- The mass matrix of the two species: the same block twice. -/
def mass2 (m : V ≃ₗ[ℝ] D) : (V × V) ≃ₗ[ℝ] (D × D) := m.prodCongr m

/-- The labelled form of the equations of the two species with the general formulation. -/
def terminatorForm (m : V ≃ₗ[ℝ] D) (g : V × V → D) (x0 : V × V) : LForm (V × V) (D × D) :=
  [{ labels := [.timeDerivative], op := mass2 m, subj := x0 },
   { labels := [.physics 0], op := terminatorGeneral g, subj := x0 }]

theorem tf_mass (m : V ≃ₗ[ℝ] D) (g : V × V → D) (x0 y : V × V) :
    mass (terminatorForm m g x0) y = mass2 m y := by
  simp [terminatorForm, mass, part]

theorem tf_rest (m : V ≃ₗ[ℝ] D) (g : V × V → D) (x0 y : V × V) :
    rest (terminatorForm m g x0) y = terminatorGeneral g y := by
  simp [terminatorForm, rest, part]

/-- **C47** (general formulation, explicit schemes).  With any explicit Runge-Kutta scheme, any number of
stages and cycles, any reaction rates and fields, `X + 2*X2` is unchanged at every degree of freedom. -/
theorem C47_general_explicit (m : V ≃ₗ[ℝ] D) (g : V × V → D) (x0 : V × V)
    (S : RKScheme ℝ (V × V) (D × D)) (hR : S.R = terminatorForm m g x0) (hS : ExactSolver S.solve)
    (hst : 0 < S.nStages) (hl : S.limiter = none) (n : ℕ) (hn : 0 < n) (st : RKState (V × V))
    (y : V × V) :
    (RK.apply .increment S n st y).1 + (2 : ℝ) • (RK.apply .increment S n st y).2
      = y.1 + (2 : ℝ) • y.2 := by
  have hset : Setting S (mass2 m) := ⟨fun z => by rw [hR, tf_mass], hS, hst⟩
  have hns : ∀ t ∈ S.R, Label.source ∉ t.labels := by
    intro t ht
    rw [hR] at ht
    simp only [terminatorForm, List.mem_cons, List.not_mem_nil, or_false] at ht
    rcases ht with rfl | rfl <;> simp
  rw [C02_increment S (mass2 m) hset hl hns n hn]
  have hten : ∀ z, (tendency S.R (mass2 m) z).1 + (2 : ℝ) • (tendency S.R (mass2 m) z).2 = 0 := by
    intro z
    have e : tendency S.R (mass2 m) z = (m.symm ((2 : ℤ) • g z), m.symm (-(g z))) := by
      simp only [tendency, hR, tf_rest, terminatorGeneral, mass2]
      ext <;> simp
    rw [e]
    simp only [map_neg, map_zsmul, smul_neg]
    rw [← Int.cast_smul_eq_zsmul ℝ]
    simp
  have hstep : ∀ z, (textbook S (tendency S.R (mass2 m)) z).1
      + (2 : ℝ) • (textbook S (tendency S.R (mass2 m)) z).2 = z.1 + (2 : ℝ) • z.2 := by
    intro z
    obtain ⟨k, hk, he⟩ := rkStep_isRKStep (stageCoeffs S.A) (weights S.A S.nStages) S.nStages
      (tendency S.R (mass2 m)) S.dt z
    have hk' : ∀ i < S.nStages, (k i).1 + (2 : ℝ) • (k i).2 = 0 := fun i hi => by
      rw [hk i hi]; exact hten _
    have hsum : (∑ j ∈ Finset.range S.nStages, weights S.A S.nStages j • k j).1
        + (2 : ℝ) • (∑ j ∈ Finset.range S.nStages, weights S.A S.nStages j • k j).2 = 0 := by
      rw [Prod.fst_sum, Prod.snd_sum, Finset.smul_sum, ← Finset.sum_add_distrib]
      apply Finset.sum_eq_zero
      intro j hj
      have := hk' j (Finset.mem_range.1 hj)
      simp only [Prod.smul_fst, Prod.smul_snd]
      rw [smul_comm (2 : ℝ), ← smul_add, this, smul_zero]
    rw [textbook, he]
    simp only [Prod.fst_add, Prod.snd_add, Prod.smul_fst, Prod.smul_snd, smul_add]
    rw [smul_comm (2 : ℝ) S.dt]
    have h3 : S.dt • (∑ j ∈ Finset.range S.nStages, weights S.A S.nStages j • k j).1
        + S.dt • (2 : ℝ) • (∑ j ∈ Finset.range S.nStages, weights S.A S.nStages j • k j).2 = 0 := by
      rw [← smul_add, hsum, smul_zero]
    calc _ = z.1 + (2 : ℝ) • z.2 + (S.dt • (∑ j ∈ Finset.range S.nStages, weights S.A S.nStages j • k j).1
        + S.dt • (2 : ℝ) • (∑ j ∈ Finset.range S.nStages, weights S.A S.nStages j • k j).2) := by abel
      _ = _ := by rw [h3, add_zero]
  clear hset
  induction n generalizing y with
  | zero => rfl
  | succ n ih =>
    rw [Function.iterate_succ_apply']
    rw [hstep]
    rcases Nat.eq_zero_or_pos n with rfl | hn'
    · rfl
    · exact ih hn' y

/-- **C47** (general formulation, implicit schemes).  Every solution of the backward-Euler, theta or
trapezium residual has the same `X + 2*X2` as the old state. -/
theorem C47_general_theta (m : V ≃ₗ[ℝ] D) (g : V × V → D) (x0 : V × V) (dt th : ℝ) (y y' : V × V)
    (hsol : (TimeDisc.thetaRes (terminatorForm m g x0) dt th y' y).eval = 0) :
    y'.1 + (2 : ℝ) • y'.2 = y.1 + (2 : ℝ) • y.2 := by
  rw [C07_theta] at hsol
  rw [tf_mass, tf_mass, tf_rest, tf_rest] at hsol
  have e1 := congrArg Prod.fst hsol
  have e2 := congrArg Prod.snd hsol
  simp only [mass2, terminatorGeneral, LinearEquiv.prodCongr_apply, Prod.fst_add, Prod.snd_add,
    Prod.smul_fst, Prod.smul_snd, Prod.fst_sub, Prod.snd_sub, Prod.fst_zero, Prod.snd_zero,
    ← Int.cast_smul_eq_zsmul ℝ, Int.cast_ofNat] at e1 e2
  apply m.injective
  rw [map_add, map_add, map_smul, map_smul]
  linear_combination (norm := module) e1 + (2 : ℝ) • e2

end Terminator

end Gusto.Props.SWPhysProps
