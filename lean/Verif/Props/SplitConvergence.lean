import Verif.Lemmas.Splitting
import Verif.Props.Split
import Verif.Props.Convergence
import Mathlib.Analysis.SpecialFunctions.ExpDeriv
import Mathlib.Analysis.Complex.Exponential

set_option autoImplicit false
set_option linter.unusedSectionVars false
set_option linter.unusedSimpArgs false

/-!
# C125: operator-split timestepping converges
-/

namespace Gusto.Props.SplitConvergenceProps
open Gusto Gusto.Split Gusto.Convergence Gusto.Props.SplitProps

variable {E : Type*} [NormedAddCommGroup E] [NormedSpace ℝ E]

/-! ### One split step -/

/-- The tendency of the physics schemes together. -/
theorem physics_first {phys : List (Scheme ℝ E)} {P : Scheme ℝ E → E → E} (dyn : String → Scheme ℝ E)
    (hP : ∀ s ∈ phys, FirstOrder (full s) (P s)) (hL : ∀ s ∈ phys, ∃ L, Lip (P s) L) :
    FirstOrder (labelFlow dyn phys "physics") (fun x => (phys.map fun s => P s x).sum) := by
  have := FirstOrder.list (g := fun s h x => full s h x) phys hP hL
  have e : labelFlow dyn phys "physics" = fun h x => phys.foldl (fun y s => full s h y) x := by
    funext h x; simp [labelFlow]
  rw [e]; exact this

theorem composed_first {flow : String → ℝ → E → E} {F : String → E → E} (es : List (String × ℝ)) (hw : ∀ e ∈ es, 0 ≤ e.2)
    (hf : ∀ e ∈ es, FirstOrder (flow e.1) (F e.1)) (hL : ∀ e ∈ es, ∃ L, Lip (F e.1) L) :
    FirstOrder (fun h => composed flow (es.map fun e => (e.1, h * e.2))) (fun x => (es.map fun e => e.2 • F e.1 x).sum) := by
  have := FirstOrder.list (g := fun e : String × ℝ => fun h x => flow e.1 (h * e.2) x) (F := fun e x => e.2 • F e.1 x) es
    (fun e he => (hf e he).scale (hw e he)) (fun e he => by
      obtain ⟨L, hL⟩ := hL e he
      exact ⟨_, hL.smul e.2⟩)
  have e : (fun h => composed flow (es.map fun e => (e.1, h * e.2))) =
      fun h x => es.foldl (fun y e => flow e.1 (h * e.2) y) x := by
    funext h x; simp [composed, List.foldl_map]
  rw [e]; exact this

theorem composed_second {flow : String → ℝ → E → E} {F : String → E → E} {F' : String → E → E →L[ℝ] E} (es : List (String × ℝ))
    (hw : ∀ e ∈ es, 0 ≤ e.2) (hf : ∀ e ∈ es, SecondOrder (flow e.1) (F e.1) (F' e.1))
    (hL : ∀ e ∈ es, ∃ L L2, Smooth2 (F e.1) (F' e.1) L L2) (hp : es.reverse = es) :
    SecondOrder (fun h => composed flow (es.map fun e => (e.1, h * e.2))) (fun x => (es.map fun e => e.2 • F e.1 x).sum)
      (fun x => (es.map fun e => e.2 • F' e.1 x).sum) := by
  have := SecondOrder.palindrome (g := fun e : String × ℝ => fun h x => flow e.1 (h * e.2) x) (F := fun e x => e.2 • F e.1 x)
    (F' := fun e x => e.2 • F' e.1 x) es
    (fun e he => (hf e he).scale (hw e he)) (fun e he => by
      obtain ⟨L, L2, hL⟩ := hL e he
      exact ⟨_, _, hL.smul e.2⟩) hp
  have e : (fun h => composed flow (es.map fun e => (e.1, h * e.2))) =
      fun h x => es.foldl (fun y e => flow e.1 (h * e.2) y) x := by
    funext h x; simp [composed, List.foldl_map]
  rw [e]; exact this

theorem zip_dts (ls : List String) (w : List ℝ) (h : ℝ) :
    ls.zip (w.map fun c => h * c) = (ls.zip w).map fun e => (e.1, h * e.2) := by
  rw [List.zip_map_right]; rfl

/-! ### Which timestep a scheme really uses -/

/-- The first value paired with a label. -/
def firstOf {K : Type*} (es : List (String × K)) (l : String) : Option K := (es.find? fun e => e.1 == l).map Prod.snd

/-- The values that take effect: a label whose scheme captures its timestep keeps the first one. -/
def effective {K : Type*} (cap : String → Bool) (es : List (String × K)) : List (String × K) :=
  es.map fun e => (e.1, if cap e.1 then (firstOf es e.1).getD e.2 else e.2)

/-- The scheme's result depends only on the timestep captured by its solver. -/
def Captures {K X : Type*} (s : Scheme K X) : Prop := ∀ c l l' x, s.cycle c l x = s.cycle c l' x

theorem firstOf_cons {K : Type*} (e : String × K) (es : List (String × K)) (l : String) :
    firstOf (e :: es) l = if e.1 = l then some e.2 else firstOf es l := by
  by_cases h : e.1 = l <;> simp [firstOf, List.find?_cons, h]

theorem firstOf_mem {K : Type*} {es : List (String × K)} {e : String × K} (he : e ∈ es) : ∃ c, firstOf es e.1 = some c := by
  induction es with
  | nil => simp at he
  | cons a es ih =>
    rw [firstOf_cons]
    by_cases h : a.1 = e.1
    · exact ⟨a.2, by simp [h]⟩
    · rcases List.mem_cons.1 he with rfl | he
      · exact absurd rfl h
      · simpa [h] using ih he

theorem firstOf_map {K K' : Type*} (g : K → K') (es : List (String × K)) (l : String) :
    firstOf (es.map fun e => (e.1, g e.2)) l = (firstOf es l).map g := by
  induction es with
  | nil => rfl
  | cons e es ih =>
    rw [List.map_cons, firstOf_cons, firstOf_cons, ih]
    by_cases h : e.1 = l <;> simp [h]

theorem effective_map {K K' : Type*} (g : K → K') (cap : String → Bool) (es : List (String × K)) :
    effective cap (es.map fun e => (e.1, g e.2)) = (effective cap es).map fun e => (e.1, g e.2) := by
  unfold effective
  rw [List.map_map, List.map_map]
  refine List.map_congr_left fun e _ => ?_
  simp only [Function.comp_apply, firstOf_map]
  by_cases h : cap e.1 <;> cases hf : firstOf es e.1 <;> simp [h, hf]

theorem substep_captures {K X : Type*} (s : Scheme K X) (hs : Captures s) (d d' : K) (st : Captured K × X)
    (h : st.1.getD d = st.1.getD d') : substep s d st = substep s d' st := by
  unfold substep
  rw [h]
  have : s.cycle (st.1.getD d') d = s.cycle (st.1.getD d') d' := funext fun x => hs _ _ _ _
  simp [this]

section
variable {K X : Type*} (dyn : String → Scheme K X) (phys : List (Scheme K X)) (cap : String → Bool)

/-- The state of the capturing labels while the entries `s` of `es` are still to come. -/
def CapInv (es s : List (String × K)) (st : St K X) : Prop :=
  ∀ l, cap l = true → st.dyn l = firstOf es l ∨ (st.dyn l = none ∧ firstOf s l = firstOf es l)

theorem fold_effective (hcap : ∀ l, cap l = true → l ≠ "physics" ∧ Captures (dyn l)) (es s : List (String × K)) (hs : ∀ e ∈ s, e ∈ es)
    (st : St K X) (hI : CapInv cap es s st) :
    s.foldl (entry dyn phys) st = (s.map fun e => (e.1, if cap e.1 then (firstOf es e.1).getD e.2 else e.2)).foldl (entry dyn phys) st ∧
      CapInv cap es [] (s.foldl (entry dyn phys) st) := by
  induction s generalizing st with
  | nil => exact ⟨rfl, hI⟩
  | cons e s ih =>
    have key : entry dyn phys st e = entry dyn phys st (e.1, if cap e.1 then (firstOf es e.1).getD e.2 else e.2) := by
      by_cases hc : cap e.1 = true
      · obtain ⟨hp, hC⟩ := hcap e.1 hc
        obtain ⟨c, hc'⟩ := firstOf_mem (hs e (by simp))
        have : substep (dyn e.1) e.2 (st.dyn e.1, st.x) = substep (dyn e.1) ((firstOf es e.1).getD e.2) (st.dyn e.1, st.x) := by
          refine substep_captures _ hC _ _ _ ?_
          rcases hI e.1 hc with h1 | ⟨h1, h2⟩
          · simp [h1, hc']
          · rw [firstOf_cons] at h2
            simp only [if_true] at h2
            simp [h1, ← h2]
        simp only [entry, hp, if_false, hc, if_true, this]
      · simp [hc]
    have hI' : CapInv cap es s (entry dyn phys st e) := by
      intro l hl
      obtain ⟨hp, -⟩ := hcap l hl
      by_cases hel : e.1 = l
      · subst hel
        left
        obtain ⟨c, hc'⟩ := firstOf_mem (hs e (by simp))
        simp only [entry, hp, if_false, Function.update_self, substep]
        rcases hI e.1 hl with h1 | ⟨h1, h2⟩
        · simp [h1, hc']
        · rw [firstOf_cons] at h2
          simp only [if_true] at h2
          simp [h1, ← h2]
      · have hd : (entry dyn phys st e).dyn l = st.dyn l := by
          unfold entry
          by_cases h : e.1 = "physics"
          · simp [h]
          · simp [h, Function.update_of_ne (Ne.symm hel)]
        rw [hd]
        have := hI l hl
        rw [firstOf_cons, if_neg hel] at this
        exact this
    obtain ⟨h1, h2⟩ := ih (fun e' he' => hs e' (List.mem_cons_of_mem _ he')) _ hI'
    rw [List.map_cons, List.foldl_cons, List.foldl_cons, ← key]
    exact ⟨h1, h2⟩

/-- Any number of timesteps composes the flows of the labels with the timesteps that take effect: for a scheme whose solver captures
its timestep, the first one given to its label. -/
theorem timesteps_effective (splitting : List String) (dts : List K) (d : K)
    (hcap : ∀ l, cap l = true → l ≠ "physics" ∧ Captures (dyn l))
    (hlive : ∀ l ∈ splitting, cap l = false → LiveLabel dyn phys l ∨ (l = "physics" ∧ ∀ e ∈ splitting.zip dts, e.1 = l → e.2 = d))
    (x0 : X) (n : ℕ) :
    ((timestep splitting dts dyn phys)^[n] ⟨x0, fun _ => none, []⟩).x =
      (composed (labelFlow dyn phys) (effective cap (splitting.zip dts)))^[n] x0 := by
  set es := splitting.zip dts
  have hmem : ∀ e ∈ es, e.1 ∈ splitting := fun e he => (List.of_mem_zip he).1
  have step : ∀ n, (timestep splitting dts dyn phys)^[n] ⟨x0, fun _ => none, []⟩ =
      ((fun st => (effective cap es).foldl (entry dyn phys) st)^[n] ⟨x0, fun _ => none, []⟩ : St K X) ∧
      CapInv cap es es ((timestep splitting dts dyn phys)^[n] ⟨x0, fun _ => none, []⟩) := by
    intro n
    induction n with
    | zero => exact ⟨rfl, fun l _ => Or.inr ⟨rfl, rfl⟩⟩
    | succ n ih =>
      obtain ⟨h1, h2⟩ := fold_effective dyn phys cap hcap es es (fun e he => he) _ ih.2
      rw [Function.iterate_succ_apply', Function.iterate_succ_apply', ← ih.1]
      refine ⟨h1, fun l hl => Or.inl ?_⟩
      rcases h2 l hl with h | ⟨h, h'⟩
      · exact h
      · exact h.trans h'
  rw [(step n).1]
  have e2 : ∀ es' : List (String × K), (fun st => es'.foldl (entry dyn phys) st) =
      timestep (es'.map Prod.fst) (es'.map Prod.snd) dyn phys := by
    intro es'; funext st
    have : (es'.map Prod.fst).zip (es'.map Prod.snd) = es' := by
      rw [List.zip_map']; exact List.map_id es'
    rw [timestep, this]
  have ez : ((effective cap es).map Prod.fst).zip ((effective cap es).map Prod.snd) = effective cap es := by
    rw [List.zip_map']; exact List.map_id _
  rw [e2]
  have := C21_timesteps_compose ((effective cap es).map Prod.fst) ((effective cap es).map Prod.snd) dyn phys
    (fun l => if l = "physics" then d else (firstOf es l).getD d) (by
      rw [ez]
      intro e he
      obtain ⟨a, ha, rfl⟩ := List.mem_map.1 he
      by_cases hc : cap a.1 = true
      · obtain ⟨hp, -⟩ := hcap a.1 hc
        obtain ⟨c, hc'⟩ := firstOf_mem ha
        right
        simp [hc, hp, hc']
      · simp only [Bool.not_eq_true] at hc
        rcases hlive a.1 (hmem a ha) hc with h | ⟨h, h'⟩
        · exact Or.inl h
        · right
          have e := h' a ha rfl
          simp only [h, if_true]
          rw [h] at hc
          simp [hc, e]) x0 n
  rw [this, ez]
end

/-! ### Convergence -/

/-- **C125** (any weights).  A run of the split timestepper converges, with the first order, to the solution of the equation in which
the tendency of every label is multiplied by the total of the weights that take effect (for a scheme whose solver captures its
timestep, by the first weight of its label times the number of times the label is listed). -/
theorem C125_limit (a : Args ℝ) (dyn : String → Scheme ℝ E) (phys : List (Scheme ℝ E)) (cap : String → Bool) (d : ℝ)
    (hcap : ∀ l, cap l = true → l ≠ "physics" ∧ Captures (dyn l))
    (hlive : ∀ l ∈ a.splitting, cap l = false →
      LiveLabel dyn phys l ∨ (l = "physics" ∧ ∀ e ∈ a.splitting.zip (effWeights a), e.1 = l → e.2 = d))
    (hw : ∀ w ∈ effWeights a, 0 ≤ w) (F : String → E → E)
    (hF : ∀ l ∈ a.splitting, FirstOrder (labelFlow dyn phys l) (F l) ∧ ∃ L, Lip (F l) L)
    {y : ℝ → E} {T : ℝ} (hT : 0 ≤ T)
    (hy : IsSol (fun x => ((effective cap (a.splitting.zip (effWeights a))).map fun e => e.2 • F e.1 x).sum) y T) :
    ∃ C h0, 0 < h0 ∧ ∀ h, 0 ≤ h → h ≤ h0 → ∀ dts, Split.init h a = .ok dts → ∀ N : ℕ, N * h ≤ T →
      ‖((timestep a.splitting dts dyn phys)^[N] ⟨y 0, fun _ => none, []⟩).x - y (N * h)‖ ≤ C * h := by
  set es := effective cap (a.splitting.zip (effWeights a))
  have hes : ∀ e ∈ es, e.1 ∈ a.splitting ∧ 0 ≤ e.2 := by
    intro e he
    obtain ⟨b, hb, rfl⟩ := List.mem_map.1 he
    have h1 := List.of_mem_zip hb
    refine ⟨h1.1, ?_⟩
    by_cases hc : cap b.1 = true
    · simp only [hc, if_true]
      cases hf : firstOf (a.splitting.zip (effWeights a)) b.1 with
      | none => exact hw _ h1.2
      | some c =>
        simp only [firstOf, Option.map_eq_some_iff] at hf
        obtain ⟨e', he', rfl⟩ := hf
        exact hw _ (List.of_mem_zip (List.mem_of_find?_eq_some he')).2
    · simp only [hc]; exact hw _ h1.2
  have h1 := composed_first (flow := labelFlow dyn phys) (F := F) es (fun e he => (hes e he).2)
    (fun e he => (hF e.1 (hes e he).1).1) (fun e he => (hF e.1 (hes e he).1).2)
  obtain ⟨L, hL⟩ := Lip.listSum (f := fun (e : String × ℝ) x => e.2 • F e.1 x) es fun e he => by
    obtain ⟨L, hL⟩ := (hF e.1 (hes e he).1).2
    exact ⟨_, hL.smul e.2⟩
  obtain ⟨C, h0, hp, hC⟩ := h1.converges hL hT hy
  refine ⟨C, h0, hp, fun h hh hh0 dts hd N hN => ?_⟩
  obtain ⟨rfl, -⟩ := (C21_accept_iff h a dts).1 hd
  rw [timesteps_effective dyn phys cap a.splitting _ (h * d) hcap (fun l hl hc => ?_) (y 0) N, zip_dts, effective_map]
  · exact hC h hh hh0 N hN
  · rcases hlive l hl hc with h2 | ⟨h2, h3⟩
    · exact Or.inl h2
    · refine Or.inr ⟨h2, fun e he hel => ?_⟩
      rw [zip_dts] at he
      obtain ⟨b, hb, rfl⟩ := List.mem_map.1 he
      exact congrArg (h * ·) (h3 b hb hel)

theorem effective_none {K : Type*} (es : List (String × K)) : effective (fun _ => false) es = es := by
  unfold effective
  simp

/-- With equal weights for a capturing label nothing is changed. -/
theorem effective_same {K : Type*} (cap : String → Bool) (es : List (String × K)) (d : String → K)
    (h : ∀ e ∈ es, cap e.1 = true → e.2 = d e.1) : effective cap es = es := by
  unfold effective
  refine (List.map_congr_left fun e he => ?_).trans (List.map_id es)
  by_cases hc : cap e.1 = true
  · have : ∀ c, firstOf es e.1 = some c → c = d e.1 := by
      intro c hf
      simp only [firstOf, Option.map_eq_some_iff] at hf
      obtain ⟨e', he', rfl⟩ := hf
      have h1 := List.find?_some he'
      simp only [beq_iff_eq] at h1
      rw [← h1]
      exact h e' (List.mem_of_find?_eq_some he') (by rw [h1]; exact hc)
    cases hf : firstOf es e.1 with
    | none => simp [hf]
    | some c => simp only [hc, if_true, Option.getD_some, this c hf, ← h e he hc]; rfl
  · simp [hc]

/-- Total of the weights of 'physics', without weights: the number of times it is listed. -/
theorem selSum_ones (sel : String → Bool) (ls : List String) :
    selSum sel (ls.zip (List.replicate ls.length (1 : ℝ))) = (ls.filter sel).length := by
  induction ls with
  | nil => simp [selSum]
  | cons l ls ih =>
    simp only [selSum] at ih ⊢
    simp only [List.length_cons, List.replicate_succ, List.zip_cons_cons, List.filter_cons]
    cases sel l <;> simp [ih, add_comm]

/-- What the split step has to approximate: all the dynamics terms, and the physics when it is in the splitting. -/
def wholeTendency (a : Args ℝ) (f : Fin a.terms.length → E → E) (P : E → E) (x : E) : E :=
  (∑ i, f i x) + if "physics" ∈ a.splitting then P x else 0

/-- The terms that carry a label. -/
def labelTendency (a : Args ℝ) (f : Fin a.terms.length → E → E) (P : E → E) (l : String) (x : E) : E :=
  if l = "physics" then P x else ∑ i, if l ∈ a.terms.get i then f i x else 0

/-- The weighted tendencies of the labels add up to the whole tendency. -/
theorem weighted_whole (a : Args ℝ) (dts : List ℝ) (h : Split.init 1 a = .ok dts) (f : Fin a.terms.length → E → E) (P : E → E)
    (hno : ∀ i, "physics" ∉ a.terms.get i) (hone : a.weights = none → (a.splitting.filter (· == "physics")).length ≤ 1) (x : E) :
    ((a.splitting.zip (effWeights a)).map fun e => e.2 • labelTendency a f P e.1 x).sum = wholeTendency a f P x := by
  obtain ⟨-, h2, -, -, h5⟩ := (C21_accept_iff 1 a dts).1 h
  have h6 : selSum (· == "physics") (a.splitting.zip (effWeights a)) = if "physics" ∈ a.splitting then 1 else 0 := by
    by_cases hp : "physics" ∈ a.splitting
    · rw [if_pos hp]
      cases hw : a.weights with
      | some w =>
        have := ((h2 hp).2 w hw).2
        simpa [effWeights, hw] using this
      | none =>
        simp only [effWeights, hw]
        rw [selSum_ones]
        have h7 := hone hw
        have h8 : 0 < (a.splitting.filter (· == "physics")).length :=
          List.length_pos_of_mem (List.mem_filter.2 ⟨hp, by simp⟩)
        have : (a.splitting.filter (· == "physics")).length = 1 := by omega
        exact_mod_cast this
    · rw [if_neg hp]
      have : (a.splitting.zip (effWeights a)).filter (fun e => e.1 == "physics") = [] := by
        rw [List.filter_eq_nil_iff]
        intro e he hl
        exact hp ((by simpa using hl : e.1 = "physics") ▸ (List.of_mem_zip he).1)
      simp [selSum, this]
  have e0 : ∀ e : String × ℝ, e.2 • labelTendency a f P e.1 x =
      (∑ i, e.2 • (if decide (e.1 ∈ a.terms.get i) = true then f i x else 0)) + e.2 • (if (e.1 == "physics") = true then P x else 0) := by
    intro e
    by_cases hl : e.1 = "physics"
    · have hz : ∀ i, ¬ ("physics" ∈ a.terms.get i) := hno
      simp only [labelTendency, hl, if_true, hz, decide_false, Bool.false_eq_true, if_false, smul_zero, Finset.sum_const_zero, zero_add,
        beq_self_eq_true]
    · rw [← Finset.smul_sum]
      simp [labelTendency, hl]
  have hswap : ∀ es : List (String × ℝ),
      (es.map fun e => ∑ i, e.2 • (if decide (e.1 ∈ a.terms.get i) = true then f i x else 0)).sum
      = ∑ i, (es.map fun e => e.2 • (if decide (e.1 ∈ a.terms.get i) = true then f i x else 0)).sum := by
    intro es
    induction es with
    | nil => simp
    | cons e es ih => simp only [List.map_cons, List.sum_cons, Finset.sum_add_distrib, ← ih]
  simp only [e0]
  rw [List.sum_map_add, sum_weighted (· == "physics"), hswap, h6, wholeTendency]
  congr 1
  · refine Finset.sum_congr rfl fun i _ => ?_
    rw [sum_weighted (fun l => decide (l ∈ a.terms.get i)), (h5 _ (List.get_mem _ _)).2, one_smul]
  · by_cases hp : "physics" ∈ a.splitting <;> simp [hp]

/-- Every scheme in the splitting is a stable first-order method for the terms that carry its label (each physics scheme for its own
tendency), and these are Lipschitz continuous. -/
structure FirstOrderSchemes (a : Args ℝ) (dyn : String → Scheme ℝ E) (phys : List (Scheme ℝ E)) (f : Fin a.terms.length → E → E)
    (P : Scheme ℝ E → E → E) : Prop where
  dynamics : ∀ l ∈ a.splitting, l ≠ "physics" → FirstOrder (full (dyn l)) (fun x => ∑ i, if l ∈ a.terms.get i then f i x else 0)
  physics : "physics" ∈ a.splitting → ∀ s ∈ phys, FirstOrder (full s) (P s)
  lip : ∀ i, ∃ L, Lip (f i) L
  plip : "physics" ∈ a.splitting → ∀ s ∈ phys, ∃ L, Lip (P s) L

theorem label_lip {a : Args ℝ} {f : Fin a.terms.length → E → E} {P : E → E} (hf : ∀ i, ∃ L, Lip (f i) L) (l : String)
    (hP : l = "physics" → ∃ L, Lip P L) : ∃ L, Lip (labelTendency a f P l) L := by
  unfold labelTendency
  by_cases hl : l = "physics"
  · simpa [hl] using hP hl
  · simp only [hl, if_false]
    refine Lip.finSum fun i => ?_
    by_cases h : l ∈ a.terms.get i
    · simpa only [h, if_true] using hf i
    · simp only [h, if_false]; exact ⟨0, Lip.zero⟩

/-- **C125** (first order).  When the constructor accepts, the weights are not negative, every scheme is a stable first-order method
for the terms of its label and no capturing scheme is given two different timesteps, the split timestepper converges to the solution
of the whole equation, with the first order: whatever the number of labels, their order and their weights. -/
theorem C125_first_order (a : Args ℝ) (dts0 : List ℝ) (hacc : Split.init 1 a = .ok dts0) (hw : ∀ w ∈ effWeights a, 0 ≤ w)
    (dyn : String → Scheme ℝ E) (phys : List (Scheme ℝ E)) (f : Fin a.terms.length → E → E) (P : Scheme ℝ E → E → E)
    (hs : FirstOrderSchemes a dyn phys f P) (hno : ∀ i, "physics" ∉ a.terms.get i)
    (hone : a.weights = none → (a.splitting.filter (· == "physics")).length ≤ 1)
    (d : String → ℝ) (hd : ∀ e ∈ a.splitting.zip (effWeights a), LiveLabel dyn phys e.1 ∨ e.2 = d e.1)
    {y : ℝ → E} {T : ℝ} (hT : 0 ≤ T) (hy : IsSol (wholeTendency a f fun x => (phys.map fun s => P s x).sum) y T) :
    ∃ C h0, 0 < h0 ∧ ∀ h, 0 ≤ h → h ≤ h0 → ∃ dts, Split.init h a = .ok dts ∧ ∀ N : ℕ, N * h ≤ T →
      ‖((timestep a.splitting dts dyn phys)^[N] ⟨y 0, fun _ => none, []⟩).x - y (N * h)‖ ≤ C * h := by
  set PP : E → E := fun x => (phys.map fun s => P s x).sum
  have hF : ∀ l ∈ a.splitting, FirstOrder (labelFlow dyn phys l) (labelTendency a f PP l) ∧ ∃ L, Lip (labelTendency a f PP l) L := by
    intro l hl
    refine ⟨?_, label_lip hs.lip l fun hp => Lip.listSum phys (hs.plip (hp ▸ hl))⟩
    by_cases hp : l = "physics"
    · subst hp
      have := physics_first dyn (hs.physics hl) (hs.plip hl)
      have e : labelTendency a f PP "physics" = PP := by funext x; simp [labelTendency]
      rw [e]; exact this
    · have := hs.dynamics l hl hp
      have e : labelFlow dyn phys l = full (dyn l) := by funext h x; simp [labelFlow, hp]
      have e' : labelTendency a f PP l = fun x => ∑ i, if l ∈ a.terms.get i then f i x else 0 := by funext x; simp [labelTendency, hp]
      rw [e, e']; exact this
  set es := a.splitting.zip (effWeights a)
  have hmem : ∀ e ∈ es, e.1 ∈ a.splitting ∧ 0 ≤ e.2 := fun e he => ⟨(List.of_mem_zip he).1, hw _ (List.of_mem_zip he).2⟩
  have h1 := composed_first (flow := labelFlow dyn phys) (F := labelTendency a f PP) es (fun e he => (hmem e he).2)
    (fun e he => (hF e.1 (hmem e he).1).1) (fun e he => (hF e.1 (hmem e he).1).2)
  obtain ⟨L, hL⟩ := Lip.listSum (f := fun (e : String × ℝ) x => e.2 • labelTendency a f PP e.1 x) es fun e he => by
    obtain ⟨L, hL⟩ := (hF e.1 (hmem e he).1).2
    exact ⟨_, hL.smul e.2⟩
  have hsum : (fun x => (es.map fun e => e.2 • labelTendency a f PP e.1 x).sum) = wholeTendency a f PP :=
    funext fun x => weighted_whole a dts0 hacc f PP hno hone x
  rw [hsum] at h1 hL
  obtain ⟨C, h0, hp, hC⟩ := h1.converges hL hT hy
  refine ⟨C, h0, hp, fun h hh hh0 => ⟨(effWeights a).map fun w => h * w, ?_, fun N hN => ?_⟩⟩
  · obtain ⟨-, h2⟩ := (C21_accept_iff 1 a dts0).1 hacc
    exact (C21_accept_iff h a _).2 ⟨rfl, h2⟩
  · rw [C21_timesteps_compose a.splitting _ dyn phys (fun l => h * d l) (fun e he => ?_) (y 0) N, zip_dts]
    · exact hC h hh hh0 N hN
    · rw [zip_dts] at he
      obtain ⟨b, hb, rfl⟩ := List.mem_map.1 he
      exact (hd b hb).imp id fun h3 => congrArg (h * ·) h3

/-- **C125** (second order).  If moreover the list of labels and weights reads the same in both directions (Strang splitting is the
shortest case) and every scheme is a stable second-order method for the terms of its label, the split timestepper converges with the
second order. -/
theorem C125_second_order (a : Args ℝ) (dts0 : List ℝ) (hacc : Split.init 1 a = .ok dts0) (hw : ∀ w ∈ effWeights a, 0 ≤ w)
    (hpal : (a.splitting.zip (effWeights a)).reverse = a.splitting.zip (effWeights a))
    (dyn : String → Scheme ℝ E) (phys : List (Scheme ℝ E)) (f : Fin a.terms.length → E → E) (f' : Fin a.terms.length → E → E →L[ℝ] E)
    (P : E → E) (P' : E → E →L[ℝ] E)
    (hs : ∀ l ∈ a.splitting, l ≠ "physics" → SecondOrder (full (dyn l)) (fun x => ∑ i, if l ∈ a.terms.get i then f i x else 0)
      (fun x => ∑ i, if l ∈ a.terms.get i then f' i x else 0))
    (hP : "physics" ∈ a.splitting → SecondOrder (labelFlow dyn phys "physics") P P' ∧ ∃ L L2, Smooth2 P P' L L2)
    (hsm : ∀ i, ∃ L L2, Smooth2 (f i) (f' i) L L2) (hno : ∀ i, "physics" ∉ a.terms.get i)
    (hone : a.weights = none → (a.splitting.filter (· == "physics")).length ≤ 1)
    (d : String → ℝ) (hd : ∀ e ∈ a.splitting.zip (effWeights a), LiveLabel dyn phys e.1 ∨ e.2 = d e.1)
    {y : ℝ → E} {T : ℝ} (hT : 0 ≤ T) (hy : IsSol (wholeTendency a f P) y T) :
    ∃ C h0, 0 < h0 ∧ ∀ h, 0 ≤ h → h ≤ h0 → ∃ dts, Split.init h a = .ok dts ∧ ∀ N : ℕ, N * h ≤ T →
      ‖((timestep a.splitting dts dyn phys)^[N] ⟨y 0, fun _ => none, []⟩).x - y (N * h)‖ ≤ C * h ^ 2 := by
  let F' : String → E → E →L[ℝ] E := fun l x => if l = "physics" then P' x else ∑ i, if l ∈ a.terms.get i then f' i x else 0
  have hF : ∀ l ∈ a.splitting, SecondOrder (labelFlow dyn phys l) (labelTendency a f P l) (F' l) ∧
      ∃ L L2, Smooth2 (labelTendency a f P l) (F' l) L L2 := by
    intro l hl
    by_cases hp : l = "physics"
    · subst hp
      have e : labelTendency a f P "physics" = P := by funext x; simp [labelTendency]
      have e' : F' "physics" = P' := by funext x; simp [F']
      rw [e, e']; exact hP hl
    · have e : labelFlow dyn phys l = full (dyn l) := by funext h x; simp [labelFlow, hp]
      have e' : labelTendency a f P l = fun x => ∑ i, if l ∈ a.terms.get i then f i x else 0 := by funext x; simp [labelTendency, hp]
      have e'' : F' l = fun x => ∑ i, if l ∈ a.terms.get i then f' i x else 0 := by funext x; simp [F', hp]
      rw [e, e', e'']
      refine ⟨hs l hl hp, ?_⟩
      have := Smooth2.listSum (f := fun i x => if l ∈ a.terms.get i then f i x else 0)
        (f' := fun i x => if l ∈ a.terms.get i then f' i x else 0) (List.finRange a.terms.length) (fun i _ => by
          by_cases h : l ∈ a.terms.get i
          · simpa only [h, if_true] using hsm i
          · simp only [h, if_false]; exact ⟨0, 0, Smooth2.zero⟩)
      simpa only [← List.sum_ofFn, List.ofFn_eq_map] using this
  set es := a.splitting.zip (effWeights a)
  have hmem : ∀ e ∈ es, e.1 ∈ a.splitting ∧ 0 ≤ e.2 := fun e he => ⟨(List.of_mem_zip he).1, hw _ (List.of_mem_zip he).2⟩
  have h1 := composed_second (flow := labelFlow dyn phys) (F := labelTendency a f P) (F' := F') es (fun e he => (hmem e he).2)
    (fun e he => (hF e.1 (hmem e he).1).1) (fun e he => (hF e.1 (hmem e he).1).2) hpal
  obtain ⟨L, L2, hL⟩ := Smooth2.listSum (f := fun (e : String × ℝ) x => e.2 • labelTendency a f P e.1 x)
    (f' := fun (e : String × ℝ) x => e.2 • F' e.1 x) es fun e he => by
    obtain ⟨L, L2, hL⟩ := (hF e.1 (hmem e he).1).2
    exact ⟨_, _, hL.smul e.2⟩
  have hsum : (fun x => (es.map fun e => e.2 • labelTendency a f P e.1 x).sum) = wholeTendency a f P :=
    funext fun x => weighted_whole a dts0 hacc f P hno hone x
  rw [hsum] at h1 hL
  obtain ⟨C, h0, hp, hC⟩ := h1.converges hL hT hy
  refine ⟨C, h0, hp, fun h hh hh0 => ⟨(effWeights a).map fun w => h * w, ?_, fun N hN => ?_⟩⟩
  · obtain ⟨-, h2⟩ := (C21_accept_iff 1 a dts0).1 hacc
    exact (C21_accept_iff h a _).2 ⟨rfl, h2⟩
  · rw [C21_timesteps_compose a.splitting _ dyn phys (fun l => h * d l) (fun e he => ?_) (y 0) N, zip_dts]
    · exact hC h hh hh0 N hN
    · rw [zip_dts] at he
      obtain ⟨b, hb, rfl⟩ := List.mem_map.1 he
      exact (hd b hb).imp id fun h3 => congrArg (h * ·) h3

/-- **C125** (physics split off).  The dynamics step followed by the physics schemes, as in SplitPhysicsTimestepper and
SplitPrescribedTransport: first order for the dynamics together with all the physics. -/
theorem C125_split_physics (dyn : ℝ → E → E) (phys : List (ℝ → E → E)) (g : E → E) (P : (ℝ → E → E) → E → E)
    (hd : FirstOrder dyn g) {L : ℝ} (hg : Lip g L) (hP : ∀ s ∈ phys, FirstOrder s (P s) ∧ ∃ L, Lip (P s) L)
    {y : ℝ → E} {T : ℝ} (hT : 0 ≤ T) (hy : IsSol (fun x => g x + (phys.map fun s => P s x).sum) y T) :
    ∃ C h0, 0 < h0 ∧ ∀ h, 0 ≤ h → h ≤ h0 → ∀ N : ℕ, N * h ≤ T →
      ‖(splitPhysicsStep (dyn h) (phys.map fun s => s h))^[N] (y 0) - y (N * h)‖ ≤ C * h := by
  have h1 := FirstOrder.list (g := fun (s : ℝ → E → E) h x => s h x) phys (fun s hs => (hP s hs).1) (fun s hs => (hP s hs).2)
  obtain ⟨M, hM⟩ := Lip.listSum phys fun s hs => (hP s hs).2
  have h2 := (hd.comp hg h1 hM)
  obtain ⟨C, h0, hp, hC⟩ := h2.converges (hg.add hM) hT hy
  refine ⟨C, h0, hp, fun h hh hh0 N hN => ?_⟩
  have e : splitPhysicsStep (dyn h) (phys.map fun s => s h) = fun x => phys.foldl (fun y s => s h y) (dyn h x) := by
    funext x; simp [splitPhysicsStep, List.foldl_map]
  rw [e]
  exact hC h hh hh0 N hN

/-! ### The schemes that qualify -/

section qualify
open LForm TimeDisc Spec Finset Gusto.Props Gusto.Tableaux RK
open Gusto.Props.SSPProps (Uses)
open Gusto.Props.ConvergenceProps

variable {D : Type*} [AddCommGroup D] [Module ℝ D] (R : LForm E D) (M : E ≃ₗ[ℝ] D) (hM : ∀ x, mass R x = M x)

/-- The scheme object of a label takes one step of an explicit scheme with the table `t` on the residual `R`, with whatever timestep
it is given. -/
def TakesExplicit (t : Table) (R : LForm E D) (s : Scheme ℝ E) : Prop :=
  s.ncycles = 1 ∧ ∀ h, 0 ≤ h → ∀ x, ∃ (form : Formulation) (S : RKScheme ℝ E D) (st : RKState E),
    Uses S t ∧ S.R = R ∧ ExactSolver S.solve ∧ S.limiter = none ∧ S.dt = h ∧
    (form = .linear → (∃ F : E →ₗ[ℝ] D, ∀ x, rest R x = F x) ∧ ∀ u ∈ R, Label.allButLast ∉ u.labels) ∧
    s.cycle h h x = RK.apply form S 1 st x

include hM in
theorem full_explicit {t : Table} (hst : 0 < t.nStages) (hns : ∀ u ∈ R, Label.source ∉ u.labels) {s : Scheme ℝ E}
    (hs : TakesExplicit t R s) (h : ℝ) (hh : 0 ≤ h) (x : E) :
    full s h x = rkStep (fun i j => ((stageCoeffs t.A i j : ℚ) : ℝ)) (fun j => ((weights t.A t.nStages j : ℚ) : ℝ)) t.nStages
      (tendency R M) h x := by
  obtain ⟨hn, hs⟩ := hs
  obtain ⟨form, S, st, hU, rfl, hex, hl, hdt, hlin, hstep⟩ := hs h hh x
  have hset : Setting S M := ⟨hM, hex, by rw [hU.nStages]; exact hst⟩
  have e : textbook S (tendency S.R M) = rkStep (fun i j => ((stageCoeffs t.A i j : ℚ) : ℝ))
      (fun j => ((weights t.A t.nStages j : ℚ) : ℝ)) t.nStages (tendency S.R M) h := by
    unfold textbook
    rw [hdt, hU.nStages]
    congr 1
    · funext i j; simp [stageCoeffs, hU.A]
    · funext j; simp [weights, hU.A]
  rw [full, hn, Function.iterate_one, hstep, ← e]
  cases form with
  | increment => simpa using C02_increment S M hset hl hns 1 one_pos st x
  | predictor => simpa using C02_predictor S M hset hl hns 1 one_pos st x
  | linear =>
    obtain ⟨⟨F, hF⟩, hA⟩ := hlin rfl
    rw [C02_linear S M F hset hF hA hl]

include hM in
/-- **C125** (explicit schemes qualify).  In a split timestepper, ForwardEuler, Heun, SSPRK2, SSPRK3 (3 and 4 stages) and RK4, in every
formulation, are stable first-order methods for the terms they are given, and all but ForwardEuler are second-order methods. -/
theorem C125_explicit_qualifies {o : Option Table} {p : ℕ} (ho : AdvertisedOrder o p) {t : Table} (ht : o = some t)
    (hns : ∀ u ∈ R, Label.source ∉ u.labels) {s : Scheme ℝ E} (hs : TakesExplicit t R s) :
    (∀ L, Lip (tendency R M) L → FirstOrder (full s) (tendency R M)) ∧
    (2 ≤ p → ∀ f' L L2, Smooth2 (tendency R M) f' L L2 → SecondOrder (full s) (tendency R M) f') := by
  obtain ⟨t', h1, h2⟩ := advertised_tableOrder ho
  obtain rfl : t = t' := Option.some.inj (ht.symm.trans h1)
  have h3 := h2.real
  have q0 : ∑ j ∈ range t.nStages, ((weights t.A t.nStages j : ℚ) : ℝ) = 1 := by
    have := h3.quad 0 h2.2.2.1
    simpa using this
  refine ⟨fun L hL => (rk_firstOrder _ _ _ hL q0).congr (full_explicit R M hM h2.1 hns hs), fun hp f' L L2 hL =>
    (rk_secondOrder _ _ _ hL q0 ?_).congr (full_explicit R M hM h2.1 hns hs)⟩
  have := h3.quad 1 hp
  simp only [pow_one] at this
  unfold nodes at this
  rw [this]; norm_num

include hM in
/-- **C125** (implicit schemes qualify).  The theta method (and BackwardEuler, theta 1) is a stable first-order method and the trapezium
rule a second-order one. -/
theorem C125_theta_qualifies [CompleteSpace E] (solve : Solver E D) (hsolve : ExactSolver solve) {L : ℝ} (hf : Lip (tendency R M) L) {th : ℝ}
    (hth : offCentringAccepted th = true) {s : Scheme ℝ E} (hn : s.ncycles = 1)
    (hs : ∀ h x, s.cycle h h x = implicitCycle solve (thetaRes R h th) x) :
    FirstOrder (full s) (tendency R M) ∧
    (th = 1 / 2 → ∀ f' L2, Smooth2 (tendency R M) f' L L2 → SecondOrder (full s) (tendency R M) f') := by
  rw [C07_parameter_guard] at hth
  have hL := hf.1
  set H : ℝ := 1 / (2 * (L + 1))
  have hH : 0 < H := by positivity
  have hHL : H * L ≤ 1 / 2 := by
    simp only [H]; rw [div_mul_eq_mul_div, div_le_div_iff₀ (by positivity) (by norm_num)]; linarith
  have key : ∀ h, 0 ≤ h → h ≤ H → ∀ x, full s h x = x + (h * th) • tendency R M (full s h x) + (h * (1 - th)) • tendency R M x := by
    intro h hh hhH x
    have hhL : h * L ≤ 1 / 2 := (mul_le_mul_of_nonneg_right hhH hL).trans hHL
    have := theta_step R M hM solve hsolve hf hh hth.1 hth.2 hhL x
    simp only [full, hn, Function.iterate_one, hs]
    exact this
  refine ⟨theta_firstOrder hf hth.1 hth.2 hH hHL key, ?_⟩
  rintro rfl f' L2 hf2
  exact trapezium_secondOrder hf2 hH hHL key

end qualify

/-! ### The order cannot be better without the symmetry -/

/-- A second-order scheme for `x' = x`. -/
noncomputable def growS : Scheme ℝ ℝ := ⟨fun _ l x => x + l * x + l ^ 2 / 2 * x, 1⟩
/-- A scheme (exact) for `x' = 1`. -/
noncomputable def clockS : Scheme ℝ ℝ := ⟨fun _ l x => x + l, 1⟩
/-- The schemes of the two labels. -/
noncomputable def exDyn (l : String) : Scheme ℝ ℝ := if l = "transport" then growS else clockS

/-- Both labels once, no weights. -/
def lieArgs : Args ℝ where
  splitting := ["transport", "forcing"]
  weights := none
  dyn := [("transport", 1), ("forcing", 1)]
  physics := false
  terms := [["transport"], ["forcing"]]

/-- The same two labels in Strang's order. -/
noncomputable def strangR : Args ℝ where
  splitting := ["transport", "forcing", "transport"]
  weights := some [1 / 2, 1, 1 / 2]
  dyn := [("transport", 1), ("forcing", 1)]
  physics := false
  terms := [["transport"], ["forcing"]]

theorem lie_ok (h : ℝ) : Split.init h lieArgs = .ok [h, h] := by
  rw [C21_accept_iff]
  refine ⟨by simp [effWeights, lieArgs, List.replicate], by simp [lieArgs], by simp [lieArgs], by simp [lieArgs], ?_⟩
  intro t ht
  simp only [lieArgs, List.mem_cons, List.not_mem_nil, or_false] at ht
  rcases ht with rfl | rfl <;>
  · refine ⟨fun i hi _ => by simpa [effWeights, lieArgs] using hi, ?_⟩
    simp [selSum, effWeights, lieArgs, List.replicate, List.filter_cons]

theorem strang_ok (h : ℝ) : Split.init h strangR = .ok [h * (1 / 2), h * 1, h * (1 / 2)] := by
  rw [C21_accept_iff]
  refine ⟨by simp [effWeights, strangR], by simp [strangR], by simp [strangR], by simp [strangR], ?_⟩
  intro t ht
  simp only [strangR, List.mem_cons, List.not_mem_nil, or_false] at ht
  rcases ht with rfl | rfl <;>
  · refine ⟨fun i hi _ => by simpa [effWeights, strangR] using hi, ?_⟩
    simp [selSum, effWeights, strangR, List.filter_cons]
    try norm_num

theorem lie_run (h : ℝ) (x0 : ℝ) (N : ℕ) :
    ((timestep lieArgs.splitting [h, h] exDyn [])^[N] ⟨x0, fun _ => none, []⟩).x =
      (fun x => (1 + h + h ^ 2 / 2) * x + h)^[N] x0 := by
  rw [C21_timesteps_compose lieArgs.splitting [h, h] exDyn [] (fun _ => h) (by simp [lieArgs])]
  congr 1
  funext x
  simp [composed, lieArgs, labelFlow, full, exDyn, growS, clockS]
  ring

theorem affine_iterate (g h : ℝ) (N : ℕ) : (g - 1) * (fun x => g * x + h)^[N] 0 = h * (g ^ N - 1) := by
  induction N with
  | zero => simp
  | succ N ih => rw [Function.iterate_succ_apply', mul_add, mul_left_comm, ih]; ring

/-- **C125** (the symmetry is needed).  For `x' = x + 1`, split as [transport, forcing] without weights, with a second-order scheme for
each label: the configuration is accepted, and the error at the time `N h` is at least `h / 4` times the solution there.  So the split
step is of the first order only, although both schemes are of the second order. -/
theorem C125_lie_is_first_order (h : ℝ) (hh : 0 < h) (h2 : h ≤ 2) (N : ℕ) :
    Split.init h lieArgs = .ok [h, h] ∧
    h / 4 * (Real.exp (N * h) - 1) ≤
      (Real.exp (N * h) - 1) - ((timestep lieArgs.splitting [h, h] exDyn [])^[N] ⟨0, fun _ => none, []⟩).x := by
  refine ⟨lie_ok h, ?_⟩
  rw [lie_run]
  set g := 1 + h + h ^ 2 / 2 with hg
  have e := affine_iterate g h N
  set X := (fun x => g * x + h)^[N] (0 : ℝ)
  have e1 : (1 + h / 2) * X = g ^ N - 1 := by
    have : h * ((1 + h / 2) * X) = h * (g ^ N - 1) := by
      calc _ = (g - 1) * X := by rw [hg]; ring
        _ = _ := e
    exact mul_left_cancel₀ hh.ne' this
  have e2 : g ^ N ≤ Real.exp (N * h) := by
    rw [Real.exp_nat_mul]
    exact pow_le_pow_left₀ (by positivity) (Real.quadratic_le_exp_of_nonneg hh.le) N
  have e3 : 1 ≤ Real.exp (N * h) := Real.one_le_exp (by positivity)
  set W := Real.exp (N * h) - 1
  have hW : 0 ≤ W := by simp only [W]; linarith
  have e4 : (1 + h / 2) * X ≤ W := by simp only [W]; linarith
  have e5 : (1 + h / 2) * X ≤ (1 + h / 2) * ((1 - h / 4) * W) := by
    have : 0 ≤ h * (2 - h) * W := by have : 0 ≤ 2 - h := by linarith
                                     positivity
    nlinarith
  have e6 := le_of_mul_le_mul_left e5 (by positivity)
  linarith

theorem exDyn_live (l : String) : LiveLabel exDyn [] l := by
  unfold LiveLabel
  split_ifs
  · simp
  · intro c c' k x
    unfold exDyn
    split_ifs <;> rfl

theorem grow_second : SecondOrder (full growS) (fun x : ℝ => x) (fun _ => ContinuousLinearMap.id ℝ ℝ) := by
  refine ⟨1, one_pos, ⟨2, by norm_num, fun h hh h1 x z => ?_⟩, fun B => ⟨0, le_rfl, fun h _ _ x _ => ?_⟩⟩
  · have : full growS h x - full growS h z = (1 + h + h ^ 2 / 2) * (x - z) := by simp [full, growS]; ring
    rw [this, norm_mul, Real.norm_eq_abs (1 + h + h ^ 2 / 2), abs_of_nonneg (by positivity)]
    refine mul_le_mul_of_nonneg_right ?_ (norm_nonneg _)
    nlinarith
  · have : full growS h x - (x + h • x + (h ^ 2 / 2) • x) = 0 := by simp [full, growS]
    simpa using this

theorem clock_second : SecondOrder (full clockS) (fun _ : ℝ => (1 : ℝ)) (fun _ => 0) := by
  refine ⟨1, one_pos, ⟨0, le_rfl, fun h hh h1 x z => ?_⟩, fun B => ⟨0, le_rfl, fun h _ _ x _ => ?_⟩⟩
  · simp [full, clockS]
  · simp [full, clockS]

/-- The hypotheses of `C125_second_order` hold for Strang splitting of `x' = x + 1`. -/
example : ∃ C h0, 0 < h0 ∧ ∀ h, 0 ≤ h → h ≤ h0 → ∃ dts, Split.init h strangR = .ok dts ∧ ∀ N : ℕ, N * h ≤ 1 →
    ‖((timestep strangR.splitting dts exDyn [])^[N] ⟨(0 : ℝ), fun _ => none, []⟩).x - (Real.exp (N * h) - 1)‖ ≤ C * h ^ 2 := by
  let f : Fin strangR.terms.length → ℝ → ℝ := fun i x => if i.1 = 0 then x else 1
  let f' : Fin strangR.terms.length → ℝ → ℝ →L[ℝ] ℝ := fun i x => if i.1 = 0 then ContinuousLinearMap.id ℝ ℝ else 0
  have hy : IsSol (wholeTendency strangR f fun _ => 0) (fun t => Real.exp t - 1) 1 := by
    intro t _
    have e : wholeTendency strangR f (fun _ => 0) (Real.exp t - 1) = Real.exp t := by
      have : (∑ i, f i (Real.exp t - 1)) = Real.exp t := by
        show ∑ i : Fin 2, (if i.1 = 0 then (Real.exp t - 1) else 1) = _
        rw [Fin.sum_univ_two]; simp
      rw [wholeTendency, this]
      simp [strangR]
    simp only [e]
    exact ((Real.hasDerivAt_exp t).sub_const 1).hasDerivWithinAt
  have := C125_second_order strangR _ (strang_ok 1) (by simp [effWeights, strangR]) (by simp [effWeights, strangR]) exDyn [] f f'
    (fun _ => 0) (fun _ => 0) (by
      intro l hl _
      simp only [strangR, List.mem_cons, List.not_mem_nil, or_false] at hl
      have h2 : ∀ (G : Fin 2 → ℝ → ℝ), (fun x => ∑ i : Fin strangR.terms.length, G i x) = fun x => G 0 x + G 1 x :=
        fun G => funext fun x => Fin.sum_univ_two (fun i => G i x)
      have h2' : ∀ (G : Fin 2 → ℝ → ℝ →L[ℝ] ℝ), (fun x => ∑ i : Fin strangR.terms.length, G i x) = fun x => G 0 x + G 1 x :=
        fun G => funext fun x => Fin.sum_univ_two (fun i => G i x)
      have hl' : l = "transport" ∨ l = "forcing" := by tauto
      rcases hl' with rfl | rfl
      · have e1 : (fun x => ∑ i, if "transport" ∈ strangR.terms.get i then f i x else 0) = fun x : ℝ => x := by
          rw [h2 (fun i x => if "transport" ∈ strangR.terms.get i then f i x else 0)]
          funext x; simp [strangR, f]
        have e2 : (fun x => ∑ i, if "transport" ∈ strangR.terms.get i then f' i x else 0) = fun _ => ContinuousLinearMap.id ℝ ℝ := by
          rw [h2' (fun i x => if "transport" ∈ strangR.terms.get i then f' i x else 0)]
          funext x; simp [strangR, f']
        rw [e1, e2]; exact grow_second
      · have e1 : (fun x => ∑ i, if "forcing" ∈ strangR.terms.get i then f i x else 0) = fun _ : ℝ => (1 : ℝ) := by
          rw [h2 (fun i x => if "forcing" ∈ strangR.terms.get i then f i x else 0)]
          funext x; simp [strangR, f]
        have e2 : (fun x => ∑ i, if "forcing" ∈ strangR.terms.get i then f' i x else 0) = fun _ => (0 : ℝ →L[ℝ] ℝ) := by
          rw [h2' (fun i x => if "forcing" ∈ strangR.terms.get i then f' i x else 0)]
          funext x; simp [strangR, f']
        rw [e1, e2]; exact clock_second)
    (by simp [strangR]) (by
      intro i
      by_cases hi : i.1 = 0
      · have e1 : f i = fun x => x := by funext x; simp [f, hi]
        have e2 : f' i = fun _ => ContinuousLinearMap.id ℝ ℝ := by funext x; simp [f', hi]
        rw [e1, e2]
        exact ⟨1, 0, ⟨zero_le_one, fun x z => by simp⟩, fun x => hasFDerivAt_id x, fun x => ContinuousLinearMap.norm_id_le, le_rfl,
          fun x z => by simp⟩
      · have e1 : f i = fun _ => 1 := by funext x; simp [f, hi]
        have e2 : f' i = fun _ => 0 := by funext x; simp [f', hi]
        rw [e1, e2]
        exact ⟨0, 0, ⟨le_rfl, fun x z => by simp⟩, fun x => hasFDerivAt_const _ x, fun x => by simp, le_rfl, fun x z => by simp⟩)
    (by
      intro i
      have : ∀ t ∈ strangR.terms, "physics" ∉ t := by simp [strangR]
      exact this _ (List.get_mem _ _)) (by simp [strangR]) (fun _ => 0) (fun e _ => Or.inl (exDyn_live e.1)) zero_le_one hy
  simpa using this

/-- The accepted weights 1/4 and 3/4 for one label, over the reals. -/
noncomputable def unequalR : Args ℝ where
  splitting := ["transport", "wave", "transport"]
  weights := some [1 / 4, 1, 3 / 4]
  dyn := [("transport", 1), ("wave", 1)]
  physics := false
  terms := [["transport"], ["wave"]]

/-- **C125** is refuted for a scheme whose solver captures its timestep and unequal weights: with transport `x' = 1`, accepted weights
1/4 and 3/4 and no other tendency, the state at the time `N h` is half of the solution, whatever the timestep: the split timestepper
converges to the solution of another equation. -/
theorem C125_unequal_weights_refuted (h : ℝ) (N : ℕ) :
    ∃ dts, Split.init h unequalR = .ok dts ∧
    ((timestep unequalR.splitting dts (fun l => if l = "transport" then ⟨fun c _ x => x + c, 1⟩ else ⟨fun _ _ x => x, 1⟩) [])^[N]
      ⟨(0 : ℝ), fun _ => none, []⟩).x = N * h / 2 := by
  refine ⟨[h * (1 / 4), h * 1, h * (3 / 4)], ?_, ?_⟩
  · rw [C21_accept_iff]
    refine ⟨by simp [effWeights, unequalR], by simp [unequalR], by simp [unequalR], by simp [unequalR], ?_⟩
    intro t ht
    simp only [unequalR, List.mem_cons, List.not_mem_nil, or_false] at ht
    rcases ht with rfl | rfl <;>
    · refine ⟨fun i hi _ => by simpa [effWeights, unequalR] using hi, ?_⟩
      simp [selSum, effWeights, unequalR, List.filter_cons]
      try norm_num
  · rw [timesteps_effective _ _ (fun l => l == "transport") unequalR.splitting _ 0 (fun l hl => ?_) (fun l hl hc => ?_)]
    · have e : composed (labelFlow (fun l => if l = "transport" then (⟨fun c _ x => x + c, 1⟩ : Scheme ℝ ℝ) else ⟨fun _ _ x => x, 1⟩) [])
          (effective (fun l => l == "transport") (unequalR.splitting.zip [h * (1 / 4), h * 1, h * (3 / 4)])) = fun x => x + h / 2 := by
        funext x
        simp [composed, effective, firstOf, unequalR, labelFlow, full]
        ring
      rw [e]
      induction N with
      | zero => simp
      | succ N ih => rw [Function.iterate_succ_apply', ih]; push_cast; ring
    · have : l = "transport" := by simpa using hl
      subst this
      refine ⟨by decide, fun c k k' x => by simp⟩
    · left
      have hne : l ≠ "transport" := by simpa using hc
      simp only [unequalR, List.mem_cons, List.not_mem_nil, or_false] at hl
      have : l = "wave" := by tauto
      subst this
      simp [LiveLabel, Live]

end Gusto.Props.SplitConvergenceProps
