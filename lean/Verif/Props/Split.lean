import Verif.Model.SplitTimestepper
import Mathlib.Analysis.Calculus.Deriv.Comp
import Mathlib.Analysis.Calculus.Deriv.Prod
import Mathlib.Analysis.Calculus.Deriv.Add
import Mathlib.Analysis.Calculus.FDeriv.Prod
import Mathlib.Analysis.Calculus.FDeriv.Add
import Mathlib.Analysis.Calculus.FDeriv.Mul
import Mathlib.Analysis.Calculus.Deriv.Mul
import Mathlib.Tactic.NoncommRing
import Mathlib.Tactic.Module

set_option autoImplicit false
set_option linter.unusedSectionVars false
set_option linter.unusedSimpArgs false

/-!
# C21: operator splitting
-/

namespace Gusto.Props
open Gusto

namespace SplitProps
open Split

/-- Total of the values paired with the selected labels. -/
def selSum {K : Type*} [AddMonoid K] (sel : String → Bool) (es : List (String × K)) : K :=
  ((es.filter (fun e => sel e.1)).map Prod.snd).sum

/-- Every selected position has a weight. -/
def HasWeights {K : Type*} (sel : String → Bool) (ls : List String) (w : List K) : Prop :=
  ∀ i (h : i < ls.length), sel ls[i] = true → i < w.length

section
variable {K : Type*} [AddCommMonoid K]

theorem count_ok_iff (sel : String → Bool) (w : List K) (ls : List String) (idx : ℕ) (c r : K) :
    count sel w ls idx c = .ok r ↔
      HasWeights sel ls (w.drop idx) ∧ r = c + selSum sel (ls.zip (w.drop idx)) := by
  induction ls generalizing idx c with
  | nil =>
    have h1 : HasWeights sel [] (w.drop idx) := fun i h => absurd h (Nat.not_lt_zero i)
    simp only [count, Except.ok.injEq, h1, true_and, List.zip_nil_left, selSum, List.filter_nil,
      List.map_nil, List.sum_nil, add_zero]
    exact eq_comm
  | cons l ls ih =>
    have hW : HasWeights sel (l :: ls) (w.drop idx) ↔
        (sel l = true → idx < w.length) ∧ HasWeights sel ls (w.drop (idx + 1)) := by
      constructor
      · intro h
        refine ⟨fun hl => ?_, fun i hi hs => ?_⟩
        · have := h 0 (by simp) (by simpa using hl)
          rw [List.length_drop] at this; omega
        · have := h (i + 1) (by simpa using hi) (by simpa using hs)
          rw [List.length_drop] at this ⊢; omega
      · rintro ⟨h1, h2⟩ i hi hs
        cases i with
        | zero => have := h1 (by simpa using hs); rw [List.length_drop]; omega
        | succ i =>
          have := h2 i (by simpa using hi) (by simpa using hs)
          rw [List.length_drop] at this ⊢; omega
    by_cases hi : idx < w.length
    · have hd : w.drop idx = w[idx] :: w.drop (idx + 1) := List.drop_eq_getElem_cons hi
      have hz : selSum sel ((l :: ls).zip (w.drop idx)) =
          (if sel l then w[idx] else 0) + selSum sel (ls.zip (w.drop (idx + 1))) := by
        rw [hd, List.zip_cons_cons, selSum, List.filter_cons]
        cases sel l <;> simp [selSum]
      rw [hW, hz, count]
      cases hl : sel l
      · simp [ih]
      · simp [hi, List.getElem?_eq_getElem hi, ih, add_assoc]
    · have hd : w.drop idx = [] := by simpa using hi
      have hd' : w.drop (idx + 1) = [] := by simp; omega
      rw [hW, count]
      cases hl : sel l
      · simp [ih, hd, hd', selSum]
      · simp [hi]

end

/-- C21: the constructor accepts exactly the documented configurations (with the sums of the
weights computed exactly) and then gives sub-step `i` the timestep `dt * weights[i]`. -/
theorem C21_accept_iff {K : Type*} [CommSemiring K] [DecidableEq K] (dt : K) (a : Args K)
    (dts : List K) :
    init dt a = .ok dts ↔
      dts = (effWeights a).map (fun w => dt * w) ∧
      ("physics" ∈ a.splitting → a.physics = true ∧ ∀ w, a.weights = some w →
        HasWeights (· == "physics") a.splitting w ∧
        selSum (· == "physics") (a.splitting.zip w) = 1) ∧
      (∀ l ∈ a.splitting, l ≠ "physics" → ∃ n, (l, n) ∈ a.dyn) ∧
      (∀ p ∈ a.dyn, p.2 = 1) ∧
      (∀ t ∈ a.terms, HasWeights (fun l => decide (l ∈ t)) a.splitting (effWeights a) ∧
        selSum (fun l => decide (l ∈ t)) (a.splitting.zip (effWeights a)) = 1) := by
  have hP : checkPhysics a = .ok () ↔
      ("physics" ∈ a.splitting → a.physics = true ∧ ∀ w, a.weights = some w →
        HasWeights (· == "physics") a.splitting w ∧
        selSum (· == "physics") (a.splitting.zip w) = 1) := by
    unfold checkPhysics
    by_cases h1 : "physics" ∈ a.splitting
    · by_cases h2 : a.physics = true
      · cases h3 : a.weights with
        | none => simp [h1, h2]
        | some w =>
          simp only [h1, h2, if_true, true_and, forall_true_left, Option.some.injEq,
            forall_eq']
          have := count_ok_iff (· == "physics") w a.splitting 0 (0 : K)
          rw [List.drop_zero] at this
          cases hc : count (· == "physics") w a.splitting 0 (0 : K) with
          | error e =>
            simp only [reduceCtorEq, false_iff]
            rintro ⟨h4, h5⟩
            have h := (this 1).2 ⟨h4, by rw [h5, zero_add]⟩
            rw [hc] at h; cases h
          | ok c =>
            have h := (this c).1 hc
            rw [zero_add] at h
            by_cases hc1 : c = 1
            · simp only [hc1, if_true, true_iff]
              exact ⟨h.1, by rw [← h.2, hc1]⟩
            · simp only [hc1, if_false, reduceCtorEq, false_iff]
              rintro ⟨-, h5⟩
              exact hc1 (h.2.trans h5)
      · simp [h1, h2]
    · simp [h1]
  have hS : checkSchemes a = .ok () ↔
      (∀ l ∈ a.splitting, l ≠ "physics" → ∃ n, (l, n) ∈ a.dyn) ∧ (∀ p ∈ a.dyn, p.2 = 1) := by
    unfold checkSchemes
    have h1 : (a.splitting.all
        (fun l => l == "physics" || decide (l ∈ a.dyn.map Prod.fst))) = true ↔
        (∀ l ∈ a.splitting, l ≠ "physics" → ∃ n, (l, n) ∈ a.dyn) := by
      simp only [List.all_eq_true, Bool.or_eq_true, beq_iff_eq, decide_eq_true_eq, List.mem_map,
        Prod.exists, exists_and_right, exists_eq_right, ne_eq, or_iff_not_imp_left]
    have h2 : (a.dyn.all (fun p => p.2 == 1)) = true ↔ ∀ p ∈ a.dyn, p.2 = 1 := by
      simp only [List.all_eq_true, beq_iff_eq]
    rw [← h1, ← h2]
    cases a.splitting.all _ <;> cases a.dyn.all _ <;> simp
  have hT : ∀ ts, checkTerms a.splitting (effWeights a) ts = .ok () ↔
      (∀ t ∈ ts, HasWeights (fun l => decide (l ∈ t)) a.splitting (effWeights a) ∧
        selSum (fun l => decide (l ∈ t)) (a.splitting.zip (effWeights a)) = 1) := by
    intro ts
    induction ts with
    | nil => simp [checkTerms]
    | cons t ts ih =>
      rw [List.forall_mem_cons, ← ih, checkTerms]
      have := count_ok_iff (fun l => decide (l ∈ t)) (effWeights a) a.splitting 0 (0 : K)
      rw [List.drop_zero] at this
      cases hc : count (fun l => decide (l ∈ t)) (effWeights a) a.splitting 0 (0 : K) with
      | error e =>
        simp only [reduceCtorEq, false_iff]
        rintro ⟨⟨h4, h5⟩, -⟩
        have h := (this 1).2 ⟨h4, by rw [h5, zero_add]⟩
        rw [hc] at h; cases h
      | ok c =>
        have h := (this c).1 hc
        rw [zero_add] at h
        by_cases hc1 : c = 1
        · simp only [hc1, if_true]
          exact ⟨fun h' => ⟨⟨h.1, by rw [← h.2, hc1]⟩, h'⟩, fun h' => h'.2⟩
        · simp only [hc1, if_false, reduceCtorEq, false_iff]
          rintro ⟨⟨-, h5⟩, -⟩
          exact hc1 (h.2.trans h5)
  rw [← hP, ← hT, ← and_assoc (a := ∀ l ∈ a.splitting, _), ← hS, init]
  rcases checkPhysics a with e | ⟨⟩
  · simp
  · rcases checkSchemes a with e | ⟨⟩
    · simp
    · rcases checkTerms a.splitting (effWeights a) a.terms with e | ⟨⟩
      · simp
      · simp [eq_comm]

theorem selSum_map_mul {K : Type*} [CommSemiring K] (dt : K) (sel : String → Bool)
    (ls : List String) (w : List K) :
    selSum sel (ls.zip (w.map (fun x => dt * x))) = dt * selSum sel (ls.zip w) := by
  induction ls generalizing w with
  | nil => simp [selSum]
  | cons l ls ih =>
    cases w with
    | nil => simp [selSum]
    | cons x w =>
      have ih := ih w
      simp only [selSum] at ih ⊢
      simp only [List.map_cons, List.zip_cons_cons, List.filter_cons]
      cases sel l <;> simp [ih, mul_add]

/-- C21: if the constructor accepts, the sub-steps that treat a given dynamics term have
timesteps that add up to exactly one `dt`. -/
theorem C21_each_term_gets_dt {K : Type*} [CommSemiring K] [DecidableEq K] (dt : K) (a : Args K)
    (dts : List K) (h : init dt a = .ok dts) (t : List String) (ht : t ∈ a.terms) :
    selSum (fun l => decide (l ∈ t)) (a.splitting.zip dts) = dt := by
  obtain ⟨rfl, -, -, -, h5⟩ := (C21_accept_iff dt a dts).1 h
  rw [selSum_map_mul, (h5 t ht).2, mul_one]

/-- C21: likewise for physics, when weights are given. -/
theorem C21_physics_gets_dt_partial {K : Type*} [CommSemiring K] [DecidableEq K] (dt : K)
    (a : Args K) (dts : List K) (h : init dt a = .ok dts) (hp : "physics" ∈ a.splitting)
    (w : List K) (hw : a.weights = some w) :
    selSum (· == "physics") (a.splitting.zip dts) = dt := by
  obtain ⟨rfl, h2, -⟩ := (C21_accept_iff dt a dts).1 h
  have := (h2 hp).2 w hw
  rw [selSum_map_mul, effWeights, hw, this.2, mul_one]

/-- Strang splitting of two dynamics labels, physics at the end. -/
def strangArgs : Args ℚ where
  splitting := ["transport", "wave", "transport", "physics"]
  weights := some [1 / 2, 1, 1 / 2, 1]
  dyn := [("transport", 1), ("wave", 1)]
  physics := true
  terms := [["transport", "prognostic"], ["wave"]]

example : init (10 : ℚ) strangArgs = .ok [5, 10, 5, 10] := by decide +kernel

/-- No weights and 'physics' twice. -/
def physicsTwice : Args ℚ where
  splitting := ["physics", "transport", "physics"]
  weights := none
  dyn := [("transport", 1)]
  physics := true
  terms := [["transport"]]

/-- C21 is false for physics without weights: repeating 'physics' is accepted and the physics
is advanced by two timesteps (the same repetition of a dynamics label is rejected). -/
theorem C21_physics_without_weights_refuted :
    ∃ dts, init (1 : ℚ) physicsTwice = .ok dts ∧
      selSum (· == "physics") (physicsTwice.splitting.zip dts) = 2 ∧
      init (1 : ℚ) { physicsTwice with splitting := ["transport", "transport"] } =
        .error .coverage :=
  ⟨[1, 1, 1], by decide +kernel, by decide +kernel, by decide +kernel⟩

/-- C21 is false for physics schemes when the splitting does not mention 'physics': they are
accepted and never applied (whatever the schemes are). -/
theorem C21_physics_dropped_refuted {S : Type*} (splitting : List String) (given : List S) :
    physicsSchemes splitting given = given ↔ "physics" ∈ splitting ∨ given = [] := by
  unfold physicsSchemes
  by_cases h : "physics" ∈ splitting <;> simp [h, eq_comm]

/-! ### What a timestep computes -/

section step
variable {K X : Type*}

/-- The scheme's result depends only on the timestep it holds now. -/
def Live (s : Scheme K X) : Prop := ∀ c c' l x, s.cycle c l x = s.cycle c' l x

/-- One full application of a scheme with timestep `d`. -/
def full (s : Scheme K X) (d : K) (x : X) : X := (s.cycle d d)^[s.ncycles] x

/-- Specification: the flow of a label with timestep `d`. -/
def labelFlow (dyn : String → Scheme K X) (phys : List (Scheme K X)) (l : String) (d : K)
    (x : X) : X :=
  if l = "physics" then phys.foldl (fun y s => full s d y) x else full (dyn l) d x

/-- Specification: the flows composed in the order of the splitting. -/
def composed (flow : String → K → X → X) (es : List (String × K)) (x : X) : X :=
  es.foldl (fun y e => flow e.1 e.2 y) x

/-- All schemes of a label are live. -/
def LiveLabel (dyn : String → Scheme K X) (phys : List (Scheme K X)) (l : String) : Prop :=
  if l = "physics" then ∀ s ∈ phys, Live s else Live (dyn l)

/-- Nothing captured yet, or the right timestep captured. -/
def Fresh (d : K) (c : Captured K) : Prop := c = none ∨ c = some d

/-- The captured timesteps agree with the timestep `d l` of each label that captures. -/
def Inv (dyn : String → Scheme K X) (phys : List (Scheme K X)) (d : String → K)
    (st : St K X) : Prop :=
  (∀ l, l ≠ "physics" → LiveLabel dyn phys l ∨ Fresh (d l) (st.dyn l)) ∧
  (LiveLabel dyn phys "physics" ∨ ∀ c ∈ st.phys, Fresh (d "physics") c)

theorem substep_live (s : Scheme K X) (hs : Live s) (d : K) (st : Captured K × X) :
    (substep s d st).2 = full s d st.2 := by
  have : s.cycle (st.1.getD d) d = s.cycle d d := funext fun x => hs _ _ _ _
  simp [substep, full, this]

theorem substep_fresh (s : Scheme K X) (d : K) (st : Captured K × X) (h : Fresh d st.1) :
    substep s d st = (some d, full s d st.2) := by
  rcases h with h | h <;> simp [substep, full, h]

theorem physicsLoop_live (d : K) (ss : List (Scheme K X)) (hs : ∀ s ∈ ss, Live s)
    (cs : List (Captured K)) (x : X) :
    (physicsLoop d ss cs x).2 = ss.foldl (fun y s => full s d y) x := by
  induction ss generalizing cs x with
  | nil => rfl
  | cons s ss ih =>
    rw [physicsLoop, List.foldl_cons]
    rw [ih (fun s h => hs s (List.mem_cons_of_mem _ h)), substep_live s (hs s (by simp))]

theorem physicsLoop_fresh (d : K) (ss : List (Scheme K X)) (cs : List (Captured K)) (x : X)
    (h : ∀ c ∈ cs, Fresh d c) :
    (physicsLoop d ss cs x).2 = ss.foldl (fun y s => full s d y) x ∧
      ∀ c ∈ (physicsLoop d ss cs x).1, Fresh d c := by
  induction ss generalizing cs x with
  | nil => exact ⟨rfl, h⟩
  | cons s ss ih =>
    have h0 : Fresh d (cs.headD none) := by
      cases cs with
      | nil => left; rfl
      | cons c cs => exact h c (by simp)
    have ht : ∀ c ∈ cs.tail, Fresh d c := fun c hc => h c (List.mem_of_mem_tail hc)
    rw [physicsLoop, List.foldl_cons]
    have hs := substep_fresh s d (cs.headD none, x) h0
    simp only [hs]
    obtain ⟨i1, i2⟩ := ih cs.tail (full s d x) ht
    refine ⟨i1, fun c hc => ?_⟩
    rcases List.mem_cons.1 hc with rfl | hc
    · right; rfl
    · exact i2 c hc

theorem entry_spec (dyn : String → Scheme K X) (phys : List (Scheme K X)) (d : String → K)
    (st : St K X) (e : String × K) (hI : Inv dyn phys d st)
    (he : LiveLabel dyn phys e.1 ∨ e.2 = d e.1) :
    (entry dyn phys st e).x = labelFlow dyn phys e.1 e.2 st.x ∧
      Inv dyn phys d (entry dyn phys st e) := by
  obtain ⟨l, w⟩ := e
  by_cases hl : l = "physics"
  · subst hl
    by_cases hL : LiveLabel dyn phys "physics"
    · refine ⟨?_, ?_, ?_⟩
      · simp only [entry, labelFlow, if_true]
        exact physicsLoop_live _ _ (by simpa [LiveLabel] using hL) _ _
      · simpa [entry] using hI.1
      · exact Or.inl hL
    · have hw : w = d "physics" := he.resolve_left hL
      have hf := physicsLoop_fresh w phys st.phys st.x (by
        rw [hw]; exact hI.2.resolve_left hL)
      refine ⟨?_, ?_, ?_⟩
      · simp only [entry, labelFlow, if_true]; exact hf.1
      · simpa [entry] using hI.1
      · right; rw [← hw]; simpa [entry] using hf.2
  · by_cases hL : LiveLabel dyn phys l
    · refine ⟨?_, ?_, ?_⟩
      · simp only [entry, labelFlow, hl, if_false]
        exact substep_live _ (by simpa [LiveLabel, hl] using hL) _ _
      · intro m hm
        by_cases hml : m = l
        · subst hml; exact Or.inl hL
        · simpa [entry, hl, hml] using hI.1 m hm
      · simpa [entry, hl] using hI.2
    · have hw : w = d l := he.resolve_left hL
      have hf := substep_fresh (dyn l) w (st.dyn l, st.x) (by
        rw [hw]; exact (hI.1 l hl).resolve_left hL)
      refine ⟨?_, ?_, ?_⟩
      · simp only [entry, labelFlow, hl, if_false, hf]
      · intro m hm
        by_cases hml : m = l
        · subst hml; right; right; simp [entry, hl, hf, ← hw]
        · simpa [entry, hl, hml] using hI.1 m hm
      · simpa [entry, hl] using hI.2

/-- C21: any number of timesteps is that many compositions of the flows of the labels, in the
order of the splitting and each with its own `dt * weight`, provided that every scheme whose
solver captures its timestep is always given the same one. -/
theorem C21_timesteps_compose (splitting : List String) (dts : List K)
    (dyn : String → Scheme K X) (phys : List (Scheme K X)) (d : String → K)
    (hd : ∀ e ∈ splitting.zip dts, LiveLabel dyn phys e.1 ∨ e.2 = d e.1) (x0 : X) (n : ℕ) :
    ((timestep splitting dts dyn phys)^[n] ⟨x0, fun _ => none, []⟩).x =
      (composed (labelFlow dyn phys) (splitting.zip dts))^[n] x0 := by
  have one : ∀ (es : List (String × K)) (st : St K X), Inv dyn phys d st →
      (∀ e ∈ es, LiveLabel dyn phys e.1 ∨ e.2 = d e.1) →
      (es.foldl (entry dyn phys) st).x = composed (labelFlow dyn phys) es st.x ∧
        Inv dyn phys d (es.foldl (entry dyn phys) st) := by
    intro es
    induction es with
    | nil => intro st hI _; exact ⟨rfl, hI⟩
    | cons e es ih =>
      intro st hI he
      obtain ⟨h1, h2⟩ := entry_spec dyn phys d st e hI (he e (by simp))
      obtain ⟨h3, h4⟩ := ih _ h2 (fun e' h' => he e' (List.mem_cons_of_mem _ h'))
      rw [List.foldl_cons]
      exact ⟨by rw [h3, h1]; rfl, h4⟩
  suffices h : ∀ n, ((timestep splitting dts dyn phys)^[n] ⟨x0, fun _ => none, []⟩).x =
      (composed (labelFlow dyn phys) (splitting.zip dts))^[n] x0 ∧
      Inv dyn phys d ((timestep splitting dts dyn phys)^[n] ⟨x0, fun _ => none, []⟩) from (h n).1
  intro n
  induction n with
  | zero => exact ⟨rfl, fun _ _ => Or.inr (Or.inl rfl), Or.inr (by simp)⟩
  | succ n ih =>
    rw [Function.iterate_succ_apply', Function.iterate_succ_apply', ← ih.1]
    exact one _ _ ih.2 hd

/-- A scheme whose solver captures its timestep, for `dx/dt = 1`. -/
def capturing : Scheme ℚ ℚ where
  cycle := fun c _ x => x + c

/-- The same method in a formulation that uses the timestep outside the solver. -/
def live : Scheme ℚ ℚ where
  cycle := fun _ l x => x + l

example : Live live := fun _ _ _ _ => rfl

/-- The hypotheses of `C21_timesteps_compose` hold for Strang splitting with capturing schemes. -/
example : ∀ e ∈ strangArgs.splitting.zip [5, 10, 5, 10],
    LiveLabel (fun _ => capturing) [capturing] e.1 ∨
      e.2 = (fun l => if l = "transport" then (5 : ℚ) else 10) e.1 := by
  intro e he
  right
  simp only [strangArgs, List.zip_cons_cons, List.zip_nil_right, List.mem_cons, List.not_mem_nil,
    or_false] at he
  rcases he with rfl | rfl | rfl | rfl <;> decide

/-- Accepted weights 1/4 and 3/4 for one label. -/
def unequal : Args ℚ where
  splitting := ["transport", "wave", "transport"]
  weights := some [1 / 4, 1, 3 / 4]
  dyn := [("transport", 1), ("wave", 1)]
  physics := false
  terms := [["transport"], ["wave"]]

/-- C21 is false for a capturing scheme with unequal weights: the configuration is accepted,
yet transport (here `dx/dt = 1`, the wave term being zero) advances by half a timestep only. -/
theorem C21_unequal_weights_refuted :
    init (1 : ℚ) unequal = .ok [1 / 4, 1, 3 / 4] ∧
    (timestep unequal.splitting [1 / 4, 1, 3 / 4]
      (fun l => if l = "transport" then capturing else ⟨fun _ _ x => x, 1⟩) []
      ⟨(0 : ℚ), fun _ => none, []⟩).x = 1 / 2 ∧
    (timestep unequal.splitting [1 / 4, 1, 3 / 4]
      (fun l => if l = "transport" then live else ⟨fun _ _ x => x, 1⟩) []
      ⟨(0 : ℚ), fun _ => none, []⟩).x = 1 := by
  refine ⟨by decide +kernel, ?_, ?_⟩ <;>
  · simp only [timestep, unequal, List.zip_cons_cons, List.zip_nil_right, List.foldl_cons,
      List.foldl_nil, entry, substep, Function.update, capturing, live,
      show ("transport" = "physics") = False by decide, show ("wave" = "physics") = False by decide,
      show ("wave" = "transport") = False by decide,
      show ("transport" = "wave") = False by decide, if_false]
    norm_num

/-- C21 is false with fixed subcycling: the sub-step's timestep overwrites the one divided by
the number of cycles, so `n` cycles advance `dx/dt = 1` by `n` timesteps. -/
theorem C21_fixed_subcycles_refuted (n : ℕ) (dt x0 : ℚ) :
    (timestep ["transport"] [dt] (fun _ => { capturing with ncycles := n }) []
      ⟨x0, fun _ => none, []⟩).x = x0 + n * dt := by
  have : ∀ (k : ℕ) (x : ℚ), (fun x => x + dt)^[k] x = x + k * dt := by
    intro k
    induction k with
    | zero => intro x; simp
    | succ k ih => intro x; rw [Function.iterate_succ_apply, ih]; push_cast; ring
  simp [timestep, entry, substep, capturing, this]

/-- C21: with physics split off, the result is the dynamics step followed by every physics
scheme in the given order. -/
theorem C21_split_physics (dynamics : X → X) (phys : List (X → X)) (s : X → X) (x : X) :
    splitPhysicsStep dynamics [] x = dynamics x ∧
    splitPhysicsStep dynamics (phys ++ [s]) x = s (splitPhysicsStep dynamics phys x) := by
  simp [splitPhysicsStep]

end step

/-! ### Consistency: the split step approximates the whole equation -/

section consistency
variable {E : Type*} [NormedAddCommGroup E] [NormedSpace ℝ E]

/-- `φ` is a consistent one-step method for `dx/dt = F x` at `x`: the identity for zero
timestep, with derivative `F x` in the timestep, jointly differentiable there. -/
def ConsistentAt (φ : ℝ → E → E) (F : E) (x : E) : Prop :=
  φ 0 x = x ∧ HasFDerivAt (fun p : ℝ × E => φ p.1 p.2)
    ((ContinuousLinearMap.fst ℝ ℝ E).smulRight F + ContinuousLinearMap.snd ℝ ℝ E) (0, x)

theorem composed_hasDerivAt (flow : String → ℝ → E → E) (F : String → E) (x : E)
    (es : List (String × ℝ)) (hf : ∀ e ∈ es, ConsistentAt (flow e.1) (F e.1) x)
    (g : ℝ → E) (g' : E) (h0 : g 0 = x) (hg : HasDerivAt g g' 0) :
    HasDerivAt (fun h => composed flow (es.map fun e => (e.1, h * e.2)) (g h))
      (g' + (es.map fun e => e.2 • F e.1).sum) 0 := by
  induction es generalizing g g' with
  | nil => simpa [composed] using hg
  | cons e es ih =>
    obtain ⟨hφ0, hφ⟩ := hf e (by simp)
    have hg2 : HasDerivAt (fun h : ℝ => (h * e.2, g h)) (e.2, g') 0 := by
      have h1 : HasDerivAt (fun h : ℝ => h * e.2) e.2 0 := by
        simpa using (hasDerivAt_id (0 : ℝ)).mul_const e.2
      exact h1.prodMk hg
    have hcomp : HasDerivAt (fun h : ℝ => flow e.1 (h * e.2) (g h)) (e.2 • F e.1 + g') 0 := by
      have hφ' : HasFDerivAt (fun p : ℝ × E => flow e.1 p.1 p.2)
          ((ContinuousLinearMap.fst ℝ ℝ E).smulRight (F e.1) + ContinuousLinearMap.snd ℝ ℝ E)
          ((fun h : ℝ => (h * e.2, g h)) 0) := by simpa [h0] using hφ
      have := hφ'.comp_hasDerivAt (0 : ℝ) hg2
      simpa [Function.comp_def] using this
    have h00 : (fun h : ℝ => flow e.1 (h * e.2) (g h)) 0 = x := by simp [h0, hφ0]
    have := ih (fun e' h' => hf e' (List.mem_cons_of_mem _ h')) _ _ h00 hcomp
    simp only [List.map_cons, List.sum_cons]
    rw [show g' + (e.2 • F e.1 + (es.map fun e => e.2 • F e.1).sum)
      = e.2 • F e.1 + g' + (es.map fun e => e.2 • F e.1).sum by abel]
    exact this

/-- Forward Euler for a differentiable right-hand side is consistent. -/
theorem forwardEuler_consistent (f : E → E) (x : E) (hf : DifferentiableAt ℝ f x) :
    ConsistentAt (fun h y => y + h • f y) (f x) x := by
  refine ⟨by simp, ?_⟩
  have h1 : HasFDerivAt (fun p : ℝ × E => f p.2) ((fderiv ℝ f x).comp
      (ContinuousLinearMap.snd ℝ ℝ E)) ((0 : ℝ), x) := by
    have := hf.hasFDerivAt
    exact HasFDerivAt.comp ((0 : ℝ), x) (g := f) this hasFDerivAt_snd
  have h2 := (hasFDerivAt_snd (𝕜 := ℝ) (p := ((0 : ℝ), x))).add
    ((hasFDerivAt_fst (𝕜 := ℝ) (p := ((0 : ℝ), x))).smul h1)
  refine h2.congr_fderiv ?_
  ext v <;> simp

theorem sum_weighted (sel : String → Bool) (es : List (String × ℝ)) (v : E) :
    (es.map fun e => e.2 • (if sel e.1 then v else 0)).sum = selSum sel es • v := by
  induction es with
  | nil => simp [selSum]
  | cons e es ih =>
    rw [List.map_cons, List.sum_cons, ih]
    simp only [selSum, List.filter_cons]
    cases sel e.1 <;> simp [add_smul]

/-- C21, consistency: if the constructor accepts and every scheme is a consistent method for the
sum of the terms carrying its label, then the split step is a consistent method for the sum of
all the dynamics terms (plus the physics tendency `P` when physics is in the splitting): its
derivative in `dt` at zero is the whole tendency. -/
theorem C21_consistent (a : Args ℝ) (dts : List ℝ) (w : List ℝ) (hw : a.weights = some w)
    (h : init 1 a = .ok dts) (flow : String → ℝ → E → E)
    (f : Fin a.terms.length → E → E) (P : E → E) (x : E)
    (hphys : "physics" ∈ a.splitting → ConsistentAt (flow "physics") (P x) x)
    (hno : ∀ i, "physics" ∉ a.terms.get i)
    (hdyn : ∀ l ∈ a.splitting, l ≠ "physics" → ConsistentAt (flow l)
      (∑ i, if l ∈ a.terms.get i then f i x else 0) x) :
    HasDerivAt (fun dt => composed flow (a.splitting.zip (w.map fun c => dt * c)) x)
      ((∑ i, f i x) + if "physics" ∈ a.splitting then P x else 0) 0 := by
  obtain ⟨-, h2, -, -, h5⟩ := (C21_accept_iff 1 a dts).1 h
  have hew : effWeights a = w := by simp [effWeights, hw]
  rw [hew] at h5
  let F : String → E := fun l => (∑ i, if decide (l ∈ a.terms.get i) = true then f i x else 0) +
    (if (l == "physics") = true then P x else 0)
  have hzip : ∀ dt : ℝ, a.splitting.zip (w.map fun c => dt * c) =
      (a.splitting.zip w).map fun e => (e.1, dt * e.2) := by
    intro dt; rw [List.zip_map_right]; rfl
  have hmem : ∀ e ∈ a.splitting.zip w, e.1 ∈ a.splitting := fun e he => (List.of_mem_zip he).1
  have hF : ∀ e ∈ a.splitting.zip w, ConsistentAt (flow e.1) (F e.1) x := by
    intro e he
    by_cases hl : e.1 = "physics"
    · have := hphys (hl ▸ hmem e he)
      have hz : ∀ i, ¬ ("physics" ∈ a.terms.get i) := hno
      have hFl : F e.1 = P x := by
        simp only [F, hl, hz, decide_false, Bool.false_eq_true, if_false, Finset.sum_const_zero,
          zero_add, beq_self_eq_true, if_true]
      rw [hFl, hl]; exact this
    · simpa [F, hl] using hdyn e.1 (hmem e he) hl
  have := composed_hasDerivAt flow F x (a.splitting.zip w) hF (fun _ => x) 0 rfl
    (hasDerivAt_const _ _)
  simp only [hzip]
  convert this using 1
  rw [zero_add]
  have e1 : ((a.splitting.zip w).map fun e => e.2 • F e.1).sum =
      (∑ i, f i x) + selSum (· == "physics") (a.splitting.zip w) • P x := by
    have : ∀ e : String × ℝ, e.2 • F e.1 =
        (∑ i, e.2 • (if decide (e.1 ∈ a.terms.get i) = true then f i x else 0)) +
          e.2 • (if (e.1 == "physics") = true then P x else 0) := by
      intro e; rw [smul_add, Finset.smul_sum]
    simp only [this]
    rw [List.sum_map_add, sum_weighted (· == "physics")]
    congr 1
    have hswap : ∀ es : List (String × ℝ),
        (es.map fun e => ∑ i, e.2 • (if decide (e.1 ∈ a.terms.get i) = true then f i x else 0)).sum
        = ∑ i, (es.map fun e =>
            e.2 • (if decide (e.1 ∈ a.terms.get i) = true then f i x else 0)).sum := by
      intro es
      induction es with
      | nil => simp
      | cons e es ih =>
        simp only [List.map_cons, List.sum_cons, Finset.sum_add_distrib, ← ih]
    rw [hswap]
    refine Finset.sum_congr rfl fun i _ => ?_
    rw [sum_weighted (fun l => decide (l ∈ a.terms.get i)), (h5 _ (List.get_mem _ _)).2, one_smul]
  rw [e1]
  by_cases hp : "physics" ∈ a.splitting
  · rw [((h2 hp).2 w hw).2, one_smul, if_pos hp]
  · rw [if_neg hp]
    have : selSum (· == "physics") (a.splitting.zip w) = 0 := by
      have : (a.splitting.zip w).filter (fun e => e.1 == "physics") = [] := by
        rw [List.filter_eq_nil_iff]
        intro e he hl
        exact hp ((by simpa using hl : e.1 = "physics") ▸ hmem e he)
      simp [selSum, this]
    rw [this, zero_smul]

end consistency

/-! ### Strang splitting is second order -/

section strang
variable {K A : Type*} [Field K] [CharZero K] [Ring A] [Algebra K A]

/-- C21 (documented purpose of the weights): for linear terms `a` and `b`, each advanced by a
second-order method, the splitting [transport, wave, transport] with weights [1/2, 1, 1/2]
agrees with `exp(dt (a+b))` through second order: the remainder is `dt^3` times a polynomial in
`dt` with coefficients that do not depend on `dt`. -/
theorem C21_strang_second_order (a b : A) :
    ∃ q0 q1 q2 q3 : A, ∀ (dt : K) (x : A),
      composed (fun l h y => if l = "transport" then y + h • (a * y) + (h ^ 2 / 2) • (a * (a * y))
          else y + h • (b * y) + (h ^ 2 / 2) • (b * (b * y)))
        [("transport", dt * (1 / 2)), ("wave", dt * 1), ("transport", dt * (1 / 2))] x =
      x + dt • ((a + b) * x) + (dt ^ 2 / 2) • ((a + b) * ((a + b) * x)) +
        dt ^ 3 • ((q0 + dt • q1 + dt ^ 2 • q2 + dt ^ 3 • q3) * x) := by
  refine ⟨(1 / 8 : K) • (a * a * a) + (1 / 8 : K) • (a * a * b) + (1 / 8 : K) • (b * a * a)
      + (1 / 4 : K) • (a * b * a) + (1 / 4 : K) • (a * b * b) + (1 / 4 : K) • (b * b * a),
    (1 / 64 : K) • (a * a * a * a) + (1 / 16 : K) • (a * b * a * a)
      + (1 / 16 : K) • (a * a * b * a)
      + (1 / 16 : K) • (a * a * b * b) + (1 / 16 : K) • (b * b * a * a)
      + (1 / 8 : K) • (a * b * b * a),
    (1 / 64 : K) • (a * a * b * a * a) + (1 / 32 : K) • (a * b * b * a * a)
      + (1 / 32 : K) • (a * a * b * b * a),
    (1 / 128 : K) • (a * a * b * b * a * a), fun dt x => ?_⟩
  simp only [composed, List.foldl_cons, List.foldl_nil, if_true,
    show ("wave" = "transport") = False by decide, if_false, mul_one]
  simp only [mul_add, add_mul, mul_smul_comm, smul_mul_assoc, ← mul_assoc]
  module

end strang

end SplitProps
end Gusto.Props
