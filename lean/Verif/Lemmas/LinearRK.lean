import Verif.Lemmas.ExplicitRK
import Mathlib.Algebra.Module.LinearMap.Basic

set_option autoImplicit false

set_option linter.unusedSectionVars false
set_option linter.unusedSimpArgs false

namespace Gusto
open LForm TimeDisc Spec Finset
variable {K X D : Type*} [Field K] [AddCommGroup X] [Module K X] [AddCommGroup D] [Module K D]
namespace RK

theorem eval_linRes (R : LForm X D) (hA : ∀ t ∈ R, Label.allButLast ∉ t.labels) (dt : K)
    (last : Bool) (x0 rhs y : X) :
    (linRes R dt last x0 rhs y).eval = mass R y - (mass R x0 - dt • rest R rhs) := by
  have h1 : R.labelMap (fun t => t.has .allButLast) toAllButLast keep = R := by
    clear rhs
    induction R with
    | nil => rfl
    | cons t R ih =>
      rw [labelMap_cons, ih fun t ht => hA t (List.mem_cons_of_mem _ ht)]
      simp [Term.has, hA t List.mem_cons_self, keep]
  have h2 : ∀ R : LForm X D, ((R.labelMap isTD (replaceSubject x0) (replaceSubject rhs)).labelMap
      isTD keep (scaleTerm (-dt))).eval = mass R x0 - dt • rest R rhs := by
    intro R
    induction R with
    | nil => simp [labelMap_nil, mass_nil, rest_nil]
    | cons t R ih =>
      rw [labelMap_cons, labelMap_append, eval_append, ih]
      fml_rk
      by_cases h : Label.timeDerivative ∈ t.labels <;>
        simp [h, labelMap, Term.eval, isTD, Term.has, LForm.keep, LForm.replaceSubject,
          LForm.scaleTerm] <;> abel
  unfold linRes
  rw [h1]
  simp only [ite_self, eval_sub, eval_massAt, h2]

variable (S : RKScheme K X D) (M : X ≃ₗ[K] D) (F : X →ₗ[K] D)

/-- The step defined by stage values `u`: every stage is `x0 - dt M⁻¹F(Σ_{j≤i} A_ij u_j)`. -/
def LinStages (n : ℕ) (x0 : X) (u : ℕ → X) : Prop :=
  u 0 = x0 ∧ ∀ i < n, u (i + 1) = x0 - S.dt • M.symm (F (∑ j ∈ range (i + 1), S.A i j • u j))

theorem LinStages.isRKStep {x0 : X} {u : ℕ → X} (hpos : 0 < S.nStages)
    (h : LinStages S M F S.nStages x0 u) :
    IsRKStep (stageCoeffs S.A) (weights S.A S.nStages) S.nStages
      (fun x => M.symm (-(F x))) S.dt x0 (u S.nStages) := by
  obtain ⟨h0, hi⟩ := h
  have key : ∀ i < S.nStages, u (i + 1) = x0 + S.dt • ∑ j ∈ range (i + 1),
      S.A i j • M.symm (-(F (u j))) := by
    intro i hlt
    rw [hi i hlt, map_sum, map_sum, sub_eq_add_neg, ← smul_neg, ← Finset.sum_neg_distrib]
    congr 2
    apply Finset.sum_congr rfl
    intro j _
    simp
  refine ⟨fun i => M.symm (-(F (u i))), ?_, ?_⟩
  · intro i hlt
    cases i with
    | zero => simp [h0]
    | succ i =>
      dsimp only
      rw [key i (by omega)]
      rfl
  · obtain ⟨m, hm⟩ : ∃ m, S.nStages = m + 1 := ⟨S.nStages - 1, by omega⟩
    rw [hm, key m (by omega)]
    simp [weights]

theorem foldl_smul (A : ℕ → K) (f : ℕ → X) (n : ℕ) :
    (List.range n).foldl (fun a i => a + A i • f i) (0 : X) = ∑ i ∈ range n, A i • f i := by
  rw [foldl_axpy (fun i => A i • f i), zero_add]

/-- hypotheses of the linear formulation -/
structure LinHyp : Prop where
  mass_eq : ∀ x, mass S.R x = M x
  rest_eq : ∀ x, rest S.R x = F x
  noAbl : ∀ t ∈ S.R, Label.allButLast ∉ t.labels
  exact : ExactSolver S.solve
  nolim : S.limiter = none
  pos : 0 < S.nStages

variable {S M F}

theorem LinHyp.limit_eq (h : LinHyp S M F) (x : X) : limit S x = x := by
  simp [limit, h.nolim]

theorem LinHyp.solve_eq (h : LinHyp S M F) (last : Bool) (x0 rhs g : X) :
    S.solve (fun y => (linRes S.R S.dt last x0 rhs y).eval) g
      = x0 - S.dt • M.symm (F rhs) := by
  rw [exact_affine h.exact M _ _ (fun y => by rw [eval_linRes _ h.noAbl, h.mass_eq])]
  rw [h.mass_eq, h.rest_eq]
  simp

/-- a non-final stage -/
theorem LinHyp.stage (h : LinHyp S M F) (ncycles idx stage : ℕ) (x0 : X) (st : RKState X)
    (hlt : S.nStages * idx + stage + 1 < ncycles * S.nStages) :
    let lhs := if stage = 0 ∧ idx = 0 then Function.update (fun _ => (0 : X)) 0 x0
      else st.fieldLhs
    let v := x0 - S.dt • M.symm (F (∑ i ∈ range (stage + 1),
      S.A stage i • lhs (S.nStages * idx + i)))
    (linStage S ncycles idx x0 st stage).x1 = v ∧
    (linStage S ncycles idx x0 st stage).x0 = st.x0 ∧
    (linStage S ncycles idx x0 st stage).fieldLhs
      = Function.update lhs (S.nStages * idx + stage + 1) v := by
  simp only [linStage, hlt, if_true, h.limit_eq, h.solve_eq,
    foldl_smul (fun i => S.A stage i)]
  exact ⟨trivial, trivial, trivial⟩

/-- the first `n` stages of a cycle, none of them final -/
theorem LinHyp.stages (h : LinHyp S M F) (ncycles idx : ℕ) (x0 : X) (st : RKState X)
    (hst : 0 < idx → st.fieldLhs (S.nStages * idx) = x0) (n : ℕ) (hn : 0 < n)
    (hlt : S.nStages * idx + n < ncycles * S.nStages) :
    let r := run (linStage S ncycles idx x0) st n
    LinStages S M F n x0 (fun i => r.fieldLhs (S.nStages * idx + i)) ∧
    (∀ j < S.nStages * idx, r.fieldLhs j = st.fieldLhs j) ∧
    r.x1 = r.fieldLhs (S.nStages * idx + n) ∧ r.x0 = st.x0 := by
  induction n, hn using Nat.le_induction with
  | base =>
    have hs := h.stage ncycles idx 0 x0 st (by omega)
    simp only [run_succ]
    have hr0 : run (linStage S ncycles idx x0) st 0 = st := rfl
    rw [hr0]
    obtain ⟨h1, h1', h2⟩ := hs
    have hbase : ∀ lhs : ℕ → X,
        lhs = (if 0 = 0 ∧ idx = 0 then Function.update (fun _ => (0 : X)) 0 x0 else st.fieldLhs) →
        lhs (S.nStages * idx) = x0 := by
      intro lhs hl
      subst hl
      by_cases hi : idx = 0
      · simp [hi]
      · simp only [hi, and_false, if_false]; exact hst (by omega)
    have hb := hbase _ rfl
    refine ⟨⟨?_, ?_⟩, ?_, ?_, h1'⟩
    · dsimp only
      rw [h2, Function.update_of_ne (by omega)]; exact hb
    · intro i hi
      have : i = 0 := by omega
      subst this
      dsimp only
      rw [h2]
      simp only [zero_add, add_zero, Finset.sum_range_one, Function.update_self]
      rw [Function.update_of_ne (by omega)]
    · intro j hj
      rw [h2, Function.update_of_ne (by omega)]
      have : ¬ (0 = 0 ∧ idx = 0) := by
        rintro ⟨-, rfl⟩; simp at hj
      rw [if_neg this]
    · rw [h1, h2]; simp
  | succ n hn ih =>
    obtain ⟨⟨i0, i1⟩, i2, i3, i4⟩ := ih (by omega)
    simp only [run_succ]
    set r := run (linStage S ncycles idx x0) st n with hr
    have hs := h.stage ncycles idx n x0 r (by omega)
    have hne : ¬ (n = 0 ∧ idx = 0) := by omega
    simp only [if_neg hne] at hs
    obtain ⟨h1, h1', h2⟩ := hs
    have hold : ∀ m i, i ≤ n → ∑ j ∈ range (i + 1), S.A m j •
        (linStage S ncycles idx x0 r n).fieldLhs (S.nStages * idx + j)
        = ∑ j ∈ range (i + 1), S.A m j • r.fieldLhs (S.nStages * idx + j) := by
      intro m i hi
      apply Finset.sum_congr rfl
      intro j hj
      have := Finset.mem_range.1 hj
      rw [h2, Function.update_of_ne (by omega)]
    refine ⟨⟨?_, ?_⟩, ?_, ?_, ?_⟩
    · dsimp only
      rw [h2, Function.update_of_ne (by omega)]; exact i0
    · intro i hi
      rw [hold i i (by omega)]
      rcases Nat.lt_succ_iff_lt_or_eq.1 hi with hlt' | heq
      · dsimp only
        rw [h2, Function.update_of_ne (by omega)]; exact i1 i hlt'
      · subst heq
        dsimp only
        rw [h2]
        have : S.nStages * idx + (i + 1) = S.nStages * idx + i + 1 := by ring
        rw [this, Function.update_self]
    · intro j hj
      rw [h2, Function.update_of_ne (by omega), i2 j hj]
    · rw [h1, h2, ← add_assoc, Function.update_self]
    · rw [h1', i4]

/-- the final stage -/
theorem LinHyp.finalStage (h : LinHyp S M F) (ncycles idx stage : ℕ) (x0 : X) (st : RKState X)
    (hge : ¬ S.nStages * idx + stage + 1 < ncycles * S.nStages)
    (hne : ¬ (stage = 0 ∧ idx = 0)) :
    (linStage S ncycles idx x0 st stage).x1 = x0 - S.dt • M.symm (F
      (∑ i ∈ range (ncycles * S.nStages), S.A (S.nStages - 1) (i % S.nStages) • st.fieldLhs i)) := by
  simp only [linStage, if_neg hge, if_neg hne, h.limit_eq, h.solve_eq]
  rw [foldl_smul (fun i => S.A (S.nStages - 1) (i % S.nStages))]

theorem LinHyp.finalStage0 (h : LinHyp S M F) (x0 : X) (st : RKState X) (h1 : S.nStages = 1) :
    (linStage S 1 0 x0 st 0).x1 = x0 - S.dt • M.symm (F (S.A 0 0 • x0)) := by
  simp [linStage, h1, h.limit_eq, h.solve_eq]

/-- a complete cycle that is not the last one -/
theorem LinHyp.cycle (h : LinHyp S M F) (ncycles idx : ℕ) (st : RKState X)
    (hidx : idx + 1 < ncycles)
    (hst : 0 < idx → st.fieldLhs (S.nStages * idx) = st.x0) :
    let r := applyCycle .linear S ncycles idx st
    LinStages S M F S.nStages st.x0 (fun i => r.fieldLhs (S.nStages * idx + i)) ∧
    (∀ j < S.nStages * idx, r.fieldLhs j = st.fieldLhs j) ∧
    r.x1 = r.fieldLhs (S.nStages * (idx + 1)) := by
  have hlt : S.nStages * idx + S.nStages < ncycles * S.nStages := by
    have h1 : S.nStages * (idx + 1) < S.nStages * ncycles :=
      Nat.mul_lt_mul_of_pos_left hidx h.pos
    rw [Nat.mul_comm ncycles]
    calc S.nStages * idx + S.nStages = S.nStages * (idx + 1) := by ring
      _ < _ := h1
  have := h.stages ncycles idx st.x0 { st with x0 := st.x0, x1 := st.x0 } hst S.nStages h.pos hlt
  simp only [applyCycle, h.limit_eq]
  refine ⟨this.1, this.2.1, ?_⟩
  rw [Nat.mul_add, Nat.mul_one]
  exact this.2.2.1

/-- the last cycle -/
theorem LinHyp.lastCycle (h : LinHyp S M F) (idx : ℕ) (st : RKState X)
    (hst : 0 < idx → st.fieldLhs (S.nStages * idx) = st.x0) :
    let r := applyCycle .linear S (idx + 1) idx st
    ∃ u : ℕ → X, LinStages S M F S.nStages st.x0 u ∧
      r.x1 = u S.nStages - S.dt • M.symm (F
        (∑ i ∈ range (idx * S.nStages),
          S.A (S.nStages - 1) (i % S.nStages) • st.fieldLhs i)) := by
  obtain ⟨m, hm⟩ : ∃ m, S.nStages = m + 1 := ⟨S.nStages - 1, by have := h.pos; omega⟩
  have hcyc : applyCycle .linear S (idx + 1) idx st
      = linStage S (idx + 1) idx st.x0
          (run (linStage S (idx + 1) idx st.x0) { st with x0 := st.x0, x1 := st.x0 } m) m := by
    simp only [applyCycle, h.limit_eq]
    have e : ∀ k, k = m + 1 → (List.range k).foldl (solveStage .linear S (idx + 1) idx st.x0)
        { st with x0 := st.x0, x1 := st.x0 } = run (linStage S (idx + 1) idx st.x0)
        { st with x0 := st.x0, x1 := st.x0 } (m + 1) := by
      intro k hk; subst hk; rfl
    rw [e _ hm, run_succ]
  simp only [hcyc]
  set st' : RKState X := { st with x0 := st.x0, x1 := st.x0 } with hst'
  set r := run (linStage S (idx + 1) idx st.x0) st' m with hr
  have hcount : ∀ G : ℕ → X, ∑ i ∈ range ((idx + 1) * S.nStages),
      S.A (S.nStages - 1) (i % S.nStages) • G i
      = ∑ i ∈ range (idx * S.nStages), S.A (S.nStages - 1) (i % S.nStages) • G i
        + ∑ j ∈ range S.nStages, S.A (S.nStages - 1) j • G (S.nStages * idx + j) := by
    intro G
    have : (idx + 1) * S.nStages = idx * S.nStages + S.nStages := by ring
    rw [this, Finset.sum_range_add]
    congr 1
    apply Finset.sum_congr rfl
    intro j hj
    have hj' := Finset.mem_range.1 hj
    have e : idx * S.nStages + j = j + S.nStages * idx := by ring
    rw [e, Nat.add_mul_mod_self_left, Nat.mod_eq_of_lt hj', add_comm j]
  by_cases hm0 : m = 0
  · subst hm0
    by_cases hi : idx = 0
    · subst hi
      refine ⟨fun i => if i = 0 then st.x0 else st.x0 - S.dt • M.symm (F (S.A 0 0 • st.x0)),
        ⟨by simp, ?_⟩, ?_⟩
      · intro i hi
        have : i = 0 := by omega
        subst this
        simp
      · rw [h.finalStage0 _ _ (by omega)]
        simp [hm]
    · have hr' : r = st' := rfl
      rw [h.finalStage _ _ _ _ _ (by rw [hm]; omega) (by omega), hr', hcount]
      refine ⟨fun i => if i = 0 then st.x0 else
        st.x0 - S.dt • M.symm (F (S.A 0 0 • st.x0)), ⟨by simp, ?_⟩, ?_⟩
      · intro i hi
        have : i = 0 := by omega
        subst this
        simp
      · have hx : st'.fieldLhs (S.nStages * idx) = st.x0 := hst (by omega)
        simp only [hm, zero_add, Finset.sum_range_one, Nat.sub_self, add_zero] at *
        rw [hx]
        simp only [one_ne_zero, if_false, map_add, smul_add]
        abel
  · have hlt : S.nStages * idx + m < (idx + 1) * S.nStages := by
      have : (idx + 1) * S.nStages = S.nStages * idx + S.nStages := by ring
      omega
    obtain ⟨⟨s0, s1⟩, s2, s3, s4⟩ := h.stages (idx + 1) idx st.x0 st' hst m (by omega) hlt
    have hge : ¬ S.nStages * idx + m + 1 < (idx + 1) * S.nStages := by
      have : (idx + 1) * S.nStages = S.nStages * idx + S.nStages := by ring
      omega
    rw [h.finalStage _ _ _ _ _ hge (by omega), hcount]
    have hearly : ∑ i ∈ range (idx * S.nStages),
        S.A (S.nStages - 1) (i % S.nStages) • r.fieldLhs i
        = ∑ i ∈ range (idx * S.nStages),
        S.A (S.nStages - 1) (i % S.nStages) • st.fieldLhs i := by
      apply Finset.sum_congr rfl
      intro j hj
      have := Finset.mem_range.1 hj
      rw [s2 j (by rw [Nat.mul_comm]; exact this)]
    rw [hearly]
    refine ⟨fun i => if i = S.nStages then st.x0 - S.dt • M.symm (F
        (∑ j ∈ range S.nStages, S.A (S.nStages - 1) j • r.fieldLhs (S.nStages * idx + j)))
        else r.fieldLhs (S.nStages * idx + i), ⟨?_, ?_⟩, ?_⟩
    · dsimp only
      rw [if_neg (by omega)]; exact s0
    · intro i hi
      have hsum : ∀ n ≤ S.nStages, ∑ j ∈ range n, S.A i j • (if j = S.nStages then
          st.x0 - S.dt • M.symm (F (∑ j ∈ range S.nStages, S.A (S.nStages - 1) j •
            r.fieldLhs (S.nStages * idx + j))) else r.fieldLhs (S.nStages * idx + j))
          = ∑ j ∈ range n, S.A i j • r.fieldLhs (S.nStages * idx + j) := by
        intro n hn
        apply Finset.sum_congr rfl
        intro j hj
        have := Finset.mem_range.1 hj
        rw [if_neg (by omega)]
      rw [hsum _ (by omega)]
      dsimp only
      by_cases him : i = m
      · subst him
        rw [if_pos hm.symm, hm, Nat.add_sub_cancel]
      · rw [if_neg (by omega)]
        exact s1 i (by omega)
    · dsimp only
      rw [if_pos rfl]
      simp only [map_add, smul_add]
      abel

/-- The increment produced by a cycle equals the tendency of its weighted stage sum. -/
theorem LinStages.final {x0 : X} {u : ℕ → X} (hpos : 0 < S.nStages)
    (h : LinStages S M F S.nStages x0 u) :
    u S.nStages - x0 = - (S.dt • M.symm (F (∑ j ∈ range S.nStages,
      S.A (S.nStages - 1) j • u j))) := by
  obtain ⟨m, hm⟩ : ∃ m, S.nStages = m + 1 := ⟨S.nStages - 1, by omega⟩
  have := h.2 m (by omega)
  rw [hm, this]; simp

/-- Complete description of the subcycled linear formulation. -/
theorem LinHyp.apply_eq (h : LinHyp S M F) (Φ : X → X)
    (hΦ : ∀ x, IsRKStep (stageCoeffs S.A) (weights S.A S.nStages) S.nStages
      (fun x => M.symm (-(F x))) S.dt x (Φ x))
    (n : ℕ) (st : RKState X) (x : X) :
    RK.apply .linear S (n + 1) st x = Φ^[n + 1] x + (Φ^[n] x - x) := by
  -- state after c complete non-final cycles
  set loop : RKState X → ℕ → RKState X := fun st idx =>
    let st := applyCycle .linear S (n + 1) idx st
    { st with x0 := st.x1 } with hloop
  have inv : ∀ c ≤ n, let r := (List.range c).foldl loop { st with x0 := x }
      r.x0 = Φ^[c] x ∧ (0 < c → r.fieldLhs (S.nStages * c) = r.x0) ∧
      S.dt • M.symm (F (∑ i ∈ range (c * S.nStages),
        S.A (S.nStages - 1) (i % S.nStages) • r.fieldLhs i)) = x - Φ^[c] x := by
    intro c
    induction c with
    | zero => intro _; simp
    | succ c ih =>
      intro hc
      obtain ⟨i1, i2, i3⟩ := ih (by omega)
      simp only [List.range_succ, List.foldl_append, List.foldl_cons, List.foldl_nil]
      set r := (List.range c).foldl loop { st with x0 := x } with hr
      obtain ⟨c1, c2, c3⟩ := h.cycle (n + 1) c r (by omega) i2
      have hstep := c1.isRKStep S M F h.pos
      have hfin := c1.final h.pos
      have hx1 : (applyCycle .linear S (n + 1) c r).x1 = Φ^[c + 1] x := by
        rw [c3, Function.iterate_succ', Function.comp, ← i1, Nat.mul_add, Nat.mul_one]
        exact hstep.unique (hΦ _)
      refine ⟨by simp only [hloop]; exact hx1, fun _ => by simp only [hloop]; exact c3.symm, ?_⟩
      have hsplit : (c + 1) * S.nStages = c * S.nStages + S.nStages := by ring
      simp only [hloop]
      rw [hsplit, Finset.sum_range_add]
      have e1 : ∑ i ∈ range (c * S.nStages), S.A (S.nStages - 1) (i % S.nStages) •
          (applyCycle .linear S (n + 1) c r).fieldLhs i
          = ∑ i ∈ range (c * S.nStages), S.A (S.nStages - 1) (i % S.nStages) • r.fieldLhs i := by
        apply Finset.sum_congr rfl
        intro j hj
        have := Finset.mem_range.1 hj
        rw [c2 j (by rw [Nat.mul_comm]; exact this)]
      have e2 : ∑ j ∈ range S.nStages, S.A (S.nStages - 1) ((c * S.nStages + j) % S.nStages) •
          (applyCycle .linear S (n + 1) c r).fieldLhs (c * S.nStages + j)
          = ∑ j ∈ range S.nStages, S.A (S.nStages - 1) j •
          (applyCycle .linear S (n + 1) c r).fieldLhs (S.nStages * c + j) := by
        apply Finset.sum_congr rfl
        intro j hj
        have hj' := Finset.mem_range.1 hj
        have e : c * S.nStages + j = j + S.nStages * c := by ring
        rw [e, Nat.add_mul_mod_self_left, Nat.mod_eq_of_lt hj', add_comm j]
      rw [e1, e2, map_add, map_add, smul_add, i3]
      have hx2 : (applyCycle .linear S (n + 1) c r).fieldLhs (S.nStages * c + S.nStages)
          = Φ^[c + 1] x := by
        rw [← hx1, c3, Nat.mul_add, Nat.mul_one]
      rw [i1, hx2] at hfin
      rw [← neg_neg (S.dt • M.symm (F (∑ j ∈ range S.nStages, S.A (S.nStages - 1) j •
          (applyCycle .linear S (n + 1) c r).fieldLhs (S.nStages * c + j)))), ← hfin]
      abel
  obtain ⟨i1, i2, i3⟩ := inv n le_rfl
  unfold RK.apply
  rw [List.range_succ, List.foldl_append]
  simp only [List.foldl_cons, List.foldl_nil]
  change (applyCycle .linear S (n + 1) n ((List.range n).foldl loop { st with x0 := x })).x1 = _
  obtain ⟨u, u1, u2⟩ := h.lastCycle n _ i2
  rw [u2, i3]
  have : u S.nStages = Φ^[n + 1] x := by
    rw [Function.iterate_succ', Function.comp, ← i1]
    exact (u1.isRKStep S M F h.pos).unique (hΦ _)
  rw [this]; abel

end RK
end Gusto
