import Verif.Lemmas.DeferredCorrection
import Verif.Props.IMEX
import Mathlib.Tactic.Linarith
import Mathlib.RingTheory.PowerSeries.Basic

set_option autoImplicit false

/-!
# C24, C67, C68: spectral deferred correction
-/

set_option linter.unusedSectionVars false
set_option linter.unusedSimpArgs false

namespace Gusto.Props
open Gusto LForm TimeDisc Spec Finset
variable {K X D : Type*} [Field K] [AddCommGroup X] [Module K X] [AddCommGroup D] [Module K D]

namespace SDCProps
open SDC

/-- Assumptions on the scheme under which the sweep is analysed: the solver solves, time
derivatives carry no other label, every other term exactly one, the mass part is linear and
invertible, the implicit node problems are uniquely solvable, there is no limiter, and the physics
sources written by `evaluate` (with the base scheme's step `dt`) make up the tendency `G`. -/
structure Good (S : Scheme K X D) (qi : ℕ → ℕ → K) (dt : K) (G : X → D) : Prop where
  exact : ExactSolver S.solve
  clean : TDClean S.R
  one : ExactlyOneKind S.R
  lin : IsLin K (mass S.R)
  massInv : ∀ d : D, ∃! y, mass S.R y = d
  nodeInv : ∀ m < S.M, ∀ d : D, ∃! y, mass S.R y + qi m m • implPart S.R y = d
  noLimiter : S.limiter = none
  src : ∀ x out, srcPart S.R (evalSrc S dt x out) = G x

/-- The sources stored for the old node values are those of the old node values. -/
def SrcStored (S : Scheme K X D) (G : X → D) (st : State K X) : Prop :=
  ∀ i < S.M, srcPart S.R (st.sU (i + 1)) = G (st.U (i + 1))

/-- The explicit matrix only refers to nodes already updated, or the new node values it refers to
still equal the old ones. -/
def ExplOK (S : Scheme K X D) (st : State K X) : Prop :=
  ∀ m i, m ≤ i → i < S.M → S.Qe m i = 0 ∨
    (st.U1 (i + 1) = st.U (i + 1) ∧ srcPart S.R (st.sU1 (i + 1)) = srcPart S.R (st.sU (i + 1)))

theorem restNoSource_eq (R : LForm X D) (hc : TDClean R) (h1 : ExactlyOneKind R) (x : X) :
    restNoSource R x = implPart R x + explPart R x := by
  unfold restNoSource implPart explPart
  induction R with
  | nil => simp [part_nil]
  | cons t R ih =>
    have hc' : TDClean R := fun t ht => hc t (List.mem_cons_of_mem _ ht)
    have h1' : ExactlyOneKind R := fun t ht => h1 t (List.mem_cons_of_mem _ ht)
    rw [part_cons, part_cons, part_cons, ih hc' h1']
    by_cases ht : Label.timeDerivative ∈ t.labels
    · obtain ⟨a, b, c⟩ := hc t List.mem_cons_self ht
      simp [ht, a, b, c]
    · rcases h1 t List.mem_cons_self ht with ⟨a, b, c⟩ | ⟨a, b, c⟩ | ⟨a, b, c⟩ <;>
        simp [ht, a, b, c] <;> abel

theorem lin_sum (M : X → D) (h : IsLin K M) (c : ℕ → K) (f : ℕ → X) (n : ℕ) :
    M (∑ k ∈ range n, c k • f k) = ∑ k ∈ range n, c k • M (f k) := by
  induction n with
  | zero => simpa using h.2 0 0
  | succ n ih => rw [sum_range_succ, sum_range_succ, h.1, h.2, ih]

/-- All that a sweep does to the node values. -/
theorem sweep_spec (S : Scheme K X D) (qi : ℕ → ℕ → K) (G : X → D) (st : State K X)
    (hS : Good S qi st.baseDt G) (hsrc : SrcStored S G st) (hexp : ExplOK S st)
    (hst : S.z2n = true → st.uStart = st.U 0) (k : ℕ) :
    IsSweep S.z2n S.Q qi S.Qe S.M (mass S.R) (implPart S.R) (fun x => explPart S.R x + G x)
        st.U (sweep S qi st k).U ∧
      SrcStored S G (sweep S qi st k) ∧
      (∀ i < S.M, (sweep S qi st k).U1 (i + 1) = (sweep S qi st k).U (i + 1) ∧
        (sweep S qi st k).sU1 (i + 1) = (sweep S qi st k).sU (i + 1)) ∧
      (S.z2n = true → (sweep S qi st k).uStart = (sweep S qi st k).U 0) ∧
      (sweep S qi st k).baseDt = st.baseDt ∧ (sweep S qi st k).un = st.un := by
  -- name the intermediate states
  set s0 : State K X := (match S.flex with
    | some q => { st with qdeltaImp := q k }
    | none => st) with hs0
  have e0 : s0.U = st.U ∧ s0.U1 = st.U1 ∧ s0.sU = st.sU ∧ s0.sU1 = st.sU1 ∧ s0.uStart = st.uStart
      ∧ s0.un = st.un ∧ s0.baseDt = st.baseDt := by
    rw [hs0]; cases S.flex <;> simp
  obtain ⟨a1, a2, a3, a4, a5, a6, a7⟩ := e0
  set s1 := (List.range S.M).foldl (rhsBody S) s0 with hs1
  obtain ⟨b1, b2, b3, b4, b5, b6, b7, -, -, -⟩ := rhsLoop_frame S s0 S.M
  rw [← hs1] at b1 b2 b3 b4 b5 b6 b7
  have hf : ∀ i < S.M, mass S.R (s1.f i)
      = restNoSource S.R (st.U (i + 1)) + G (st.U (i + 1)) := fun i hi => by
    rw [hs1, rhsLoop_f S hS.exact G hS.massInv s0 (by rw [a7]; exact hS.src) S.M i hi, a1]
  set s3 : State K X := { computeQuad S s1 with
    U1 := Function.update s1.U1 0 (s1.U 0),
    sU := Function.update s1.sU 0 (evalSrc S s1.baseDt (s1.U 0) (s1.sU 0)) } with hs3
  have hsweep : sweep S qi st k = (List.range S.M).foldl (fun st i =>
      { st with U := Function.update st.U (i + 1) (st.U1 (i + 1)),
                sU := Function.update st.sU (i + 1) (st.sU1 (i + 1)) })
      ((List.range S.M).foldl (nodeBody S qi) s3) := rfl
  have c1 : s3.U = st.U := by rw [← a1, ← b1]; rfl
  have c2 : ∀ i, s3.U1 (i + 1) = st.U1 (i + 1) := fun i => by
    show Function.update s1.U1 0 (s1.U 0) (i + 1) = _
    rw [Function.update_of_ne (by omega), b2, a2]
  have c2' : s3.U1 0 = st.U 0 := by
    show Function.update s1.U1 0 (s1.U 0) 0 = _
    rw [Function.update_self, b1, a1]
  have c3 : ∀ i, s3.sU (i + 1) = st.sU (i + 1) := fun i => by
    show Function.update s1.sU 0 (evalSrc S s1.baseDt (s1.U 0) (s1.sU 0)) (i + 1) = _
    rw [Function.update_of_ne (by omega), b3, a3]
  have c4 : s3.sU1 = st.sU1 := by rw [← a4, ← b4]; rfl
  have c5 : s3.uStart = st.uStart := by rw [← a5, ← b5]; rfl
  have c6 : s3.un = st.un := by rw [← a6, ← b6]; rfl
  have c7 : s3.baseDt = st.baseDt := by rw [← a7, ← b7]; rfl
  have c8 : ∀ m < S.M, mass S.R (s3.quad m)
      = ∑ j ∈ range S.M, S.Q m j • (implPart S.R (st.U (j + 1))
          + (explPart S.R (st.U (j + 1)) + G (st.U (j + 1)))) := fun m hm => by
    show mass S.R (if m < S.M then _ else _) = _
    rw [if_pos hm, quad_foldl, zero_add, lin_sum _ hS.lin]
    refine sum_congr rfl fun j hj => ?_
    rw [hf j (mem_range.1 hj), restNoSource_eq _ hS.clean hS.one]; module
  set L : ℕ → State K X := fun n => (List.range n).foldl (nodeBody S qi) s3 with hL
  obtain ⟨d1, d2, d3, d4, d5, d6, d7, d8, d9, d10⟩ := copyLoop (L S.M) S.M
  rw [← hsweep] at d1 d2 d3 d4 d5 d6 d7 d8 d9 d10
  have hfr := nodeLoop_frame S qi s3
  have hnode : ∀ m < S.M, ∃ y, y = (L S.M).U1 (m + 1) ∧
      (L S.M).sU1 (m + 1) = evalSrc S st.baseDt y (st.sU1 (m + 1)) ∧
      (res S qi (nodePre S (L m) m) m y).eval = 0 := fun m hm => by
    obtain ⟨f1, f2, f3, f4, f5, f6, f7, f8, f9, f10⟩ := hfr m
    have hLs : L (m + 1) = nodeBody S qi (L m) m := by
      simp only [hL, List.range_succ, List.foldl_append, List.foldl_cons, List.foldl_nil]
    obtain ⟨g1, g2⟩ := nodeBody_eq S qi (L m) m
    have hst1 := nodeLoop_stable S qi s3 (m + 1) S.M (m + 1) hm le_rfl
    refine ⟨S.solve (fun y => (res S qi (nodePre S (L m) m) m y).eval) ((L m).U (m + 1)), ?_, ?_, ?_⟩
    · show _ = (L S.M).U1 (m + 1)
      rw [show (L S.M).U1 (m + 1) = (L (m + 1)).U1 (m + 1) from hst1.1, hLs, g1]
      simp [limit, hS.noLimiter]
    · rw [show (L S.M).sU1 (m + 1) = (L (m + 1)).sU1 (m + 1) from hst1.2 (by omega), hLs, g2,
        show (L m).baseDt = s3.baseDt from f5, c7,
        show (L m).sU1 (m + 1) = s3.sU1 (m + 1) from (f10 m le_rfl).2, c4]
    · refine hS.exact (fun y => (res S qi (nodePre S (L m) m) m y).eval) _ ?_
      set p := nodePre S (L m) m
      obtain ⟨y, hy, hu⟩ := hS.nodeInv m hm (mass S.R p.uStart
        - (∑ i ∈ range m, qi m i • (implPart S.R (p.U1 (i + 1)) - implPart S.R (p.U (i + 1))))
        - (∑ i ∈ range S.M, S.Qe m i •
          ((explPart S.R (p.U1 (i + 1)) - explPart S.R (p.U (i + 1)))
            + (srcPart S.R (p.sU1 (i + 1)) - srcPart S.R (p.sU (i + 1)))))
        + qi m m • implPart S.R (p.U (m + 1)) - mass S.R p.q_)
      refine ⟨y, ?_, fun z hz => hu z ?_⟩
      · show (res S qi p m y).eval = 0
        rw [eval_res]
        have hy : mass S.R y + qi m m • implPart S.R y = _ := hy
        linear_combination (norm := module) hy
      · have hz : (res S qi p m z).eval = 0 := hz
        rw [eval_res] at hz
        show mass S.R z + qi m m • implPart S.R z = _
        linear_combination (norm := module) hz
  have hU0 : (sweep S qi st k).U 0 = st.U 0 := by
    rw [d8, show (L S.M).U = s3.U from (hfr S.M).1, c1]
  have hsrcNew : ∀ m < S.M, srcPart S.R ((L S.M).sU1 (m + 1)) = G ((L S.M).U1 (m + 1)) :=
    fun m hm => by
      obtain ⟨y, h1, h2, -⟩ := hnode m hm
      rw [h2, hS.src, h1]
  refine ⟨⟨hU0, fun m hm => ?_⟩, fun i hi => ?_, fun i hi => ?_, fun hz => ?_, ?_, ?_⟩
  · obtain ⟨y, h1, h2, h3⟩ := hnode m hm
    obtain ⟨f1, f2, f3, f4, f5, f6, f7, f8, f9, f10⟩ := hfr m
    rw [eval_res] at h3
    have p1 : (nodePre S (L m) m).U = st.U := by
      show (L m).U = _
      rw [← c1]; exact f1
    have p2 : ∀ i, (nodePre S (L m) m).sU (i + 1) = st.sU (i + 1) := fun i => by
      show (L m).sU (i + 1) = _
      rw [← c3]; exact congrFun f2 _
    have p3 : (nodePre S (L m) m).q_ = s3.quad m := by
      show (L m).quad m = _
      exact congrFun f3 _
    have p4 : ∀ i < m, (nodePre S (L m) m).U1 (i + 1) = (L S.M).U1 (i + 1) := fun i hi => by
      show (L m).U1 (i + 1) = _
      exact ((nodeLoop_stable S qi s3 m S.M (i + 1) hm.le hi).1).symm
    have p5 : ∀ i < m, (nodePre S (L m) m).sU1 (i + 1) = (L S.M).sU1 (i + 1) := fun i hi => by
      show (L m).sU1 (i + 1) = _
      exact ((nodeLoop_stable S qi s3 m S.M (i + 1) hm.le hi).2 (by omega)).symm
    have p6 : ∀ i, m ≤ i → (nodePre S (L m) m).U1 (i + 1) = st.U1 (i + 1) ∧
        (nodePre S (L m) m).sU1 (i + 1) = st.sU1 (i + 1) := fun i hi => by
      constructor
      · show (L m).U1 (i + 1) = _
        rw [← c2]; exact (f10 i hi).1
      · show (L m).sU1 (i + 1) = _
        rw [← c4]; exact (f10 i hi).2
    have hV : ∀ i < S.M, (sweep S qi st k).U (i + 1) = (L S.M).U1 (i + 1) := fun i hi =>
      (d9 i hi).1
    have pstart : (nodePre S (L m) m).uStart = startNode S.z2n (sweep S qi st k).U m := by
      show (if S.z2n then (L m).uStart else (L m).U1 m) = _
      unfold startNode
      by_cases hz : S.z2n = true
      · simp only [hz, if_true]
        rw [show (L m).uStart = s3.uStart from f8 hz, c5, hst hz, hU0]
      · simp only [hz, Bool.false_eq_true, if_false]
        rcases m with _ | m
        · rw [show (L 0).U1 0 = s3.U1 0 from rfl, c2', hU0]
        · rw [hV m (by omega)]
          exact ((nodeLoop_stable S qi s3 (m + 1) S.M (m + 1) hm.le le_rfl).1).symm
    rw [p1, p3, c8 m hm, pstart] at h3
    have hE : (∑ i ∈ range S.M, S.Qe m i •
          ((explPart S.R ((nodePre S (L m) m).U1 (i + 1)) - explPart S.R (st.U (i + 1)))
            + (srcPart S.R ((nodePre S (L m) m).sU1 (i + 1))
              - srcPart S.R ((nodePre S (L m) m).sU (i + 1)))))
        = ∑ i ∈ range m, S.Qe m i • ((explPart S.R ((sweep S qi st k).U (i + 1))
            + G ((sweep S qi st k).U (i + 1)))
          - (explPart S.R (st.U (i + 1)) + G (st.U (i + 1)))) := by
      rw [← sum_range_add_sum_Ico _ hm.le]
      rw [show (∑ i ∈ Ico m S.M, S.Qe m i •
          ((explPart S.R ((nodePre S (L m) m).U1 (i + 1)) - explPart S.R (st.U (i + 1)))
            + (srcPart S.R ((nodePre S (L m) m).sU1 (i + 1))
              - srcPart S.R ((nodePre S (L m) m).sU (i + 1))))) = 0 from
        sum_eq_zero fun i hi => by
          obtain ⟨hi1, hi2⟩ := mem_Ico.1 hi
          rw [(p6 i hi1).1, (p6 i hi1).2, p2]
          rcases hexp m i hi1 hi2 with h | ⟨h, h'⟩
          · rw [h, zero_smul]
          · rw [h, h']; simp, add_zero]
      refine sum_congr rfl fun i hi => ?_
      have hi := mem_range.1 hi
      rw [p4 i hi, p5 i hi, p2, hsrc i (by omega), hsrcNew i (by omega), ← hV i (by omega)]
      congr 1; abel
    have hI : (∑ i ∈ range m, qi m i •
          (implPart S.R ((nodePre S (L m) m).U1 (i + 1)) - implPart S.R (st.U (i + 1))))
        = ∑ i ∈ range m, qi m i •
          (implPart S.R ((sweep S qi st k).U (i + 1)) - implPart S.R (st.U (i + 1))) :=
      sum_congr rfl fun i hi => by
        have hi := mem_range.1 hi
        rw [p4 i hi, hV i (by omega)]
    rw [hE, hI, h1, ← hV m hm] at h3
    rw [sum_range_succ]
    linear_combination (norm := module) h3
  · rw [(d9 i hi).1, (d9 i hi).2]; exact hsrcNew i hi
  · rw [(d9 i hi).1, (d9 i hi).2, d1, d2]; exact ⟨rfl, rfl⟩
  · rw [d5, hU0, show (L S.M).uStart = s3.uStart from (hfr S.M).2.2.2.2.2.2.2.1 hz, c5, hst hz]
  · rw [d4, show (L S.M).baseDt = s3.baseDt from (hfr S.M).2.2.2.2.1, c7]
  · rw [d3, show (L S.M).un = s3.un from (hfr S.M).2.2.2.1, c6]

/-- C24, the sweep equation: one correction sweep takes the node values to values satisfying the
documented SDC equations, with the implicit matrix on the terms labelled implicit, the explicit
matrix on the terms labelled explicit and on the physics sources, and the collocation matrix on
all tendencies. -/
theorem C24_sweep_equation (S : Scheme K X D) (qi : ℕ → ℕ → K) (G : X → D) (st : State K X)
    (hS : Good S qi st.baseDt G) (hsrc : SrcStored S G st)
    (hlow : ∀ m i, m ≤ i → i < S.M → S.Qe m i = 0)
    (hst : S.z2n = true → st.uStart = st.U 0) (k : ℕ) :
    IsSweep S.z2n S.Q qi S.Qe S.M (mass S.R) (implPart S.R) (fun x => explPart S.R x + G x)
      st.U (sweep S qi st k).U :=
  (sweep_spec S qi G st hS hsrc (fun m i h1 h2 => Or.inl (hlow m i h1 h2)) hst k).1

theorem startNode_congr (z2n : Bool) (U V : ℕ → X) (n : ℕ) (h : ∀ i ≤ n, U i = V i) (m : ℕ)
    (hm : m ≤ n) : startNode z2n U m = startNode z2n V m := by
  unfold startNode; cases z2n <;> simp [h m hm, h 0 (Nat.zero_le _)]

/-- Pure statement about the sweep equations: a sweep leaves all nodes unchanged iff they solve the
collocation equations. -/
theorem sweep_fixed_iff (z2n : Bool) (Q qi qe : ℕ → ℕ → K) (n : ℕ) (M I E : X → D)
    (hinv : ∀ m < n, ∀ d : D, ∃! y, M y + qi m m • I y = d) (U V : ℕ → X)
    (h : IsSweep z2n Q qi qe n M I E U V) :
    (∀ m ≤ n, V m = U m) ↔ IsCollocation z2n Q n M (fun x => I x + E x) U := by
  obtain ⟨h0, h⟩ := h
  constructor
  · intro hf m hm
    have := h m hm
    rw [sum_eq_zero (s := range (m + 1)) fun i hi => by
        rw [hf (i + 1) (by have := mem_range.1 hi; omega)]; simp,
      sum_eq_zero (s := range m) fun i hi => by
        rw [hf (i + 1) (by have := mem_range.1 hi; omega)]; simp,
      hf (m + 1) hm, startNode_congr z2n V U n hf m hm.le] at this
    rw [this]; simp
  · intro hc
    have key : ∀ m, m ≤ n → ∀ j ≤ m, V j = U j := by
      intro m
      induction m with
      | zero => intro _ j hj; obtain rfl : j = 0 := by omega
                exact h0
      | succ m ih =>
        intro hm j hj
        have ih := ih (by omega)
        by_cases hj' : j ≤ m
        · exact ih j hj'
        · obtain rfl : j = m + 1 := by omega
          have e := h m hm
          rw [sum_range_succ, sum_eq_zero (s := range m) (f := fun i => qi m i • _) fun i hi => by
              rw [ih (i + 1) (by have := mem_range.1 hi; omega)]; simp,
            sum_eq_zero (s := range m) fun i hi => by
              rw [ih (i + 1) (by have := mem_range.1 hi; omega)]; simp,
            startNode_congr z2n V U m ih m le_rfl] at e
          have c := hc m hm
          obtain ⟨y, -, hu⟩ := hinv m hm (M (U (m + 1)) + qi m m • I (U (m + 1)))
          rw [hu (V (m + 1)) (by
            show M (V (m + 1)) + qi m m • I (V (m + 1)) = _
            rw [c]; linear_combination (norm := module) e), hu (U (m + 1)) rfl]
    exact fun m hm => key n le_rfl m hm

/-- C24, fixed points: a correction sweep leaves the node values unchanged if and only if they
satisfy the collocation equations for the matrix `Q` and the full tendency; `Qdelta_imp` and
`Qdelta_exp` do not occur in that condition. -/
theorem C24_fixed_iff_collocation (S : Scheme K X D) (qi : ℕ → ℕ → K) (G : X → D)
    (st : State K X) (hS : Good S qi st.baseDt G) (hsrc : SrcStored S G st)
    (hlow : ∀ m i, m ≤ i → i < S.M → S.Qe m i = 0)
    (hst : S.z2n = true → st.uStart = st.U 0) (k : ℕ) :
    (∀ m ≤ S.M, (sweep S qi st k).U m = st.U m) ↔
      IsCollocation S.z2n S.Q S.M (mass S.R)
        (fun x => implPart S.R x + explPart S.R x + G x) st.U := by
  have h := sweep_fixed_iff S.z2n S.Q qi S.Qe S.M _ _ _ hS.nodeInv _ _
    (C24_sweep_equation S qi G st hS hsrc hlow hst k)
  simpa only [add_assoc] using h

/-- C24, node-to-node and zero-to-node formulations describe the same collocation solutions: the
zero-to-node matrix is the cumulated node-to-node matrix. -/
theorem C24_formulations_agree (s : ℕ → ℕ → K) (n : ℕ) (M F : X → D) (U : ℕ → X) :
    IsCollocation false s n M F U ↔
      IsCollocation true (fun m k => ∑ j ∈ range (m + 1), s j k) n M F U := by
  have key : ∀ m, ∑ k ∈ range n, (∑ j ∈ range (m + 1 + 1), s j k) • F (U (k + 1))
      = ∑ k ∈ range n, (∑ j ∈ range (m + 1), s j k) • F (U (k + 1))
        + ∑ k ∈ range n, s (m + 1) k • F (U (k + 1)) := fun m => by
    rw [← sum_add_distrib]
    refine sum_congr rfl fun k _ => ?_
    rw [sum_range_succ (fun j => s j k) (m + 1), add_smul]
  unfold IsCollocation startNode
  simp only [Bool.false_eq_true, if_false, if_true]
  constructor
  · intro h m hm
    induction m with
    | zero => simpa using h 0 hm
    | succ m ih => rw [h (m + 1) hm, ih (by omega), key]; abel
  · intro h m hm
    cases m with
    | zero => simpa using h 0 hm
    | succ m => rw [h (m + 1) hm, h m (by omega), key]; abel

/-! ### The whole time step -/

/-- the initial loop of `apply` -/
theorem start_spec (S : Scheme K X D) (st : State K X) (x : X) :
    (start S st x).U 0 = x ∧ (start S st x).uStart = x ∧ (start S st x).un = x ∧
      (start S st x).solvers = some (st.solvers.getD st.qdeltaImp) ∧
      (start S st x).U1 = st.U1 ∧ (start S st x).sU1 = st.sU1 ∧
      (∀ i ≤ S.M, ∃ out, (start S st x).sU i
        = evalSrc S (start S st x).baseDt ((start S st x).U i) out) := by
  have loop : ∀ (s : State K X) (n : ℕ),
      let s' := (List.range n).foldl (fun (st : State K X) m =>
        { st with sU := Function.update st.sU m (evalSrc S st.baseDt (st.U m) (st.sU m)) }) s
      s'.U = s.U ∧ s'.uStart = s.uStart ∧ s'.un = s.un ∧ s'.solvers = s.solvers ∧ s'.U1 = s.U1 ∧
        s'.sU1 = s.sU1 ∧ s'.baseDt = s.baseDt ∧
        ∀ i < n, ∃ out, s'.sU i = evalSrc S s.baseDt (s.U i) out := by
    intro s n
    induction n with
    | zero => simp
    | succ n ih =>
      rw [List.range_succ, List.foldl_append, List.foldl_cons, List.foldl_nil]
      obtain ⟨h1, h2, h3, h4, h5, h6, h7, h8⟩ := ih
      refine ⟨h1, h2, h3, h4, h5, h6, h7, fun i hi => ?_⟩
      dsimp only
      by_cases hin : i = n
      · subst hin; rw [Function.update_self, h1, h7]; exact ⟨_, rfl⟩
      · rw [Function.update_of_ne hin]; exact h8 i (by omega)
  have loop2 : ∀ (s : State K X) (n : ℕ),
      let s' := (List.range n).foldl (fun (st : State K X) m =>
        { st with baseDt := S.dtau m,
                  U := Function.update st.U (m + 1) (S.base (S.dtau m) (st.U m)) }) s
      s'.U 0 = s.U 0 ∧ s'.uStart = s.uStart ∧ s'.un = s.un ∧ s'.solvers = s.solvers ∧
        s'.U1 = s.U1 ∧ s'.sU1 = s.sU1 := by
    intro s n
    induction n with
    | zero => simp
    | succ n ih =>
      rw [List.range_succ, List.foldl_append, List.foldl_cons, List.foldl_nil]
      obtain ⟨h1, h2, h3, h4, h5, h6⟩ := ih
      refine ⟨?_, h2, h3, h4, h5, h6⟩
      dsimp only; rw [Function.update_of_ne (by omega), h1]
  have loop3 : ∀ (s : State K X) (n : ℕ),
      let s' := (List.range n).foldl (fun (st : State K X) m =>
        { st with U := Function.update st.U (m + 1) st.un }) s
      s'.U 0 = s.U 0 ∧ s'.uStart = s.uStart ∧ s'.un = s.un ∧ s'.solvers = s.solvers ∧
        s'.U1 = s.U1 ∧ s'.sU1 = s.sU1 := by
    intro s n
    induction n with
    | zero => simp
    | succ n ih =>
      rw [List.range_succ, List.foldl_append, List.foldl_cons, List.foldl_nil]
      obtain ⟨h1, h2, h3, h4, h5, h6⟩ := ih
      refine ⟨?_, h2, h3, h4, h5, h6⟩
      dsimp only; rw [Function.update_of_ne (by omega), h1]
  set s0 : State K X :=
    { st with
      un := x
      uStart := x
      solvers := some (st.solvers.getD st.qdeltaImp)
      U := Function.update st.U 0 x } with hs0
  set s1 : State K X := (if S.baseFlag then
      (List.range S.M).foldl (fun st m =>
        { st with baseDt := S.dtau m,
                  U := Function.update st.U (m + 1) (S.base (S.dtau m) (st.U m)) }) s0
    else
      (List.range S.M).foldl (fun st m => { st with U := Function.update st.U (m + 1) st.un }) s0)
    with hs1
  have e1 : s1.U 0 = s0.U 0 ∧ s1.uStart = s0.uStart ∧ s1.un = s0.un ∧ s1.solvers = s0.solvers ∧
        s1.U1 = s0.U1 ∧ s1.sU1 = s0.sU1 := by
    rw [hs1]; split
    · exact loop2 s0 S.M
    · exact loop3 s0 S.M
  obtain ⟨f1, f2, f3, f4, f5, f6⟩ := e1
  obtain ⟨h1, h2, h3, h4, h5, h6, h7, h8⟩ := loop s1 (S.M + 1)
  have he : start S st x = (List.range (S.M + 1)).foldl (fun (st : State K X) m =>
        { st with sU := Function.update st.sU m (evalSrc S st.baseDt (st.U m) (st.sU m)) }) s1 := rfl
  rw [← he] at h1 h2 h3 h4 h5 h6 h7 h8
  refine ⟨?_, ?_, ?_, ?_, ?_, ?_, fun i hi => ?_⟩
  · rw [h1, f1, hs0]; simp
  · rw [h2, f2]
  · rw [h3, f3]
  · rw [h4, f4]
  · rw [h5, f5]
  · rw [h6, f6]
  · obtain ⟨o, ho⟩ := h8 i (by omega)
    exact ⟨o, by rw [ho, h7, h1]⟩

/-- The node values after `k` sweeps of the time step from `x`. -/
def nodes (S : Scheme K X D) (st : State K X) (x : X) (k : ℕ) : ℕ → X :=
  (sweeps S (start S st x) k).U

theorem sweeps_inv (S : Scheme K X D) (st : State K X) (x : X) (G : X → D)
    (hS : Good S (st.solvers.getD st.qdeltaImp) (start S st x).baseDt G)
    (hlow : ∀ m i, m ≤ i → i < S.M → S.Qe m i = 0) (k : ℕ) :
    let s := sweeps S (start S st x) k
    SrcStored S G s ∧ (S.z2n = true → s.uStart = s.U 0) ∧ s.U 0 = x ∧ s.un = x ∧
      s.baseDt = (start S st x).baseDt ∧
      (1 ≤ k → ∀ i < S.M, s.U1 (i + 1) = s.U (i + 1) ∧ s.sU1 (i + 1) = s.sU (i + 1)) := by
  obtain ⟨a1, a2, a3, a4, a5, a6, a7⟩ := start_spec S st x
  induction k with
  | zero =>
    refine ⟨fun i hi => ?_, fun _ => ?_, a1, a3, rfl, fun h => by omega⟩
    · obtain ⟨o, ho⟩ := a7 (i + 1) hi
      show srcPart S.R ((start S st x).sU (i + 1)) = G ((start S st x).U (i + 1))
      rw [ho, hS.src]
    · show (start S st x).uStart = (start S st x).U 0
      rw [a1, a2]
  | succ k ih =>
    obtain ⟨b1, b2, b3, b4, b5, b6⟩ := ih
    have he : sweeps S (start S st x) (k + 1)
        = sweep S (st.solvers.getD st.qdeltaImp) (sweeps S (start S st x) k) (k + 1) := by
      simp only [sweeps, List.range_succ, List.foldl_append, List.foldl_cons, List.foldl_nil, a4,
        Option.getD_some]
    rw [he]
    have := sweep_spec S (st.solvers.getD st.qdeltaImp) G (sweeps S (start S st x) k)
      (by rw [b5]; exact hS) b1 (fun m i h1 h2 => Or.inl (hlow m i h1 h2)) b2 (k + 1)
    obtain ⟨c1, c2, c3, c4, c5, c6⟩ := this
    exact ⟨c2, c4, by rw [c1.1, b3], by rw [c6, b4], by rw [c5, b5], fun _ => c3⟩

theorem sweeps_succ (S : Scheme K X D) (st : State K X) (x : X) (k : ℕ) :
    sweeps S (start S st x) (k + 1)
      = sweep S (st.solvers.getD st.qdeltaImp) (sweeps S (start S st x) k) (k + 1) := by
  obtain ⟨a1, a2, a3, a4, a5, a6, a7⟩ := start_spec S st x
  simp only [sweeps, List.range_succ, List.foldl_append, List.foldl_cons, List.foldl_nil, a4,
    Option.getD_some]

/-- C24, every sweep of a time step: each sweep of `apply` satisfies the SDC equations, starting
from the input state. -/
theorem C24_apply_sweeps (S : Scheme K X D) (st : State K X) (x : X) (G : X → D)
    (hS : Good S (st.solvers.getD st.qdeltaImp) (start S st x).baseDt G)
    (hlow : ∀ m i, m ≤ i → i < S.M → S.Qe m i = 0) (k : ℕ) :
    nodes S st x k 0 = x ∧
    IsSweep S.z2n S.Q (st.solvers.getD st.qdeltaImp) S.Qe S.M (mass S.R) (implPart S.R)
      (fun y => explPart S.R y + G y) (nodes S st x k) (nodes S st x (k + 1)) := by
  obtain ⟨b1, b2, b3, b4, b5, b6⟩ := sweeps_inv S st x G hS hlow k
  refine ⟨b3, ?_⟩
  unfold nodes
  rw [sweeps_succ]
  exact C24_sweep_equation S _ G _ (by rw [b5]; exact hS) b1 hlow b2 (k + 1)

/-- C24, convergence: if a sweep of `apply` changes nothing, the node values are the collocation
solution; and once they are, no further sweep changes them. -/
theorem C24_apply_stationary (S : Scheme K X D) (st : State K X) (x : X) (G : X → D)
    (hS : Good S (st.solvers.getD st.qdeltaImp) (start S st x).baseDt G)
    (hlow : ∀ m i, m ≤ i → i < S.M → S.Qe m i = 0) (k : ℕ) :
    ((∀ m ≤ S.M, nodes S st x (k + 1) m = nodes S st x k m) ↔
      IsCollocation S.z2n S.Q S.M (mass S.R) (fun y => implPart S.R y + explPart S.R y + G y)
        (nodes S st x k)) ∧
    (IsCollocation S.z2n S.Q S.M (mass S.R) (fun y => implPart S.R y + explPart S.R y + G y)
        (nodes S st x k) →
      ∀ j m, m ≤ S.M → nodes S st x (k + j) m = nodes S st x k m) := by
  have key : ∀ k, (∀ m ≤ S.M, nodes S st x (k + 1) m = nodes S st x k m) ↔
      IsCollocation S.z2n S.Q S.M (mass S.R) (fun y => implPart S.R y + explPart S.R y + G y)
        (nodes S st x k) := fun k => by
    have h := sweep_fixed_iff S.z2n S.Q (st.solvers.getD st.qdeltaImp) S.Qe S.M _ _ _ hS.nodeInv
      _ _ (C24_apply_sweeps S st x G hS hlow k).2
    simpa only [add_assoc] using h
  refine ⟨key k, fun hc j => ?_⟩
  induction j with
  | zero => intro m _; rfl
  | succ j ih =>
    intro m hm
    have hcj : IsCollocation S.z2n S.Q S.M (mass S.R)
        (fun y => implPart S.R y + explPart S.R y + G y) (nodes S st x (k + j)) := fun i hi => by
      rw [ih (i + 1) hi, hc i hi, startNode_congr S.z2n (nodes S st x (k + j)) (nodes S st x k)
        S.M ih i hi.le]
      congr 1
      exact sum_congr rfl fun l hl => by rw [ih (l + 1) (mem_range.1 hl)]
    rw [← add_assoc, (key (k + j)).2 hcj m hm, ih m hm]

/-- the loop of the final update -/
theorem finLoop (S : Scheme K X D) (hS : ExactSolver S.solve)
    (hM : ∀ d : D, ∃! y, mass S.R y = d) (st : State K X) (n : ℕ) :
    let s' := (List.range n).foldl (finBody S) st
    s'.U = st.U ∧ s'.U1 = st.U1 ∧ s'.sU1 = st.sU1 ∧ s'.un = st.un ∧
      ∀ i < n, mass S.R (s'.f i)
        = restNoSource S.R (st.U1 (i + 1)) + srcPart S.R (st.sU1 (i + 1)) := by
  induction n with
  | zero => simp
  | succ n ih =>
    rw [List.range_succ, List.foldl_append, List.foldl_cons, List.foldl_nil]
    obtain ⟨h1, h2, h3, h4, h5⟩ := ih
    generalize (List.range n).foldl (finBody S) st = s' at *
    refine ⟨h1, h2, h3, h4, fun i hi => ?_⟩
    show mass S.R (Function.update s'.f n _ i) = _
    by_cases hin : i = n
    · subst hin
      rw [Function.update_self, ← h2, ← h3]
      have := hS (fun y => (resRhs S.R (s'.U1 (i + 1)) (s'.sU1 (i + 1)) y).eval) s'.uRhs (by
        obtain ⟨y, hy, hu'⟩ := hM (restNoSource S.R (s'.U1 (i + 1)) + srcPart S.R (s'.sU1 (i + 1)))
        refine ⟨y, ?_, fun z hz => hu' z ?_⟩
        · show (resRhs S.R (s'.U1 (i + 1)) (s'.sU1 (i + 1)) y).eval = 0
          rw [eval_resRhs, hy]; simp
        · have hz : (resRhs S.R (s'.U1 (i + 1)) (s'.sU1 (i + 1)) z).eval = 0 := hz
          rw [eval_resRhs] at hz
          exact sub_eq_zero.1 hz)
      rw [eval_resRhs] at this
      exact sub_eq_zero.1 this
    · rw [Function.update_of_ne hin]; exact h5 i (by omega)

/-- C24, result of a time step: without a final update (or without sweeps) `apply` returns the
value at the last node; with it, the quadrature `M(y) = M(x) - Σ_k w_k F(U_k)` of the tendency at
the last iterate. -/
theorem C24_apply_result (S : Scheme K X D) (st : State K X) (x : X) (G : X → D)
    (hS : Good S (st.solvers.getD st.qdeltaImp) (start S st x).baseDt G)
    (hlow : ∀ m i, m ≤ i → i < S.M → S.Qe m i = 0) :
    ((S.maxk = 0 ∨ S.finalUpdate = false) → (SDC.apply S st x).2 = nodes S st x S.maxk S.M) ∧
    (0 < S.maxk → S.finalUpdate = true →
      mass S.R (SDC.apply S st x).2 = mass S.R x - ∑ k ∈ range S.M, S.Qfin k •
        (implPart S.R (nodes S st x S.maxk (k + 1)) + explPart S.R (nodes S st x S.maxk (k + 1))
          + G (nodes S st x S.maxk (k + 1)))) := by
  constructor
  · rintro (h | h)
    · simp [SDC.apply, finish, h, nodes]
    · by_cases hk : 0 < S.maxk
      · simp [SDC.apply, finish, h, hk, nodes]
      · simp [SDC.apply, finish, hk, nodes]
  · intro hk hf
    obtain ⟨b1, b2, b3, b4, b5, b6⟩ := sweeps_inv S st x G hS hlow S.maxk
    obtain ⟨c1, c2, c3, c4, c5⟩ := finLoop S hS.exact hS.massInv
      (sweeps S (start S st x) S.maxk) S.M
    simp only [SDC.apply, finish, hk, gt_iff_lt, if_true, hf]
    unfold nodes
    set s := sweeps S (start S st x) S.maxk
    set s' := (List.range S.M).foldl (finBody S) s
    have hq : mass S.R (computeQuadFinal S s').quadFinal = ∑ k ∈ range S.M, S.Qfin k •
        (implPart S.R (s.U (k + 1)) + explPart S.R (s.U (k + 1)) + G (s.U (k + 1))) := by
      simp only [computeQuadFinal]
      rw [quad_foldl, zero_add, lin_sum _ hS.lin]
      refine sum_congr rfl fun j hj => ?_
      have hj := mem_range.1 hj
      rw [c5 j hj, restNoSource_eq _ hS.clean hS.one, (b6 hk j hj).1, (b6 hk j hj).2, b1 j hj]
    have hun : (computeQuadFinal S s').un = x := by
      show s'.un = x
      rw [c4]; exact b4
    simp only [limit, hS.noLimiter, hun]
    have := hS.exact (fun y => (resFin S.R x (computeQuadFinal S s').quadFinal y).eval)
      ((computeQuadFinal S s').U S.M) (by
        obtain ⟨y, hy, hu⟩ := hS.massInv (mass S.R x - mass S.R (computeQuadFinal S s').quadFinal)
        refine ⟨y, ?_, fun z hz => hu z ?_⟩
        · show (resFin S.R x _ y).eval = 0
          rw [eval_resFin, hy]; abel
        · have hz : (resFin S.R x (computeQuadFinal S s').quadFinal z).eval = 0 := hz
          rw [eval_resFin] at hz
          linear_combination (norm := module) hz)
    rw [eval_resFin, hq] at this
    linear_combination (norm := module) this

/-- equal up to the attribute `Qdelta_imp` -/
def Ag (s s' : State K X) : Prop := ∃ w, s' = { s with qdeltaImp := w }

theorem Ag.foldl {f g : State K X → ℕ → State K X}
    (h : ∀ i s s', Ag s s' → Ag (f s i) (g s' i)) (l : List ℕ) :
    ∀ s s', Ag s s' → Ag (l.foldl f s) (l.foldl g s') := by
  induction l with
  | nil => exact fun s s' h => h
  | cons a l ih => exact fun s s' hs => ih _ _ (h a s s' hs)

/-- C24, the adaptive matrices of `qdelta_imp = "MIN-SR-FLEX"` are never used: the result of a time
step does not depend on what the iteration-dependent matrix is, because the node solvers were
cached with the matrix of the constructor. -/
theorem C24_flex_has_no_effect_refuted (S : Scheme K X D) (st : State K X) (x : X)
    (q : ℕ → ℕ → ℕ → K) :
    (SDC.apply { S with flex := some q } st x).2 = (SDC.apply { S with flex := none } st x).2 := by
  set S1 : Scheme K X D := { S with flex := some q } with hS1
  set S0 : Scheme K X D := { S with flex := none } with hS0
  have hz1 : S1.z2n = S.z2n := rfl
  have hz0 : S0.z2n = S.z2n := rfl
  have hsweep : ∀ qi k (s s' : State K X), Ag s s' → Ag (sweep S0 qi s k) (sweep S1 qi s' k) := by
    rintro qi k s _ ⟨w, rfl⟩
    have h1 : Ag ((List.range S.M).foldl (rhsBody S0) s)
        ((List.range S.M).foldl (rhsBody S1) { s with qdeltaImp := q k }) :=
      Ag.foldl (by rintro i s _ ⟨w, rfl⟩; exact ⟨w, rfl⟩) _ _ _ ⟨_, rfl⟩
    obtain ⟨w1, h1⟩ := h1
    refine Ag.foldl (by rintro i s _ ⟨w, rfl⟩; exact ⟨w, rfl⟩) _ _ _ ?_
    refine Ag.foldl ?_ _ _ _ ?_
    · rintro i s _ ⟨w, rfl⟩
      refine ⟨w, ?_⟩
      unfold nodeBody
      rw [hz1, hz0]
      cases S.z2n <;> rfl
    · refine ⟨w1, ?_⟩
      dsimp only
      show ({ computeQuad S1 ((List.range S.M).foldl (rhsBody S1) { s with qdeltaImp := q k })
        with U1 := _, sU := _ } : State K X) = _
      rw [h1]; rfl
  have hsw : ∀ k, Ag (sweeps S0 (start S st x) k) (sweeps S1 (start S st x) k) := fun k =>
    Ag.foldl (f := fun s i => sweep S0 _ s (i + 1)) (g := fun s i => sweep S1 _ s (i + 1))
      (fun i s s' h => hsweep _ (i + 1) s s' h) (List.range k) _ _ ⟨(start S st x).qdeltaImp, rfl⟩
  obtain ⟨w, hw⟩ := hsw S.maxk
  show (finish S1 (sweeps S1 (start S st x) S.maxk)).2
    = (finish S0 (sweeps S0 (start S st x) S.maxk)).2
  rw [hw]
  generalize sweeps S0 (start S st x) S.maxk = a
  obtain ⟨w1, h1⟩ : Ag ((List.range S.M).foldl (finBody S0) a)
      ((List.range S.M).foldl (finBody S1) { a with qdeltaImp := w }) :=
    Ag.foldl (by rintro i s _ ⟨w, rfl⟩; exact ⟨w, rfl⟩) _ _ _ ⟨_, rfl⟩
  have e1 : S1.maxk = S.maxk := rfl
  have e2 : S0.maxk = S.maxk := rfl
  have e3 : S1.finalUpdate = S.finalUpdate := rfl
  have e4 : S0.finalUpdate = S.finalUpdate := rfl
  have e5 : S1.M = S.M := rfl
  have e6 : S0.M = S.M := rfl
  unfold finish
  rw [e1, e2, e3, e4, e5, e6]
  split
  · split
    · dsimp only
      rw [h1]; rfl
    · rfl
  · rfl

/-! ### Order of accuracy -/

/-- C68, one sweep: measure errors by any decreasing family `N 0 ⊇ N 1 ⊇ …` of subgroups
(for instance "divisible by `dt^k`") such that the tendencies, multiplied by the entries of the
matrices, gain one order.  If the old node values agree with a collocation solution `W` to order
`k`, the new ones agree to order `k + 1`. -/
theorem C68_sweep_gains_order (N : ℕ → AddSubgroup D) (hN0 : N 0 = ⊤)
    (hN : ∀ k, N (k + 1) ≤ N k) (z2n : Bool) (Q qi qe : ℕ → ℕ → K) (n : ℕ) (M I E : X → D)
    (hI : ∀ k x y m i, M x - M y ∈ N k → qi m i • (I x - I y) ∈ N (k + 1))
    (hE : ∀ k x y m i, M x - M y ∈ N k → qe m i • (E x - E y) ∈ N (k + 1))
    (hQ : ∀ k x y m i, M x - M y ∈ N k → Q m i • ((I x + E x) - (I y + E y)) ∈ N (k + 1))
    (U V W : ℕ → X) (hsw : IsSweep z2n Q qi qe n M I E U V)
    (hW : IsCollocation z2n Q n M (fun x => I x + E x) W) (hUW : U 0 = W 0) (k : ℕ)
    (hk : ∀ m ≤ n, M (U m) - M (W m) ∈ N k) :
    ∀ m ≤ n, M (V m) - M (W m) ∈ N (k + 1) := by
  have anti : ∀ a b, a ≤ b → N b ≤ N a := fun a b h => by
    induction b, h using Nat.le_induction with
    | base => exact le_rfl
    | succ b _ ih => exact (hN b).trans ih
  obtain ⟨h0, hs⟩ := hsw
  have key : ∀ m, m ≤ n → ∀ j ≤ m, M (V j) - M (W j) ∈ N (k + 1) := by
    intro m
    induction m with
    | zero =>
      intro _ j hj
      obtain rfl : j = 0 := by omega
      rw [h0, hUW, sub_self]; exact zero_mem _
    | succ m ih =>
      intro hm j hj
      have ih := ih (by omega)
      by_cases hj' : j ≤ m
      · exact ih j hj'
      · obtain rfl : j = m + 1 := by omega
        have e := hs m hm
        have w := hW m hm
        have hVU : ∀ i ≤ m, M (V i) - M (U i) ∈ N k := fun i hi => by
          have := sub_mem (hN k (ih i hi)) (hk i (by omega))
          simpa using this
        have hstart : M (startNode z2n V m) - M (startNode z2n W m) ∈ N (k + 1) := by
          unfold startNode
          cases z2n
          · exact ih m le_rfl
          · exact ih 0 (Nat.zero_le _)
        -- everything but the implicit term at the new node
        set r := (M (startNode z2n V m) - M (startNode z2n W m))
          - (∑ i ∈ range m, qi m i • (I (V (i + 1)) - I (U (i + 1))))
          - (∑ i ∈ range m, qe m i • (E (V (i + 1)) - E (U (i + 1))))
          - ∑ l ∈ range n, Q m l • ((I (U (l + 1)) + E (U (l + 1)))
              - (I (W (l + 1)) + E (W (l + 1)))) with hr
        have hrN : r ∈ N (k + 1) := by
          refine sub_mem (sub_mem (sub_mem hstart ?_) ?_) ?_
          · exact sum_mem fun i hi => hI k _ _ m i (hVU (i + 1) (by have := mem_range.1 hi; omega))
          · exact sum_mem fun i hi => hE k _ _ m i (hVU (i + 1) (by have := mem_range.1 hi; omega))
          · exact sum_mem fun l hl => hQ k _ _ m l (hk (l + 1) (by have := mem_range.1 hl; omega))
        have heq : M (V (m + 1)) - M (W (m + 1))
            = r - qi m m • (I (V (m + 1)) - I (U (m + 1))) := by
          rw [e, w, hr, sum_range_succ]
          simp only [smul_sub, sum_sub_distrib]
          abel
        have boot : ∀ j, j ≤ k + 1 → M (V (m + 1)) - M (W (m + 1)) ∈ N j := by
          intro j
          induction j with
          | zero => intro _; rw [hN0]; exact AddSubgroup.mem_top _
          | succ j ihj =>
            intro hj
            rw [heq]
            refine sub_mem (anti _ _ hj hrN) (hI j _ _ m m ?_)
            have := sub_mem (ihj (by omega)) (anti j k (by omega) (hk (m + 1) hm))
            simpa using this
        exact boot (k + 1) le_rfl
  exact fun m hm => key n le_rfl m hm

/-- C68, a time step: if the initial guess on the nodes has order `p`, then after `k` sweeps of
`apply` the node values agree with the collocation solution to order `p + k`. -/
theorem C68_apply_order (S : Scheme K X D) (st : State K X) (x : X) (G : X → D)
    (hS : Good S (st.solvers.getD st.qdeltaImp) (start S st x).baseDt G)
    (hlow : ∀ m i, m ≤ i → i < S.M → S.Qe m i = 0)
    (N : ℕ → AddSubgroup D) (hN0 : N 0 = ⊤) (hN : ∀ k, N (k + 1) ≤ N k)
    (hI : ∀ k x y m i, mass S.R x - mass S.R y ∈ N k →
      (st.solvers.getD st.qdeltaImp) m i • (implPart S.R x - implPart S.R y) ∈ N (k + 1))
    (hE : ∀ k x y m i, mass S.R x - mass S.R y ∈ N k →
      S.Qe m i • ((explPart S.R x + G x) - (explPart S.R y + G y)) ∈ N (k + 1))
    (hQ : ∀ k x y m i, mass S.R x - mass S.R y ∈ N k →
      S.Q m i • ((implPart S.R x + (explPart S.R x + G x))
        - (implPart S.R y + (explPart S.R y + G y))) ∈ N (k + 1))
    (W : ℕ → X) (hW0 : W 0 = x)
    (hW : IsCollocation S.z2n S.Q S.M (mass S.R)
      (fun y => implPart S.R y + (explPart S.R y + G y)) W)
    (p : ℕ) (hp : ∀ m ≤ S.M, mass S.R (nodes S st x 0 m) - mass S.R (W m) ∈ N p) (k : ℕ) :
    ∀ m ≤ S.M, mass S.R (nodes S st x k m) - mass S.R (W m) ∈ N (p + k) := by
  induction k with
  | zero => exact hp
  | succ k ih =>
    obtain ⟨a, b⟩ := C24_apply_sweeps S st x G hS hlow k
    exact C68_sweep_gains_order N hN0 hN S.z2n S.Q _ S.Qe S.M _ _ _ hI hE hQ _ _ W b hW
      (by rw [a, hW0]) (p + k) ih

/-- "Divisible by `X^k`" in formal power series. -/
noncomputable def ordN (k : ℕ) : AddSubgroup (PowerSeries ℚ) :=
  (Ideal.span {(PowerSeries.X : PowerSeries ℚ) ^ k}).toAddSubgroup

theorem mem_ordN (k : ℕ) (a : PowerSeries ℚ) :
    a ∈ ordN k ↔ (PowerSeries.X : PowerSeries ℚ) ^ k ∣ a := by
  show a ∈ Ideal.span {(PowerSeries.X : PowerSeries ℚ) ^ k} ↔ _
  exact Ideal.mem_span_singleton

/-- The hypotheses of C68 are met by formal power series in the time step `X` with the linear
implicit tendency `X·x` and the nonlinear explicit tendency `X·x²`, and any matrices. -/
example (z2n : Bool) (Q qi qe : ℕ → ℕ → ℚ) (n : ℕ) (U V W : ℕ → PowerSeries ℚ)
    (hsw : IsSweep z2n Q qi qe n (fun x => x) (fun x => PowerSeries.X * x)
      (fun x => PowerSeries.X * x ^ 2) U V)
    (hW : IsCollocation z2n Q n (fun x => x)
      (fun x => PowerSeries.X * x + PowerSeries.X * x ^ 2) W) (hUW : U 0 = W 0) (k : ℕ)
    (hk : ∀ m ≤ n, U m - W m ∈ ordN k) : ∀ m ≤ n, V m - W m ∈ ordN (k + 1) := by
  refine C68_sweep_gains_order ordN ?_ ?_ z2n Q qi qe n (fun x => x) _ _ ?_ ?_ ?_ U V W hsw hW hUW k
    hk
  · ext a; simp [mem_ordN]
  · intro k a ha
    rw [mem_ordN] at ha ⊢
    exact (pow_dvd_pow _ (Nat.le_succ k)).trans ha
  · intro k x y m i h
    rw [mem_ordN] at h ⊢
    rw [PowerSeries.smul_eq_C_mul, ← mul_sub, pow_succ']
    exact Dvd.dvd.mul_left (mul_dvd_mul_left _ h) _
  · intro k x y m i h
    rw [mem_ordN] at h ⊢
    rw [PowerSeries.smul_eq_C_mul, ← mul_sub, pow_succ', sq_sub_sq]
    exact Dvd.dvd.mul_left (mul_dvd_mul_left _ (Dvd.dvd.mul_left h _)) _
  · intro k x y m i h
    rw [mem_ordN] at h ⊢
    rw [PowerSeries.smul_eq_C_mul, pow_succ']
    refine Dvd.dvd.mul_left ?_ _
    have : PowerSeries.X * x + PowerSeries.X * x ^ 2 - (PowerSeries.X * y + PowerSeries.X * y ^ 2)
        = PowerSeries.X * ((x - y) * (1 + x + y)) := by ring
    rw [this]
    exact mul_dvd_mul_left _ (Dvd.dvd.mul_right h _)

/-! ### Examples -/

/-- `dx/dt = -x - 2x` with the first term implicit, the second explicit. -/
def exR : LForm ℚ ℚ :=
  [{ labels := [.timeDerivative], op := fun x => x, subj := 0 },
   { labels := [.implicit], op := fun x => x, subj := 0 },
   { labels := [.explicit], op := fun x => 2 * x, subj := 0 }]

noncomputable def exS (qe : ℕ → ℕ → ℚ) (M : ℕ) : Scheme ℚ ℚ ℚ :=
  { R := exR, M := M, maxk := 1, z2n := true, Q := fun m k => (m + 2) / (k + 3), Qfin := fun _ => 1,
    Qi := fun _ _ => 1, Qe := qe, dtau := fun _ => 1, dt0 := 1, base := fun _ x => x,
    baseFlag := false, finalUpdate := false, solve := choiceSolve }

def exSt (stale : ℚ) : State ℚ ℚ :=
  { U := fun _ => 0, U1 := fun _ => stale, f := fun _ => 0, quad := fun _ => 0, sU := fun _ => 0,
    sU1 := fun _ => 0, uDC := 0, uStart := 0, un := 0, q_ := 0, quadFinal := 0, uFin := 0,
    uRhs := 0, uIn := 0, sIn := 0, baseDt := 1, qdeltaImp := fun _ _ => 1, solvers := none }

theorem exMass (x : ℚ) : mass exR x = x := by simp [exR, mass, part]
theorem exImpl (x : ℚ) : implPart exR x = x := by simp [exR, implPart, part]
theorem exExpl (x : ℚ) : explPart exR x = 2 * x := by simp [exR, explPart, part]
theorem exSrc (x : ℚ) : srcPart exR x = 0 := by simp [exR, srcPart, part]

theorem exGood (qe : ℕ → ℕ → ℚ) (M : ℕ) (dt : ℚ := 1) :
    Good (exS qe M) (fun _ _ => 1) dt (fun _ => 0) where
  exact := choiceSolve_exact
  clean := by intro t ht; simp [exS, exR] at ht; rcases ht with rfl | rfl | rfl <;> simp
  one := by intro t ht; simp [exS, exR] at ht; rcases ht with rfl | rfl | rfl <;> simp
  lin := by constructor <;> intros <;> simp [exS, exMass]
  massInv := fun d => ⟨d, exMass d, fun y hy => by rw [← hy]; exact (exMass y).symm⟩
  nodeInv := fun m _ d => by
    refine ⟨d / 2, ?_, fun y hy => ?_⟩
    · show mass exR _ + (1 : ℚ) • implPart exR _ = d
      rw [exMass, exImpl]; simp
    · have hy : mass exR y + (1 : ℚ) • implPart exR y = d := hy
      rw [exMass, exImpl] at hy
      rw [← hy]; simp
  noLimiter := rfl
  src := fun x out => exSrc _

/-- The hypotheses of the C24 theorems are met for any number of nodes, with a strictly lower
triangular explicit matrix. -/
example (M : ℕ) (x : ℚ) : nodes (exS (fun m i => if i < m then 1 else 0) M) (exSt 7) x 5 0 = x :=
  (C24_apply_sweeps (exS (fun m i => if i < m then 1 else 0) M) (exSt 7) x (fun _ => 0)
    (exGood _ M _) (fun m i h _ => by simp [exS]; omega) 5).1

/-- C24 fails for an explicit matrix that is not strictly lower triangular (as for
`qdelta_exp = "EXACT"`): in the first sweep the not yet updated new node values are those left
behind by the previous time step, so the result of a step depends on more than its input. -/
theorem C24_full_explicit_matrix_refuted :
    (SDC.apply (exS (fun _ _ => 1) 1) (exSt 0) 1).2
      ≠ (SDC.apply (exS (fun _ _ => 1) 1) (exSt 1) 1).2 := by
  have key : ∀ a : ℚ, ∃ q : ℚ, q = 2 ∧
      (SDC.apply (exS (fun _ _ => 1) 1) (exSt a) 1).2 * 2 = 1 + 1 + 2 - 2 * a - q := by
    intro a
    have hr := rhsLoop_f (exS (fun _ _ => 1) 1) choiceSolve_exact (fun _ => 0)
      (exGood (fun _ _ => 1) 1).massInv (start (exS (fun _ _ => 1) 1) (exSt a) 1)
      (fun x out => exSrc _) 1 0 (by omega)
    set s1 := (List.range 1).foldl (rhsBody (exS (fun _ _ => 1) 1))
      (start (exS (fun _ _ => 1) 1) (exSt a) 1) with hs1
    have hU : (start (exS (fun _ _ => 1) 1) (exSt a) 1).U (0 + 1) = 1 := rfl
    rw [hU, restNoSource_eq _ (exGood (fun _ _ => 1) 1).clean (exGood (fun _ _ => 1) 1).one] at hr
    have hr : mass exR (s1.f 0) = implPart exR 1 + explPart exR 1 + 0 := hr
    rw [exMass, exImpl, exExpl] at hr
    set s3 : State ℚ ℚ := { computeQuad (exS (fun _ _ => 1) 1) s1 with
      U1 := Function.update s1.U1 0 (s1.U 0),
      sU := Function.update s1.sU 0 (evalSrc (exS (fun _ _ => 1) 1) s1.baseDt (s1.U 0) (s1.sU 0)) }
      with hs3
    have hout : (SDC.apply (exS (fun _ _ => 1) 1) (exSt a) 1).2
        = (nodeBody (exS (fun _ _ => 1) 1) (fun _ _ => 1) s3 0).U1 (0 + 1) := by
      have h1 : (SDC.apply (exS (fun _ _ => 1) 1) (exSt a) 1).2
          = (sweep (exS (fun _ _ => 1) 1) (fun _ _ => 1)
              (start (exS (fun _ _ => 1) 1) (exSt a) 1) 1).U 1 := by
        have e : (SDC.apply (exS (fun _ _ => 1) 1) (exSt a) 1).2
            = (sweeps (exS (fun _ _ => 1) 1) (start (exS (fun _ _ => 1) 1) (exSt a) 1) (0 + 1)).U 1 := by
          rfl
        rw [e, sweeps_succ]; rfl
      rw [h1]
      exact ((copyLoop (nodeBody (exS (fun _ _ => 1) 1) (fun _ _ => 1) s3 0) 1).2.2.2.2.2.2.2.2.1
        0 (by omega)).1
    rw [(nodeBody_eq (exS (fun _ _ => 1) 1) (fun _ _ => 1) s3 0).1] at hout
    set p := nodePre (exS (fun _ _ => 1) 1) s3 0 with hp
    have hq : p.q_ = 2 / 3 * s1.f 0 := by
      have : p.q_ = (computeQuad (exS (fun _ _ => 1) 1) s1).quad 0 := rfl
      rw [this]
      simp [computeQuad, exS, List.range_succ]
    have hq2 : p.q_ = 2 := by rw [hq, hr]; norm_num
    have p1 : p.U1 (0 + 1) = a := rfl
    have p2 : p.U (0 + 1) = 1 := rfl
    have p3 : p.uStart = 1 := rfl
    have he : ∀ y, (res (exS (fun _ _ => 1) 1) (fun _ _ => 1) p 0 y).eval
        = 2 * y - 1 - 1 + 2 * (a - 1) + 2 := fun y => by
      rw [eval_res, p2, p3, hq2]
      show mass exR y - mass exR 1 + (∑ i ∈ range 0, _) + (∑ i ∈ range 1, (1 : ℚ) •
          ((explPart exR (p.U1 (i + 1)) - explPart exR (p.U (i + 1)))
            + (srcPart exR (p.sU1 (i + 1)) - srcPart exR (p.sU (i + 1)))))
        + (1 : ℚ) • (implPart exR y - implPart exR 1) + mass exR 2 = _
      rw [sum_range_one, p1, p2]
      simp only [exMass, exImpl, exExpl, exSrc, range_zero, sum_empty, smul_eq_mul]; ring
    have hx := choiceSolve_exact (fun y => (res (exS (fun _ _ => 1) 1) (fun _ _ => 1) p 0 y).eval)
      (s3.U (0 + 1)) (by
        refine ⟨(2 - 2 * (a - 1) - 2) / 2, ?_, fun y hy => ?_⟩
        · show (res (exS (fun _ _ => 1) 1) (fun _ _ => 1) p 0 _).eval = 0
          rw [he]; ring
        · have hy : (res (exS (fun _ _ => 1) 1) (fun _ _ => 1) p 0 y).eval = 0 := hy
          rw [he] at hy
          rw [eq_div_iff (by norm_num)]; linear_combination hy)
    rw [he] at hx
    refine ⟨2, rfl, ?_⟩
    have hl : ∀ z, limit (exS (fun _ _ => 1) 1) z = z := fun z => rfl
    rw [hout, hl]
    have hs : (exS (fun _ _ => 1) 1).solve = choiceSolve := rfl
    rw [hs]
    linear_combination hx
  obtain ⟨_, rfl, h0⟩ := key 0
  obtain ⟨_, rfl, h1⟩ := key 1
  intro h
  rw [h] at h0
  linarith

/-! ### Checks at construction -/

/-- C24: the two documented formulations are accepted and nothing else. -/
theorem C24_formulations (f : String) : formulationAccepted f = true ↔ f = "N2N" ∨ f = "Z2N" := by
  simp [formulationAccepted]

/-- C24: `setup` accepts a residual exactly if every term that is not a time derivative is labelled
implicit, explicit or source. -/
theorem C24_setup_check (R : LForm X D) :
    SDC.setupAccepts R = true ↔ ∀ t ∈ R, Label.timeDerivative ∉ t.labels →
      Label.implicit ∈ t.labels ∨ Label.explicit ∈ t.labels ∨ Label.source ∈ t.labels := by
  simp only [SDC.setupAccepts, List.all_eq_true, Bool.or_eq_true, IMEX.isImpl, IMEX.isExpl, isTD,
    IMEX.isSrc, Term.has, decide_eq_true_eq]
  constructor
  · intro h t ht hn
    have := h t ht
    tauto
  · intro h t ht
    have := h t ht
    tauto

end SDCProps
end Gusto.Props
