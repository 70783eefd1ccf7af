import Verif.Props.DeferredCorrection

set_option autoImplicit false

/-!
# C67: revisionist integral deferred correction
-/

set_option linter.unusedSectionVars false
set_option linter.unusedSimpArgs false

namespace Gusto.Props
open Gusto LForm TimeDisc Spec Finset
variable {K X D : Type*} [Field K] [AddCommGroup X] [Module K X] [AddCommGroup D] [Module K D]

namespace RIDCProps
open RIDC SDCProps

/-- As `SDCProps.Good`, for RIDC: the implicit node problems have coefficient `dt`. -/
structure Good (S : Scheme K X D) (dt : K) (G : X → D) : Prop where
  exact : ExactSolver S.solve
  clean : TDClean S.R
  one : ExactlyOneKind S.R
  lin : IsLin K (mass S.R)
  massInv : ∀ d : D, ∃! y, mass S.R y = d
  nodeInv : ∀ d : D, ∃! y, mass S.R y + S.dt • implPart S.R y = d
  noLimiter : S.limiter = none
  src : ∀ x out, srcPart S.R (evalSrc S dt x out) = G x

/-- Sources stored for the old values of the nodes after the first. -/
def SrcStored (S : Scheme K X D) (G : X → D) (st : State K X) : Prop :=
  ∀ i < S.M, srcPart S.R (st.sU (i + 1)) = G (st.U (i + 1))

theorem mass_quadAt (S : Scheme K X D) (hlin : IsLin K (mass S.R)) (k : ℕ) (f : ℕ → X) (F : ℕ → D)
    (m : ℕ) (hm : m < S.M) (hst : stencil S k ≤ S.M) (hf : ∀ j ≤ S.M, mass S.R (f j) = F j) :
    mass S.R (quadAt S k f m) = ridcQuad (S.Q k) (stencil S k) F m := by
  unfold quadAt ridcQuad
  split
  · rename_i h
    rw [computeQuad, SDC.quad_foldl, zero_add, lin_sum _ hlin]
    exact sum_congr rfl fun j hj => by
      rw [hf j (by have := mem_range.1 hj; omega)]
  · rename_i h
    have := SDC.quad_foldl (fun j => S.Q k (stencil S k) j)
      (fun j => f (m + 1 - stencil S k + j)) (stencil S k + 1) (0 : X)
    rw [computeQuadFinal, this, zero_add, lin_sum _ hlin]
    exact sum_congr rfl fun j hj => by
      rw [hf _ (by have := mem_range.1 hj; omega)]

/-- What a correction does to the node values. -/
theorem sweep_spec (S : Scheme K X D) (G : X → D) (st : State K X) (hS : Good S st.baseDt G)
    (hsrc : SrcStored S G st) (k : ℕ) (hk : stencil S k ≤ S.M) :
    IsRIDCSweep (S.Q k) (stencil S k) S.M S.dt (mass S.R) (implPart S.R)
        (fun x => explPart S.R x + G x) (srcPart S.R (st.sU1 0) - G (st.U 0))
        st.U (sweep S st k).U ∧
      SrcStored S G (sweep S st k) ∧ (sweep S st k).sU1 0 = st.sU1 0 ∧
      (sweep S st k).baseDt = st.baseDt := by
  set s1 := (List.range (S.M + 1)).foldl (rhsBody S) st with hs1
  obtain ⟨b1, b2, b3, b4, b5⟩ := rhsLoop_frame S st (S.M + 1)
  rw [← hs1] at b1 b2 b3 b4 b5
  have hf : ∀ i ≤ S.M, mass S.R (s1.f i)
      = implPart S.R (st.U i) + (explPart S.R (st.U i) + G (st.U i)) := fun i hi => by
    rw [hs1, rhsLoop_f S hS.exact G hS.massInv st hS.src (S.M + 1) i (by omega),
      restNoSource_eq _ hS.clean hS.one]; abel
  set s3 : State K X := { s1 with
    U1 := Function.update s1.U1 0 (s1.U 0),
    sU := Function.update s1.sU 0 (evalSrc S s1.baseDt (s1.U 0) (s1.sU 0)) } with hs3
  have hsweep : sweep S st k = (List.range (S.M + 1)).foldl (fun st i =>
      { st with U := Function.update st.U i (st.U1 i),
                sU := Function.update st.sU i (st.sU1 i) })
      (((List.range S.M).drop (stencil S k)).foldl (tailBody S k)
        ((List.range (stencil S k)).foldl (headBody S k) s3)) := rfl
  rw [loops_eq S k hk] at hsweep
  have c1 : s3.U = st.U := b1
  have c2' : s3.U1 0 = st.U 0 := by
    show Function.update s1.U1 0 (s1.U 0) 0 = _
    rw [Function.update_self, b1]
  have c3 : ∀ i, s3.sU (i + 1) = st.sU (i + 1) := fun i => by
    show Function.update s1.sU 0 (evalSrc S s1.baseDt (s1.U 0) (s1.sU 0)) (i + 1) = _
    rw [Function.update_of_ne (by omega), b3]
  have c3' : srcPart S.R (s3.sU 0) = G (st.U 0) := by
    show srcPart S.R (Function.update s1.sU 0 (evalSrc S s1.baseDt (s1.U 0) (s1.sU 0)) 0) = _
    rw [Function.update_self, b5, hS.src, b1]
  have c4 : s3.sU1 = st.sU1 := b4
  have c7 : s3.baseDt = st.baseDt := b5
  have c8 : ∀ m < S.M, mass S.R (quadAt S k s3.f m) = ridcQuad (S.Q k) (stencil S k)
      (fun j => implPart S.R (st.U j) + (explPart S.R (st.U j) + G (st.U j))) m := fun m hm =>
    mass_quadAt S hS.lin k _ _ m hm hk hf
  set L : ℕ → State K X := fun n => (List.range n).foldl (body S k) s3 with hL
  obtain ⟨d1, d2, d3, d4⟩ := copyLoop (L S.M) (S.M + 1)
  rw [← hsweep] at d1 d2 d3 d4
  have hfr := nodeLoop_frame S k s3
  have hnode : ∀ m < S.M, ∃ y, y = (L S.M).U1 (m + 1) ∧
      (L S.M).sU1 (m + 1) = evalSrc S st.baseDt y (st.sU1 (m + 1)) ∧
      (res S (nodePre S k (L m) m) y).eval = 0 := fun m hm => by
    obtain ⟨f1, f2, f3, f4, f5, f6, f7⟩ := hfr m
    have hLs : L (m + 1) = body S k (L m) m := by
      simp only [hL, List.range_succ, List.foldl_append, List.foldl_cons, List.foldl_nil]
    obtain ⟨g1, g2⟩ := body_eq S k (L m) m
    have hst1 := nodeLoop_stable S k s3 (m + 1) S.M (m + 1) hm le_rfl
    refine ⟨S.solve (fun y => (res S (nodePre S k (L m) m) y).eval) ((L m).U (m + 1)), ?_, ?_, ?_⟩
    · show _ = (L S.M).U1 (m + 1)
      rw [show (L S.M).U1 (m + 1) = (L (m + 1)).U1 (m + 1) from hst1.1, hLs, g1]
      simp [limit, hS.noLimiter]
    · rw [show (L S.M).sU1 (m + 1) = (L (m + 1)).sU1 (m + 1) from hst1.2, hLs, g2,
        show (L m).baseDt = s3.baseDt from f4, c7,
        show (L m).sU1 (m + 1) = s3.sU1 (m + 1) from (f7 m le_rfl), c4]
    · refine hS.exact (fun y => (res S (nodePre S k (L m) m) y).eval) _ ?_
      set p := nodePre S k (L m) m
      obtain ⟨y, hy, hu⟩ := hS.nodeInv (mass S.R p.uStart
        - S.dt • (srcPart S.R p.sU1m - srcPart S.R p.sUm)
        + S.dt • implPart S.R p.ukmp1
        - S.dt • (explPart S.R p.ukp1m - explPart S.R p.ukm) - mass S.R p.q_)
      refine ⟨y, ?_, fun z hz => hu z ?_⟩
      · show (res S p y).eval = 0
        rw [eval_res]
        have hy : mass S.R y + S.dt • implPart S.R y = _ := hy
        linear_combination (norm := module) hy
      · have hz : (res S p z).eval = 0 := hz
        rw [eval_res] at hz
        show mass S.R z + S.dt • implPart S.R z = _
        linear_combination (norm := module) hz
  have hsrcNew : ∀ m < S.M, srcPart S.R ((L S.M).sU1 (m + 1)) = G ((L S.M).U1 (m + 1)) :=
    fun m hm => by
      obtain ⟨y, h1, h2, -⟩ := hnode m hm
      rw [h2, hS.src, h1]
  have hV : ∀ i ≤ S.M, (sweep S st k).U i = (L S.M).U1 i := fun i hi => (d4 i (by omega)).1
  have hL0 : (L S.M).U1 0 = st.U 0 := by
    rw [show (L S.M).U1 0 = s3.U1 0 from (hfr S.M).2.2.2.2.1, c2']
  refine ⟨⟨by rw [hV 0 (Nat.zero_le _), hL0], fun m hm => ?_⟩, fun i hi => ?_, ?_, ?_⟩
  · obtain ⟨y, h1, h2, h3⟩ := hnode m hm
    obtain ⟨f1, f2, f3, f4, f5, f6, f7⟩ := hfr m
    have hst1 := nodeLoop_stable S k s3 m S.M m hm.le le_rfl
    rw [eval_res] at h3
    have p1 : (nodePre S k (L m) m).uStart = (sweep S st k).U m := by
      rw [hV m hm.le]; exact hst1.1.symm
    have p2 : (nodePre S k (L m) m).ukp1m = (sweep S st k).U m := p1
    have p3 : (nodePre S k (L m) m).ukmp1 = st.U (m + 1) := by
      show (L m).U (m + 1) = _
      rw [← c1]; exact congrFun f1 _
    have p4 : (nodePre S k (L m) m).ukm = st.U m := by
      show (L m).U m = _
      rw [← c1]; exact congrFun f1 _
    have p5 : mass S.R (nodePre S k (L m) m).q_ = ridcQuad (S.Q k) (stencil S k)
        (fun j => implPart S.R (st.U j) + (explPart S.R (st.U j) + G (st.U j))) m := by
      rw [← c8 m hm]
      show mass S.R (quadAt S k (L m).f m) = _
      rw [show (L m).f = s3.f from f3]
    have p6 : srcPart S.R (nodePre S k (L m) m).sU1m - srcPart S.R (nodePre S k (L m) m).sUm
        = (if m = 0 then srcPart S.R (st.sU1 0) - G (st.U 0) else 0)
          + (G ((sweep S st k).U m) - G (st.U m)) := by
      show srcPart S.R ((L m).sU1 m) - srcPart S.R ((L m).sU m) = _
      rw [show (L m).sU = s3.sU from f2]
      rcases m with _ | m
      · rw [show (L 0).sU1 0 = s3.sU1 0 from rfl, c4, c3', hV 0 (Nat.zero_le _), hL0]; simp
      · rw [show (L (m + 1)).sU1 (m + 1) = (L S.M).sU1 (m + 1) from hst1.2.symm,
          hsrcNew m (by omega), c3, hsrc m (by omega), hV (m + 1) hm.le]; simp
    rw [p1, p2, p3, p4, p5, p6, h1, ← hV (m + 1) hm] at h3
    by_cases hm0 : m = 0
    · simp only [hm0, if_true] at h3 ⊢
      linear_combination (norm := module) h3
    · simp only [hm0, if_false] at h3 ⊢
      linear_combination (norm := module) h3
  · rw [(d4 (i + 1) (by omega)).1, (d4 (i + 1) (by omega)).2]; exact hsrcNew i hi
  · rw [d2, show (L S.M).sU1 0 = s3.sU1 0 from (hfr S.M).2.2.2.2.2.1, c4]
  · rw [d3, show (L S.M).baseDt = s3.baseDt from (hfr S.M).2.2.2.1, c7]

/-- The integral equation on the nodes solved by RIDC with quadrature matrix `q` and stencil `l`. -/
def IsIntegral (q : ℕ → ℕ → K) (l n : ℕ) (M F : X → D) (U : ℕ → X) : Prop :=
  ∀ m < n, M (U (m + 1)) = M (U m) - ridcQuad q l (fun j => F (U j)) m

theorem ridc_fixed_iff (q : ℕ → ℕ → K) (l n : ℕ) (dt : K) (M I E : X → D) (e : D)
    (hinv : ∀ d : D, ∃! y, M y + dt • I y = d) (U V : ℕ → X)
    (h : IsRIDCSweep q l n dt M I E e U V) :
    (∀ m ≤ n, V m = U m) ↔ ∀ m < n, M (U (m + 1)) = M (U m)
      - (if m = 0 then dt • e else 0) - ridcQuad q l (fun j => I (U j) + E (U j)) m := by
  obtain ⟨h0, h⟩ := h
  constructor
  · intro hf m hm
    have := h m hm
    rw [hf (m + 1) hm, hf m hm.le] at this
    rw [this]; simp
  · intro hc m
    induction m with
    | zero => exact fun _ => h0
    | succ m ih =>
      intro hm
      have e1 := h m hm
      have c := hc m hm
      rw [ih (by omega)] at e1
      obtain ⟨y, -, hu⟩ := hinv (M (U (m + 1)) + dt • I (U (m + 1)))
      rw [hu (V (m + 1)) (by
        show M (V (m + 1)) + dt • I (V (m + 1)) = _
        rw [c]; linear_combination (norm := module) e1), hu (U (m + 1)) rfl]

/-- C67 without physics sources: a RIDC correction leaves the node values unchanged if and only if
they satisfy the integral equation for the correction's quadrature matrix. -/
theorem C67_fixed_iff_partial (S : Scheme K X D) (st : State K X) (hS : Good S st.baseDt fun _ => 0)
    (hno : ∀ x, srcPart S.R x = 0) (k : ℕ) (hk : stencil S k ≤ S.M) :
    (∀ m ≤ S.M, (sweep S st k).U m = st.U m) ↔
      IsIntegral (S.Q k) (stencil S k) S.M (mass S.R)
        (fun x => implPart S.R x + explPart S.R x) st.U := by
  have h := ridc_fixed_iff _ _ _ _ _ _ _ _ hS.nodeInv _ _
    (sweep_spec S (fun _ => 0) st hS (fun i _ => hno _) k hk).1
  rw [h]
  unfold IsIntegral
  simp [hno]

/-- C67 with sources fails: if the node values do satisfy the integral equation (sources included),
a correction still changes them, unless `dt` times the difference between the source left in the
never evaluated slot `source_Ukp1[0]` and the source of the old state vanishes. -/
theorem C67_source_refuted (S : Scheme K X D) (G : X → D) (st : State K X)
    (hS : Good S st.baseDt G) (hsrc : SrcStored S G st) (k : ℕ) (hk : stencil S k ≤ S.M)
    (hM : 0 < S.M)
    (hU : IsIntegral (S.Q k) (stencil S k) S.M (mass S.R)
        (fun x => implPart S.R x + (explPart S.R x + G x)) st.U) :
    (∀ m ≤ S.M, (sweep S st k).U m = st.U m) ↔
      S.dt • (srcPart S.R (st.sU1 0) - G (st.U 0)) = 0 := by
  have h := ridc_fixed_iff _ _ _ _ _ _ _ _ hS.nodeInv _ _ (sweep_spec S G st hS hsrc k hk).1
  rw [h]
  constructor
  · intro hc
    have a := hc 0 hM
    have b := hU 0 hM
    rw [b] at a
    simp only [if_true] at a
    linear_combination (norm := module) a
  · intro he m hm
    rw [he, hU m hm]; simp

/-- C67, the correction equations as executed by every sweep of a time step (`k`-th sweep of
`apply`), without physics sources. -/
theorem C67_sweep_equation_partial (S : Scheme K X D) (st : State K X)
    (hS : Good S st.baseDt fun _ => 0) (hno : ∀ x, srcPart S.R x = 0) (k : ℕ)
    (hk : stencil S k ≤ S.M) :
    IsRIDCSweep (S.Q k) (stencil S k) S.M S.dt (mass S.R) (implPart S.R) (explPart S.R) 0
      st.U (sweep S st k).U := by
  have h := (sweep_spec S (fun _ => 0) st hS (fun i _ => hno _) k hk).1
  simpa [hno] using h

/-- `apply` raises an error when the stencil is longer than the interval, and otherwise returns the
last node value after `Kc` corrections of the base scheme's trajectory. -/
theorem C67_apply (S : Scheme K X D) (st : State K X) (x : X) :
    ((RIDC.apply S st x).isNone ↔ S.M < S.Kc) ∧
    (S.Kc ≤ S.M → (RIDC.apply S st x).map (·.2)
      = some ((sweeps S (start S st x) S.Kc).U S.M)) := by
  unfold RIDC.apply
  by_cases h : S.M < S.Kc
  · simp [h]
  · simp [h]

/-! ### Example -/

def exR : LForm ℚ ℚ := SDCProps.exR ++ [{ labels := [.source], op := fun x => x, subj := 0 }]

noncomputable def exS (R : LForm ℚ ℚ) (ev : List (ℚ → ℚ → ℚ)) : Scheme ℚ ℚ ℚ :=
  { R := R, M := 3, Kc := 2, reduced := true, Q := fun k m j => (k + m) / (j + 1), dt := 1,
    base := fun _ x => x, solve := choiceSolve, evaluate := ev }

theorem exGood (dt : ℚ) : Good (exS SDCProps.exR []) dt (fun _ => 0) where
  exact := choiceSolve_exact
  clean := (SDCProps.exGood (fun _ _ => 1) 1).clean
  one := (SDCProps.exGood (fun _ _ => 1) 1).one
  lin := (SDCProps.exGood (fun _ _ => 1) 1).lin
  massInv := (SDCProps.exGood (fun _ _ => 1) 1).massInv
  nodeInv := (SDCProps.exGood (fun _ _ => 1) 1).nodeInv 0 (by simp [SDCProps.exS])
  noLimiter := rfl
  src := fun x out => SDCProps.exSrc _

/-- The hypotheses of C67 are met. -/
example (st : State ℚ ℚ) : IsRIDCSweep (fun m j => (((1 : ℕ) : ℚ) + m) / (j + 1)) 1 3 (1 : ℚ)
    (mass SDCProps.exR) (implPart SDCProps.exR) (explPart SDCProps.exR) 0 st.U
    (sweep (exS SDCProps.exR []) st 1).U :=
  C67_sweep_equation_partial (exS SDCProps.exR []) st (exGood _) (fun x => SDCProps.exSrc x) 1
    (by decide)

/-- A scheme with a source equal to the state: hypotheses of `C67_source_refuted`. -/
theorem exGoodS (dt : ℚ) : Good (exS exR [fun _ x => x]) dt (fun x => x) where
  exact := choiceSolve_exact
  clean := by
    intro t ht; simp [exS, exR, SDCProps.exR] at ht; rcases ht with rfl | rfl | rfl | rfl <;> simp
  one := by
    intro t ht; simp [exS, exR, SDCProps.exR] at ht; rcases ht with rfl | rfl | rfl | rfl <;> simp
  lin := by constructor <;> intros <;> simp [exS, exR, SDCProps.exR, mass, part]
  massInv := fun d => ⟨d, by simp [exS, exR, SDCProps.exR, mass, part],
    fun y hy => by simpa [exS, exR, SDCProps.exR, mass, part] using hy⟩
  nodeInv := fun d => by
    refine ⟨d / 2, ?_, fun y hy => ?_⟩
    · simp [exS, exR, SDCProps.exR, mass, implPart, part]
    · simp [exS, exR, SDCProps.exR, mass, implPart, part] at hy
      rw [← hy]; simp
  noLimiter := rfl
  src := fun x out => by simp [exS, exR, SDCProps.exR, srcPart, part, evalSrc]

/-- Node values that solve the integral equation with the source included, but are changed by a
correction (`x' = -x - 2x - x` from `x = 1`, the slot `source_Ukp1[0]` holding 0). -/
example (st : State ℚ ℚ) (h0 : st.U 0 = 1) (hs : st.sU1 0 = 0)
    (hsrc : SrcStored (exS exR [fun _ x => x]) (fun x => x) st)
    (hU : IsIntegral ((exS exR [fun _ x => x]).Q 1) 1 3 (mass exR)
        (fun x => implPart exR x + (explPart exR x + x)) st.U) :
    ¬ ∀ m ≤ 3, (sweep (exS exR [fun _ x => x]) st 1).U m = st.U m := by
  intro h
  have := (C67_source_refuted (exS exR [fun _ x => x]) (fun x => x) st (exGoodS _) hsrc 1
    (by decide) (by decide) hU).1 h
  rw [h0, hs] at this
  simp [exS, exR, SDCProps.exR, srcPart, part] at this

end RIDCProps
end Gusto.Props
