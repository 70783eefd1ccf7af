import Verif.Model.ConsistentMetric
import Mathlib.Analysis.Normed.Operator.Basic
import Mathlib.Tactic

set_option autoImplicit false
set_option linter.unusedSectionVars false
set_option linter.unusedSimpArgs false

/-!
# C134: the consistent metric term

`height` is the vertical coordinate in the space of the tracer z.  In every call of `transport_fields` theta must be transported by
the wind in which the vertical motion `w` is replaced by `w + (w - w_h)`, `w_h` being the rate at which the transport scheme itself
moves the height with the standard wind in that same call.
-/

namespace Gusto.Props.ConsistentMetricProps
open Gusto Gusto.ConsistentMetric

section
variable {ι : Type*} [DecidableEq ι] {K : Type*} [Field K] {V : ι → Type*}
  [∀ i, AddCommGroup (V i)] [∀ i, Module K (V i)] {S W : Type*} [AddCommGroup S] [Module K S] [AddCommGroup W] [Module K W]

/-- The rate at which a transport map moves the height over a step (spec). -/
def heightRate (m : Metric K V S W) (f : V m.u → V m.z → V m.z) (ubar : V m.u) : S :=
  m.interp (m.dt⁻¹ • (m.height - f ubar m.height))

/-- The wind which transports theta (spec): the projection of the standard wind with the error of the rate of the height added. -/
def thetaWind (m : Metric K V S W) (f : V m.u → V m.z → V m.z) (ubar : V m.u) : V m.u :=
  m.project (m.emb ubar + m.kmul (m.dotk (m.emb ubar) - heightRate m f ubar))

/-- The wind of the scheme of a single field (spec). -/
def windFor (m : Metric K V S W) (f : V m.u → V m.z → V m.z) (ubar : V m.u) (i : ι) : V m.u :=
  if i = m.theta then thetaWind m f ubar else ubar

/-- An entry of the list as a transport map of the model without consistent metric term, with the height read in place of the tracer
z and the corrected wind for theta (spec). -/
def asTransport (m : Metric K V S W) (f : V m.u → V m.z → V m.z) : Entry V m.u → QN.Transport V m.u
  | .one i g => ⟨[i], fun w x => Function.update x i
      (applyOne m i g (windFor m f w i) (Function.update x m.z m.height))⟩
  | .many l g => ⟨l, fun w x => g w (Function.update x m.z m.height)⟩

/-- What the constructor accepts: the first scheme is the one of z; `rest` may hold further entries for z, made from the same scheme
(one for every transport method of z). -/
structure Accepted (m : Metric K V S W) (f : V m.u → V m.z → V m.z) (rest : List (Entry V m.u)) : Prop where
  consistent : m.consistent = true
  zTheta : m.z ≠ m.theta
  noPredictor : m.predictor ≠ some m.z
  same : ∀ g, Entry.one m.z g ∈ rest → g = f

/-- The state after the first pass, and after every later one (auxiliary invariant). -/
structure Good (m : Metric K V S W) (f : V m.u → V m.z → V m.z) (ubar : V m.u) (xs : ∀ i, V i) (s : State V m.u S) : Prop where
  star : s.xstar = Function.update xs m.z m.height
  adv : s.advZ = heightRate m f ubar
  wind : s.wind = thetaWind m f ubar

theorem zStep (m : Metric K V S W) (f : V m.u → V m.z → V m.z) (hc : m.consistent = true) (hz : m.z ≠ m.theta)
    (hp : m.predictor ≠ some m.z) (ubar : V m.u) (xs : ∀ i, V i) (s : State V m.u S)
    (hs : Function.update s.xstar m.z m.height = Function.update xs m.z m.height) :
    Good m f ubar xs (entryStep m ubar s (.one m.z f)) ∧
      (entryStep m ubar s (.one m.z f)).xp =
        (fun i => if i ∈ (asTransport m f (.one m.z f)).fields then (asTransport m f (.one m.z f)).step ubar xs i else s.xp i) := by
  have hcond : m.predictor ≠ some m.z ∧ m.consistent = true ∧ True := ⟨hp, hc, trivial⟩
  simp only [entryStep]
  rw [if_pos hcond]
  have hw : schemeWind m ubar s.wind m.z = ubar := by simp [schemeWind, hz]
  refine ⟨⟨hs, ?_, ?_⟩, ?_⟩
  · simp [heightRate, hw, applyOne, hp]
  · simp [heightRate, hw, applyOne, hp, windExpr, thetaWind]
  · funext i
    by_cases hi : i = m.z
    · subst hi
      simp [asTransport, applyOne, hp, hw, windFor, hz]
    · simp [asTransport, hi]

theorem stepGood (m : Metric K V S W) (f : V m.u → V m.z → V m.z) (hc : m.consistent = true) (hz : m.z ≠ m.theta)
    (hp : m.predictor ≠ some m.z) (ubar : V m.u) (xs : ∀ i, V i) (s : State V m.u S) (hg : Good m f ubar xs s)
    (e : Entry V m.u) (he : ∀ g, e = .one m.z g → g = f) :
    Good m f ubar xs (entryStep m ubar s e) ∧
      (entryStep m ubar s e).xp =
        (fun i => if i ∈ (asTransport m f e).fields then (asTransport m f e).step ubar xs i else s.xp i) := by
  cases e with
  | many l g =>
    refine ⟨⟨hg.star, hg.adv, hg.wind⟩, ?_⟩
    funext i
    by_cases hi : i ∈ l <;> simp [entryStep, asTransport, hg.star, hi]
  | one i g =>
    by_cases hi : i = m.z
    · subst hi
      have := he g rfl
      subst this
      refine zStep m g hc hz hp ubar xs s ?_
      rw [hg.star]; simp
    · have hcond : ¬ (m.predictor ≠ some i ∧ m.consistent = true ∧ i = m.z) := fun h => hi h.2.2
      simp only [entryStep]
      rw [if_neg hcond]
      refine ⟨⟨hg.star, hg.adv, hg.wind⟩, ?_⟩
      funext j
      have hw : schemeWind m ubar s.wind i = windFor m f ubar i := by
        simp [schemeWind, windFor, hc, hg.wind]
      by_cases hj : j = i
      · subst hj
        simp [asTransport, hw, hg.star]
      · simp [asTransport, hj]

/-- **C134** (every call, any list of schemes).  `transport_fields` with the consistent metric term computes what the loop without it
computes from the maps `asTransport`: the tracer z is the height moved by the standard wind, theta is moved by `thetaWind` of that
call, every other field by the standard wind.  It leaves the height in `xstar`, the rate in `adv_z` and the wind in
`consistent_wind`.  Nothing depends on the old values of `adv_z`, `consistent_wind` and of the tracer z. -/
theorem C134_transport (m : Metric K V S W) (f : V m.u → V m.z → V m.z) (rest : List (Entry V m.u)) (ha : Accepted m f rest)
    (ubar : V m.u) (s : State V m.u S) :
    let r := transportFields m (.one m.z f :: rest) ubar s
    r.xp = QN.transportFields ((Entry.one m.z f :: rest).map (asTransport m f)) ubar s.xstar s.xp ∧
    r.xstar = Function.update s.xstar m.z m.height ∧ r.advZ = heightRate m f ubar ∧ r.wind = thetaWind m f ubar := by
  have key : ∀ (l : List (Entry V m.u)), (∀ g, Entry.one m.z g ∈ l → g = f) → ∀ (s' : State V m.u S), Good m f ubar s.xstar s' →
      Good m f ubar s.xstar (l.foldl (entryStep m ubar) s') ∧
      (l.foldl (entryStep m ubar) s').xp = QN.transportFields (l.map (asTransport m f)) ubar s.xstar s'.xp := by
    intro l
    induction l with
    | nil => intro _ s' hg; exact ⟨hg, rfl⟩
    | cons e l ih =>
      intro hl s' hg
      have h1 := stepGood m f ha.consistent ha.zTheta ha.noPredictor ubar s.xstar s' hg e
        (fun g hgeq => hl g (by rw [← hgeq]; exact List.mem_cons_self))
      have h2 := ih (fun g hg' => hl g (List.mem_cons_of_mem _ hg')) _ h1.1
      refine ⟨h2.1, ?_⟩
      simp only [List.foldl_cons, List.map_cons, QN.transportFields] at h2 ⊢
      rw [h2.2, h1.2]
  have h1 := zStep m f ha.consistent ha.zTheta ha.noPredictor ubar s.xstar s rfl
  have h2 := key rest ha.same _ h1.1
  refine ⟨?_, h2.1.star, h2.1.adv, h2.1.wind⟩
  simp only [transportFields, List.foldl_cons, List.map_cons, QN.transportFields] at h2 ⊢
  rw [h2.2, h1.2]

theorem foldl_not_mem {u : ι} (ts : List (QN.Transport V u)) (i : ι) (h : ∀ t ∈ ts, i ∉ t.fields) (vel : V u) (xs xp : ∀ i, V i) :
    QN.transportFields ts vel xs xp i = xp i := by
  induction ts generalizing xp with
  | nil => rfl
  | cons t ts ih =>
    have := ih (fun t ht => h t (List.mem_cons_of_mem _ ht))
      (fun j => if j ∈ t.fields then t.step vel xs j else xp j)
    simp only [QN.transportFields, List.foldl_cons] at this ⊢
    rw [this, if_neg (h t List.mem_cons_self)]

theorem foldl_last {u : ι} (l1 l2 : List (QN.Transport V u)) (t : QN.Transport V u) (i : ι) (hi : i ∈ t.fields)
    (h : ∀ t ∈ l2, i ∉ t.fields) (vel : V u) (xs xp : ∀ i, V i) :
    QN.transportFields (l1 ++ t :: l2) vel xs xp i = t.step vel xs i := by
  have := foldl_not_mem l2 i h vel xs
    (fun j => if j ∈ t.fields then t.step vel xs j else QN.transportFields l1 vel xs xp j)
  simp only [QN.transportFields, List.foldl_append, List.foldl_cons] at this ⊢
  rw [this, if_pos hi]

theorem fields_asTransport (m : Metric K V S W) (f : V m.u → V m.z → V m.z) (e : Entry V m.u) :
    (asTransport m f e).fields = e.fields := by cases e <;> rfl

/-- **C134** (field by field).  The last scheme for a field decides: the tracer z becomes the height moved by the standard wind, theta
is moved from `xstar` by the corrected wind, any other single field by the standard wind. -/
theorem C134_fields (m : Metric K V S W) (f : V m.u → V m.z → V m.z) (rest : List (Entry V m.u)) (ha : Accepted m f rest)
    (ubar : V m.u) (s : State V m.u S) :
    (∀ l1 l2 g, Entry.one m.z f :: rest = l1 ++ Entry.one m.theta g :: l2 → (∀ e ∈ l2, m.theta ∉ e.fields) →
        m.predictor ≠ some m.theta →
        (transportFields m (.one m.z f :: rest) ubar s).xp m.theta = g (thetaWind m f ubar) (s.xstar m.theta)) ∧
    (∀ l1 l2 i g, Entry.one m.z f :: rest = l1 ++ Entry.one i g :: l2 → (∀ e ∈ l2, i ∉ e.fields) →
        m.predictor ≠ some i → i ≠ m.theta → i ≠ m.z →
        (transportFields m (.one m.z f :: rest) ubar s).xp i = g ubar (s.xstar i)) ∧
    (∀ l1 l2 g, Entry.one m.z f :: rest = l1 ++ Entry.one m.z g :: l2 → (∀ e ∈ l2, m.z ∉ e.fields) →
        (transportFields m (.one m.z f :: rest) ubar s).xp m.z = f ubar m.height) := by
  have hT := (C134_transport m f rest ha ubar s).1
  have main : ∀ l1 l2 i (g : V m.u → V i → V i), Entry.one m.z f :: rest = l1 ++ Entry.one i g :: l2 →
      (∀ e ∈ l2, i ∉ e.fields) → (transportFields m (.one m.z f :: rest) ubar s).xp i =
        applyOne m i g (windFor m f ubar i) (Function.update s.xstar m.z m.height) := by
    intro l1 l2 i g hl h2
    rw [hT, hl, List.map_append, List.map_cons, foldl_last]
    · simp [asTransport]
    · simp [asTransport]
    · intro t ht
      obtain ⟨e, he, rfl⟩ := List.mem_map.1 ht
      rw [fields_asTransport]; exact h2 e he
  refine ⟨?_, ?_, ?_⟩
  · intro l1 l2 g hl h2 hp
    rw [main l1 l2 _ g hl h2]
    simp [applyOne, hp, windFor, Function.update_of_ne ha.zTheta.symm]
  · intro l1 l2 i g hl h2 hp hi hz
    rw [main l1 l2 i g hl h2]
    simp [applyOne, hp, windFor, hi, Function.update_of_ne hz]
  · intro l1 l2 g hl h2
    have hmem : Entry.one m.z g ∈ Entry.one m.z f :: rest := by rw [hl]; simp
    have hgf : g = f := by
      rcases List.mem_cons.1 hmem with h | h
      · injection h
      · exact ha.same g h
    subst hgf
    rw [main l1 l2 _ g hl h2]
    simp [applyOne, ha.noPredictor, windFor, ha.zTheta]

/-- **C134** (the timestep).  A timestep with the consistent metric term is the timestep of the scheme without it for the transport maps
`asTransport`, whatever `adv_z` and `consistent_wind` hold from before: nothing leaks from one timestep into the next. -/
theorem C134_timestep [DecidableEq K] (q : QN.Siqn K V) (m : Metric K V S W) (f : V m.u → V m.z → V m.z)
    (rest : List (Entry V m.u)) (ha : Accepted m f rest) (hu : q.u = m.u) (adv : S) (w : V m.u) (xn x0 : ∀ i, V i) :
    timestep m (.one m.z f :: rest) q hu adv w xn x0 =
      QN.timestep { q with u := q.u, transport := hu ▸ (Entry.one m.z f :: rest).map (asTransport m f) } xn x0 := by
  obtain ⟨u, q1, q2, q3, q4, q5, q6, q7, q8, q9, q10, q11, q12, q13, q14, q15⟩ := q
  simp only at hu
  subst hu
  simp only
  set q : QN.Siqn K V := ⟨m.u, q1, q2, q3, q4, q5, q6, q7, q8, q9, q10, q11, q12, q13, q14, q15⟩ with hqq
  set q' : QN.Siqn K V := ⟨m.u, q1, q2, q3, q4, q5, q6, q7, q8, q9, q10, q11, q12,
    (Entry.one m.z f :: rest).map (asTransport m f), q14, q15⟩ with hq
  have hstar : QN.xstarOf q' xn = QN.xstarOf q xn := rfl
  -- the maps do not see the tracer z of `xstar`
  have hcongr : ∀ (ts : List (Entry V m.u)) (ubar : V m.u) (xs ys xp : ∀ i, V i),
      Function.update xs m.z m.height = Function.update ys m.z m.height →
      QN.transportFields (ts.map (asTransport m f)) ubar xs xp = QN.transportFields (ts.map (asTransport m f)) ubar ys xp := by
    intro ts ubar xs ys xp hxy
    induction ts generalizing xp with
    | nil => rfl
    | cons e ts ih =>
      have := ih (fun i => if i ∈ (asTransport m f e).fields then (asTransport m f e).step ubar ys i else xp i)
      simp only [QN.transportFields, List.map_cons, List.foldl_cons] at this ⊢
      rw [← this]
      congr 1
      funext i
      cases e with
      | one j g =>
        by_cases hi : i = j
        · subst hi; simp [asTransport, hxy]
        · simp [asTransport, hi]
      | many l g => by_cases hi : i ∈ l <;> simp [asTransport, hxy, hi]
  have hind : ∀ n, ∀ s : State V m.u S × (∀ i, V i),
      Function.update s.1.xstar m.z m.height = Function.update (QN.xstarOf q xn) m.z m.height →
      ((outerStep m (.one m.z f :: rest) q rfl xn)^[n] s).2 =
        ((QN.outerStep q' xn (QN.xstarOf q' xn))^[n] (s.1.xp, s.2)).2 := by
    intro n
    induction n with
    | zero => intro s _; rfl
    | succ n ih =>
      intro s hs
      have hT := C134_transport m f rest ha (QN.ubar q xn s.2) s.1
      rw [Function.iterate_succ_apply, Function.iterate_succ_apply, ih]
      · congr 2
        have hxp : (transportFields m (.one m.z f :: rest) (QN.ubar q xn s.2) s.1).xp
            = QN.transportFields q'.transport (QN.ubar q' xn s.2) (QN.xstarOf q' xn) s.1.xp := by
          rw [hT.1]
          exact hcongr _ _ _ _ _ hs
        simp only [outerStep, QN.outerStep]
        rw [hxp]
        rfl
      · show Function.update (transportFields m (.one m.z f :: rest) (QN.ubar q xn s.2) s.1).xstar m.z m.height = _
        rw [hT.2.1, Function.update_idem, hs]
  unfold timestep QN.timestep QN.outerLoop
  rw [hind _ _ rfl]
  rfl

/-- **C134** (the height does not drift).  If z is not in the linear solver and nothing but transport acts on it, z at the end of a timestep
is the height moved once by a transporting velocity of that timestep: it does not depend on z at its beginning, so errors in z do not
accumulate over a run. -/
theorem C134_no_drift [DecidableEq K] (q : QN.Siqn K V) (m : Metric K V S W) (f : V m.u → V m.z → V m.z)
    (rest : List (Entry V m.u)) (ha : Accepted m f rest) (hu : q.u = m.u) (adv : S) (w : V m.u) (xn x0 : ∀ i, V i)
    (hlast : ∀ e ∈ rest, m.z ∈ e.fields → ∃ g, e = .one m.z g) (houter : q.numOuter ≠ 0) (hsol : q.inSolver m.z = false)
    (hfast : ∀ p ∈ q.fast, ∀ x, p x m.z = x m.z) (hfinal : ∀ p ∈ q.final, ∀ x, p x m.z = x m.z)
    (hbcs : ∀ x, q.bcs x m.z = x m.z) :
    ∃ x : ∀ i, V i, timestep m (.one m.z f :: rest) q hu adv w xn x0 m.z = f (hu ▸ QN.ubar q xn x) m.height := by
  have happ : ∀ (l : List ((∀ i, V i) → ∀ i, V i)), (∀ p ∈ l, ∀ x, p x m.z = x m.z) → ∀ x, QN.applyAll l x m.z = x m.z := by
    intro l
    induction l with
    | nil => intro _ x; rfl
    | cons p l ih =>
      intro h x
      show QN.applyAll l (p x) m.z = _
      rw [ih (fun p hp => h p (List.mem_cons_of_mem _ hp)), h p List.mem_cons_self]
  -- the last entry with z among its fields
  have hsplit : ∀ (l : List (Entry V m.u)), (∀ e ∈ l, m.z ∈ e.fields → ∃ g, e = .one m.z g) → ∀ e0, (∃ g, e0 = Entry.one m.z g) →
      ∃ l1 l2 g, e0 :: l = l1 ++ Entry.one m.z g :: l2 ∧ ∀ e ∈ l2, m.z ∉ e.fields := by
    intro l
    induction l with
    | nil => rintro _ e0 ⟨g, rfl⟩; exact ⟨[], [], g, rfl, by simp⟩
    | cons e l ih =>
      rintro h e0 ⟨g, rfl⟩
      by_cases hz : ∃ e' ∈ e :: l, m.z ∈ e'.fields
      · by_cases he : m.z ∈ e.fields
        · obtain ⟨l1, l2, g', h1, h2⟩ := ih (fun e' he' => h e' (List.mem_cons_of_mem _ he')) e (h e List.mem_cons_self he)
          exact ⟨Entry.one m.z g :: l1, l2, g', by rw [h1]; rfl, h2⟩
        · obtain ⟨e', he', hze'⟩ := hz
          have hmem : e' ∈ l := by
            rcases List.mem_cons.1 he' with rfl | h'
            · exact absurd hze' he
            · exact h'
          obtain ⟨l1, l2, g', h1, h2⟩ := ih (fun e' he' => h e' (List.mem_cons_of_mem _ he')) (.one m.z g) ⟨g, rfl⟩
          cases l1 with
          | nil =>
            simp only [List.nil_append, List.cons.injEq] at h1
            exact absurd hze' (h2 e' (h1.2 ▸ hmem))
          | cons a l1 =>
            simp only [List.cons_append, List.cons.injEq] at h1
            exact ⟨Entry.one m.z g :: e :: l1, l2, g', by rw [h1.2]; rfl, h2⟩
      · push Not at hz
        exact ⟨[], e :: l, g, rfl, hz⟩
  obtain ⟨l1, l2, g, hl, h2⟩ := hsplit rest hlast (.one m.z f) ⟨f, rfl⟩
  obtain ⟨n, hn⟩ := Nat.exists_eq_succ_of_ne_zero houter
  unfold timestep
  rw [happ _ hfinal, hn, Function.iterate_succ_apply']
  set s := (outerStep m (.one m.z f :: rest) q hu xn)^[n] (⟨QN.xstarOf q xn, QN.xstarOf q xn, adv, w⟩, x0)
  refine ⟨s.2, ?_⟩
  simp only [outerStep]
  rw [hbcs]
  simp only [QN.copyTracers, hsol, Bool.not_false, if_true]
  rw [happ _ hfast]
  exact (C134_fields m f rest ha _ s.1).2.2 l1 l2 g hl h2

/-- **C134** (consistency).  If the scheme moves the height exactly with the vertical component of the wind, theta is transported by the
standard wind. -/
theorem C134_exact (m : Metric K V S W) (f : V m.u → V m.z → V m.z) (ubar : V m.u) (hk : m.kmul 0 = 0)
    (hproj : m.project (m.emb ubar) = ubar) (hf : heightRate m f ubar = m.dotk (m.emb ubar)) :
    thetaWind m f ubar = ubar := by
  simp [thetaWind, hf, hk, hproj]

/-- **C134** (what the correction achieves).  For a scheme whose increment of the height is linear in the wind and right for vertical
winds (`interp (rate (k s)) = s`), the height transported by the wind given to theta moves exactly with the vertical component of the
standard wind, however wrong its rate with the standard wind is. -/
theorem C134_height_moves_with_w (m : Metric K V S W) (f : V m.u → V m.z → V m.z) (ubar : V m.u) (rate : W →ₗ[K] V m.z)
    (interp : V m.z →ₗ[K] S) (hi : m.interp = interp) (hdt : m.dt ≠ 0)
    (hf : ∀ w, f w m.height = m.height - m.dt • rate (m.emb w)) (hvert : ∀ s, m.interp (rate (m.kmul s)) = s)
    (hproj : m.emb (thetaWind m f ubar) = m.emb ubar + m.kmul (m.dotk (m.emb ubar) - heightRate m f ubar)) :
    heightRate m f (thetaWind m f ubar) = m.dotk (m.emb ubar) := by
  have hr : ∀ w, heightRate m f w = m.interp (rate (m.emb w)) := by
    intro w
    simp [heightRate, hf, smul_smul, inv_mul_cancel₀ hdt]
  rw [hr, hproj, map_add]
  have hadd : m.interp (rate (m.emb ubar) + rate (m.kmul (m.dotk (m.emb ubar) - heightRate m f ubar)))
      = m.interp (rate (m.emb ubar)) + m.interp (rate (m.kmul (m.dotk (m.emb ubar) - heightRate m f ubar))) := by
    rw [hi, map_add]
  rw [hadd, hvert, hr ubar]
  abel

/-- **C134** (refuted: simultaneous transport).  A scheme for a list of fields with theta in it is accepted, but transports theta with
the standard wind: the consistent metric term has no effect. -/
theorem C134_simultaneous_refuted (m : Metric K V S W) (f : V m.u → V m.z → V m.z) (rest : List (Entry V m.u)) (ha : Accepted m f rest)
    (ubar : V m.u) (s : State V m.u S) (l1 l2 : List (Entry V m.u)) (l : List ι) (g : V m.u → (∀ i, V i) → (∀ i, V i))
    (hl : Entry.one m.z f :: rest = l1 ++ Entry.many l g :: l2) (hth : m.theta ∈ l) (h2 : ∀ e ∈ l2, m.theta ∉ e.fields) :
    (transportFields m (.one m.z f :: rest) ubar s).xp m.theta = g ubar (Function.update s.xstar m.z m.height) m.theta := by
  rw [(C134_transport m f rest ha ubar s).1, hl, List.map_append, List.map_cons, foldl_last]
  · rfl
  · exact hth
  · intro t ht
    obtain ⟨e, he, rfl⟩ := List.mem_map.1 ht
    rw [fields_asTransport]; exact h2 e he

/-- **C134** (refuted: predictor for z).  With `predictor='z'` the predictor branch is taken for z: its height is not reset, the rate
and the wind are never computed, and theta is transported by the wind the function was created with, zero. -/
theorem C134_predictor_refuted (m : Metric K V S W) (hp : m.predictor = some m.z) (ts : List (Entry V m.u)) (ubar : V m.u)
    (s : State V m.u S) :
    let r := transportFields m ts ubar s
    r.wind = s.wind ∧ r.advZ = s.advZ ∧ r.xstar = s.xstar := by
  intro r
  have : ∀ (l : List (Entry V m.u)) (s' : State V m.u S), s'.wind = s.wind ∧ s'.advZ = s.advZ ∧ s'.xstar = s.xstar →
      (l.foldl (entryStep m ubar) s').wind = s.wind ∧ (l.foldl (entryStep m ubar) s').advZ = s.advZ ∧
      (l.foldl (entryStep m ubar) s').xstar = s.xstar := by
    intro l
    induction l with
    | nil => intro s' h; exact h
    | cons e l ih =>
      intro s' h
      apply ih
      cases e with
      | many l g => exact h
      | one i g =>
        have hc : ¬ (m.predictor ≠ some i ∧ m.consistent = true ∧ i = m.z) := by
          rintro ⟨h1, _, rfl⟩; exact h1 hp
        simp only [entryStep]
        rw [if_neg hc]
        exact h
  exact this ts s ⟨rfl, rfl, rfl⟩

/-- **C134** (refuted for the TR-BDF2 stepper).  `TRBDF2QuasiNewton` accepts `consistent_metric=True` but reads an attribute which
nothing sets: as the constructor requires z to come first, every call of `transport_fields` ends with an AttributeError before any
field is transported. -/
theorem C134_tr_bdf2_refuted (m : Metric K V S W) (hc : m.consistent = true) (f : V m.u → V m.z → V m.z)
    (rest : List ((i : ι) × (V m.u → V i → V i))) (factor : K) (ubar : V m.u) (s : State V m.u S) :
    trTransport m false factor ubar (⟨m.z, f⟩ :: rest) s = .error .attribute := by
  simp [trTransport, trEntry, hc]

/-- **C134** (refuted for the TR-BDF2 stepper, whatever that attribute is).  Its transporting velocity already contains the factor of
the stage, but the rate of the height is divided by it: even for a scheme which moves the height exactly with any wind, the wind for
theta is the standard one plus `(1 - 1/factor)` times its vertical component. -/
theorem C134_tr_bdf2_factor_refuted (m : Metric K V S W) (hc : m.consistent = true) (hz : m.z ≠ m.theta)
    (f : V m.u → V m.z → V m.z) (factor : K) (ubar : V m.u) (s : State V m.u S) (interp : V m.z →ₗ[K] S) (hi : m.interp = interp)
    (hf : heightRate m f ubar = m.dotk (m.emb ubar)) :
    ∃ r, trTransport m true factor ubar [⟨m.z, f⟩] s = .ok r ∧
      r.wind = m.project (m.emb ubar + m.kmul ((1 - factor⁻¹) • m.dotk (m.emb ubar))) := by
  refine ⟨_, by simp [trTransport, trEntry, hc]; rfl, ?_⟩
  have hw : schemeWind m ubar s.wind m.z = ubar := by simp [schemeWind, hz]
  have : m.interp ((m.dt * factor)⁻¹ • (m.height - f ubar m.height)) = factor⁻¹ • m.dotk (m.emb ubar) := by
    rw [← hf, heightRate, hi, map_smul, map_smul, smul_smul, mul_inv, mul_comm]
  simp only [windExpr, hw, Function.update_self]
  have h2 : m.interp ((factor⁻¹ * m.dt⁻¹) • (m.height - f ubar m.height)) = factor⁻¹ • m.dotk (m.emb ubar) := by
    rw [← this, mul_inv, mul_comm]
  simp [h2, sub_smul]

end

section bound
variable {ι : Type*} [DecidableEq ι] {V : ι → Type*} [∀ i, AddCommGroup (V i)] [∀ i, Module ℝ (V i)]
  {S W : Type*} [NormedAddCommGroup S] [NormedSpace ℝ S] [NormedAddCommGroup W] [NormedSpace ℝ W]

/-- **C134** (size of the correction).  With a bounded projection which keeps the standard wind, and a vertical vector of length one, the wind
for theta differs from the standard one by at most the error of the rate of the height, times the bound of the projection. -/
theorem C134_bound (m : Metric ℝ V S W) (f : V m.u → V m.z → V m.z) (ubar : V m.u) (P : W →L[ℝ] W)
    (hP : ∀ e, m.emb (m.project e) = P e) (hid : P (m.emb ubar) = m.emb ubar) (hk : ∀ s, ‖m.kmul s‖ ≤ ‖s‖) :
    ‖m.emb (thetaWind m f ubar) - m.emb ubar‖ ≤ ‖P‖ * ‖m.dotk (m.emb ubar) - heightRate m f ubar‖ := by
  have : m.emb (thetaWind m f ubar) - m.emb ubar = P (m.kmul (m.dotk (m.emb ubar) - heightRate m f ubar)) := by
    rw [thetaWind, hP, map_add, hid]; abel
  rw [this]
  exact (P.le_opNorm _).trans (mul_le_mul_of_nonneg_left (hk _) (norm_nonneg _))

end bound

/-! ### A concrete case

The wind is a pair (horizontal, vertical), a scalar field a pair with its value first.  The scheme moves the height with the vertical
wind plus a third of the horizontal one, as on a sloping mesh. -/
section concrete

/-- Fields u, z, theta, rho. -/
def demo (pred : Option (Fin 4)) : Metric ℚ (fun _ : Fin 4 => ℚ × ℚ) ℚ (ℚ × ℚ) where
  u := 0
  z := 1
  theta := 2
  consistent := true
  predictor := pred
  dt := 1 / 2
  height := (10, 0)
  interp := Prod.fst
  emb := id
  dotk := Prod.snd
  kmul := fun s => (0, s)
  project := id
  premultiply := fun _ x => x

def demoScheme : ℚ × ℚ → ℚ × ℚ → ℚ × ℚ := fun w x => x - (1 / 2 : ℚ) • (w.2 + 1 / 3 * w.1, 0)
def demoList (pred : Option (Fin 4)) : List (Entry (fun _ : Fin 4 => ℚ × ℚ) (demo pred).u) :=
  [.one 0 demoScheme, .one 3 demoScheme, .one 2 demoScheme]

/-- The hypotheses of `C134_transport`, `C134_fields`, `C134_timestep`. -/
theorem demo_accepted : Accepted (demo none) demoScheme (demoList none) where
  consistent := rfl
  zTheta := by decide
  noPredictor := by decide
  same := by
    intro g hg
    simp only [demoList, List.mem_cons, List.not_mem_nil, or_false] at hg
    rcases hg with h | h | h
    · injection h
    · injection h
    · injection h

/-- The wind (3, 4): the scheme moves the height with 5, the corrected wind is (3, 3), which moves it with 4. -/
example : heightRate (demo none) demoScheme (3, 4) = 5 ∧ thetaWind (demo none) demoScheme (3, 4) = (3, 3) ∧
    heightRate (demo none) demoScheme (thetaWind (demo none) demoScheme (3, 4)) = 4 := by
  norm_num [thetaWind, heightRate, demo, demoScheme]

/-- The hypotheses of `C134_height_moves_with_w` hold for it. -/
example : ∃ (rate : (ℚ × ℚ) →ₗ[ℚ] (ℚ × ℚ)) (interp : (ℚ × ℚ) →ₗ[ℚ] ℚ), (demo none).interp = interp ∧ (demo none).dt ≠ 0 ∧
    (∀ w, demoScheme w (demo none).height = (demo none).height - (demo none).dt • rate ((demo none).emb w)) ∧
    (∀ s, (demo none).interp (rate ((demo none).kmul s)) = s) ∧
    (demo none).emb (thetaWind (demo none) demoScheme (3, 4)) = (demo none).emb ((3, 4) : ℚ × ℚ) +
      (demo none).kmul ((demo none).dotk ((demo none).emb ((3, 4) : ℚ × ℚ)) - heightRate (demo none) demoScheme (3, 4)) := by
  refine ⟨(LinearMap.snd ℚ ℚ ℚ + (1 / 3 : ℚ) • LinearMap.fst ℚ ℚ ℚ).prod 0, LinearMap.fst ℚ ℚ ℚ, rfl, ?_, ?_, ?_, ?_⟩
  · norm_num [demo]
  · intro w; simp [demo, demoScheme]
  · intro s; simp [demo]
  · rfl

/-- The hypotheses of `C134_exact` hold for a purely vertical wind, and of the refutation for TR-BDF2: with the factor 1/2 the vertical wind 4 is
replaced by 0. -/
example : heightRate (demo none) demoScheme (0, 4) = (demo none).dotk ((demo none).emb ((0, 4) : ℚ × ℚ)) ∧
    (demo none).project ((demo none).emb ((0, 4) : ℚ × ℚ) + (demo none).kmul ((1 - (1 / 2 : ℚ)⁻¹) •
      (demo none).dotk ((demo none).emb ((0, 4) : ℚ × ℚ)))) = (0, 0) := by
  constructor <;> norm_num [heightRate, demo, demoScheme]

/-- Theta in a list: the corrected wind (3, 3) is not used. -/
example : let ts := [Entry.one 1 demoScheme, Entry.many [2, 3] (fun w x i => demoScheme w (x i))]
    (transportFields (demo none) ts ((3, 4) : ℚ × ℚ) ⟨fun _ => (1, 0), fun _ => (1, 0), 0, (0, 0)⟩).xp 2
      = demoScheme (3, 4) (1, 0) ∧ demoScheme (3, 4) (1, 0) ≠ demoScheme (3, 3) (1, 0) := by
  constructor
  · simp [transportFields, entryStep, demo, Function.update]
  · norm_num [demoScheme]

end concrete

end Gusto.Props.ConsistentMetricProps
