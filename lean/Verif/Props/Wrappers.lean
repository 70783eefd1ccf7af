import Verif.Model.Wrappers
import Mathlib.Tactic.NormNum

set_option autoImplicit false
set_option linter.unusedSectionVars false
set_option linter.unusedSimpArgs false

/-!
# C58: wrappers for mixed spaces
-/

namespace Gusto.Props.WrapProps
open Gusto.Wrap
variable {V : Type*}

/-- Every conservative wrapper names a density that is a field of the equation, has a wrapper of its own, and stands
before it in the list of fields. -/
def DensitiesFirst (subs : Subs V) (names : List String) : Prop :=
  ∀ name ∈ names, ∀ rho l b, subs name = some (.conservative rho l b) →
    rho ∈ names ∧ (subs rho).isSome = true ∧ names.idxOf rho < names.idxOf name

/-- What the scheme should be given for the field `name`: the field itself if it has no options, else the field taken
to the embedding space by its own operator; conservative operators get the density of the same call in both spaces. -/
def Lifted (subs : Subs V) (names : List String) (x m : ℕ → V) (name : String) : Prop :=
  match subs name with
  | none => m (names.idxOf name) = x (names.idxOf name)
  | some (.plain l _) => m (names.idxOf name) = l (x (names.idxOf name))
  | some (.conservative rho l _) =>
    m (names.idxOf name) = l (x (names.idxOf rho)) (m (names.idxOf rho)) (x (names.idxOf name))

/-- What should be returned for the field `name` if the scheme computed `y`. -/
def Returned (subs : Subs V) (names : List String) (y out : ℕ → V) (name : String) : Prop :=
  match subs name with
  | none => out (names.idxOf name) = y (names.idxOf name)
  | some (.plain _ b) => out (names.idxOf name) = b (y (names.idxOf name))
  | some (.conservative rho _ b) =>
    out (names.idxOf name) = b (y (names.idxOf rho)) (out (names.idxOf rho)) (y (names.idxOf name))

theorem idx_inj {names : List String} {a b : String} (ha : a ∈ names) (h : names.idxOf a = names.idxOf b) : a = b := by
  have h1 := List.idxOf_lt_length_of_mem ha
  have h2 : names.idxOf b < names.length := h ▸ h1
  have e1 := List.getElem_idxOf h1
  have e2 := List.getElem_idxOf h2
  rw [← e1, ← e2]
  simp [h]

theorem loop_append {σ : Type*} (f : σ → String → Except String σ) (l l' : List String) (s : σ) :
    loop f (l ++ l') s = match loop f l s with
      | .error e => .error e
      | .ok s' => loop f l' s' := by
  induction l generalizing s with
  | nil => rfl
  | cons a l ih =>
    simp only [List.cons_append, loop]
    cases f s a with
    | error e => rfl
    | ok s' => exact ih s'

/-- The part of the state that the pre-processing of the fields `done` has established. -/
def PreInv (subs : Subs V) (names : List String) (x : ℕ → V) (done : List String) (s0 s : Heap V × (ℕ → V)) : Prop :=
  (∀ n ∈ done, Lifted subs names x s.2 n ∧ ((subs n).isSome = true →
    (s.1 n).xInOrig = x (names.idxOf n) ∧ (s.1 n).xIn = s.2 (names.idxOf n))) ∧
  (∀ i, (∀ n ∈ done, names.idxOf n ≠ i) → s.2 i = s0.2 i)

theorem before {names done l : List String} {name rho : String} (hn : names.Nodup) (hs : names = done ++ name :: l)
    (hr : rho ∈ names) (hlt : names.idxOf rho < names.idxOf name) : rho ∈ done := by
  by_contra hx
  subst hs
  have hnd : name ∉ done := by
    intro h
    have := (List.nodup_append.1 hn).2.2 name h name (List.mem_cons_self ..)
    exact this rfl
  rw [List.idxOf_append_of_notMem hx, List.idxOf_append_of_notMem hnd] at hlt
  simp at hlt

theorem pre_loop (subs : Subs V) (names : List String) (hn : names.Nodup) (hd : DensitiesFirst subs names)
    (x : ℕ → V) (s0 : Heap V × (ℕ → V)) (l done : List String) (hs : names = done ++ l) (s : Heap V × (ℕ → V))
    (hi : PreInv subs names x done s0 s) :
    ∃ s', loop (preStep subs names x) l s = .ok s' ∧ PreInv subs names x names s0 s' := by
  induction l generalizing done s with
  | nil => exact ⟨s, rfl, by rw [hs, List.append_nil] at *; exact hi⟩
  | cons name l ih =>
    have hmem : name ∈ names := by rw [hs]; simp
    have hnd : name ∉ done := by
      intro h
      rw [hs] at hn
      exact (List.nodup_append.1 hn).2.2 name h name (List.mem_cons_self ..) rfl
    have hdm : ∀ n ∈ done, n ∈ names := fun n h => by rw [hs]; exact List.mem_append_left _ h
    have hne : ∀ n ∈ done, n ≠ name := fun n h e => hnd (e ▸ h)
    have hni : ∀ n ∈ done, names.idxOf n ≠ names.idxOf name := fun n h e => hne n h (idx_inj (hdm n h) e)
    -- the conclusion for a step that only changes the buffers of `name` and the entry of `name`
    have key : ∀ (h' : Heap V) (v : V), (∀ n, n ≠ name → h' n = s.1 n) →
        Lifted subs names x (Function.update s.2 (names.idxOf name) v) name →
        ((subs name).isSome = true → (h' name).xInOrig = x (names.idxOf name) ∧ (h' name).xIn = v) →
        ∃ s', loop (preStep subs names x) l (h', Function.update s.2 (names.idxOf name) v) = .ok s' ∧
          PreInv subs names x names s0 s' := by
      intro h' v h1 h2 h3
      refine ih (done ++ [name]) (by rw [hs]; simp) _ ⟨?_, ?_⟩
      · intro n hn'
        rcases List.mem_append.1 hn' with hn2 | hn'
        · obtain ⟨a1, a2⟩ := hi.1 n hn2
          have hnn := hne n hn2
          have hin := hni n hn2
          refine ⟨?_, ?_⟩
          · unfold Lifted at a1 ⊢
            cases hsub : subs n with
            | none => rw [hsub] at a1; simpa [Function.update_of_ne hin] using a1
            | some w =>
              cases w with
              | plain lf bk => rw [hsub] at a1; simpa [Function.update_of_ne hin] using a1
              | conservative rho lf bk =>
                rw [hsub] at a1
                obtain ⟨c1, c2, c3⟩ := hd n (hdm n hn2) rho lf bk hsub
                have hrd : rho ≠ name := by
                  intro e
                  subst e
                  have hb : rho ∈ done := by
                    obtain ⟨p, q, hpq⟩ := List.append_of_mem hn2
                    have : names = p ++ n :: (q ++ rho :: l) := by rw [hs, hpq]; simp
                    have hp := before hn this c1 c3
                    rw [hpq]; exact List.mem_append_left _ hp
                  exact hnd hb
                have hri : names.idxOf rho ≠ names.idxOf name := fun e => hrd (idx_inj c1 e)
                simpa [Function.update_of_ne hin, Function.update_of_ne hri] using a1
          · intro hsome
            simp only [h1 n hnn, Function.update_of_ne hin]
            exact a2 hsome
        · simp only [List.mem_singleton] at hn'
          subst hn'
          exact ⟨h2, fun hsome => by simpa using h3 hsome⟩
      · intro i hi'
        have : names.idxOf name ≠ i := hi' name (by simp)
        simp only [Function.update_of_ne (Ne.symm this)]
        exact hi.2 i (fun n hn' => hi' n (List.mem_append_left _ hn'))
    cases hsub : subs name with
    | none =>
      have := key s.1 (x (names.idxOf name)) (fun _ _ => rfl) (by simp [Lifted, hsub]) (by simp [hsub])
      simpa [loop, preStep, hsub] using this
    | some w =>
      cases w with
      | plain lf bk =>
        have := key (Function.update s.1 name ((Sub.plain lf bk).pre (s.1 name) (x (names.idxOf name))))
          (lf (x (names.idxOf name))) (fun n hn' => Function.update_of_ne hn' _ _) (by simp [Lifted, hsub])
          (by intro _; simp [Sub.pre])
        simpa [loop, preStep, hsub, Sub.pre] using this
      | conservative rho lf bk =>
        obtain ⟨c1, c2, c3⟩ := hd name hmem rho lf bk hsub
        have hrdone := before hn hs c1 c3
        obtain ⟨a1, a2⟩ := hi.1 rho hrdone
        obtain ⟨b1, b2⟩ := a2 c2
        have hri := hni rho hrdone
        obtain ⟨wr, hwr⟩ := Option.isSome_iff_exists.1 c2
        have := key (Function.update (Function.update s.1 name
            { s.1 name with rhoInOrig := (s.1 rho).xInOrig, rhoInEmb := (s.1 rho).xIn }) name
            { s.1 name with rhoInOrig := (s.1 rho).xInOrig, rhoInEmb := (s.1 rho).xIn, xInOrig := x (names.idxOf name), xIn := lf (x (names.idxOf rho)) (s.2 (names.idxOf rho)) (x (names.idxOf name)) })
          (lf (x (names.idxOf rho)) (s.2 (names.idxOf rho)) (x (names.idxOf name)))
          (fun n hn' => by simp [Function.update_of_ne hn'])
          (by simp [Lifted, hsub, Function.update_of_ne hri]) (by intro _; simp)
        simpa [loop, preStep, hsub, Sub.pre, preRho, hwr, b1, b2] using this

/-- **C58** (before the scheme).  For every assignment of wrappers to the fields in which the densities come first, the
scheme is given exactly: each field without options itself, each field with options its own transfer to its embedding
space, conservative transfers with the density of the same call - whatever the wrappers hold from previous calls. -/
theorem C58_pre (subs : Subs V) (names : List String) (hn : names.Nodup) (hd : DensitiesFirst subs names)
    (x : ℕ → V) (h : Heap V) (m : ℕ → V) :
    ∃ h' m', preApply subs names x (h, m) = .ok (h', m') ∧ (∀ name ∈ names, Lifted subs names x m' name) ∧
      ∀ i, names.length ≤ i → m' i = m i := by
  obtain ⟨s', h1, h2, h3⟩ := pre_loop subs names hn hd x (h, m) names [] rfl (h, m) ⟨by simp, by simp⟩
  refine ⟨s'.1, s'.2, h1, fun name hname => (h2 name hname).1, fun i hi => h3 i ?_⟩
  intro n hn'
  have := List.idxOf_lt_length_of_mem hn'
  omega

/-- The same for the post-processing. -/
def PostInv (subs : Subs V) (names : List String) (y : ℕ → V) (done : List String) (s0 s : Heap V × (ℕ → V)) : Prop :=
  (∀ n ∈ done, Returned subs names y s.2 n ∧ ((subs n).isSome = true →
    (s.1 n).xOut = y (names.idxOf n) ∧ (s.1 n).xProj = s.2 (names.idxOf n))) ∧
  (∀ i, (∀ n ∈ done, names.idxOf n ≠ i) → s.2 i = s0.2 i)

theorem post_loop (subs : Subs V) (names : List String) (hn : names.Nodup) (hd : DensitiesFirst subs names)
    (y : ℕ → V) (s0 : Heap V × (ℕ → V)) (l done : List String) (hs : names = done ++ l) (s : Heap V × (ℕ → V))
    (hi : PostInv subs names y done s0 s) :
    ∃ s', loop (postStep subs names y) l s = .ok s' ∧ PostInv subs names y names s0 s' := by
  induction l generalizing done s with
  | nil => exact ⟨s, rfl, by rw [hs, List.append_nil] at *; exact hi⟩
  | cons name l ih =>
    have hmem : name ∈ names := by rw [hs]; simp
    have hnd : name ∉ done := by
      intro h
      rw [hs] at hn
      exact (List.nodup_append.1 hn).2.2 name h name (List.mem_cons_self ..) rfl
    have hdm : ∀ n ∈ done, n ∈ names := fun n h => by rw [hs]; exact List.mem_append_left _ h
    have hne : ∀ n ∈ done, n ≠ name := fun n h e => hnd (e ▸ h)
    have hni : ∀ n ∈ done, names.idxOf n ≠ names.idxOf name := fun n h e => hne n h (idx_inj (hdm n h) e)
    have key : ∀ (h' : Heap V) (v : V), (∀ n, n ≠ name → h' n = s.1 n) →
        Returned subs names y (Function.update s.2 (names.idxOf name) v) name →
        ((subs name).isSome = true → (h' name).xOut = y (names.idxOf name) ∧ (h' name).xProj = v) →
        ∃ s', loop (postStep subs names y) l (h', Function.update s.2 (names.idxOf name) v) = .ok s' ∧
          PostInv subs names y names s0 s' := by
      intro h' v h1 h2 h3
      refine ih (done ++ [name]) (by rw [hs]; simp) _ ⟨?_, ?_⟩
      · intro n hn'
        rcases List.mem_append.1 hn' with hn2 | hn'
        · obtain ⟨a1, a2⟩ := hi.1 n hn2
          have hnn := hne n hn2
          have hin := hni n hn2
          refine ⟨?_, ?_⟩
          · unfold Returned at a1 ⊢
            cases hsub : subs n with
            | none => rw [hsub] at a1; simpa [Function.update_of_ne hin] using a1
            | some w =>
              cases w with
              | plain lf bk => rw [hsub] at a1; simpa [Function.update_of_ne hin] using a1
              | conservative rho lf bk =>
                rw [hsub] at a1
                obtain ⟨c1, c2, c3⟩ := hd n (hdm n hn2) rho lf bk hsub
                have hrd : rho ≠ name := by
                  intro e
                  subst e
                  have hb : rho ∈ done := by
                    obtain ⟨p, q, hpq⟩ := List.append_of_mem hn2
                    have : names = p ++ n :: (q ++ rho :: l) := by rw [hs, hpq]; simp
                    have hp := before hn this c1 c3
                    rw [hpq]; exact List.mem_append_left _ hp
                  exact hnd hb
                have hri : names.idxOf rho ≠ names.idxOf name := fun e => hrd (idx_inj c1 e)
                simpa [Function.update_of_ne hin, Function.update_of_ne hri] using a1
          · intro hsome
            simp only [h1 n hnn, Function.update_of_ne hin]
            exact a2 hsome
        · simp only [List.mem_singleton] at hn'
          subst hn'
          exact ⟨h2, fun hsome => by simpa using h3 hsome⟩
      · intro i hi'
        have : names.idxOf name ≠ i := hi' name (by simp)
        simp only [Function.update_of_ne (Ne.symm this)]
        exact hi.2 i (fun n hn' => hi' n (List.mem_append_left _ hn'))
    cases hsub : subs name with
    | none =>
      have := key s.1 (y (names.idxOf name)) (fun _ _ => rfl) (by simp [Returned, hsub]) (by simp [hsub])
      simpa [loop, postStep, hsub] using this
    | some w =>
      cases w with
      | plain lf bk =>
        have := key (Function.update (Function.update s.1 name { s.1 name with xOut := y (names.idxOf name) }) name
            { s.1 name with xOut := y (names.idxOf name), xProj := bk (y (names.idxOf name)) })
          (bk (y (names.idxOf name))) (fun n hn' => by simp [Function.update_of_ne hn']) (by simp [Returned, hsub])
          (by intro _; simp)
        simpa [loop, postStep, hsub, Sub.post] using this
      | conservative rho lf bk =>
        obtain ⟨c1, c2, c3⟩ := hd name hmem rho lf bk hsub
        have hrdone := before hn hs c1 c3
        obtain ⟨a1, a2⟩ := hi.1 rho hrdone
        obtain ⟨b1, b2⟩ := a2 c2
        have hri := hni rho hrdone
        have hrn := hne rho hrdone
        obtain ⟨wr, hwr⟩ := Option.isSome_iff_exists.1 c2
        have := key (Function.update (Function.update s.1 name
            { s.1 name with xOut := y (names.idxOf name), rhoOutOrig := (s.1 rho).xProj, rhoOutEmb := (s.1 rho).xOut }) name
            { s.1 name with xOut := y (names.idxOf name), rhoOutOrig := (s.1 rho).xProj, rhoOutEmb := (s.1 rho).xOut, xProj := bk (y (names.idxOf rho)) (s.2 (names.idxOf rho)) (y (names.idxOf name)) })
          (bk (y (names.idxOf rho)) (s.2 (names.idxOf rho)) (y (names.idxOf name)))
          (fun n hn' => by simp [Function.update_of_ne hn'])
          (by simp [Returned, hsub, Function.update_of_ne hri]) (by intro _; simp)
        simpa [loop, postStep, hsub, Sub.post, postRho, hwr, Function.update_of_ne hrn, b1, b2] using this

/-- **C58** (after the scheme).  Each field of the result comes from its own slot of the scheme's result: unchanged if
it has no options, else by the transfer of its own wrapper; conservative transfers read the densities of this call.
Nothing else is written. -/
theorem C58_post (subs : Subs V) (names : List String) (hn : names.Nodup) (hd : DensitiesFirst subs names)
    (y : ℕ → V) (h : Heap V) (out : ℕ → V) :
    ∃ h' out', postApply subs names y (h, out) = .ok (h', out') ∧ (∀ name ∈ names, Returned subs names y out' name) ∧
      ∀ i, names.length ≤ i → out' i = out i := by
  obtain ⟨s', h1, h2, h3⟩ := post_loop subs names hn hd y (h, out) names [] rfl (h, out) ⟨by simp, by simp⟩
  refine ⟨s'.1, s'.2, h1, fun name hname => (h2 name hname).1, fun i hi => h3 i ?_⟩
  intro n hn'
  have := List.idxOf_lt_length_of_mem hn'
  omega

/-- `Lifted` and `Returned` determine the values: what is computed does not depend on anything else. -/
theorem lifted_unique (subs : Subs V) (names : List String) (hn : names.Nodup) (hd : DensitiesFirst subs names)
    (x m m' : ℕ → V) (h : ∀ n ∈ names, Lifted subs names x m n) (h' : ∀ n ∈ names, Lifted subs names x m' n) :
    ∀ i < names.length, m i = m' i := by
  intro i
  induction i using Nat.strong_induction_on with
  | _ i ih =>
    intro hi
    have hmem : names[i] ∈ names := List.getElem_mem hi
    have hidx : names.idxOf names[i] = i := hn.idxOf_getElem i hi
    have a := h _ hmem
    have b := h' _ hmem
    unfold Lifted at a b
    rw [hidx] at a b
    cases hsub : subs names[i] with
    | none => rw [hsub] at a b; simp only at a b; rw [a, b]
    | some w =>
      cases w with
      | plain lf bk => rw [hsub] at a b; simp only at a b; rw [a, b]
      | conservative rho lf bk =>
        rw [hsub] at a b
        obtain ⟨c1, -, c3⟩ := hd _ hmem rho lf bk hsub
        rw [hidx] at c3
        simp only at a b
        rw [a, b, ih _ c3 (by omega)]

theorem returned_unique (subs : Subs V) (names : List String) (hn : names.Nodup) (hd : DensitiesFirst subs names)
    (y m m' : ℕ → V) (h : ∀ n ∈ names, Returned subs names y m n) (h' : ∀ n ∈ names, Returned subs names y m' n) :
    ∀ i < names.length, m i = m' i := by
  intro i
  induction i using Nat.strong_induction_on with
  | _ i ih =>
    intro hi
    have hmem : names[i] ∈ names := List.getElem_mem hi
    have hidx : names.idxOf names[i] = i := hn.idxOf_getElem i hi
    have a := h _ hmem
    have b := h' _ hmem
    unfold Returned at a b
    rw [hidx] at a b
    cases hsub : subs names[i] with
    | none => rw [hsub] at a b; simp only at a b; rw [a, b]
    | some w =>
      cases w with
      | plain lf bk => rw [hsub] at a b; simp only at a b; rw [a, b]
      | conservative rho lf bk =>
        rw [hsub] at a b
        obtain ⟨c1, -, c3⟩ := hd _ hmem rho lf bk hsub
        rw [hidx] at c3
        simp only at a b
        rw [a, b, ih _ c3 (by omega)]

/-- A scheme that only looks at the fields of the equation. -/
def Local (names : List String) (scheme : (ℕ → V) → ℕ → V) : Prop :=
  ∀ m m', (∀ i < names.length, m i = m' i) → ∀ i < names.length, scheme m i = scheme m' i

/-- **C58** (whole call).  The call never fails and returns, for every field, its own transfer back of its own slot of
the scheme applied to the lifted fields; the result does not depend on the previous contents of the output or of the
wrappers. -/
theorem C58_apply (subs : Subs V) (names : List String) (hn : names.Nodup) (hd : DensitiesFirst subs names)
    (scheme : (ℕ → V) → ℕ → V) (x : ℕ → V) :
    (∀ h m out, ∃ h' m' out', apply subs names scheme h m out x = .ok (h', m', out') ∧
      (∀ name ∈ names, Lifted subs names x m' name) ∧ ∀ name ∈ names, Returned subs names (scheme m') out' name) ∧
    (Local names scheme → ∀ h m out h1 m1 out1 g k o g1 k1 o1, apply subs names scheme h m out x = .ok (h1, m1, out1) →
      apply subs names scheme g k o x = .ok (g1, k1, o1) → ∀ i < names.length, out1 i = o1 i) := by
  have hex : ∀ h m out, ∃ h' m' out', apply subs names scheme h m out x = .ok (h', m', out') ∧
      (∀ name ∈ names, Lifted subs names x m' name) ∧ ∀ name ∈ names, Returned subs names (scheme m') out' name := by
    intro h m out
    obtain ⟨h1, m1, e1, p1, -⟩ := C58_pre subs names hn hd x h m
    obtain ⟨h2, o2, e2, p2, -⟩ := C58_post subs names hn hd (scheme m1) h1 out
    exact ⟨h2, m1, o2, by simp [apply, e1, e2], p1, p2⟩
  refine ⟨hex, ?_⟩
  intro hl h m out h1 m1 out1 g k o g1 k1 o1 ha hb i hi
  obtain ⟨h', m', out', e1, p1, p2⟩ := hex h m out
  obtain ⟨g', k', o', e2, q1, q2⟩ := hex g k o
  rw [ha] at e1
  rw [hb] at e2
  simp only [Except.ok.injEq, Prod.mk.injEq] at e1 e2
  obtain ⟨-, rfl, rfl⟩ := e1
  obtain ⟨-, rfl, rfl⟩ := e2
  have hm := lifted_unique subs names hn hd x _ _ p1 q1
  have hsch := hl _ _ hm
  refine returned_unique subs names hn hd (scheme m1) _ _ p2 ?_ i hi
  intro name hname
  have hq := q2 name hname
  have hix := List.idxOf_lt_length_of_mem hname
  unfold Returned at hq ⊢
  cases hsub : subs name with
  | none => rw [hsub] at hq; simpa [hsch _ hix] using hq
  | some w =>
    cases w with
    | plain lf bk => rw [hsub] at hq; simpa [hsch _ hix] using hq
    | conservative rho lf bk =>
      rw [hsub] at hq
      obtain ⟨c1, -, -⟩ := hd name hname rho lf bk hsub
      simpa [hsch _ hix, hsch _ (List.idxOf_lt_length_of_mem c1)] using hq

/-- **C58** (reversibility).  If every wrapper returns what it was given (a conservative one for equal densities), a
scheme that does nothing returns every field unchanged. -/
theorem C58_identity (subs : Subs V) (names : List String) (hn : names.Nodup) (hd : DensitiesFirst subs names)
    (hp : ∀ name ∈ names, ∀ l b, subs name = some (.plain l b) → ∀ v, b (l v) = v)
    (hc : ∀ name ∈ names, ∀ rho l b, subs name = some (.conservative rho l b) → ∀ ro re v, b re ro (l ro re v) = v)
    (x : ℕ → V) (h : Heap V) (m out : ℕ → V) :
    ∃ h' m' out', apply subs names id h m out x = .ok (h', m', out') ∧ ∀ i < names.length, out' i = x i := by
  obtain ⟨h', m', out', e, p1, p2⟩ := (C58_apply subs names hn hd id x).1 h m out
  refine ⟨h', m', out', e, ?_⟩
  intro i
  induction i using Nat.strong_induction_on with
  | _ i ih =>
    intro hi
    have hmem : names[i] ∈ names := List.getElem_mem hi
    have hidx : names.idxOf names[i] = i := hn.idxOf_getElem i hi
    have a := p1 _ hmem
    have b := p2 _ hmem
    unfold Lifted at a
    unfold Returned at b
    rw [hidx] at a b
    cases hsub : subs names[i] with
    | none => rw [hsub] at a b; simp only [id] at a b; rw [b, a]
    | some w =>
      cases w with
      | plain lf bk => rw [hsub] at a b; simp only [id] at a b; rw [b, a]; exact hp _ hmem _ _ hsub _
      | conservative rho lf bk =>
        rw [hsub] at a b
        obtain ⟨c1, -, c3⟩ := hd _ hmem rho lf bk hsub
        rw [hidx] at c3
        simp only [id] at a b
        rw [b, ih _ c3 (by omega), a]
        exact hc _ hmem _ _ _ hsub _ _ _

/-- **C58** (density without wrapper).  If some field has a conservative wrapper and its density has none, the call
raises `KeyError`. -/
theorem C58_density_unwrapped (subs : Subs V) (name rho : String) (l b : V → V → V → V) (others : List String)
    (ho : ∀ n ∈ others, subs n = none) (hno : subs name = some (.conservative rho l b)) (hr : subs rho = none)
    (names : List String) (hs : ∃ rest, names = others ++ name :: rest) (x : ℕ → V) (s : Heap V × (ℕ → V)) :
    preApply subs names x s = .error "KeyError" := by
  obtain ⟨rest, hs⟩ := hs
  have hgen : ∀ (o : List String) (s : Heap V × (ℕ → V)), (∀ n ∈ o, subs n = none) →
      ∃ s', loop (preStep subs names x) o s = .ok s' := by
    intro o
    induction o with
    | nil => intro s _; exact ⟨s, rfl⟩
    | cons a o ih =>
      intro s ho
      simp only [loop, preStep, ho a (List.mem_cons_self ..)]
      exact ih _ (fun n hn => ho n (List.mem_cons_of_mem _ hn))
  obtain ⟨s', hs'⟩ := hgen others s ho
  unfold preApply
  rw [show loop (preStep subs names x) names s = loop (preStep subs names x) (others ++ name :: rest) s by rw [← hs],
    loop_append, hs']
  simp [loop, preStep, hno, preRho, hr]

/-- **C58** (order, refuted).  Without the order of the fields, a conservatively transported tracer is converted with the
density of the previous call: here the tracer stands before its density, and its lifted value (the product with the
density) uses the density 7 of the previous call, not 5. -/
theorem C58_order_refuted :
    ∃ (subs : Subs ℕ) (h : Heap ℕ) (h' : Heap ℕ) (m' : ℕ → ℕ),
      preApply subs ["m", "rho"] (fun i => if i = 0 then 2 else 5) (h, fun _ => 0) = .ok (h', m') ∧
      (h "rho").xInOrig = 7 ∧ subs "m" = some (.conservative "rho" (fun ro _ v => ro * v) (fun _ _ v => v)) ∧ m' 0 = 14 := by
  refine ⟨fun n => if n = "m" then some (.conservative "rho" (fun ro _ v => ro * v) (fun _ _ v => v))
      else if n = "rho" then some (.plain id id) else none,
    fun _ => ⟨7, 7, 7, 7, 7, 7, 7, 7⟩, _, _, rfl, rfl, rfl, ?_⟩
  rfl

/-- **C58** (construction).  Mixed options can be built exactly from embedded DG and recovery suboptions. -/
theorem C58_construct (l : List (String × Kind)) :
    constructMixed l = .ok () ↔ ∀ p ∈ l, p.2 = .embeddedDG ∨ p.2 = .recovered := by
  induction l with
  | nil => simp [constructMixed]
  | cons p l ih =>
    obtain ⟨n, k⟩ := p
    cases k <;> simp [constructMixed, ih]

theorem setup_loop {S : Type*} (names : List String) (hn : names.Nodup) (subs : List (String × (S → S)))
    (hk : (subs.map Prod.fst).Nodup) (st : Setup S) (hl : st.equationSpaces.length = names.length)
    (hsub : ∀ p ∈ subs, p.1 ∈ names) :
    ∃ st', setupLoop names subs st = .ok st' ∧ st'.equationSpaces.length = names.length ∧
      (subs ≠ [] → st'.wrapperSpaces = st'.equationSpaces) ∧
      (∀ i, (∀ p ∈ subs, names.idxOf p.1 ≠ i) → st'.equationSpaces[i]? = st.equationSpaces[i]?) ∧
      (∀ p ∈ subs, st'.equationSpaces[names.idxOf p.1]? = (st.equationSpaces[names.idxOf p.1]?).map p.2) ∧
      st'.original.map some = st.original.map some ++
        subs.map (fun p => (st.equationSpaces[names.idxOf p.1]?).map fun s => (p.1, s)) := by
  induction subs generalizing st with
  | nil => exact ⟨st, rfl, hl, fun h => absurd rfl h, fun i _ => rfl, by simp, by simp⟩
  | cons p subs ih =>
    obtain ⟨f, embed⟩ := p
    have hf : f ∈ names := hsub (f, embed) (List.mem_cons_self ..)
    have hfi := List.idxOf_lt_length_of_mem hf
    have hget : st.equationSpaces[names.idxOf f]? = some st.equationSpaces[names.idxOf f] :=
      List.getElem?_eq_getElem (by omega)
    simp only [setupLoop, hf, if_true, hget]
    simp only [List.map_cons, List.nodup_cons] at hk
    have hne : ∀ q ∈ subs, names.idxOf q.1 ≠ names.idxOf f := by
      intro q hq e
      have := idx_inj (hsub q (List.mem_cons_of_mem _ hq)) e
      exact hk.1 (List.mem_map.2 ⟨q, hq, this⟩)
    obtain ⟨st', e, h1, h2, h3, h4, h5⟩ := ih hk.2
      { equationSpaces := st.equationSpaces.set (names.idxOf f) (embed st.equationSpaces[names.idxOf f]),
        wrapperSpaces := st.equationSpaces.set (names.idxOf f) (embed st.equationSpaces[names.idxOf f]),
        original := st.original ++ [(f, st.equationSpaces[names.idxOf f])] } (by simpa using hl)
        (fun q hq => hsub q (List.mem_cons_of_mem _ hq))
    refine ⟨st', e, h1, ?_, ?_, ?_, ?_⟩
    · intro _
      cases subs with
      | nil =>
        simp only [setupLoop, Except.ok.injEq] at e
        rw [← e]
      | cons q subs => exact h2 (by simp)
    · intro i hi
      rw [h3 i (fun q hq => hi q (List.mem_cons_of_mem _ hq))]
      have : names.idxOf f ≠ i := hi (f, embed) (List.mem_cons_self ..)
      simp [List.getElem?_set_ne this]
    · intro q hq
      rcases List.mem_cons.1 hq with rfl | hq
      · rw [h3 _ hne]
        simp only [hget, Option.map_some]
        rw [List.getElem?_set_self (by omega)]
      · rw [h4 q hq]
        simp [List.getElem?_set_ne (Ne.symm (hne q hq))]
    · rw [h5]
      simp only [List.map_append, List.map_cons, List.map_nil, hget, Option.map_some, List.append_assoc,
        List.singleton_append]
      congr 2
      apply List.map_congr_left
      intro q hq
      simp [List.getElem?_set_ne (Ne.symm (hne q hq))]

/-- **C58** (set-up, what holds).  Set-up succeeds exactly if every field with options exists; then each subwrapper is
given the space its field has in the equation at that moment, and the scheme's mixed space has the embedding space for
the fields with options and the equation's space for the others. -/
theorem C58_setup_partial {S : Type*} (names : List String) (hn : names.Nodup) (spaces : List S)
    (hl : spaces.length = names.length) (subs : List (String × (S → S))) (hk : (subs.map Prod.fst).Nodup) :
    ((∃ st, setupMixed names spaces subs = .ok st) ↔ ∀ p ∈ subs, p.1 ∈ names) ∧
    ∀ st, setupMixed names spaces subs = .ok st →
      (∀ i, (∀ p ∈ subs, names.idxOf p.1 ≠ i) → st.wrapperSpaces[i]? = spaces[i]?) ∧
      (∀ p ∈ subs, st.wrapperSpaces[names.idxOf p.1]? = (spaces[names.idxOf p.1]?).map p.2) ∧
      st.original.map some = subs.map (fun p => (spaces[names.idxOf p.1]?).map fun s => (p.1, s)) := by
  have hfwd : ∀ (l : List (String × (S → S))) (st st' : Setup S), setupLoop names l st = .ok st' →
      ∀ p ∈ l, p.1 ∈ names := by
    intro l
    induction l with
    | nil => intro st st' _ p hp; cases hp
    | cons q l ih =>
      obtain ⟨f, embed⟩ := q
      intro st st' h p hp
      simp only [setupLoop] at h
      split_ifs at h with hf
      split at h
      · cases h
      · rcases List.mem_cons.1 hp with rfl | hp
        · exact hf
        · exact ih _ _ h p hp
  constructor
  · constructor
    · rintro ⟨st, h⟩
      exact hfwd _ _ _ h
    · intro h
      obtain ⟨st, e, -⟩ := setup_loop names hn subs hk ⟨spaces, spaces, []⟩ hl h
      exact ⟨st, e⟩
  · intro st h
    have hs := hfwd _ _ _ h
    obtain ⟨st', e, h1, h2, h3, h4, h5⟩ := setup_loop names hn subs hk ⟨spaces, spaces, []⟩ hl hs
    have : st' = st := by
      unfold setupMixed at h
      rw [h] at e
      exact (Except.ok.inj e).symm
    subst this
    have hw : st'.wrapperSpaces = st'.equationSpaces := by
      cases subs with
      | nil =>
        simp only [setupMixed, setupLoop, Except.ok.injEq] at h
        rw [← h]
      | cons q l => exact h2 (by simp)
    rw [hw]
    exact ⟨h3, h4, by simpa using h5⟩

/-- **C58** (set-up, refuted).  Set-up does not leave the equation alone: the list of spaces of the equation is changed
too, so that the next scheme that is set up for the field takes the embedding space for the field's own space. -/
theorem C58_setup_refuted :
    ∃ st st', setupMixed ["rho", "theta"] ["DG", "theta"] [("theta", fun s => "broken " ++ s)] = .ok st ∧
      st.equationSpaces = ["DG", "broken theta"] ∧
      setupMixed ["rho", "theta"] st.equationSpaces [("theta", fun s => "broken " ++ s)] = .ok st' ∧
      st'.original = [("theta", "broken theta")] := by
  refine ⟨_, _, rfl, rfl, rfl, rfl⟩

/-- **C58** (augmentation).  Without augmentation, a scheme with a wrapper is lift, scheme, back, and one without is the
scheme itself; with an augmentation the wrapper is not used at all. -/
theorem C58_single {W : Type*} (aug wrapper : Option ((V → W) × (W → V))) (f : V → V) (g : W → W) (x : V) :
    (aug = none → wrapper = none → applySingle aug wrapper f g x = f x) ∧
    (∀ l b, aug = none → wrapper = some (l, b) → applySingle aug wrapper f g x = b (g (l x))) ∧
    (∀ l b, aug = some (l, b) → applySingle aug wrapper f g x = b (g (l x))) := by
  refine ⟨?_, ?_, ?_⟩
  · rintro rfl rfl; rfl
  · rintro l b rfl rfl; rfl
  · rintro l b rfl; rfl

/-- A density, a tracer transported with it and a field without options meet the hypotheses. -/
example : DensitiesFirst (V := ℕ) (fun n => if n = "m" then some (.conservative "rho" (fun ro _ v => ro * v) (fun _ _ v => v))
    else if n = "rho" then some (.plain (· + 1) (· - 1)) else none) ["u", "rho", "m"] := by
  intro name hname rho l b h
  simp only [List.mem_cons, List.not_mem_nil, or_false] at hname
  rcases hname with rfl | rfl | rfl
  · simp at h
  · simp at h
  · simp only [if_true, Option.some.injEq, Sub.conservative.injEq] at h
    obtain ⟨rfl, -, -⟩ := h
    refine ⟨by simp, by simp, by decide⟩

end Gusto.Props.WrapProps
