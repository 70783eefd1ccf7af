import Verif.Model.ComplexProxy
import Mathlib.Tactic.LinearCombination
import Mathlib.Tactic.Linarith
import Mathlib.LinearAlgebra.BilinearMap
import Mathlib.Analysis.Calculus.LineDeriv.Basic
import Mathlib.Analysis.Calculus.Deriv.Pow

set_option autoImplicit false
set_option linter.unusedSectionVars false
set_option linter.unusedSimpArgs false

/-! # C53: the complex proxy represents complex arithmetic -/

namespace Gusto.Props.CpxProps
open Gusto.Cpx
variable {X : Type*}

/-! ### Interleaved components -/

theorem everySecond_getElem? : ∀ (l : List X) (k : ℕ), (everySecond l)[k]? = l[2 * k]?
  | [], k => by simp [everySecond]
  | [a], 0 => by simp [everySecond]
  | [a], k + 1 => by simp [everySecond]
  | a :: b :: t, 0 => by simp [everySecond]
  | a :: b :: t, k + 1 => by
    simp only [everySecond, List.getElem?_cons_succ]
    rw [everySecond_getElem? t k, show 2 * (k + 1) = 2 * k + 1 + 1 by omega]
    simp

theorem everySecond_length : ∀ l : List X, (everySecond l).length = (l.length + 1) / 2
  | [] => by simp [everySecond]
  | [a] => by simp [everySecond]
  | a :: b :: t => by simp [everySecond, everySecond_length t]; omega

theorem component_getElem? (u : List X) (i : Part) (k : ℕ) :
    (componentElements u i)[k]? = u[2 * k + i.toNat]? := by
  rw [componentElements, everySecond_getElem?, List.getElem?_drop, Nat.add_comm]

theorem component_length (u : List X) (i : Part) (n : ℕ) (h : u.length = 2 * n) :
    (componentElements u i).length = n := by
  rw [componentElements, everySecond_length, List.length_drop, h]
  cases i <;> simp [Part.toNat] <;> omega

/-- The result of the assignment loops. -/
theorem foldl_set {Y : Type*} (f : ℕ → ℕ) (hf : Function.Injective f) (g : Y → X) :
    ∀ (l : List Y) (s : ℕ) (w : List X) (j : ℕ),
      ((l.zipIdx s).foldl (fun w p => w.set (f p.2) (g p.1)) w).length = w.length ∧
      (∀ k, k < l.length → f (s + k) = j → j < w.length →
        ((l.zipIdx s).foldl (fun w p => w.set (f p.2) (g p.1)) w)[j]? = (l[k]?).map g) ∧
      ((∀ k, k < l.length → f (s + k) ≠ j) →
        ((l.zipIdx s).foldl (fun w p => w.set (f p.2) (g p.1)) w)[j]? = w[j]?)
  | [], s, w, j => by simp
  | y :: t, s, w, j => by
    obtain ⟨h1, h2, h3⟩ := foldl_set f hf g t (s + 1) (w.set (f s) (g y)) j
    simp only [List.zipIdx_cons, List.foldl_cons]
    refine ⟨by rw [h1]; simp, ?_, ?_⟩
    · intro k hk hj hw
      cases k with
      | zero =>
        rw [h3]
        · have hj : f s = j := by simpa using hj
          subst hj
          simp [hw]
        · intro k hk2 he
          have := hf (he.trans hj.symm)
          omega
      | succ k =>
        rw [h2 k (by simpa using hk) (by rw [← hj]; congr 1; omega) (by simpa using hw)]
        simp
    · intro h
      rw [h3]
      · rw [List.getElem?_set_ne]
        simpa using h 0 (by simp)
      · intro k hk
        have := h (k + 1) (by simpa using hk)
        rwa [show s + (k + 1) = s + 1 + k by omega] at this

/-- **C53** (reading a part).  For a complex Function with `2*n` components and a real Function with `n`, the
call overwrites `vout` completely: its k-th component is component `2*k` (real part) or `2*k + 1` (imaginary
part) of the complex Function. -/
theorem C53_get (u vout : List X) (n : ℕ) (hu : u.length = 2 * n) (hv : vout.length = n) (i : Part) :
    (getPart u vout i).length = n ∧ ∀ k < n, (getPart u vout i)[k]? = u[2 * k + i.toNat]? := by
  have h := fun j => foldl_set (Y := X × X) id Function.injective_id Prod.fst
    ((componentElements u i).zip vout) 0 vout j
  simp only [id] at h
  have hl : ((componentElements u i).zip vout).length = n := by
    rw [List.length_zip, component_length u i n hu, hv, Nat.min_self]
  refine ⟨by unfold getPart; rw [(h 0).1, hv], fun k hk => ?_⟩
  unfold getPart
  rw [(h k).2.1 k (by omega) (by simp) (by omega), ← component_getElem?]
  have h1 : k < (componentElements u i).length := by rw [component_length u i n hu]; exact hk
  simp [List.getElem?_zip_eq_some, List.getElem?_eq_getElem, h1, hl, hk, hv]

/-- **C53** (writing a part).  The k-th component of the real Function is written to component `2*k + i`; no
other component changes. -/
theorem C53_set (u v : List X) (n : ℕ) (hu : u.length = 2 * n) (hv : v.length = n) (i : Part) :
    (setPart u v i).length = 2 * n ∧ (∀ k < n, (setPart u v i)[2 * k + i.toNat]? = v[k]?) ∧
      ∀ k < n, (setPart u v i)[2 * k + i.other.toNat]? = u[2 * k + i.other.toNat]? := by
  have h := fun j => foldl_set (Y := X × X) (fun k => 2 * k + i.toNat) (fun a b hab => by simpa using hab)
    Prod.snd ((componentElements u i).zip v) 0 u j
  have hl : ((componentElements u i).zip v).length = n := by
    rw [List.length_zip, component_length u i n hu, hv, Nat.min_self]
  have hi : i.toNat ≤ 1 := by cases i <;> simp [Part.toNat]
  refine ⟨by unfold setPart; rw [(h 0).1, hu], fun k hk => ?_, fun k hk => ?_⟩
  · unfold setPart
    rw [(h _).2.1 k (by omega) (by simp) (by omega)]
    have h1 : k < (componentElements u i).length := by rw [component_length u i n hu]; exact hk
    simp [List.getElem?_eq_getElem, h1, hl, hk, hv]
  · unfold setPart
    rw [(h _).2.2]
    intro k' hk' he
    cases i <;> simp [Part.toNat, Part.other] at he <;> omega

theorem ext_parts {u u' : List X} {n : ℕ} (hu : u.length = 2 * n) (hu' : u'.length = 2 * n)
    (h : ∀ k < n, ∀ i : Part, u[2 * k + i.toNat]? = u'[2 * k + i.toNat]?) : u = u' := by
  apply List.ext_getElem?
  intro j
  by_cases hj : j < 2 * n
  · have h0 := h (j / 2) (by omega) .re
    have h1 := h (j / 2) (by omega) .im
    simp only [Part.toNat] at h0 h1
    rcases Nat.mod_two_eq_zero_or_one j with e | e
    · rwa [show 2 * (j / 2) + 0 = j by omega] at h0
    · rwa [show 2 * (j / 2) + 1 = j by omega] at h1
  · rw [List.getElem?_eq_none (by omega), List.getElem?_eq_none (by omega)]

/-- **C53** (lens laws).  What is set is read back, the other part is untouched, setting a part to its own
value changes nothing, the last of two settings counts, and the two parts determine the complex Function. -/
theorem C53_lens (u v v' vout : List X) (n : ℕ) (hu : u.length = 2 * n) (hv : v.length = n)
    (hv' : v'.length = n) (ho : vout.length = n) (i : Part) :
    getPart (setPart u v i) vout i = v ∧
    getPart (setPart u v i) vout i.other = getPart u vout i.other ∧
    setPart u (getPart u vout i) i = u ∧
    setPart (setPart u v i) v' i = setPart u v' i ∧
    setPart (setPart u v i) v' i.other = setPart (setPart u v' i.other) v i ∧
    ∀ u' : List X, u'.length = 2 * n → getPart u vout .re = getPart u' vout .re →
      getPart u vout .im = getPart u' vout .im → u = u' := by
  obtain ⟨s0, s1, s2⟩ := C53_set u v n hu hv i
  have oo : i.other.other = i := by cases i <;> rfl
  refine ⟨?_, ?_, ?_, ?_, ?_, ?_⟩
  · obtain ⟨g0, g1⟩ := C53_get _ vout n s0 ho i
    apply List.ext_getElem?
    intro k
    by_cases hk : k < n
    · rw [g1 k hk, s1 k hk]
    · rw [List.getElem?_eq_none (by omega), List.getElem?_eq_none (by omega)]
  · obtain ⟨g0, g1⟩ := C53_get _ vout n s0 ho i.other
    obtain ⟨g0', g1'⟩ := C53_get u vout n hu ho i.other
    apply List.ext_getElem?
    intro k
    by_cases hk : k < n
    · rw [g1 k hk, g1' k hk, s2 k hk]
    · rw [List.getElem?_eq_none (by omega), List.getElem?_eq_none (by omega)]
  · obtain ⟨g0, g1⟩ := C53_get u vout n hu ho i
    obtain ⟨t0, t1, t2⟩ := C53_set u _ n hu g0 i
    refine ext_parts t0 hu fun k hk j => ?_
    by_cases hj : j = i
    · subst hj; rw [t1 k hk, g1 k hk]
    · have : j = i.other := by cases i <;> cases j <;> simp_all [Part.other]
      subst this; exact t2 k hk
  · obtain ⟨t0, t1, t2⟩ := C53_set (setPart u v i) v' n s0 hv' i
    obtain ⟨r0, r1, r2⟩ := C53_set u v' n hu hv' i
    refine ext_parts t0 r0 fun k hk j => ?_
    by_cases hj : j = i
    · subst hj; rw [t1 k hk, r1 k hk]
    · have : j = i.other := by cases i <;> cases j <;> simp_all [Part.other]
      subst this; rw [t2 k hk, r2 k hk, s2 k hk]
  · obtain ⟨t0, t1, t2⟩ := C53_set (setPart u v i) v' n s0 hv' i.other
    obtain ⟨r0, r1, r2⟩ := C53_set u v' n hu hv' i.other
    obtain ⟨q0, q1, q2⟩ := C53_set (setPart u v' i.other) v n r0 hv i
    rw [oo] at t2
    refine ext_parts t0 q0 fun k hk j => ?_
    by_cases hj : j = i
    · subst hj; rw [t2 k hk, q1 k hk, s1 k hk]
    · have : j = i.other := by cases i <;> cases j <;> simp_all [Part.other]
      subst this; rw [t1 k hk, q2 k hk, r1 k hk]
  · intro u' hu' h1 h2
    refine ext_parts hu hu' fun k hk j => ?_
    cases j with
    | re => rw [← (C53_get u vout n hu ho .re).2 k hk, h1, (C53_get u' vout n hu' ho .re).2 k hk]
    | im => rw [← (C53_get u vout n hu ho .im).2 k hk, h2, (C53_get u' vout n hu' ho .im).2 k hk]

/-- The leaves of an element, from left to right. -/
inductive Leaves : Elem → List String → Prop
  | leaf (n : String) : Leaves (.leaf n) [n]
  | nil : Leaves (.mixed []) []
  | cons (c : Elem) (l : List Elem) (a b : List String) :
      Leaves c a → Leaves (.mixed l) b → Leaves (.mixed (c :: l)) (a ++ b)

/-- **C53** (the proxied element).  The complex element of an element with leaves `e_0, e_1, ...` (nested mixed
elements flattened) has the components `e_0, e_0, e_1, e_1, ...`, and both parts of the list of components are
the leaves. -/
theorem C53_element (e : Elem) (l : List String) (h : Leaves e l) :
    finiteElement e = l.flatMap (fun a => [a, a]) ∧
      ∀ i, componentElements (finiteElement e) i = l := by
  have hfl : e.flatten = l := by
    induction h with
    | leaf n => simp [Elem.flatten]
    | nil => simp [Elem.flatten]
    | cons c l a b _ _ ih1 ih2 =>
      simp only [Elem.flatten, List.flatMap_subtype, List.unattach_attach, List.flatMap_cons] at ih2 ⊢
      rw [ih1, ih2]
  have key : ∀ l : List String, ((l.zip l).flatMap fun ee => [ee.1, ee.2]) = l.flatMap (fun a => [a, a]) := by
    intro l
    induction l with
    | nil => rfl
    | cons a t ih => simp [ih]
  refine ⟨by rw [finiteElement, hfl, key], ?_⟩
  intro i
  rw [finiteElement, hfl, key]
  clear hfl h
  induction l with
  | nil => cases i <;> simp [componentElements, everySecond]
  | cons a t ih =>
    cases i with
    | re => simpa [componentElements, everySecond, Part.toNat] using ih
    | im =>
      simp only [componentElements, Part.toNat, List.flatMap_cons, List.cons_append, List.nil_append,
        List.drop_succ_cons, List.drop_zero] at ih ⊢
      cases t with
      | nil => simp [everySecond]
      | cons b t => simpa [everySecond] using ih

/-- **C53** (boundary conditions).  A condition on component `k` of a mixed space is imposed on the real and
on the imaginary part of that component, and on nothing else. -/
theorem C53_bc (k j : ℕ) : j ∈ bcComponents (some k) ↔ ∃ i : Part, j = 2 * k + i.toNat := by
  simp only [bcComponents, List.mem_map, List.mem_range]
  constructor
  · rintro ⟨a, ha, rfl⟩
    have : a = 0 ∨ a = 1 := by omega
    rcases this with rfl | rfl
    · exact ⟨.re, rfl⟩
    · exact ⟨.im, rfl⟩
  · rintro ⟨i, rfl⟩
    exact ⟨i.toNat, by cases i <;> simp [Part.toNat], rfl⟩

/-! ### Vector implementation -/

/-- **C53** (vector proxy, scalar components).  If all components have scalar (non-vector, non-tensor)
elements, reading a part overwrites `vout` with that part of every component. -/
theorem C53_vector_get (l : List (X × X)) (vout : List X) (h : vout.length = l.length) (i : Part) :
    getPartVector (.mixed (l.map fun p => .leaf .scalar p.1 p.2)) vout i =
      .ok (l.map fun p => i.pick p.1 p.2) := by
  have key : ∀ l : List (X × X),
      (VFun.mixed (l.map fun p => .leaf .scalar p.1 p.2) : VFun X).subfunctions i =
        .ok (l.map fun p => i.pick p.1 p.2) := by
    intro l
    rw [VFun.subfunctions]
    have : ∀ l : List (X × X), (l.map fun p => (VFun.leaf .scalar p.1 p.2 : VFun X)).mapM
        (fun c => c.subfunctions i) = .ok (l.map fun p => [i.pick p.1 p.2]) := by
      intro l
      induction l with
      | nil => rfl
      | cons a t ih => simp [ih, VFun.subfunctions, bind, Except.bind, pure, Except.pure]
    have h2 : ((l.map fun p => (VFun.leaf .scalar p.1 p.2 : VFun X)).attach.mapM
        fun c => c.1.subfunctions i) = .ok (l.map fun p => [i.pick p.1 p.2]) := by
      rw [← this l]
      simp [List.mapM_subtype]
    rw [h2]
    simp only [bind, Except.bind, pure, Except.pure, Except.ok.injEq]
    clear h2
    induction l with
    | nil => rfl
    | cons a t ih => simpa using ih
  unfold getPartVector
  rw [key l]
  simp only [bind, Except.bind, pure, Except.pure]
  congr 1
  set w := l.map fun p => i.pick p.1 p.2 with hw
  have hf := fun j => foldl_set (Y := X × X) id Function.injective_id Prod.fst (w.zip vout) 0 vout j
  simp only [id] at hf
  have hl : (w.zip vout).length = l.length := by simp [hw, h]
  apply List.ext_getElem?
  intro k
  by_cases hk : k < l.length
  · rw [(hf k).2.1 k (by omega) (by simp) (by omega)]
    have h1 : k < w.length := by simpa [hw] using hk
    have h2 : k < vout.length := by omega
    simp [List.getElem?_eq_getElem, h1, h2, hl, hk]
  · rw [List.getElem?_eq_none (by rw [(hf 0).1]; omega), List.getElem?_eq_none (by simp [hw]; omega)]

/-- **C53** (vector proxy, refutation).  With a vector-valued or tensor-valued component, reading either part
fails with a TypeError. -/
theorem C53_vector_refuted (n : ℕ) (shape : List ℕ) (r m : X) (vout : List X) (i : Part) :
    getPartVector (.leaf (.vector n) r m) vout i = .error "TypeError" ∧
    getPartVector (.leaf (.tensor shape) r m) vout i = .error "TypeError" ∧
    getPartVector (.mixed [.leaf .scalar r m, .leaf (.vector n) r m]) vout i = .error "TypeError" := by
  refine ⟨?_, ?_, ?_⟩ <;>
    simp [getPartVector, VFun.subfunctions, bind, Except.bind, pure, Except.pure]

/-! ### Forms -/

/-- The projections of a complex space: any pair of real vectors is the pair of parts of exactly one complex
vector. -/
def IsProxy {V W : Type*} (split : Part → W → V) : Prop :=
  Function.Bijective fun w => (split .re w, split .im w)

/-- Both implementations of `split` are projections of this kind. -/
theorem C53_split (n : ℕ) (E : Type*) :
    IsProxy (splitMixed (n := n) (E := E)) ∧ IsProxy (splitVector (n := n) (E := E)) := by
  constructor
  · constructor
    · intro u u' h
      simp only [Prod.mk.injEq] at h
      funext j
      have hk : j.1 / 2 < n := by have := j.2; omega
      have h0 := congrFun h.1 ⟨j.1 / 2, hk⟩
      have h1 := congrFun h.2 ⟨j.1 / 2, hk⟩
      simp only [splitMixed, Part.toNat] at h0 h1
      rcases Nat.mod_two_eq_zero_or_one j.1 with e | e
      · have : (⟨2 * (j.1 / 2) + 0, by omega⟩ : Fin (2 * n)) = j := Fin.ext (by simp; omega)
        rwa [this] at h0
      · have : (⟨2 * (j.1 / 2) + 1, by omega⟩ : Fin (2 * n)) = j := Fin.ext (by simp; omega)
        rwa [this] at h1
    · rintro ⟨a, b⟩
      refine ⟨fun j => if j.1 % 2 = 0 then a ⟨j.1 / 2, by have := j.2; omega⟩
        else b ⟨j.1 / 2, by have := j.2; omega⟩, ?_⟩
      simp only [Prod.mk.injEq]
      constructor
      · funext k
        have : (2 * k.1 + 0) % 2 = 0 := by omega
        refine (if_pos this).trans ?_
        congr 1
        exact Fin.ext (by simp [Part.toNat])
      · funext k
        have : ¬ (2 * k.1 + 1) % 2 = 0 := by omega
        refine (if_neg this).trans ?_
        congr 1
        exact Fin.ext (by simp [Part.toNat]; omega)
  · constructor
    · intro u u' h
      simp only [Prod.mk.injEq] at h
      funext k j
      have h0 := congrFun h.1 k
      have h1 := congrFun h.2 k
      simp only [splitVector, Part.toNat] at h0 h1
      fin_cases j
      · exact h0
      · exact h1
    · rintro ⟨a, b⟩
      exact ⟨fun k j => if j.1 = 0 then a k else b k, rfl⟩

variable {V W : Type*} [AddCommGroup V] [Module ℝ V] {split : Part → W → V}

/-- **C53** (systems).  Solving the proxied system `BilinearForm(W, z, A) = LinearForm(W, y, f)`, possibly with
a second bilinear form subtracted, gives the real and imaginary parts of the solution of the complex equation:
`z A(w, t) - tau B(w, t) = y f(t)` for all real test functions `t`, where `A(w, t) = A(re w, t) + i A(im w, t)`. -/
theorem C53_system (hs : IsProxy split) (A B : V →ₗ[ℝ] V →ₗ[ℝ] ℝ) (f : V →ₗ[ℝ] ℝ) (z tau y : ℂ) (w : W) :
    (∀ v : W, twoform split (z.re, z.im) (fun a b => A a b) w v
        - twoform split (tau.re, tau.im) (fun a b => B a b) w v
        = oneform split (y.re, y.im) (fun b => f b) v) ↔
    ∀ t : V, z * ((A (split .re w) t : ℂ) + Complex.I * (A (split .im w) t : ℂ))
        - tau * ((B (split .re w) t : ℂ) + Complex.I * (B (split .im w) t : ℂ)) = y * (f t : ℂ) := by
  constructor
  · intro h t
    obtain ⟨v1, h1⟩ := hs.2 (t, 0)
    obtain ⟨v2, h2⟩ := hs.2 (0, t)
    simp only [Prod.mk.injEq] at h1 h2
    have e1 := h v1
    have e2 := h v2
    simp only [twoform, oneform, h1.1, h1.2, h2.1, h2.2, map_zero, mul_zero, add_zero, zero_add] at e1 e2
    apply Complex.ext
    · simp
      linarith
    · simp
      linarith
  · intro h v
    have h1 := congrArg Complex.re (h (split .re v))
    have h2 := congrArg Complex.im (h (split .im v))
    simp at h1 h2
    simp only [twoform, oneform]
    linarith

/-- **C53** (coefficients).  Complex numbers and pairs of Constants are accepted and split into real and
imaginary parts; anything else raises. -/
theorem C53_coefficients (z : ℂ) (a b : ℝ) :
    complexComponents (.number z) = .ok (z.re, z.im) ∧ complexComponents (.constants a b) = .ok (a, b) ∧
    complexComponents .other = .error "ValueError" := ⟨rfl, rfl, rfl⟩

end Gusto.Props.CpxProps

namespace Gusto.Props.CpxProps
open Gusto.Cpx

/-- **C53** (derivative).  If both parts of `u` are equal to `w` and `F` has the derivative `J` at `w`, the
form built by `derivative` is the bilinear form of `J` at `w`. -/
theorem C53_derivative {V W : Type*} [NormedAddCommGroup V] [NormedSpace ℝ V] [NormedAddCommGroup W]
    [NormedSpace ℝ W] (S : Part → W →ₗ[ℝ] V) (F : V → V → ℝ) (J : V → V → ℝ) (w : V) (u : W)
    (hu : ∀ i, S i u = w)
    (hJ : ∀ d t : V, HasLineDerivAt ℝ (fun x => F x t) (J d t) w d) (z : ℝ × ℝ) (d v : W) :
    derivativeForm (fun i => S i) z F u d v = twoform (fun i => S i) z J d v := by
  have key : ∀ i t, lineDeriv ℝ (fun x => F (S i x) t) u d = J (S i d) t := by
    intro i t
    have h := hJ (S i d) t
    apply HasLineDerivAt.lineDeriv
    unfold HasLineDerivAt at h ⊢
    simpa [map_add, map_smul, hu i] using h
  simp only [derivativeForm, twoform, key]

/-- The hypotheses are met: complex numbers as pairs; a non-trivial system. -/
example : IsProxy (splitMixed (n := 1) (E := ℝ)) ∧ Leaves (.mixed [.leaf "a", .mixed [.leaf "b", .leaf "c"]])
    ["a", "b", "c"] :=
  ⟨(C53_split 1 ℝ).1, .cons _ _ ["a"] _ (.leaf _) (.cons _ _ ["b", "c"] [] (.cons _ _ ["b"] ["c"] (.leaf _)
    (.cons _ _ ["c"] [] (.leaf _) .nil)) .nil)⟩

/-- `F x t = x^2 t` has the derivative `2 w d t`. -/
example (w : ℝ) : ∀ d t : ℝ, HasLineDerivAt ℝ (fun x : ℝ => x ^ 2 * t) (2 * w * d * t) w d := by
  intro d t
  unfold HasLineDerivAt
  have h : HasDerivAt (fun s : ℝ => (w + s * d) ^ 2 * t) (2 * (w + 0 * d) ^ 1 * d * t) 0 := by
    have h1 : HasDerivAt (fun s : ℝ => w + s * d) d 0 := by
      simpa using ((hasDerivAt_id (0 : ℝ)).mul_const d).const_add w
    simpa using (h1.pow 2).mul_const t
  simpa using h

end Gusto.Props.CpxProps
