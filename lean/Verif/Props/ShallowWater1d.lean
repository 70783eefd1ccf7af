import Verif.Model.ShallowWater1d
import Mathlib.Analysis.SpecialFunctions.Integrals.Basic
import Mathlib.Topology.Algebra.Polynomial
import Mathlib.Tactic.Ring
import Mathlib.Tactic.Linarith
import Mathlib.Tactic.LinearCombination
import Mathlib.Tactic.NormNum

set_option autoImplicit false
set_option linter.unusedSectionVars false
set_option linter.unusedSimpArgs false

/-!
# C104: the one-dimensional shallow-water equation sets
-/

namespace Gusto.Props.SW1Props
open Gusto.SW1 Gusto.EqSet Polynomial

/-! ### Specification -/

/-- The function is continuous (on a periodic mesh also across the identified ends). -/
def Cont (M : Mesh1) (q : Fn) : Prop :=
  (∀ i < M.n, M.atR q i = M.atL q (i + 1)) ∧ (M.per = true → M.atR q M.n = M.atL q 0)
/-- The function vanishes at the ends of an interval. -/
def Walls (M : Mesh1) (q : Fn) : Prop := M.per = false → M.atL q 0 = 0 ∧ M.atR q M.n = 0
/-- The space `HDiv` of one dimension with `no_normal_flow_bc_ids` at both ends. -/
def Flow (M : Mesh1) (q : Fn) : Prop := Cont M q ∧ Walls M q

/-- The value at a point of a cell. -/
noncomputable def val (q : Fn) (i : ℕ) (t : ℝ) : ℝ := (q i).eval t
/-- The derivative of a function at a point of a cell. -/
noncomputable def slope (q : Fn) (i : ℕ) (t : ℝ) : ℝ := deriv (fun s => (q i).eval s) t

/-- The part of a residual without time derivatives. -/
noncomputable def spatial (res : List T1) (X v : St1) : ℝ :=
  value (res.filter fun t => !decide ("time_derivative" ∈ t.labels)) X v
/-- The part of a residual with time derivatives. -/
noncomputable def temporal (res : List T1) (X v : St1) : ℝ :=
  value (res.filter fun t => decide ("time_derivative" ∈ t.labels)) X v

/-- `X + e h`. -/
noncomputable def axpy (X : St1) (e : ℝ) (h : St1) : St1 :=
  ⟨fun i => X.u i + C e * h.u i, fun i => X.v i + C e * h.v i, fun i => X.D i + C e * h.D i⟩

/-- `L` is the derivative of `N` at `X`. -/
def IsDeriv (N : St1 → St1 → ℝ) (X : St1) (L : St1 → St1 → ℝ) : Prop :=
  ∀ h v, ∃ Q, ∀ e : ℝ, N (axpy X e h) v = N X v + e * L h v + e ^ 2 * Q

/-! ### Integrals -/

theorem slope_eq (q : Fn) (i : ℕ) (t : ℝ) : slope q i t = (dx0 q i).eval t := by
  unfold slope dx0; exact Polynomial.deriv (q i)

theorem integ_add (M : Mesh1) (a b : Fn) : integ M (fun i => a i + b i) = integ M a + integ M b := by
  unfold integ
  rw [← Finset.sum_add_distrib]
  refine Finset.sum_congr rfl fun i _ => ?_
  simp only [eval_add]
  exact intervalIntegral.integral_add ((a i).continuous.intervalIntegrable _ _) ((b i).continuous.intervalIntegrable _ _)

theorem integ_smul (M : Mesh1) (k : ℝ) (a : Fn) : integ M (fun i => C k * a i) = k * integ M a := by
  unfold integ
  rw [Finset.mul_sum]
  refine Finset.sum_congr rfl fun i _ => ?_
  simp only [eval_mul, eval_C]
  exact intervalIntegral.integral_const_mul _ _

theorem integ_congr (M : Mesh1) {a b : Fn} (h : ∀ i ≤ M.n, a i = b i) : integ M a = integ M b := by
  unfold integ
  refine Finset.sum_congr rfl fun i hi => ?_
  rw [h i (Nat.lt_succ_iff.1 (Finset.mem_range.1 hi))]

theorem integ_zero (M : Mesh1) : integ M (fun _ => 0) = 0 := by simp [integ]

theorem integ_neg (M : Mesh1) (a : Fn) : integ M (fun i => -a i) = -integ M a := by
  have := integ_smul M (-1) a
  simp only [map_neg, map_one, neg_mul, one_mul] at this
  exact this

theorem integ_cell (a b : ℝ) (p : ℝ[X]) : ∫ t in a..b, (derivative p).eval t = p.eval b - p.eval a := by
  exact intervalIntegral.integral_eq_sub_of_hasDerivAt (fun t _ => p.hasDerivAt t)
    ((derivative p).continuous.intervalIntegrable _ _)

/-- The boundary term of an integration by parts. -/
noncomputable def bdry (M : Mesh1) (q : Fn) : ℝ := if M.per then 0 else M.atR q M.n - M.atL q 0

theorem integ_deriv (M : Mesh1) (q : Fn) :
    integ M (fun i => derivative (q i)) = facetSum M (fun i j => M.atR q i - M.atL q j) + bdry M q := by
  have h : ∀ n, ∑ i ∈ Finset.range (n + 1), (M.atR q i - M.atL q i) =
      ∑ i ∈ Finset.range n, (M.atR q i - M.atL q (i + 1)) + (M.atR q n - M.atL q 0) := by
    intro n
    induction n with
    | zero => simp
    | succ n ih => rw [Finset.sum_range_succ, ih, Finset.sum_range_succ _ n]; ring
  unfold integ facetSum bdry
  simp only [integ_cell]
  have := h M.n
  simp only [Mesh1.atR, Mesh1.atL] at this ⊢
  rw [this]
  cases M.per <;> simp

theorem facet_zero (M : Mesh1) (J : ℕ → ℕ → ℝ) (h : ∀ i < M.n, J i (i + 1) = 0) (hp : M.per = true → J M.n 0 = 0) :
    facetSum M J = 0 := by
  unfold facetSum
  rw [Finset.sum_eq_zero fun i hi => h i (Finset.mem_range.1 hi), zero_add]
  split_ifs with hh
  · exact hp hh
  · rfl

theorem facet_congr (M : Mesh1) {J J' : ℕ → ℕ → ℝ} (h : ∀ i < M.n, J i (i + 1) = J' i (i + 1))
    (hp : M.per = true → J M.n 0 = J' M.n 0) : facetSum M J = facetSum M J' := by
  unfold facetSum
  rw [Finset.sum_congr rfl fun i hi => h i (Finset.mem_range.1 hi)]
  split_ifs with hh
  · rw [hp hh]
  · rfl

theorem facet_add (M : Mesh1) (J J' : ℕ → ℕ → ℝ) :
    facetSum M (fun i j => J i j + J' i j) = facetSum M J + facetSum M J' := by
  unfold facetSum
  rw [Finset.sum_add_distrib]
  split_ifs <;> ring

theorem atR_mul (M : Mesh1) (a b : Fn) (i : ℕ) : M.atR (fun i => a i * b i) i = M.atR a i * M.atR b i := by
  simp [Mesh1.atR]
theorem atL_mul (M : Mesh1) (a b : Fn) (i : ℕ) : M.atL (fun i => a i * b i) i = M.atL a i * M.atL b i := by
  simp [Mesh1.atL]

/-- Integration by parts. -/
theorem ibp (M : Mesh1) (a b : Fn) :
    integ M (fun i => a i * derivative (b i)) = -integ M (fun i => derivative (a i) * b i) +
      facetSum M (fun i j => M.atR a i * M.atR b i - M.atL a j * M.atL b j) + bdry M (fun i => a i * b i) := by
  have h := integ_deriv M (fun i => a i * b i)
  have h2 := integ_add M (fun i => derivative (a i) * b i) (fun i => a i * derivative (b i))
  simp only [derivative_mul] at h
  rw [h] at h2
  simp only [atR_mul, atL_mul] at h2
  linarith

theorem facet_cont (M : Mesh1) (a b : Fn) (ha : Cont M a) :
    facetSum M (fun i j => M.atR a i * M.atR b i - M.atL a j * M.atL b j) =
      facetSum M (fun i j => M.atR a i * (M.atR b i - M.atL b j)) :=
  facet_congr M (fun i hi => by rw [ha.1 i hi]; ring) fun hp => by rw [ha.2 hp]; ring

theorem facet_cont2 (M : Mesh1) (a b : Fn) (ha : Cont M a) (hb : Cont M b) :
    facetSum M (fun i j => M.atR a i * M.atR b i - M.atL a j * M.atL b j) = 0 :=
  facet_zero M _ (fun i hi => by rw [ha.1 i hi, hb.1 i hi]; ring) fun hp => by rw [ha.2 hp, hb.2 hp]; ring

theorem bdry_walls (M : Mesh1) (a b : Fn) (ha : Walls M a) : bdry M (fun i => a i * b i) = 0 := by
  unfold bdry
  split_ifs with h
  · rfl
  · obtain ⟨h1, h2⟩ := ha (by simpa using h)
    rw [atR_mul, atL_mul, h1, h2]; ring

/-! ### Values of residuals -/

theorem value_apply (res : List T1) (X v : St1) : value res X v = (res.map fun t => t.form X v).sum := by
  unfold value
  induction res with
  | nil => rfl
  | cons t ts ih =>
    simp only [List.map_cons, List.sum_cons, Pi.add_apply]
    rw [ih]

/-- The linearisation a term ends up with when the map accepts every term. -/
noncomputable def eff (Xref : St1) (t : T1) (h v : St1) : ℝ :=
  match t.lin with
  | some l => l h v
  | none => if t.empty then 0 else t.dform Xref h v

theorem value_linear (res : List T1) (Xref h v : St1) :
    value (lineariseSet (generateLinear Xref (fun _ => true) res)) h v = (res.map fun t => eff Xref t h v).sum := by
  rw [value_apply]
  induction res with
  | nil => rfl
  | cons t ts ih =>
    simp only [generateLinear, lineariseSet, List.map_cons, List.flatMap_cons, List.map_append, List.sum_append,
      List.sum_cons] at ih ⊢
    rw [ih]
    congr 1
    unfold eff
    cases hl : t.lin with
    | some l => simp [hl]
    | none =>
      cases he : t.empty <;> simp [hl, he, linearise]

theorem gen_form (Xref : St1) (p : T1 → Bool) (t : T1) :
    (if t.lin.isNone && p t then linearise Xref t else t).form = t.form ∧
    (if t.lin.isNone && p t then linearise Xref t else t).labels = t.labels := by
  split_ifs
  · unfold linearise; split_ifs <;> exact ⟨rfl, rfl⟩
  · exact ⟨rfl, rfl⟩

theorem gen_value (Xref : St1) (p : T1 → Bool) (q : List String → Bool) (res : List T1) (X v : St1) :
    value ((generateLinear Xref p res).filter fun t => q t.labels) X v =
      ((res.filter fun t => q t.labels).map fun t => t.form X v).sum := by
  rw [value_apply]
  unfold generateLinear
  induction res with
  | nil => rfl
  | cons t ts ih =>
    simp only [List.map_cons, List.filter_cons]
    rw [(gen_form Xref p t).2]
    cases hq : q t.labels with
    | true =>
      simp only [if_true, List.map_cons, List.sum_cons]
      rw [ih, (gen_form Xref p t).1]
    | false => simpa using ih

theorem lin_value (Xref : St1) (q : List String → Bool) (res : List T1) (h v : St1) :
    value ((lineariseSet (generateLinear Xref (fun _ => true) res)).filter fun t => q t.labels) h v =
      ((res.filter fun t => q t.labels).map fun t => eff Xref t h v).sum := by
  rw [← value_linear]
  have key : ((lineariseSet (generateLinear Xref (fun _ => true) res)).filter fun t => q t.labels) =
      lineariseSet (generateLinear Xref (fun _ => true) (res.filter fun t => q t.labels)) := by
    unfold generateLinear lineariseSet
    induction res with
    | nil => rfl
    | cons t ts ih =>
      simp only [List.map_cons, List.flatMap_cons, List.filter_append, List.filter_cons] at ih ⊢
      rw [ih]
      cases hl : t.lin with
      | some l => cases hq : q t.labels <;> simp [hl, hq]
      | none => cases he : t.empty <;> cases hq : q t.labels <;> simp [hl, he, hq, linearise]
  rw [key]

/-! ### The spatial part -/

/-- The Coriolis part. -/
noncomputable def corV (c : Cfg1) (X v : St1) : ℝ :=
  if c.rot = .fplane then mass1 c.M (-c.f0) X.v v.u + mass1 c.M c.f0 X.u v.v else 0
/-- The diffusion part with the methods `dm`. -/
noncomputable def diffV (c : Cfg1) (dm : String → DMeth) (X v : St1) : ℝ :=
  ((c.diffusion.getD []).map fun fk => diffForm c.M (dm fk.1) (compD fk.1 v) (compD fk.1 X) fk.2).sum

theorem diffTerms_eq (M : Mesh1) (l : List (String × Fn)) (r : List T1) (h : diffTerms M l = .ok r) :
    r = l.map fun fk => diffTerm M fk.1 fk.2 := by
  induction l generalizing r with
  | nil => cases h; rfl
  | cons a l ih =>
    obtain ⟨f, k⟩ := a
    unfold diffTerms at h
    split_ifs at h
    cases hd : diffTerms M l with
    | error e => rw [hd] at h; cases h
    | ok r' => rw [hd] at h; cases h; rw [ih r' hd]; rfl

theorem diffTerms_ok (M : Mesh1) (l : List (String × Fn)) :
    (∃ r, diffTerms M l = .ok r) ↔ ∀ fk ∈ l, fk.1 = "u" ∨ fk.1 = "v" ∨ fk.1 = "D" := by
  induction l with
  | nil => simp [diffTerms]
  | cons a l ih =>
    obtain ⟨f, k⟩ := a
    simp only [List.forall_mem_cons]
    unfold diffTerms
    split_ifs with hf
    · rw [← ih]
      cases hd : diffTerms M l with
      | error e => simp [hd]
      | ok r => simp [hd, hf]
    · simp [hf]

theorem terms_ok {c : Cfg1} {p : T1 → Bool} {Xref : St1} {r : List T1} (h : terms1 c p Xref = .ok r) :
    ∃ cor df, corTerms c = .ok cor ∧ diffTerms c.M (c.diffusion.getD []) = .ok df ∧
      r = massTerms1 c.M ++ [uAdv c.M, vAdv c.M, dAdv c.M p Xref, pgTerm1 c] ++ cor ++ df := by
  unfold terms1 at h
  split_ifs at h
  cases hc : corTerms c with
  | error e => rw [hc] at h; cases h
  | ok cor =>
    rw [hc] at h
    dsimp only at h
    cases hd : diffTerms c.M (c.diffusion.getD []) with
    | error e => rw [hd] at h; cases h
    | ok df => rw [hd] at h; cases h; exact ⟨cor, df, rfl, rfl, rfl⟩

theorem dAdv_form (M : Mesh1) (p : T1 → Bool) (Xref : St1) :
    (dAdv M p Xref).form = (dAdv0 M).form ∧ (dAdv M p Xref).labels = ["transport", "D"] := by
  unfold dAdv; split_ifs <;> exact ⟨rfl, rfl⟩

theorem cor_filter {c : Cfg1} {cor : List T1} (h : corTerms c = .ok cor) (X v : St1) :
    (cor.filter fun t => !decide ("time_derivative" ∈ t.labels)) = cor ∧
    (cor.map fun t => t.form X v).sum = corV c X v := by
  unfold corTerms at h
  unfold corV
  cases hr : c.rot <;> rw [hr] at h <;> cases h <;> simp [List.filter]

theorem diff_filter (M : Mesh1) (l : List (String × Fn)) (hl : ∀ fk ∈ l, fk.1 = "u" ∨ fk.1 = "v" ∨ fk.1 = "D") :
    ((l.map fun fk => diffTerm M fk.1 fk.2).filter fun t => !decide ("time_derivative" ∈ t.labels)) =
      l.map fun fk => diffTerm M fk.1 fk.2 := by
  apply List.filter_eq_self.2
  intro t ht
  obtain ⟨fk, hfk, rfl⟩ := List.mem_map.1 ht
  rcases hl fk hfk with h | h | h <;> simp [diffTerm, h]

theorem four_filter (c : Cfg1) (p : T1 → Bool) (Xref : St1) :
    ([uAdv c.M, vAdv c.M, dAdv c.M p Xref, pgTerm1 c] : List T1).filter
      (fun t => !decide ("time_derivative" ∈ t.labels)) = [uAdv c.M, vAdv c.M, dAdv c.M p Xref, pgTerm1 c] := by
  apply List.filter_eq_self.2
  intro t ht
  simp only [List.mem_cons, List.not_mem_nil, or_false] at ht
  rcases ht with rfl | rfl | rfl | rfl
  · simp [uAdv]
  · simp [vAdv]
  · simp [(dAdv_form c.M p Xref).2]
  · simp [pgTerm1]

theorem no_td (l : List T1) (hl : (l.filter fun t => !decide ("time_derivative" ∈ t.labels)) = l) :
    (l.filter fun t => decide ("time_derivative" ∈ t.labels)) = [] := by
  rw [List.filter_eq_nil_iff]
  intro t ht
  have := List.filter_eq_self.1 hl t ht
  simpa using this

theorem mass_filter (M : Mesh1) :
    (massTerms1 M).filter (fun t => decide ("time_derivative" ∈ t.labels)) = massTerms1 M ∧
    (massTerms1 M).filter (fun t => !decide ("time_derivative" ∈ t.labels)) = [] := by
  constructor
  · apply List.filter_eq_self.2
    intro t ht
    simp only [massTerms1, List.mem_cons, List.not_mem_nil, or_false] at ht
    rcases ht with rfl | rfl | rfl <;> simp
  · apply List.filter_eq_nil_iff.2
    intro t ht
    simp only [massTerms1, List.mem_cons, List.not_mem_nil, or_false] at ht
    rcases ht with rfl | rfl | rfl <;> simp

theorem mass_sum (M : Mesh1) (X v : St1) : ((massTerms1 M).map fun t => t.form X v).sum =
    mass1 M 1 X.u v.u + mass1 M 1 X.v v.v + mass1 M 1 X.D v.D := by
  simp only [massTerms1, List.map_cons, List.map_nil, List.sum_cons, List.sum_nil]
  ring

theorem four_sum (c : Cfg1) (p : T1 → Bool) (Xref X v : St1) :
    (([uAdv c.M, vAdv c.M, dAdv c.M p Xref, pgTerm1 c] : List T1).map fun t => t.form X v).sum =
    adv1 c.M v.u X.u X.u + adv1 c.M v.v X.v X.u + cont1 c.M v.D X.D X.u + press1 c.M c.g v.u X.D := by
  simp only [List.map_cons, List.map_nil, List.sum_cons, List.sum_nil, (dAdv_form c.M p Xref).1]
  simp only [uAdv, vAdv, dAdv0, pgTerm1]
  ring

theorem diff_sum (c : Cfg1) (X v : St1) : (((c.diffusion.getD []).map fun fk => diffTerm c.M fk.1 fk.2).map
    fun t => t.form X v).sum = diffV c (fun _ => .none) X v := by
  rw [List.map_map]
  unfold diffV
  congr 1

theorem spatial_raw {c : Cfg1} {p : T1 → Bool} {Xref : St1} {res : List T1} (h : shallowWater1d c p Xref = .ok res)
    (X v : St1) :
    spatial res X v = adv1 c.M v.u X.u X.u + adv1 c.M v.v X.v X.u + cont1 c.M v.D X.D X.u + press1 c.M c.g v.u X.D
      + corV c X v + diffV c (fun _ => .none) X v := by
  unfold shallowWater1d at h
  cases ht : terms1 c p Xref with
  | error e => rw [ht] at h; cases h
  | ok r =>
    rw [ht] at h
    cases h
    obtain ⟨cor, df, hc, hd, rfl⟩ := terms_ok ht
    have hf := (diffTerms_ok c.M _).1 ⟨df, hd⟩
    unfold spatial
    rw [gen_value Xref p (fun l => !decide ("time_derivative" ∈ l)), diffTerms_eq _ _ _ hd]
    simp only [List.filter_append, List.map_append, List.sum_append]
    rw [(cor_filter hc X v).1, (cor_filter hc X v).2, diff_filter c.M _ hf, (mass_filter c.M).2, four_filter, four_sum,
      diff_sum]
    simp only [List.map_nil, List.sum_nil, zero_add]

theorem temporal_raw {c : Cfg1} {p : T1 → Bool} {Xref : St1} {res : List T1} (h : shallowWater1d c p Xref = .ok res)
    (X v : St1) :
    temporal res X v = mass1 c.M 1 X.u v.u + mass1 c.M 1 X.v v.v + mass1 c.M 1 X.D v.D := by
  unfold shallowWater1d at h
  cases ht : terms1 c p Xref with
  | error e => rw [ht] at h; cases h
  | ok r =>
    rw [ht] at h
    cases h
    obtain ⟨cor, df, hc, hd, rfl⟩ := terms_ok ht
    have hf := (diffTerms_ok c.M _).1 ⟨df, hd⟩
    unfold temporal
    rw [gen_value Xref p (fun l => decide ("time_derivative" ∈ l)), diffTerms_eq _ _ _ hd]
    simp only [List.filter_append, List.map_append, List.sum_append]
    rw [no_td _ (cor_filter hc X v).1, no_td _ (diff_filter c.M _ hf), no_td _ (four_filter c p Xref), (mass_filter c.M).1,
      mass_sum]
    simp only [List.map_nil, List.sum_nil, add_zero]

/-! ### C104: what is accepted -/

/-- C104, set-up: the equations are accepted exactly without tracers, without rotation or on the f-plane, and with
diffusion of the fields `u`, `v`, `D` only. -/
theorem C104_accepts (c : Cfg1) (p : T1 → Bool) (Xref : St1) :
    (∃ res, shallowWater1d c p Xref = .ok res) ↔ c.tracers = false ∧ (c.rot = .nonrotating ∨ c.rot = .fplane) ∧
      ∀ fk ∈ c.diffusion.getD [], fk.1 = "u" ∨ fk.1 = "v" ∨ fk.1 = "D" := by
  rw [← diffTerms_ok c.M]
  unfold shallowWater1d terms1 corTerms
  cases c.tracers <;> cases c.rot <;> cases diffTerms c.M (c.diffusion.getD []) <;> simp [Except.map]

/-- C104, refuted: the spaces can be chosen with `space_names`.  Whatever is passed, the spaces are the default ones. -/
theorem C104_spaces_refuted (c : Cfg1) (s : List (String × String)) :
    spaceNames1 { c with spaceNames := some s } = spaceNames1 { c with spaceNames := none } ∧
    (spaceNames1 { c with spaceNames := some s }).lookup "u" = some "HDiv" ∧
    (spaceNames1 { c with spaceNames := some s }).lookup "v" = some "L2" ∧
    (spaceNames1 { c with spaceNames := some s }).lookup "D" = some "L2" := ⟨rfl, rfl, rfl, rfl⟩

/-- C104, refuted: the mean depth of the linear equations is the parameter `H`.  It is not read: the equations are the
same for all `H`, and with a reference depth that is not set (zero) and a reference at rest the depth row of the linear
equations vanishes. -/
theorem C104_depth_refuted (c : Cfg1) (H : ℝ) (p : T1 → Bool) (Xref : St1) :
    linearShallowWater1d { c with H := H } p Xref = linearShallowWater1d c p Xref ∧
    ∀ M test q u, Xref.D = (fun _ => 0) → Xref.u = (fun _ => 0) → linCont M test q u Xref.D Xref.u = 0 := by
  refine ⟨rfl, fun M test q u hD hu => ?_⟩
  unfold linCont
  simp [hD, hu, integ_zero]

/-! ### C104: the documented equations -/

theorem integ_axpy (M : Mesh1) (f a b : Fn) (e : ℝ) (h : ∀ i, f i = a i + C e * b i) :
    integ M f = integ M a + e * integ M b := by
  rw [← integ_smul, ← integ_add]
  exact integ_congr M fun i _ => h i

/-- The pressure gradient, integrated by parts. -/
theorem press_parts (M : Mesh1) (g : ℝ) (w D : Fn) (hD : Cont M D) (hw : Flow M w) :
    press1 M g w D = integ M fun i => w i * (C g * dx0 D i) := by
  have h := ibp M D w
  rw [facet_cont2 M D w hD hw.1] at h
  have hb : bdry M (fun i => D i * w i) = 0 := by
    rw [← bdry_walls M w D hw.2]; congr 1; funext i; ring
  rw [hb] at h
  have h1 : press1 M g w D = -g * integ M (fun i => D i * derivative (w i)) := by
    rw [← integ_smul]
    exact integ_congr M fun i _ => by simp only [dx0, map_neg]; ring
  have h2 : (integ M fun i => w i * (C g * dx0 D i)) = g * integ M (fun i => derivative (D i) * w i) := by
    rw [← integ_smul]
    exact integ_congr M fun i _ => by simp only [dx0]; ring
  rw [h1, h2, h]; ring

/-- A sum of integrals over the cells. -/
noncomputable def cellIntegral (M : Mesh1) (f : ℕ → ℝ → ℝ) : ℝ :=
  ∑ i ∈ Finset.range (M.n + 1), ∫ t in (M.x i)..(M.x (i + 1)), f i t

theorem cellIntegral_eq (M : Mesh1) (f : ℕ → ℝ → ℝ) (q : Fn) (h : ∀ i t, f i t = (q i).eval t) :
    cellIntegral M f = integ M q := by
  unfold cellIntegral integ
  refine Finset.sum_congr rfl fun i _ => ?_
  simp only [h]

/-- The Coriolis parameter of the documented equations. -/
noncomputable def fpar (c : Cfg1) : ℝ := if c.rot = .fplane then c.f0 else 0

/-- C104, documented equations: for a continuous depth and every admissible test function the residual with the time
derivatives `dX` is the integral of the tested equations
`u_t + u u_x - f v + g D_x - diffusion`, `v_t + u v_x + f u - diffusion`, `D_t + (u D)_x - diffusion`. -/
theorem C104_documented {c : Cfg1} {p : T1 → Bool} {Xref : St1} {res : List T1} (h : shallowWater1d c p Xref = .ok res)
    (X dX v : St1) (hD : Cont c.M X.D) (hw : Flow c.M v.u) :
    temporal res dX v + spatial res X v =
      cellIntegral c.M (fun i t =>
        val v.u i t * (val dX.u i t + val X.u i t * slope X.u i t - fpar c * val X.v i t + c.g * slope X.D i t)
        + val v.v i t * (val dX.v i t + val X.u i t * slope X.v i t + fpar c * val X.u i t)
        + val v.D i t * (val dX.D i t + deriv (fun s => val X.u i s * val X.D i s) t))
      + ((c.diffusion.getD []).map fun fk => cellIntegral c.M fun i t =>
          -val (compD fk.1 v) i t * deriv (fun s => val fk.2 i s * slope (compD fk.1 X) i s) t).sum := by
  rw [temporal_raw h, spatial_raw h, press_parts c.M c.g v.u X.D hD hw]
  have hdiff : diffV c (fun _ => .none) X v = ((c.diffusion.getD []).map fun fk => cellIntegral c.M fun i t =>
      -val (compD fk.1 v) i t * deriv (fun s => val fk.2 i s * slope (compD fk.1 X) i s) t).sum := by
    unfold diffV
    congr 1
    refine List.map_congr_left fun fk _ => ?_
    refine (cellIntegral_eq _ _ _ fun i t => ?_).symm
    have hs : (fun s => val fk.2 i s * slope (compD fk.1 X) i s) =
        fun s => (fk.2 i * dx0 (compD fk.1 X) i).eval s := by
      funext s; rw [slope_eq, eval_mul]; rfl
    rw [hs, Polynomial.deriv]
    simp only [val, eval_mul, eval_neg]
  rw [← hdiff]
  have hcor : corV c X v = integ c.M (fun i => C (-fpar c) * X.v i * v.u i) + integ c.M (fun i => C (fpar c) * X.u i * v.v i) := by
    unfold corV fpar
    split_ifs
    · rfl
    · simp [integ_zero]
  rw [hcor]
  rw [cellIntegral_eq c.M _ (fun i => C 1 * dX.u i * v.u i + (C 1 * dX.v i * v.v i + (C 1 * dX.D i * v.D i +
    (v.u i * X.u i * dx0 X.u i + (v.v i * X.u i * dx0 X.v i + (v.D i * derivative (X.D i * X.u i) +
    (v.u i * (C c.g * dx0 X.D i) + (C (-fpar c) * X.v i * v.u i + C (fpar c) * X.u i * v.v i)))))))) (fun i t => by
      have hs : (fun s => val X.u i s * val X.D i s) = fun s => (X.D i * X.u i).eval s := by
        funext s; rw [eval_mul]; simp only [val]; ring
      rw [hs, Polynomial.deriv]
      simp only [slope_eq, val, eval_add, eval_mul, eval_C]
      ring)]
  simp only [integ_add]
  unfold mass1 adv1 cont1
  ring

/-- C104, exact solutions: continuous fields that satisfy the documented equations at every point make the residual vanish
for every admissible test function. -/
theorem C104_exact {c : Cfg1} {p : T1 → Bool} {Xref : St1} {res : List T1} (h : shallowWater1d c p Xref = .ok res)
    (hd : c.diffusion.getD [] = []) (X dX : St1) (hD : Cont c.M X.D)
    (hu : ∀ i t, val dX.u i t + val X.u i t * slope X.u i t - fpar c * val X.v i t + c.g * slope X.D i t = 0)
    (hv : ∀ i t, val dX.v i t + val X.u i t * slope X.v i t + fpar c * val X.u i t = 0)
    (hm : ∀ i t, val dX.D i t + deriv (fun s => val X.u i s * val X.D i s) t = 0) (v : St1) (hw : Flow c.M v.u) :
    temporal res dX v + spatial res X v = 0 := by
  rw [C104_documented h X dX v hD hw, hd]
  simp only [hu, hv, hm, mul_zero, add_zero, List.map_nil, List.sum_nil]
  simp [cellIntegral]

/-! ### C104: balanced states -/

theorem fn_zero_left (M : Mesh1) (t : Fn) : adv1 M t t (fun _ => 0) = 0 := by simp [adv1, integ_zero]

/-- C104, balance: a state without along-channel flow in geostrophic balance `f v = g D_x`, with continuous depth, is
steady; in particular a fluid of uniform depth at rest. -/
theorem C104_geostrophic {c : Cfg1} {p : T1 → Bool} {Xref : St1} {res : List T1} (h : shallowWater1d c p Xref = .ok res)
    (hd : c.diffusion.getD [] = []) (X : St1) (hu : X.u = fun _ => 0) (hD : Cont c.M X.D)
    (hb : ∀ i t, fpar c * val X.v i t = c.g * slope X.D i t) (v : St1) (hw : Flow c.M v.u) : spatial res X v = 0 := by
  have h0 := C104_exact h hd X ⟨fun _ => 0, fun _ => 0, fun _ => 0⟩ hD
    (fun i t => by simp [hu, val, ← hb]) (fun i t => by simp [hu, val]) (fun i t => by simp [hu, val]) v hw
  rw [temporal_raw h] at h0
  simpa [mass1, integ_zero] using h0

theorem integ_derivC (M : Mesh1) (k : ℝ) (q : Fn) : integ M (fun i => C k * derivative (q i)) =
    k * (facetSum M (fun i j => M.atR q i - M.atL q j) + bdry M q) := by
  rw [integ_smul, integ_deriv]

/-- C104, refuted: a fluid at rest stays at rest.  On an interval with the default `no_normal_flow_bc_ids=None` the
residual of the state of uniform depth `d` at rest, tested with a continuous `w`, is `g d (w(left) - w(right))`. -/
theorem C104_rest_refuted {c : Cfg1} {p : T1 → Bool} {Xref : St1} {res : List T1} (h : shallowWater1d c p Xref = .ok res)
    (hd : c.diffusion.getD [] = []) (hp : c.M.per = false) (d : ℝ) (w : Fn) (hw : Cont c.M w) :
    spatial res ⟨fun _ => 0, fun _ => 0, fun _ => C d⟩ ⟨w, fun _ => 0, fun _ => 0⟩ =
      c.g * d * (c.M.atL w 0 - c.M.atR w c.M.n) := by
  rw [spatial_raw h]
  have h1 : press1 c.M c.g w (fun _ => C d) = c.g * d * (c.M.atL w 0 - c.M.atR w c.M.n) := by
    have : press1 c.M c.g w (fun _ => C d) = integ c.M (fun i => C (-(c.g * d)) * derivative (w i)) :=
      integ_congr c.M fun i _ => by simp only [dx0, map_neg, map_mul]; ring
    rw [this, integ_derivC, facet_zero c.M _ (fun i hi => by rw [hw.1 i hi]; ring) (fun h => by rw [hp] at h; cases h)]
    unfold bdry
    rw [hp]
    simp only [Bool.false_eq_true, if_false]
    ring
  simp only [h1, diffV, hd, corV, adv1, cont1, mass1]
  simp [integ_zero]

/-! ### C104: the spatial methods -/

theorem methods_value {c : Cfg1} {dm : String → DMeth} {cor : List T1} (hc : corTerms c = .ok cor)
    (hf : ∀ fk ∈ c.diffusion.getD [], fk.1 = "u" ∨ fk.1 = "v" ∨ fk.1 = "D") (X v : St1) :
    spatial (withMethods c dm cor) X v = upAdv1 c.M v.u X.u X.u + upAdv1 c.M v.v X.v X.u + upCont1 c.M v.D X.D X.u
      + press1 c.M c.g v.u X.D + corV c X v + diffV c dm X v := by
  unfold spatial withMethods
  rw [value_apply]
  simp only [List.filter_append, List.map_append, List.sum_append]
  rw [(cor_filter hc X v).1, (cor_filter hc X v).2, (mass_filter c.M).2]
  have h2 : ∀ l : List T1, (∀ t ∈ l, "time_derivative" ∉ t.labels) →
      l.filter (fun t => !decide ("time_derivative" ∈ t.labels)) = l := by
    intro l hl
    apply List.filter_eq_self.2
    intro t ht
    simpa using hl t ht
  rw [h2 _ (by
    intro t ht
    simp only [List.mem_cons, List.not_mem_nil, or_false] at ht
    rcases ht with rfl | rfl | rfl | rfl
    · simp [uAdv]
    · simp [vAdv]
    · simp [dAdv0]
    · simp [pgTerm1]), h2 _ (by
    intro t ht
    obtain ⟨fk, hfk, rfl⟩ := List.mem_map.1 ht
    rcases hf fk hfk with h | h | h <;> simp [diffTerm, h])]
  have h3 : (((c.diffusion.getD []).map fun fk =>
      { diffTerm c.M fk.1 fk.2 with
        form := fun X v => diffForm c.M (dm fk.1) (compD fk.1 v) (compD fk.1 X) fk.2 }).map fun t => t.form X v).sum =
      diffV c dm X v := by
    rw [List.map_map]; unfold diffV; congr 1
  rw [h3]
  simp only [List.map_cons, List.map_nil, List.sum_cons, List.sum_nil, pgTerm1]
  ring

theorem un_sub (a : ℝ) : unP a - unM a = a := by
  unfold unP unM
  have : |a * -1| = |a * 1| := by rw [mul_one, mul_neg_one, abs_neg]
  rw [this]; ring

theorem upFacets_cont (M : Mesh1) (test q u : Fn) (hq : Cont M q) (hu : Cont M u) :
    upFacets M test q u = facetSum M fun i j => (M.atR test i - M.atL test j) * (M.atR u i * M.atR q i) := by
  unfold upFacets
  refine facet_congr M (fun i hi => ?_) fun hp => ?_
  · rw [← hq.1 i hi, ← hu.1 i hi, ← sub_mul, un_sub]
  · rw [← hq.2 hp, ← hu.2 hp, ← sub_mul, un_sub]

/-- The upwind forms of continuous fields are the original forms. -/
theorem upAdv_cont (M : Mesh1) (test q u : Fn) (hq : Cont M q) (hu : Flow M u) : upAdv1 M test q u = adv1 M test q u := by
  unfold upAdv1 adv1
  have h := ibp M (fun i => test i * u i) q
  have hb : bdry M (fun i => test i * u i * q i) = 0 := by
    rw [← bdry_walls M u (fun i => test i * q i) hu.2]; congr 1; funext i; ring
  rw [hb] at h
  have hF : facetSum M (fun i j => M.atR (fun i => test i * u i) i * M.atR q i - M.atL (fun i => test i * u i) j * M.atL q j)
      = upFacets M test q u := by
    rw [upFacets_cont M test q u hq hu.1]
    simp only [atR_mul, atL_mul]
    refine facet_congr M (fun i hi => ?_) fun hp => ?_
    · rw [← hq.1 i hi, ← hu.1.1 i hi]; ring
    · rw [← hq.2 hp, ← hu.1.2 hp]; ring
  rw [hF] at h
  have h1 : integ M (fun i => -derivative (test i * u i) * q i) = -integ M (fun i => derivative (test i * u i) * q i) := by
    rw [← integ_neg]; exact integ_congr M fun i _ => by ring
  rw [h1]
  have h2 : integ M (fun i => test i * u i * dx0 q i) = integ M (fun i => test i * u i * derivative (q i)) := rfl
  rw [h2, h]; ring

theorem upCont_cont (M : Mesh1) (test q u : Fn) (hq : Cont M q) (hu : Flow M u) : upCont1 M test q u = cont1 M test q u := by
  unfold upCont1 cont1
  have h := ibp M test (fun i => q i * u i)
  have hb : bdry M (fun i => test i * (q i * u i)) = 0 := by
    rw [← bdry_walls M u (fun i => test i * q i) hu.2]; congr 1; funext i; ring
  rw [hb] at h
  have hF : facetSum M (fun i j => M.atR test i * M.atR (fun i => q i * u i) i - M.atL test j * M.atL (fun i => q i * u i) j)
      = upFacets M test q u := by
    rw [upFacets_cont M test q u hq hu.1]
    simp only [atR_mul, atL_mul]
    refine facet_congr M (fun i hi => ?_) fun hp => ?_
    · rw [← hq.1 i hi, ← hu.1.1 i hi]; ring
    · rw [← hq.2 hp, ← hu.1.2 hp]; ring
  rw [hF] at h
  have h1 : integ M (fun i => -dx0 test i * q i * u i) = -integ M (fun i => derivative (test i) * (q i * u i)) := by
    rw [← integ_neg]; exact integ_congr M fun i _ => by simp only [dx0]; ring
  rw [h1, h]; ring

/-- The diffusion methods are consistent: for a field whose flux `kappa q_x` is continuous and vanishes at walls, and
which is continuous (for the interior penalty method) or is tested with a continuous function (for `CGDiffusion`), they
give the original form. -/
theorem C104_diffusion_consistent (M : Mesh1) (m : DMeth) (test q kappa : Fn)
    (hf : Flow M fun i => kappa i * dx0 q i)
    (hm : match m with | .none => True | .cg => Cont M test | .ip _ => Cont M q) :
    diffForm M m test q kappa = diff1 M test q kappa := by
  have h := ibp M test (fun i => kappa i * dx0 q i)
  have hb : bdry M (fun i => test i * (kappa i * dx0 q i)) = 0 := by
    rw [← bdry_walls M (fun i => kappa i * dx0 q i) test hf.2]; congr 1; funext i; ring
  rw [hb] at h
  have h1 : diff1 M test q kappa = -integ M (fun i => test i * derivative (kappa i * dx0 q i)) := by
    rw [← integ_neg]; exact integ_congr M fun i _ => by ring
  have h2 : integ M (fun i => kappa i * dx0 test i * dx0 q i) =
      integ M (fun i => derivative (test i) * (kappa i * dx0 q i)) :=
    integ_congr M fun i _ => by simp only [dx0]; ring
  have h3 : integ M (fun i => dx0 test i * dx0 q i * kappa i) =
      integ M (fun i => derivative (test i) * (kappa i * dx0 q i)) :=
    integ_congr M fun i _ => by simp only [dx0]; ring
  cases m with
  | none => rfl
  | cg =>
    rw [facet_cont2 M test _ hm hf.1] at h
    rw [h1, h]
    unfold diffForm cgDiff
    rw [h2]; ring
  | ip mu =>
    have hm' : Cont M q := hm
    unfold diffForm ipDiff
    rw [h1, h, h3]
    have hF : facetSum M (fun i j => M.atR test i * M.atR (fun i => kappa i * dx0 q i) i -
        M.atL test j * M.atL (fun i => kappa i * dx0 q i) j) =
        -facetSum M fun i j =>
    -2 * ((M.atR q i * 1 + M.atL q j * -1) / 2)
        * ((M.atR (dx0 test) i * M.atR kappa i + M.atL (dx0 test) j * M.atL kappa j) / 2)
      - (M.atR (dx0 q) i * M.atR kappa i + M.atL (dx0 q) j * M.atL kappa j) / 2
        * 2 * ((M.atR test i * 1 + M.atL test j * -1) / 2)
      + mu * 2 * ((M.atR q i * 1 + M.atL q j * -1) / 2) * 2 * ((M.atR test i * 1 + M.atL test j * -1) / 2)
        * M.atR kappa i := by
      rw [eq_neg_iff_add_eq_zero, ← facet_add]
      refine facet_zero M _ (fun i hi => ?_) fun hp => ?_
      · have e := hf.1.1 i hi
        rw [atR_mul, atL_mul] at e
        rw [atR_mul, atL_mul, hm'.1 i hi]
        linear_combination (M.atL test (i + 1) / 2 + M.atR test i / 2) * e
      · have e := hf.1.2 hp
        rw [atR_mul, atL_mul] at e
        rw [atR_mul, atL_mul, hm'.2 hp]
        linear_combination (M.atL test 0 / 2 + M.atR test M.n / 2) * e
    rw [hF]; ring

/-- C104, methods: for continuous fields without flow through the ends (and fluxes as in `C104_diffusion_consistent`) the
spatial methods do not change the residual. -/
theorem C104_methods_consistent {c : Cfg1} {p : T1 → Bool} {Xref : St1} {res : List T1} {cor : List T1} {dm : String → DMeth}
    (h : shallowWater1d c p Xref = .ok res) (hc : corTerms c = .ok cor) (X v : St1) (hu : Flow c.M X.u)
    (hv : Cont c.M X.v) (hD : Cont c.M X.D)
    (hk : ∀ fk ∈ c.diffusion.getD [], Flow c.M (fun i => fk.2 i * dx0 (compD fk.1 X) i) ∧
      (dm fk.1 = .cg → Cont c.M (compD fk.1 v))) :
    spatial (withMethods c dm cor) X v = spatial res X v := by
  have hf := ((C104_accepts c p Xref).1 ⟨res, h⟩).2.2
  rw [methods_value hc hf, spatial_raw h, upAdv_cont _ _ _ _ hu.1 hu, upAdv_cont _ _ _ _ hv hu, upCont_cont _ _ _ _ hD hu]
  congr 1
  unfold diffV
  congr 1
  refine List.map_congr_left fun fk hfk => ?_
  obtain ⟨k1, k2⟩ := hk fk hfk
  refine C104_diffusion_consistent c.M (dm fk.1) _ _ _ k1 ?_
  cases hm : dm fk.1 with
  | none => trivial
  | cg => exact k2 hm
  | ip mu =>
    show Cont c.M (compD fk.1 X)
    rcases hf fk hfk with e | e | e <;> rw [e]
    · exact hu.1
    · exact hv
    · exact hD

/-- The test function that measures the mass. -/
noncomputable def massTest : St1 := ⟨fun _ => 0, fun _ => 0, fun _ => 1⟩

theorem diff_const (M : Mesh1) (m : DMeth) (hm : m ≠ .none) (k : ℝ) (q kappa : Fn) :
    diffForm M m (fun _ => C k) q kappa = 0 := by
  cases m with
  | none => exact absurd rfl hm
  | cg => simp [diffForm, cgDiff, dx0, integ_zero]
  | ip mu =>
    unfold diffForm ipDiff
    have : ∀ i j, M.atR (fun _ => C k) i = k ∧ M.atL (fun _ => C k) j = k ∧
        M.atR (dx0 fun _ => C k) i = 0 ∧ M.atL (dx0 fun _ => C k) j = 0 := by
      intro i j; simp [Mesh1.atR, Mesh1.atL, dx0]
    dsimp only
    rw [facet_zero M _ (fun i _ => by rw [(this i 0).1, (this 0 (i+1)).2.1, (this i 0).2.2.1, (this 0 (i+1)).2.2.2]; ring)
      (fun _ => by rw [(this M.n 0).1, (this 0 0).2.1, (this M.n 0).2.2.1, (this 0 0).2.2.2]; ring)]
    simp [dx0, integ_zero]

theorem diff_zero (M : Mesh1) (m : DMeth) (q kappa : Fn) : diffForm M m (fun _ => 0) q kappa = 0 := by
  cases m with
  | none => simp [diffForm, diff1, integ_zero]
  | cg => have := diff_const M .cg (by simp) 0 q kappa; simpa using this
  | ip mu => have := diff_const M (.ip mu) (by simp) 0 q kappa; simpa using this

theorem upCont_one (M : Mesh1) (q u : Fn) : upCont1 M (fun _ => 1) q u = 0 := by
  unfold upCont1 upFacets
  rw [facet_zero M _ (fun i _ => by simp [Mesh1.atR, Mesh1.atL]) (fun _ => by simp [Mesh1.atR, Mesh1.atL])]
  simp [dx0, integ_zero]

theorem upAdv_zero (M : Mesh1) (q u : Fn) : upAdv1 M (fun _ => 0) q u = 0 := by
  unfold upAdv1 upFacets
  rw [facet_zero M _ (fun i _ => by simp [Mesh1.atR, Mesh1.atL]) (fun _ => by simp [Mesh1.atR, Mesh1.atL])]
  simp [integ_zero]

/-- C104, mass: with `DGUpwind`, and a diffusion method if the depth is diffused, the total mass does not change: every
rate of change of the depth that satisfies the equations has integral zero, for all states, continuous or not, and on
every mesh. -/
theorem C104_mass {c : Cfg1} {cor : List T1} {dm : String → DMeth} (hc : corTerms c = .ok cor)
    (hf : ∀ fk ∈ c.diffusion.getD [], fk.1 = "u" ∨ fk.1 = "v" ∨ fk.1 = "D") (hD : dm "D" ≠ .none) (X dX : St1)
    (hdyn : temporal (withMethods c dm cor) dX massTest + spatial (withMethods c dm cor) X massTest = 0) :
    cellIntegral c.M (fun i t => val dX.D i t) = 0 := by
  have ht : temporal (withMethods c dm cor) dX massTest = integ c.M dX.D := by
    unfold temporal withMethods
    rw [value_apply]
    simp only [List.filter_append, List.map_append, List.sum_append]
    rw [no_td _ (cor_filter hc X massTest).1, (mass_filter c.M).1, mass_sum, no_td, no_td]
    · simp [mass1, massTest, integ_zero]
    · apply List.filter_eq_self.2
      intro t ht
      obtain ⟨fk, hfk, rfl⟩ := List.mem_map.1 ht
      rcases hf fk hfk with h | h | h <;> simp [diffTerm, h]
    · apply List.filter_eq_self.2
      intro t ht
      simp only [List.mem_cons, List.not_mem_nil, or_false] at ht
      rcases ht with rfl | rfl | rfl | rfl
      · simp [uAdv]
      · simp [vAdv]
      · simp [dAdv0]
      · simp [pgTerm1]
  have hs : spatial (withMethods c dm cor) X massTest = 0 := by
    rw [methods_value hc hf]
    have h1 : upAdv1 c.M massTest.u X.u X.u = 0 := upAdv_zero _ _ _
    have h2 : upAdv1 c.M massTest.v X.v X.u = 0 := upAdv_zero _ _ _
    have h3 : upCont1 c.M massTest.D X.D X.u = 0 := upCont_one _ _ _
    have h4 : press1 c.M c.g massTest.u X.D = 0 := by simp [press1, massTest, dx0, integ_zero]
    have h5 : corV c X massTest = 0 := by simp [corV, massTest, mass1, integ_zero]
    have h6 : diffV c dm X massTest = 0 := by
      unfold diffV
      apply List.sum_eq_zero
      intro y hy
      obtain ⟨fk, hfk, rfl⟩ := List.mem_map.1 hy
      rcases hf fk hfk with e | e | e <;> rw [e]
      · exact diff_zero _ _ _ _
      · exact diff_zero _ _ _ _
      · have := diff_const c.M (dm "D") hD 1 X.D fk.2
        simpa [compD, massTest] using this
    rw [h1, h2, h3, h4, h5, h6]; ring
  rw [ht, hs, add_zero] at hdyn
  exact (cellIntegral_eq c.M _ dX.D fun _ _ => rfl).trans hdyn

/-- C104, refuted: the equations conserve mass without a transport method.  With a continuous velocity without flow
through the ends the mass changes by the flow across the jumps of the depth. -/
theorem C104_mass_refuted {c : Cfg1} {p : T1 → Bool} {Xref : St1} {res : List T1} (h : shallowWater1d c p Xref = .ok res)
    (hd : c.diffusion.getD [] = []) (X : St1) (hu : Flow c.M X.u) :
    spatial res X massTest = facetSum c.M fun i j => c.M.atR X.u i * (c.M.atR X.D i - c.M.atL X.D j) := by
  rw [spatial_raw h]
  have h3 : cont1 c.M (fun _ => 1) X.D X.u = facetSum c.M fun i j => c.M.atR X.u i * (c.M.atR X.D i - c.M.atL X.D j) := by
    unfold cont1
    simp only [one_mul]
    rw [integ_deriv]
    have hb : bdry c.M (fun i => X.D i * X.u i) = 0 := by
      rw [← bdry_walls c.M X.u X.D hu.2]; congr 1; funext i; ring
    rw [hb, add_zero]
    simp only [atR_mul, atL_mul]
    exact facet_congr c.M (fun i hi => by rw [hu.1.1 i hi]; ring) fun hp => by rw [hu.1.2 hp]; ring
  simp only [massTest, h3, diffV, hd, corV, adv1, press1, mass1, dx0]
  simp [integ_zero]

/-- C104 (the upwind forms dissipate).  Tested with the field itself, the upwind forms of advection and of continuity add up
to the squares of the jumps at the facets, weighted by the size of the velocity. -/
theorem C104_upwind (M : Mesh1) (q u : Fn) (hu : Flow M u) :
    upAdv1 M q q u + upCont1 M q q u = facetSum M (fun i j => |M.atR u i| * (M.atR q i - M.atL q j) ^ 2) ∧
    0 ≤ upAdv1 M q q u + upCont1 M q q u := by
  have key : ∀ a x y : ℝ, 2 * ((x - y) * (unP a * x - unM a * y)) - (x * x * a - y * y * a) = |a| * (x - y) ^ 2 := by
    intro a x y
    unfold unP unM
    have : |a * -1| = |a| := by rw [mul_neg_one, abs_neg]
    rw [this, mul_one]; ring
  have h1 : integ M (fun i => -derivative (q i * u i) * q i) + integ M (fun i => -dx0 q i * q i * u i)
      = -facetSum M (fun i j => M.atR (fun i => q i * q i * u i) i - M.atL (fun i => q i * q i * u i) j) := by
    rw [← integ_add]
    have e : integ M (fun i => -derivative (q i * u i) * q i + -dx0 q i * q i * u i)
        = integ M (fun i => derivative ((-(q i)) * q i * u i)) :=
      integ_congr M fun i _ => by simp only [dx0, derivative_mul, derivative_neg]; ring
    have hb : bdry M (fun i => (-(q i)) * q i * u i) = 0 := by
      rw [← bdry_walls M u (fun i => -(q i) * q i) hu.2]; congr 1; funext i; ring
    rw [e, integ_deriv M (fun i => (-(q i)) * q i * u i), hb, add_zero]
    unfold facetSum Mesh1.atR Mesh1.atL
    simp only [eval_mul, eval_neg]
    split_ifs
    · rw [neg_add, ← Finset.sum_neg_distrib]
      congr 1
      · exact Finset.sum_congr rfl fun i _ => by ring
      · ring
    · rw [add_zero, add_zero, ← Finset.sum_neg_distrib]
      exact Finset.sum_congr rfl fun i _ => by ring
  have hmain : upAdv1 M q q u + upCont1 M q q u = facetSum M (fun i j => |M.atR u i| * (M.atR q i - M.atL q j) ^ 2) := by
    have e : upAdv1 M q q u + upCont1 M q q u = (integ M (fun i => -derivative (q i * u i) * q i)
        + integ M (fun i => -dx0 q i * q i * u i)) + (upFacets M q q u + upFacets M q q u) := by
      unfold upAdv1 upCont1; ring
    rw [e, h1]
    unfold upFacets
    rw [← facet_add, neg_add_eq_sub, sub_eq_iff_eq_add, ← facet_add]
    refine facet_congr M (fun i hi => ?_) fun hp => ?_
    · have := key (M.atR u i) (M.atR q i) (M.atL q (i + 1))
      simp only [Mesh1.atR, Mesh1.atL, eval_mul] at this ⊢
      have hc := hu.1.1 i hi
      simp only [Mesh1.atR, Mesh1.atL] at hc
      rw [← hc]
      linarith
    · have := key (M.atR u M.n) (M.atR q M.n) (M.atL q 0)
      simp only [Mesh1.atR, Mesh1.atL, eval_mul] at this ⊢
      have hc := hu.1.2 hp
      simp only [Mesh1.atR, Mesh1.atL] at hc
      rw [← hc]
      linarith
  refine ⟨hmain, ?_⟩
  rw [hmain]
  unfold facetSum
  refine add_nonneg (Finset.sum_nonneg fun i _ => by positivity) ?_
  split_ifs
  · positivity
  · exact le_rfl

/-- C104 (diffusion methods, signs).  Tested with the field itself, continuous diffusion is the integral of the diffusivity
times the square of the derivative, and the penalty of the interior-penalty method adds the squares of the jumps. -/
theorem C104_diffusion_dissipates (M : Mesh1) (mu : ℝ) (q kappa : Fn) :
    diffForm M .cg q q kappa = cellIntegral M (fun i t => val kappa i t * slope q i t ^ 2) ∧
    diffForm M (.ip mu) q q kappa = diffForm M (.ip 0) q q kappa
      + mu * facetSum M fun i j => M.atR kappa i * (M.atR q i - M.atL q j) ^ 2 := by
  constructor
  · unfold diffForm cgDiff integ cellIntegral
    refine Finset.sum_congr rfl fun i _ => ?_
    congr 1
    funext t
    simp only [val, slope, dx0, eval_mul, Polynomial.deriv]
    ring
  · unfold diffForm ipDiff facetSum
    simp only
    split_ifs
    · rw [mul_add, Finset.mul_sum, add_assoc, add_right_inj, add_add_add_comm, ← Finset.sum_add_distrib]
      congr 1
      · exact Finset.sum_congr rfl fun i _ => by ring
      · ring
    · rw [add_zero, add_zero, add_zero, Finset.mul_sum, add_assoc, add_right_inj, ← Finset.sum_add_distrib]
      exact Finset.sum_congr rfl fun i _ => by ring

/-- C104, refuted: the diffusion options diffuse.  Without a diffusion method the diffusion term of a field that is
linear on each cell vanishes for a constant diffusivity. -/
theorem C104_diffusion_refuted (M : Mesh1) (test q : Fn) (k : ℝ) (hq : ∀ i ≤ M.n, (q i).natDegree ≤ 1) :
    diff1 M test q (fun _ => C k) = 0 := by
  unfold diff1
  rw [← integ_zero M]
  refine integ_congr M fun i hi => ?_
  have h2 : derivative (derivative (q i)) = 0 := by
    have hdeg : (derivative (q i)).natDegree = 0 := by
      have := natDegree_derivative_le (q i)
      have := hq i hi
      omega
    rw [eq_C_of_natDegree_eq_zero hdeg]; simp
  simp [dx0, h2]

/-! ### C104: the linear equations -/

section Lin
variable (M : Mesh1)

theorem adv_q (t q q' u : Fn) (e : ℝ) : adv1 M t (fun i => q i + C e * q' i) u = adv1 M t q u + e * adv1 M t q' u :=
  integ_axpy M _ _ _ e fun i => by simp only [dx0, derivative_add, derivative_C_mul]; ring
theorem adv_u (t q u u' : Fn) (e : ℝ) : adv1 M t q (fun i => u i + C e * u' i) = adv1 M t q u + e * adv1 M t q u' :=
  integ_axpy M _ _ _ e fun i => by ring
theorem cont_q (t q q' u : Fn) (e : ℝ) : cont1 M t (fun i => q i + C e * q' i) u = cont1 M t q u + e * cont1 M t q' u :=
  integ_axpy M _ _ _ e fun i => by
    simp only [derivative_add, derivative_mul, derivative_C]; ring
theorem cont_u (t q u u' : Fn) (e : ℝ) : cont1 M t q (fun i => u i + C e * u' i) = cont1 M t q u + e * cont1 M t q u' :=
  integ_axpy M _ _ _ e fun i => by
    simp only [derivative_add, derivative_mul, derivative_C]; ring
theorem press_D (g : ℝ) (w D D' : Fn) (e : ℝ) :
    press1 M g w (fun i => D i + C e * D' i) = press1 M g w D + e * press1 M g w D' :=
  integ_axpy M _ _ _ e fun i => by ring
theorem mass_q (a : ℝ) (q q' w : Fn) (e : ℝ) :
    mass1 M a (fun i => q i + C e * q' i) w = mass1 M a q w + e * mass1 M a q' w :=
  integ_axpy M _ _ _ e fun i => by ring
theorem diff_q (t q q' kappa : Fn) (e : ℝ) :
    diff1 M t (fun i => q i + C e * q' i) kappa = diff1 M t q kappa + e * diff1 M t q' kappa :=
  integ_axpy M _ _ _ e fun i => by
    simp only [dx0, derivative_add, derivative_mul, derivative_C, derivative_zero, zero_mul, zero_add, mul_zero]; ring
end Lin

theorem isDeriv_list (res : List T1) (Xref : St1) (hd : ∀ t ∈ res, IsDeriv t.form Xref (eff Xref t)) :
    IsDeriv (fun X v => (res.map fun t => t.form X v).sum) Xref (fun h v => (res.map fun t => eff Xref t h v).sum) := by
  intro h v
  induction res with
  | nil => exact ⟨0, fun e => by simp⟩
  | cons t ts ih =>
    obtain ⟨Q, hQ⟩ := hd t (by simp) h v
    obtain ⟨Q', hQ'⟩ := ih fun t' ht' => hd t' (by simp [ht'])
    refine ⟨Q + Q', fun e => ?_⟩
    simp only [List.map_cons, List.sum_cons] at hQ' ⊢
    rw [hQ e, hQ' e]; ring

theorem four_deriv (c : Cfg1) (Xref : St1) :
    ∀ t ∈ massTerms1 c.M ++ [uAdv c.M, vAdv c.M, dAdv c.M (fun _ => true) Xref, pgTerm1 c],
      IsDeriv t.form Xref (eff Xref t) := by
  intro t ht h v
  simp only [massTerms1, List.mem_append, List.mem_cons, List.not_mem_nil, or_false] at ht
  rcases ht with (rfl | rfl | rfl) | rfl | rfl | rfl | rfl
  · exact ⟨0, fun e => by simp only [axpy, mass_q, eff]; simp⟩
  · exact ⟨0, fun e => by simp only [axpy, mass_q, eff]; simp⟩
  · exact ⟨0, fun e => by simp only [axpy, mass_q, eff]; simp⟩
  · exact ⟨adv1 c.M v.u h.u h.u, fun e => by simp only [uAdv, axpy, adv_q, adv_u, eff]; simp; ring⟩
  · exact ⟨adv1 c.M v.v h.v h.u, fun e => by simp only [vAdv, axpy, adv_q, adv_u, eff]; simp; ring⟩
  · refine ⟨cont1 c.M v.D h.D h.u, fun e => ?_⟩
    have hl : linCont c.M v.D h.D h.u Xref.D Xref.u = cont1 c.M v.D h.D Xref.u + cont1 c.M v.D Xref.D h.u := rfl
    simp only [dAdv, if_true, dAdv0, axpy, cont_q, cont_u, eff, hl]
    ring
  · exact ⟨0, fun e => by simp only [pgTerm1, axpy, press_D, eff]; simp⟩

theorem cor_deriv (c : Cfg1) (Xref : St1) {cor : List T1} (hc : corTerms c = .ok cor) :
    ∀ t ∈ cor, IsDeriv t.form Xref (eff Xref t) := by
  intro t ht h v
  unfold corTerms at hc
  cases hr : c.rot <;> rw [hr] at hc <;> cases hc
  · cases ht
  · simp only [List.mem_cons, List.not_mem_nil, or_false] at ht
    rcases ht with rfl | rfl
    · exact ⟨0, fun e => by simp only [axpy, mass_q, eff]; simp⟩
    · exact ⟨0, fun e => by simp only [axpy, mass_q, eff]; simp⟩

theorem compD_axpy (f : String) (X h : St1) (e : ℝ) :
    compD f (axpy X e h) = fun i => compD f X i + C e * compD f h i := by
  unfold compD axpy; split_ifs <;> rfl

theorem diff_deriv (M : Mesh1) (Xref : St1) (l : List (String × Fn)) :
    ∀ t ∈ l.map (fun fk => diffTerm M fk.1 fk.2), IsDeriv t.form Xref (eff Xref t) := by
  intro t ht h v
  obtain ⟨fk, -, rfl⟩ := List.mem_map.1 ht
  exact ⟨0, fun e => by simp only [diffTerm, compD_axpy, diff_q, eff]; simp⟩

/-- C104, linearisation: with the default linearisation map the linear equations are the derivative of the nonlinear ones
at the reference state, for every state, perturbation and test function. -/
theorem C104_linear_is_derivative {c : Cfg1} {Xref : St1} {res lin : List T1} (hd : c.diffusion.getD [] = [])
    (h : shallowWater1d c (fun _ => true) Xref = .ok res) (hl : linearShallowWater1d c (fun _ => true) Xref = .ok lin) :
    IsDeriv (value res) Xref (value lin) := by
  have hrl : lin = lineariseSet res := by
    have hcd : shallowWater1d { c with diffusion := none } (fun _ => true) Xref = shallowWater1d c (fun _ => true) Xref := by
      unfold shallowWater1d terms1
      have : corTerms { c with diffusion := none } = corTerms c := rfl
      rw [this, hd]
      cases c.tracers <;> simp <;> cases corTerms c <;> simp [Option.getD, pgTerm1]
    unfold linearShallowWater1d at hl
    rw [hcd, h] at hl
    cases hl; rfl
  unfold shallowWater1d at h
  cases ht : terms1 c (fun _ => true) Xref with
  | error e => rw [ht] at h; cases h
  | ok r =>
    rw [ht] at h
    cases h
    subst hrl
    obtain ⟨cor, df, hc, hdf, hr⟩ := terms_ok ht
    have hall : ∀ t ∈ r, IsDeriv t.form Xref (eff Xref t) := by
      rw [hr, diffTerms_eq _ _ _ hdf]
      intro t ht
      rcases List.mem_append.1 ht with ht | ht
      · rcases List.mem_append.1 ht with ht | ht
        · exact four_deriv c Xref t ht
        · exact cor_deriv c Xref hc t ht
      · exact diff_deriv c.M Xref _ t ht
    have hg : ∀ X v, value (generateLinear Xref (fun _ => true) r) X v = (r.map fun t => t.form X v).sum := by
      intro X v
      have := gen_value Xref (fun _ => true) (fun _ => true) r X v
      simpa using this
    intro h v
    obtain ⟨Q, hQ⟩ := isDeriv_list r Xref hall h v
    refine ⟨Q, fun e => ?_⟩
    rw [hg, hg, value_linear]
    exact hQ e

theorem lin_spatial {c : Cfg1} {Xref : St1} {lin : List T1}
    (hl : linearShallowWater1d c (fun _ => true) Xref = .ok lin) (h v : St1) :
    spatial lin h v = adv1 c.M v.u h.u Xref.u + adv1 c.M v.u Xref.u h.u + (adv1 c.M v.v h.v Xref.u + adv1 c.M v.v Xref.v h.u)
      + (cont1 c.M v.D h.D Xref.u + cont1 c.M v.D Xref.D h.u) + press1 c.M c.g v.u h.D + corV c h v ∧
    temporal lin h v = mass1 c.M 1 h.u v.u + mass1 c.M 1 h.v v.v + mass1 c.M 1 h.D v.D := by
  unfold linearShallowWater1d shallowWater1d at hl
  cases ht : terms1 { c with diffusion := none } (fun _ => true) Xref with
  | error e => rw [ht] at hl; cases hl
  | ok r =>
    rw [ht] at hl
    cases hl
    obtain ⟨cor, df, hc, hd, rfl⟩ := terms_ok ht
    have hdf : df = [] := by cases hd; rfl
    subst hdf
    have hce : corTerms { c with diffusion := none } = corTerms c := rfl
    rw [hce] at hc
    have ce : (cor.map fun t => eff Xref t h v).sum = corV c h v := by
      unfold corTerms at hc
      unfold corV
      cases hr : c.rot <;> rw [hr] at hc <;> cases hc <;> simp [eff]
    have m : ((massTerms1 c.M).map fun t => eff Xref t h v).sum =
        mass1 c.M 1 h.u v.u + mass1 c.M 1 h.v v.v + mass1 c.M 1 h.D v.D := by
      simp only [massTerms1, eff, List.map_cons, List.map_nil, List.sum_cons, List.sum_nil]
      simp; ring
    have f : (([uAdv c.M, vAdv c.M, dAdv c.M (fun _ => true) Xref, pgTerm1 { c with diffusion := none }] : List T1).map
        fun t => eff Xref t h v).sum = adv1 c.M v.u h.u Xref.u + adv1 c.M v.u Xref.u h.u
          + (adv1 c.M v.v h.v Xref.u + adv1 c.M v.v Xref.v h.u)
          + (cont1 c.M v.D h.D Xref.u + cont1 c.M v.D Xref.D h.u) + press1 c.M c.g v.u h.D := by
      have hlc : linCont c.M v.D h.D h.u Xref.D Xref.u = cont1 c.M v.D h.D Xref.u + cont1 c.M v.D Xref.D h.u := rfl
      simp only [List.map_cons, List.map_nil, List.sum_cons, List.sum_nil, uAdv, vAdv, dAdv, dAdv0, pgTerm1, eff, if_true, hlc]
      simp; ring
    have ff := four_filter { c with diffusion := none } (fun _ => true) Xref
    dsimp only at ff f
    constructor
    · unfold spatial
      rw [lin_value Xref (fun l => !decide ("time_derivative" ∈ l))]
      simp only [List.filter_append, List.map_append, List.sum_append]
      rw [(cor_filter hc h v).1, ce, (mass_filter c.M).2, ff, f]
      simp
    · unfold temporal
      rw [lin_value Xref (fun l => decide ("time_derivative" ∈ l))]
      simp only [List.filter_append, List.map_append, List.sum_append]
      rw [no_td _ (cor_filter hc h v).1, (mass_filter c.M).1, no_td _ ff, m]
      simp

/-- C104, energy: about a uniform depth `H` at rest (with uniform cross-channel velocity) the linear equations conserve
`∫ H u²/2 + H v²/2 + g D²/2`: if the rates `dX` satisfy the equations for the test function `(H u, H v, g D)`, the rate of
change of that integral is zero, whatever the mesh, the ends and the Coriolis parameter. -/
theorem C104_energy {c : Cfg1} {Xref : St1} {lin : List T1} (hl : linearShallowWater1d c (fun _ => true) Xref = .ok lin)
    (H : ℝ) (hu : Xref.u = fun _ => 0) (hv : ∀ i t, slope Xref.v i t = 0) (hD : Xref.D = fun _ => C H) (X dX : St1)
    (hdyn : ∀ v : St1, v.u = (fun i => C H * X.u i) → v.v = (fun i => C H * X.v i) → v.D = (fun i => C c.g * X.D i) →
      temporal lin dX v + spatial lin X v = 0) :
    cellIntegral c.M (fun i t => H * val X.u i t * val dX.u i t + H * val X.v i t * val dX.v i t
      + c.g * val X.D i t * val dX.D i t) = 0 := by
  have h0 := hdyn ⟨_, _, _⟩ rfl rfl rfl
  obtain ⟨hs, -⟩ := lin_spatial hl X ⟨fun i => C H * X.u i, fun i => C H * X.v i, fun i => C c.g * X.D i⟩
  obtain ⟨-, ht⟩ := lin_spatial hl dX ⟨fun i => C H * X.u i, fun i => C H * X.v i, fun i => C c.g * X.D i⟩
  have hv' : ∀ i, derivative (Xref.v i) = 0 := fun i => by
    apply Polynomial.funext
    intro t
    have := hv i t
    rw [slope_eq] at this
    simpa [dx0] using this
  have hz : spatial lin X ⟨fun i => C H * X.u i, fun i => C H * X.v i, fun i => C c.g * X.D i⟩ = 0 := by
    rw [hs]
    simp only [hu, hD, adv1, cont1, dx0, hv', mul_zero, zero_mul, derivative_zero, integ_zero, corV, press1, mass1]
    have h1 : (integ c.M fun i => -C c.g * X.D i * derivative (C H * X.u i)) =
        -integ c.M (fun i => C c.g * X.D i * derivative (C H * X.u i)) := by
      rw [← integ_neg]; exact integ_congr c.M fun i _ => by ring
    have h2 : (integ c.M fun i => C (-c.f0) * X.v i * (C H * X.u i)) =
        -integ c.M (fun i => C c.f0 * X.u i * (C H * X.v i)) := by
      rw [← integ_neg]; exact integ_congr c.M fun i _ => by simp only [map_neg]; ring
    rw [h1, h2]
    split_ifs <;> ring
  rw [hz, ht, add_zero] at h0
  rw [cellIntegral_eq c.M _ (fun i => C 1 * dX.u i * (C H * X.u i) + (C 1 * dX.v i * (C H * X.v i) +
    C 1 * dX.D i * (C c.g * X.D i))) fun i t => by simp only [val, eval_add, eval_mul, eval_C]; ring]
  simp only [integ_add]
  unfold mass1 at h0
  linarith

/-- C104, Coriolis: the Coriolis terms do no work, in the nonlinear and in the linear equations. -/
theorem C104_coriolis (c : Cfg1) {cor : List T1} (hc : corTerms c = .ok cor) (X : St1) :
    (cor.map fun t => t.form X X).sum = 0 := by
  rw [(cor_filter hc X X).2]
  unfold corV mass1
  split_ifs
  · rw [← integ_add, ← integ_zero c.M]
    exact integ_congr c.M fun i _ => by simp only [map_neg]; ring
  · rfl

/-! ### Non-vacuity -/

/-- Two cells of an interval; the f-plane; diffusion of all fields. -/
noncomputable def exCfg : Cfg1 where
  M := ⟨1, fun i => (i : ℝ), false⟩
  g := 10
  H := 5
  f0 := 1
  rot := .fplane
  tracers := false
  spaceNames := none
  diffusion := some [("u", fun _ => 1), ("D", fun _ => C 2)]

example (Xref : St1) : ∃ res, shallowWater1d exCfg (fun _ => true) Xref = .ok res :=
  (C104_accepts _ _ _).2 ⟨rfl, Or.inr rfl, by
    intro fk hfk
    simp only [exCfg, Option.getD_some, List.mem_cons, List.not_mem_nil, or_false] at hfk
    rcases hfk with rfl | rfl
    · exact Or.inl rfl
    · exact Or.inr (Or.inr rfl)⟩
/-- Another set of equations without diffusion, and its linear equations. -/
example (Xref : St1) : ∃ res, shallowWater1d { exCfg with diffusion := none } (fun _ => true) Xref = .ok res :=
  (C104_accepts _ _ _).2 ⟨rfl, Or.inr rfl, by intro fk hfk; cases hfk⟩
example (Xref : St1) : ∃ lin, linearShallowWater1d exCfg (fun _ => true) Xref = .ok lin := by
  obtain ⟨res, h⟩ := (C104_accepts { exCfg with diffusion := none } (fun _ => true) Xref).2
    ⟨rfl, Or.inr rfl, by intro fk hfk; cases hfk⟩
  exact ⟨_, by unfold linearShallowWater1d; rw [h]; rfl⟩
/-- A tracer list, even empty, and a beta plane are rejected. -/
example (p : T1 → Bool) (Xref : St1) : (¬∃ res, shallowWater1d { exCfg with tracers := true } p Xref = .ok res) ∧
    ¬∃ res, shallowWater1d { exCfg with rot := .betaplane } p Xref = .ok res := by
  rw [C104_accepts, C104_accepts]
  simp
/-- The velocity `t (2 - t)` is continuous and vanishes at the ends; the depth `1` on the first and `2` on the second cell
is not continuous. -/
example : Flow exCfg.M (fun _ => X * (2 - X)) ∧ ¬Cont exCfg.M (fun i => if i = 0 then 1 else 2) := by
  refine ⟨⟨⟨fun i hi => ?_, fun h => by cases h⟩, fun _ => ?_⟩, fun h => ?_⟩
  · simp only [Mesh1.atR, Mesh1.atL]
  · simp [Mesh1.atR, Mesh1.atL, exCfg]
  · have := h.1 0 (by simp [exCfg])
    simp [Mesh1.atR, Mesh1.atL] at this
/-- The mass of that state changes without a transport method (`C104_mass_refuted`): by `-1`. -/
example : facetSum exCfg.M (fun i j => exCfg.M.atR (fun _ => X * (2 - X)) i *
    (exCfg.M.atR (fun i => if i = 0 then 1 else 2) i - exCfg.M.atL (fun i => if i = 0 then 1 else 2) j)) = -1 := by
  simp [facetSum, exCfg, Mesh1.atR, Mesh1.atL]; norm_num
/-- At rest on the interval without boundary conditions, with the test function `t`: `10 * 3 * (0 - 2)`. -/
example : exCfg.g * 3 * (exCfg.M.atL (fun _ => X) 0 - exCfg.M.atR (fun _ => X) exCfg.M.n) = -60 := by
  simp [exCfg, Mesh1.atR, Mesh1.atL]; norm_num
/-- A geostrophically balanced state: depth `t²`, velocity `20 t`. -/
example (i : ℕ) (t : ℝ) : fpar exCfg * val (fun _ => C 20 * X) i t = exCfg.g * slope (fun _ => X ^ 2) i t := by
  rw [slope_eq]; simp [fpar, exCfg, val, dx0]; ring

end Gusto.Props.SW1Props
