import Verif.Model.EquationDiagnostics
import Verif.Props.Thermodynamics
import Verif.Props.TopoSort
import Mathlib.Tactic.NormNum
import Mathlib.Algebra.BigOperators.Field
import Mathlib.Tactic.Positivity
import Mathlib.Tactic.FieldSimp
import Mathlib.Tactic.Linarith
import Mathlib.Tactic.LinearCombination
import Mathlib.Analysis.SpecialFunctions.Pow.Deriv

set_option autoImplicit false
set_option linter.unusedSectionVars false
set_option linter.unusedSimpArgs false

/-!
# C93, C94: diagnostics of the shallow-water and of the compressible Euler equations
-/

namespace Gusto.Props.EqnDiagProps
open Gusto.DG Gusto.Diag Gusto.Thermo Gusto.EqnDiag

/-! ### C93: shallow water -/

section SW
variable {K : Type*} [Field K] [LinearOrder K] [IsStrictOrderedRing K] {d : ℕ} {C F B : Type*}
variable [Fintype C] [Fintype F] [Fintype B]

/-- The energies are those of the shallow-water equations: they are not negative for a non-negative depth, and a fluid
with positive depth has no kinetic energy exactly when it is at rest. -/
theorem C93_energies (u : Fin d → K) (g D : K) (hg : 0 ≤ g) :
    (0 ≤ D → 0 ≤ kinetic u D) ∧ (0 < D → (kinetic u D = 0 ↔ ∀ i, u i = 0)) ∧ 0 ≤ swPotential g D ∧
      2 * kinetic u D = D * ∑ i, u i ^ 2 ∧ 2 * swPotential g D = g * D * D := by
  have hd : dot u u = ∑ i, u i ^ 2 := by simp [dot, pow_two]
  have hn : 0 ≤ ∑ i, u i ^ 2 := Finset.sum_nonneg fun i _ => sq_nonneg _
  refine ⟨fun h => ?_, fun h => ?_, ?_, ?_, ?_⟩
  · unfold kinetic; rw [hd]; positivity
  · unfold kinetic; rw [hd]
    constructor
    · intro h0
      have : ∑ i, u i ^ 2 = 0 := by
        rcases mul_eq_zero.1 h0 with h1 | h1
        · exact absurd h1 (by positivity)
        · exact h1
      intro i
      have := (Finset.sum_eq_zero_iff_of_nonneg fun i _ => sq_nonneg (u i)).1 this i (Finset.mem_univ _)
      simpa using this
    · intro h0; simp [h0]
  · unfold swPotential; positivity
  · unfold kinetic; rw [hd]; ring
  · unfold swPotential; ring

example : (0 : ℚ) ≤ 10 ∧ (0 : ℚ) < 3 := by norm_num

/-- The three ways to compute the potential enstrophy agree when the three vorticities are those of one flow, and the
result is `q²D/2`. -/
theorem C93_enstrophy (zeta f D : K) (hD : D ≠ 0) :
    enstrophy .potential (vorticityExpr .potential zeta D f) D f = .ok (1 / 2 * ((zeta + f) / D) ^ 2 * D) ∧
    enstrophy .relative (vorticityExpr .relative zeta D f) D f = .ok (1 / 2 * ((zeta + f) / D) ^ 2 * D) ∧
    enstrophy .absolute (vorticityExpr .absolute zeta D f) D f = .ok (1 / 2 * ((zeta + f) / D) ^ 2 * D) ∧
    ∀ v, enstrophy .other v D f = .error .valueError := by
  refine ⟨rfl, ?_, ?_, fun _ => rfl⟩ <;>
  · simp only [enstrophy, vorticityExpr, Except.ok.injEq]
    field_simp

example : (2 : ℚ) ≠ 0 := by norm_num

/-- The constant function 1 is in the space. -/
def HasOne (V : Set (Sc K 2 C F B)) : Prop := Sc.const 1 ∈ V

/-- For every flow the diagnosed relative vorticity has total zero, the absolute vorticity the total of `f`, and the
potential vorticity weighted with the depth the total of `f`. -/
theorem C93_vorticity_totals (M : Mesh K 2 C F B) (V : Set (Sc K 2 C F B)) (h1 : HasOne V) (u : Ve K 2 C F B)
    (f D zeta za q : C → K) (hz : IsVorticity M V .relative u f D zeta) (ha : IsVorticity M V .absolute u f D za)
    (hq : IsVorticity M V .potential u f D q) :
    ∑ x, M.wC x * zeta x = 0 ∧ ∑ x, M.wC x * za x = ∑ x, M.wC x * f x ∧
      ∑ x, M.wC x * (q x * D x) = ∑ x, M.wC x * f x := by
  have e1 := hz _ h1
  have e2 := ha _ h1
  have e3 := hq _ h1
  simp [vorticityRHS, Sc.const, dot, perp] at e1 e2 e3
  exact ⟨e1, e2, e3⟩

/-- The true vorticity of a velocity. -/
def curl2 (u : Ve K 2 C F B) (x : C) : K := u.j x 1 0 - u.j x 0 1

/-- Green's formula of the space `V` and the velocity `u`: integration by parts with the boundary term, in which
`(-n_1, n_0)` is the tangent. -/
def Green (M : Mesh K 2 C F B) (V : Set (Sc K 2 C F B)) (u : Ve K 2 C F B) : Prop :=
  ∀ gamma ∈ V, ∑ x, M.wC x * (gamma.c x * curl2 u x) = -(∑ x, M.wC x * dot (perp (gamma.g x)) (u.c x)) +
    ∑ x, M.wB x * (gamma.b x * dot (u.b x) (perp (M.nB x)))

/-- Without a boundary (the sphere, a doubly periodic plane) the diagnosed vorticities are the projections of the
pointwise ones: tested with any function of the space they have the values of `curl u`, `curl u + f`, and `q D` those of
`curl u + f`. -/
theorem C93_vorticity_is_curl [IsEmpty B] (M : Mesh K 2 C F B) (V : Set (Sc K 2 C F B)) (u : Ve K 2 C F B)
    (f D zeta za q : C → K) (hG : Green M V u) (hz : IsVorticity M V .relative u f D zeta)
    (ha : IsVorticity M V .absolute u f D za) (hq : IsVorticity M V .potential u f D q) :
    ∀ gamma ∈ V, ∑ x, M.wC x * (gamma.c x * zeta x) = ∑ x, M.wC x * (gamma.c x * curl2 u x) ∧
      ∑ x, M.wC x * (gamma.c x * za x) = ∑ x, M.wC x * (gamma.c x * (curl2 u x + f x)) ∧
      ∑ x, M.wC x * (gamma.c x * (q x * D x)) = ∑ x, M.wC x * (gamma.c x * (curl2 u x + f x)) := by
  intro gamma hg
  have e0 := hG gamma hg
  have e1 := hz gamma hg
  have e2 := ha gamma hg
  have e3 := hq gamma hg
  simp only [Finset.univ_eq_empty (α := B), Finset.sum_empty, add_zero] at e0
  simp only [vorticityRHS, ne_eq, not_true_eq_false, if_false, add_zero, reduceCtorEq, not_false_eq_true, if_true,
    ← e0] at e1 e2 e3
  refine ⟨?_, ?_, ?_⟩
  · rw [← e1]; exact Finset.sum_congr rfl fun x _ => by ring
  · simp only [mul_add, Finset.sum_add_distrib]
    rw [← e2]; exact Finset.sum_congr rfl fun x _ => by ring
  · simp only [mul_add, Finset.sum_add_distrib]
    rw [← e3]; exact Finset.sum_congr rfl fun x _ => by ring

/-- The diagnosed field is unique: two solutions in the space (their difference is a test function) agree at every point
with positive weight (for the potential vorticity where also the depth is positive). -/
theorem C93_vorticity_unique (M : Mesh K 2 C F B) (V : Set (Sc K 2 C F B)) (base : VBase) (u : Ve K 2 C F B)
    (f D q q' : C → K) (hw : ∀ x, 0 < M.wC x) (hD : ∀ x, 0 < D x) (h : IsVorticity M V base u f D q)
    (h' : IsVorticity M V base u f D q') (hin : ∃ gamma ∈ V, ∀ x, gamma.c x = q x - q' x) : q = q' := by
  obtain ⟨gamma, hg, he⟩ := hin
  have e := (h gamma hg).trans (h' gamma hg).symm
  rw [← sub_eq_zero, ← Finset.sum_sub_distrib] at e
  have e' : ∑ x, M.wC x * ((if base = .potential then D x else 1) * (q x - q' x) ^ 2) = 0 := by
    rw [← e]
    refine Finset.sum_congr rfl fun x _ => ?_
    split_ifs <;> rw [he x] <;> ring
  funext x
  have hn : ∀ x ∈ Finset.univ, 0 ≤ M.wC x * ((if base = .potential then D x else 1) * (q x - q' x) ^ 2) := by
    intro x _
    have := hw x
    have := hD x
    split_ifs <;> positivity
  have hx := (Finset.sum_eq_zero_iff_of_nonneg hn).1 e' x (Finset.mem_univ _)
  have hwx := (hw x).ne'
  have hdx : (if base = .potential then D x else 1) ≠ 0 := by
    split_ifs
    · exact (hD x).ne'
    · exact one_ne_zero
  have : (q x - q' x) ^ 2 = 0 := by
    rcases mul_eq_zero.1 hx with h0 | h0
    · exact absurd h0 hwx
    · rcases mul_eq_zero.1 h0 with h0 | h0
      · exact absurd h0 hdx
      · exact h0
  exact sub_eq_zero.1 (by simpa using this)

/-- On a domain with a boundary the diagnosed vorticity is not that of the flow: the totals differ by the circulation
along the boundary, which the form leaves out. -/
theorem C93_boundary_circulation (M : Mesh K 2 C F B) (V : Set (Sc K 2 C F B)) (h1 : HasOne V) (u : Ve K 2 C F B)
    (f D zeta : C → K) (hG : Green M V u) (hz : IsVorticity M V .relative u f D zeta) :
    ∑ x, M.wC x * curl2 u x - ∑ x, M.wC x * zeta x = ∑ x, M.wB x * dot (u.b x) (perp (M.nB x)) := by
  have e0 := hG _ h1
  have e1 := hz _ h1
  simp [vorticityRHS, Sc.const, dot, perp] at e0 e1
  rw [e1, sub_zero, e0]
  simp [dot, perp]

/-- `Vorticity` is accepted for the three vorticities, except with the method `solve` in a discontinuous space, and, on the sphere,
with another method in a continuous space. -/
theorem C93_vorticity_accepts (base : VBase) (isCG solve onSphere : Bool) :
    (∃ m, vorticityMode base isCG solve onSphere = .ok m) ↔
      base ≠ .other ∧ (isCG = false → solve = false) ∧ (isCG = true → solve = false → onSphere = false) := by
  cases base <;> cases isCG <;> cases solve <;> cases onSphere <;> simp [vorticityMode]

/-- Refuted: the documented methods `interpolate` and `project` work in the default space.  On the sphere they raise. -/
theorem C93_sphere_refuted (base : VBase) : ∃ e, vorticityMode base true false true = .error e := by
  cases base <;> simp [vorticityMode]

/-- Two projections into HCurl of one velocity agree at every quadrature point, if the difference of two functions of the space is in
the space. -/
theorem C93_hcurl_unique (M : Mesh K 2 C F B) (W : Set (Ve K 2 C F B)) (u uh uh' : Ve K 2 C F B) (hw : ∀ x, 0 < M.wC x)
    (hsub : ∀ a ∈ W, ∀ b ∈ W, ∃ w ∈ W, ∀ x i, w.c x i = a.c x i - b.c x i) (h : IsHCurl M W u uh) (h' : IsHCurl M W u uh') :
    ∀ x i, uh.c x i = uh'.c x i := by
  obtain ⟨w, hwW, he⟩ := hsub _ h.1 _ h'.1
  have e := (h.2 w hwW).trans (h'.2 w hwW).symm
  rw [← sub_eq_zero, ← Finset.sum_sub_distrib] at e
  have e' : ∑ x, M.wC x * ∑ i, (uh.c x i - uh'.c x i) ^ 2 = 0 := by
    rw [← e]
    refine Finset.sum_congr rfl fun x _ => ?_
    rw [← mul_sub]
    congr 1
    unfold dot
    rw [← Finset.sum_sub_distrib]
    exact Finset.sum_congr rfl fun i _ => by rw [he]; ring
  intro x i
  have h1 := (Finset.sum_eq_zero_iff_of_nonneg fun x _ => mul_nonneg (hw x).le (Finset.sum_nonneg fun i _ => sq_nonneg _)).1 e' x
    (Finset.mem_univ x)
  have h2 := (mul_eq_zero.1 h1).resolve_left (hw x).ne'
  have h3 := (Finset.sum_eq_zero_iff_of_nonneg fun i _ => sq_nonneg _).1 h2 i (Finset.mem_univ i)
  exact sub_eq_zero.1 (pow_eq_zero_iff two_ne_zero |>.1 h3)

/-- The variant in a discontinuous space: a velocity that is in HCurl (such as an affine one) is projected to itself and the diagnosed
vorticities are those of the flow at every point, with or without a boundary; here functions of the space that agree at the
quadrature points are the same. -/
theorem C93_dg_exact (M : Mesh K 2 C F B) (W : Set (Ve K 2 C F B)) (u uh : Ve K 2 C F B) (hw : ∀ x, 0 < M.wC x)
    (hsub : ∀ a ∈ W, ∀ b ∈ W, ∃ w ∈ W, ∀ x i, w.c x i = a.c x i - b.c x i)
    (hsep : ∀ a ∈ W, ∀ b ∈ W, (∀ x i, a.c x i = b.c x i) → a = b) (hu : u ∈ W) (h : IsHCurl M W u uh) (D f : C → K) (x : C) :
    vorticityDG .relative uh D f x = curl2 u x ∧ vorticityDG .absolute uh D f x = curl2 u x + f x ∧
      (D x ≠ 0 → vorticityDG .potential uh D f x * D x = curl2 u x + f x) := by
  have e : uh = u := hsep _ h.1 _ hu (C93_hcurl_unique M W u uh u hw hsub h ⟨hu, fun _ _ => rfl⟩)
  subst e
  have hd : divperp uh x = curl2 uh x := by unfold divperp curl2; ring
  refine ⟨hd, ?_, fun hD => ?_⟩
  · simp [vorticityDG, vorticityExpr, hd]
  · simp only [vorticityDG, vorticityExpr, hd]
    field_simp

/-- The variant in a discontinuous space: the total vorticity is the circulation of the projected velocity along the boundary, zero
without one, for every flow; the boundary is not left out as in the continuous variant. -/
theorem C93_dg_totals (M : Mesh K 2 C F B) (V : Set (Sc K 2 C F B)) (h1 : HasOne V) (uh : Ve K 2 C F B) (hG : Green M V uh)
    (D f : C → K) :
    ∑ x, M.wC x * vorticityDG .relative uh D f x = ∑ x, M.wB x * dot (uh.b x) (perp (M.nB x)) ∧
      ∑ x, M.wC x * vorticityDG .absolute uh D f x
        = ∑ x, M.wB x * dot (uh.b x) (perp (M.nB x)) + ∑ x, M.wC x * f x := by
  have hd : ∀ x, divperp uh x = curl2 uh x := fun x => by unfold divperp curl2; ring
  have e0 := hG _ h1
  have key : ∑ x, M.wC x * curl2 uh x = ∑ x, M.wB x * dot (uh.b x) (perp (M.nB x)) := by
    simp [Sc.const, dot, perp] at e0
    rw [e0]
    simp [dot, perp]
  refine ⟨?_, ?_⟩
  · simpa only [vorticityDG, vorticityExpr, hd] using key
  · simp only [vorticityDG, vorticityExpr, hd, mul_add, Finset.sum_add_distrib, key]

/-! The unit square with one cell, the midpoint rule in the cell and on the four sides, and the rotation `(-y, x)`. -/

/-- The unit square. -/
def square : Mesh ℚ 2 Unit Empty (Fin 4) where
  wC _ := 1
  wF x := x.elim
  wB _ := 1
  nP x := x.elim
  nM x := x.elim
  nB x i := if x = 0 then (if i = 0 then 1 else 0) else if x = 1 then (if i = 0 then 0 else 1)
    else if x = 2 then (if i = 0 then -1 else 0) else (if i = 0 then 0 else -1)
/-- The velocity `(-y, x)` of a rotation. -/
def rotation : Ve ℚ 2 Unit Empty (Fin 4) where
  c _ i := if i = 0 then -1 / 2 else 1 / 2
  j _ i k := if i = 0 then (if k = 1 then -1 else 0) else (if k = 0 then 1 else 0)
  p x := x.elim
  m x := x.elim
  b x i := if x = 0 then (if i = 0 then -1 / 2 else 1) else if x = 1 then (if i = 0 then -1 else 1 / 2)
    else if x = 2 then (if i = 0 then -1 / 2 else 0) else (if i = 0 then 0 else 1 / 2)

/-- A rotation of the unit square: Green's formula holds for the constant, the vorticity is 2 everywhere, and every
field that the diagnostic may compute has total 0. -/
theorem C93_boundary_refuted : Green square {Sc.const 1} rotation ∧ (∀ x, curl2 rotation x = 2) ∧
    (∃ zeta, IsVorticity square {Sc.const 1} .relative rotation (fun _ => 0) (fun _ => 1) zeta) ∧
    ∀ zeta f D, IsVorticity square {Sc.const 1} .relative rotation f D zeta → zeta () = 0 := by
  refine ⟨?_, ?_, ⟨fun _ => 0, ?_⟩, ?_⟩
  · intro gamma hg
    obtain rfl : gamma = Sc.const 1 := hg
    simp [square, rotation, Sc.const, dot, perp, curl2, Fin.sum_univ_four]
  · intro x; simp [curl2, rotation]; norm_num
  · intro gamma hg
    obtain rfl : gamma = Sc.const 1 := hg
    simp [vorticityRHS, square, rotation, Sc.const, dot, perp]
  · intro zeta f D h
    have := h _ rfl
    simpa [vorticityRHS, square, rotation, Sc.const, dot, perp] using this

/-- The velocity `a (-y, x)`. -/
def turning (a : ℚ) : Ve ℚ 2 Unit Empty (Fin 4) where
  c x i := a * rotation.c x i
  j x i k := a * rotation.j x i k
  p x := x.elim
  m x := x.elim
  b x i := a * rotation.b x i

/-- The rotation of the square through HCurl: the multiples of the rotation are the space; the diagnosed vorticity is 2. -/
example (uh : Ve ℚ 2 Unit Empty (Fin 4)) (h : IsHCurl square {w | ∃ a : ℚ, w = turning a} rotation uh) :
    vorticityDG .relative uh (fun _ => 1) (fun _ => 0) () = 2 := by
  have hc : ∀ a i, (turning a).c () i = a * rotation.c () i := fun _ _ => rfl
  have := (C93_dg_exact square {w | ∃ a : ℚ, w = turning a} rotation uh (fun _ => by simp [square]) ?_ ?_
    ⟨1, by simp [turning, rotation]⟩ h (fun _ => 1) (fun _ => 0) ()).1
  · rw [this]
    exact C93_boundary_refuted.2.1 ()
  · rintro _ ⟨a, rfl⟩ _ ⟨b, rfl⟩
    exact ⟨_, ⟨a - b, rfl⟩, fun x i => by cases x; simp only [hc]; ring⟩
  · rintro _ ⟨a, rfl⟩ _ ⟨b, rfl⟩ e
    have e0 := e () 1
    simp only [hc] at e0
    simp [rotation] at e0
    rw [e0]

end SW

/-- Vapour and cloud partition the total moisture, whatever the fields held before: their sum is `q_t`, the vapour is at
most the saturation value of the present state and there is cloud only if it equals it. -/
theorem C93_partition (sat qt : ℝ) (s s' : Partition) :
    (partitionedVapour sat qt s).field + (partitionedCloud sat qt s').field = qt ∧
    (partitionedVapour sat qt s).field ≤ sat ∧ 0 ≤ (partitionedCloud sat qt s').field ∧
    (0 < (partitionedCloud sat qt s').field ↔ sat < qt) ∧
    (0 < (partitionedCloud sat qt s').field → (partitionedVapour sat qt s).field = sat) ∧
    (0 ≤ qt → 0 ≤ sat → 0 ≤ (partitionedVapour sat qt s).field) := by
  simp only [partitionedVapour, partitionedCloud]
  split_ifs with h
  · refine ⟨by ring, h.le, by simp, ?_, by simp, fun h _ => h⟩
    simp only [sub_self, lt_irrefl, false_iff, not_lt]
    exact h.le
  · refine ⟨by ring, le_refl _, by linarith, by simp [sub_pos], fun _ => rfl, fun _ h => h⟩

/-- The saturation value is positive for positive parameters and depth and decreases with the depth and with the
buoyancy; without topography it is the one with zero topography. -/
theorem C93_saturation (q0 nu g H : ℝ) (hq : 0 < q0) (hn : 0 < nu) (hg : 0 < g) (hH : 0 < H) (t D b : ℝ)
    (hD : 0 < D + t) :
    0 < swSaturation q0 nu g H (some t) D b ∧ swSaturation q0 nu g H none D b = swSaturation q0 nu g H (some 0) D b ∧
    (∀ D', D < D' → swSaturation q0 nu g H (some t) D' b < swSaturation q0 nu g H (some t) D b) ∧
    (∀ b', b < b' → swSaturation q0 nu g H (some t) D b' < swSaturation q0 nu g H (some t) D b) ∧
    (D + t = H → b = g → swSaturation q0 nu g H (some t) D b = q0) := by
  have hqH : 0 < q0 * H := mul_pos hq hH
  refine ⟨?_, by simp [swSaturation], ?_, ?_, ?_⟩
  · simp only [swSaturation]; positivity
  · intro D' h
    simp only [swSaturation]
    apply mul_lt_mul_of_pos_right _ (Real.exp_pos _)
    exact div_lt_div_of_pos_left hqH hD (by linarith)
  · intro b' h
    simp only [swSaturation]
    apply mul_lt_mul_of_pos_left _ (div_pos hqH hD)
    rw [Real.exp_lt_exp]
    apply mul_lt_mul_of_pos_left _ hn
    have := div_lt_div_of_pos_right h hg
    linarith
  · intro h1 h2
    simp only [swSaturation, h1, h2]
    rw [div_self hg.ne', mul_div_assoc, div_self hH.ne']
    simp

example : (0 : ℝ) < 0.02 ∧ (0 : ℝ) < 20 ∧ (0 : ℝ) < 9.8 ∧ (0 : ℝ) < 5000 + 100 := by norm_num

/-! ### C94: order of evaluation -/

open Gusto.TopoSort in
/-- Whatever the diagnostics and the order in which the user gives them: if every diagnostic reads only fields that it
requires, then setting up the scheduled diagnostics never looks up a field which is not there. -/
theorem C94_setup_succeeds (diags : List (String × List String)) (available : List String)
    (reads : String → List String) (hn : (diags.map Prod.fst).Nodup)
    (hr : ∀ e ∈ diags, ∀ r ∈ reads e.1, r ∈ e.2) (sched : List String)
    (h : Sorts (fieldDeps diags available) (.ok sched)) :
    setupAll reads available sched = .ok (available ++ sched) := by
  obtain ⟨hp, ho⟩ := TopoProps.C17_setup_diagnostics diags available hn sched h
  have key : ∀ (rest done : List String), done ++ rest = sched →
      setupAll reads (available ++ done) rest = .ok (available ++ sched) := by
    intro rest
    induction rest with
    | nil => intro done hd; simp only [List.append_nil] at hd; simp [setupAll, hd]
    | cons n rest ih =>
      intro done hd
      have hmem : n ∈ diags.map Prod.fst := hp.mem_iff.1 (by rw [← hd]; simp)
      obtain ⟨e, he, hen⟩ := List.mem_map.1 hmem
      have hall : (reads n).all (· ∈ available ++ done) = true := by
        rw [List.all_eq_true]
        intro r hrn
        have := ho done n rest hd.symm e he hen r (hr e he r (hen ▸ hrn))
        simp only [List.mem_append, decide_eq_true_eq]
        tauto
      simp only [setupAll, hall, if_true]
      rw [List.append_assoc]
      exact ih (done ++ [n]) (by simp [hd])
  simpa using key sched [] rfl

/-- The diagnostics of the example: the Richardson number of `theta`, and the two gradients it needs. -/
def riDiags : List (String × List String) :=
  [("RichardsonNumber", richardsonRequired "theta"), ("theta_gradient", ["theta"]), ("u_gradient", ["u"])]
/-- What their `setup` looks up. -/
def riReads (n : String) : List String :=
  if n = "RichardsonNumber" then richardsonReads "theta"
  else if n = "theta_gradient" then ["theta"] else if n = "u_gradient" then ["u"] else []

open Gusto.TopoSort Gusto.TimeLoop in
/-- `RichardsonNumber` reads the gradient of the density but does not require it: although the user asked for both
gradients, the number is scheduled before one of them and the set-up fails. -/
theorem C94_richardson_refuted : ∃ sched, Sorts (fieldDeps riDiags ["u", "rho", "theta"]) (.ok sched) ∧
    setupAll riReads ["u", "rho", "theta"] sched = .error .valueError := by
  have hfd : fieldDeps riDiags ["u", "rho", "theta"] =
      [("RichardsonNumber", ["u_gradient"]), ("theta_gradient", []), ("u_gradient", [])] := by decide
  refine ⟨["u_gradient", "RichardsonNumber", "theta_gradient"], ?_, by decide⟩
  rw [hfd]
  generalize hf : ([("RichardsonNumber", ["u_gradient"]), ("theta_gradient", []), ("u_gradient", [])] :
    List (String × List String)) = fd
  have h0 : (init fd).roots = ["theta_gradient", "u_gradient"] := by subst hf; decide
  have o0 : (init fd).outs "u_gradient" = ["RichardsonNumber"] := by subst hf; decide
  have i0 : (init fd).ins "RichardsonNumber" = ["u_gradient"] := by subst hf; decide
  have s1 : (step (init fd)).roots = ["theta_gradient", "RichardsonNumber"] ∧
      (step (init fd)).sched = ["u_gradient"] ∧ (step (init fd)).outs "RichardsonNumber" = [] ∧
      (step (init fd)).outs "theta_gradient" = [] := by subst hf; decide
  have s2 : (step (step (init fd))).roots = ["theta_gradient"] ∧
      (step (step (init fd))).sched = ["u_gradient", "RichardsonNumber"] ∧
      (step (step (init fd))).outs "theta_gradient" = [] := by subst hf; decide
  have s3 : (step (step (step (init fd)))).roots = [] ∧
      (step (step (step (init fd)))).sched = ["u_gradient", "RichardsonNumber", "theta_gradient"] := by
    subst hf; decide
  rw [← s3.2]
  refine .ok (n := 3) (by subst hf; decide) (.iter (by simp [h0]) (.iter (by simp [s1.1]) (.iter (by simp [s2.1])
    (.stop (by simp [s3.1]))))) ?_
  subst hf
  decide

/-- The claim for all orders holds with the gradient of the density among the required fields. -/
example : ∀ e ∈ [("RichardsonNumber", ["theta_gradient", "u_gradient", "u"]), ("theta_gradient", ["theta"]),
    ("u_gradient", ["u"])], ∀ r ∈ riReads e.1, r ∈ e.2 := by decide

/-- The space of `Gradient` has the shape of the gradient exactly for scalars and for two-dimensional vectors on
two-dimensional meshes. -/
theorem C94_gradient_shape (m : ℕ) :
    gradientShape m [] = gradShape m [] ∧
    ∀ n, gradientShape m [n] = gradShape m [n] ↔ n = 2 ∧ m = 2 := by
  refine ⟨rfl, fun n => ?_⟩
  simp only [gradientShape, gradShape, List.cons_append, List.nil_append]
  constructor
  · intro h
    have hl := congrArg List.length h
    simp at hl
    subst hl
    simp [List.replicate] at h
    exact ⟨rfl, h⟩
  · rintro ⟨rfl, rfl⟩; rfl

/-- The gradient of a three-dimensional velocity cannot be diagnosed: the field would have 27 components. -/
theorem C94_gradient_shape_refuted : gradientShape 3 [3] = [3, 3, 3] ∧ gradShape 3 [3] = [3, 3] := ⟨rfl, rfl⟩

/-- With some vertical shear the Richardson number has the sign of the stratification, is the squared frequency divided
by the squared shear of the horizontal components, and depends on no other component of the gradients. -/
theorem C94_richardson {K : Type*} [Field K] [LinearOrder K] [IsStrictOrderedRing K] (factor : K) (z n : ℕ)
    (gr gr' : ℕ → K) (gu gu' : ℕ → ℕ → K) (hs : ∃ i < n - 1, gu i z ≠ 0) :
    (0 < richardson factor z n gr gu ↔ 0 < factor * gr z) ∧
    richardson factor z n gr gu * ∑ i ∈ Finset.range (n - 1), gu i z ^ 2 = factor * gr z ∧
    (gr' z = gr z → (∀ i < n - 1, gu' i z = gu i z) → richardson factor z n gr' gu' = richardson factor z n gr gu) := by
  obtain ⟨i, hi, hne⟩ := hs
  have hpos : 0 < ∑ i ∈ Finset.range (n - 1), gu i z ^ 2 :=
    Finset.sum_pos' (fun j _ => sq_nonneg _) ⟨i, Finset.mem_range.2 hi, by positivity⟩
  refine ⟨?_, ?_, ?_⟩
  · unfold richardson
    rw [div_pos_iff_of_pos_right hpos]
  · unfold richardson
    rw [div_mul_cancel₀ _ hpos.ne']
  · intro h1 h2
    unfold richardson
    rw [h1, Finset.sum_congr rfl fun j hj => by rw [h2 j (Finset.mem_range.1 hj)]]

/-! ### C94: thermodynamics -/

section Sums
variable {K : Type*} [Field K]

theorem moistSums_aux (val : String → K) (ts : List MTracer) (hm : ∀ t ∈ ts, t.isWater → t.mixingRatio) :
    ∀ a : Moist K, ts.foldlM (moistStep val) a = .ok
      ⟨a.rv + ((ts.filter fun t => t.isWater && t.phase = .gas).map fun t => val t.name).sum,
       a.rl + ((ts.filter fun t => t.isWater && t.phase = .liquid).map fun t => val t.name).sum,
       a.rt + ((ts.filter fun t => t.isWater).map fun t => val t.name).sum⟩ := by
  induction ts with
  | nil => intro a; simp [pure, Except.pure]
  | cons t ts ih =>
    intro a
    have ih := ih fun t ht => hm t (by simp [ht])
    have hmt := hm t (by simp)
    rw [List.foldlM_cons]
    rcases t with ⟨nm, w, r, ph⟩
    cases w
    · simp [moistStep, bind, Except.bind, ih]
    · obtain rfl : r = true := hmt rfl
      cases ph <;> simp [moistStep, bind, Except.bind, ih, add_assoc]

/-- The mixing ratios are sums over the tracers of water, of the gaseous ones, of the liquid ones and of all of them,
in any number and order; other chemicals do not count. -/
theorem C94_moist_sums (val : String → K) (ts : List MTracer) (hm : ∀ t ∈ ts, t.isWater → t.mixingRatio) :
    moistSums val ts = .ok
      ⟨((ts.filter fun t => t.isWater && t.phase = .gas).map fun t => val t.name).sum,
       ((ts.filter fun t => t.isWater && t.phase = .liquid).map fun t => val t.name).sum,
       ((ts.filter fun t => t.isWater).map fun t => val t.name).sum⟩ := by
  simpa [moistSums] using moistSums_aux val ts hm ⟨0, 0, 0⟩

/-- A tracer of water which is not a mixing ratio is refused, wherever it is in the list. -/
theorem C94_moist_refuses (val : String → K) (ts : List MTracer) (hm : ∃ t ∈ ts, t.isWater ∧ ¬ t.mixingRatio) :
    moistSums val ts = .error .typeError := by
  unfold moistSums
  generalize (⟨0, 0, 0⟩ : Moist K) = a
  induction ts generalizing a with
  | nil => simp at hm
  | cons t ts ih =>
    rw [List.foldlM_cons]
    rcases t with ⟨nm, w, r, ph⟩
    cases w
    · have : ∃ t ∈ ts, t.isWater ∧ ¬ t.mixingRatio := by simpa using hm
      simp [moistStep, bind, Except.bind, ih this]
    · cases r
      · simp [moistStep, bind, Except.bind]
      · have : ∃ t ∈ ts, t.isWater ∧ ¬ t.mixingRatio := by simpa using hm
        cases ph <;> simp [moistStep, bind, Except.bind, ih this]

/-- Every field that the sums read is among the required fields. -/
theorem C94_required (val val' : String → K) (ts : List MTracer) (h : ∀ n ∈ thermoRequired ts, val n = val' n) :
    moistSums val ts = moistSums val' ts := by
  unfold moistSums
  replace h : ∀ t ∈ ts, t.isWater → val t.name = val' t.name := fun t ht hw => h _ (by
    simp only [thermoRequired, List.mem_append, List.mem_map, List.mem_filter]
    exact Or.inr ⟨t, ⟨ht, hw⟩, rfl⟩)
  generalize (⟨0, 0, 0⟩ : Moist K) = a
  induction ts generalizing a with
  | nil => rfl
  | cons t ts ih =>
    rw [List.foldlM_cons, List.foldlM_cons]
    have e : moistStep val a t = moistStep val' a t := by
      unfold moistStep
      by_cases hw : t.isWater = true
      · rw [h t (by simp) hw]
      · simp [hw]
    rw [e]
    cases moistStep val' a t with
    | error e => rfl
    | ok b => simpa [bind, Except.bind] using ih (fun t ht => h t (by simp [ht])) b

example : moistSums (fun n => if n = "q" then (3 : ℚ) else if n = "c" then 2 else 1)
    [⟨"q", true, true, .gas⟩, ⟨"o3", false, false, .gas⟩, ⟨"c", true, true, .liquid⟩, ⟨"i", true, true, .solid⟩]
      = .ok ⟨3, 2, 6⟩ := by
  rw [C94_moist_sums _ _ (by decide)]
  simp
  norm_num

end Sums

section Thermo
open Real ThermoProps
variable {P : Parameters}

/-- The diagnosed fields of moist air satisfy the relations that define them: `theta = theta_d (1 + r_v R_v/R_d)`,
`T = theta_d Pi`, the equation of state `p = rho (R_d + r_v R_v) T`, and everything is positive. -/
theorem C94_relations (hP : Good P) (rho th rv : ℝ) (hr : 0 < rho) (ht : 0 < th) (hv : 0 ≤ rv) :
    tdThetaD P th rv * (1 + rv * P.Rv / P.Rd) = th ∧
    tdT P rho th rv = tdThetaD P th rv * tdExner P rho th ∧
    tdP P rho th = rho * (P.Rd + rv * P.Rv) * tdT P rho th rv ∧
    0 < tdExner P rho th ∧ 0 < tdT P rho th rv ∧ 0 < tdP P rho th := by
  have hRd := hP.Rd
  have hRv := hP.Rv
  have hpos : 0 < 1 + rv * P.Rv / P.Rd := by positivity
  have hb := base_pos hP hr ht
  have hex : 0 < tdExner P rho th := rpow_pos_of_pos hb _
  have heos : tdP P rho th = rho * (P.Rd + rv * P.Rv) * tdT P rho th rv := by
    have := C40_moist_equation_of_state hP th (exnerPressure P rho th) rv ht hex hv
    rwa [C40_density_of_exner hP rho th hr ht] at this
  have hT : 0 < tdT P rho th rv := by
    unfold tdT temperature
    exact div_pos (mul_pos ht hex) hpos
  refine ⟨?_, ?_, heos, hex, hT, ?_⟩
  · unfold tdThetaD; field_simp
  · unfold tdThetaD tdT temperature; dsimp only; ring
  · rw [heos]; positivity

example : Good defaults ∧ (0 : ℝ) < 1.2 ∧ (0 : ℝ) < 300 ∧ (0 : ℝ) ≤ 0.01 :=
  ⟨defaults_good, by norm_num, by norm_num, by norm_num⟩

/-- The relative humidity is the ratio of the vapour pressure to the saturation vapour pressure, and 1 exactly at
saturation. -/
theorem C94_relative_humidity (hP : Good P) (rho th rv : ℝ) (hv : 0 ≤ rv)
    (he : 0 < eSat P (tdT P rho th rv)) (hp : eSat P (tdT P rho th rv) < tdP P rho th) :
    tdRH P rho th rv = vapourPressure P (tdP P rho th) rv / eSat P (tdT P rho th rv) ∧
    (tdRH P rho th rv = 1 ↔ rv = rSat P (tdT P rho th rv) (tdP P rho th)) := by
  refine ⟨C42_RH_ratio hP _ _ rv he hp hv, ?_⟩
  have hs := (C42_saturation hP _ _ he hp).1
  constructor
  · intro h
    by_contra hne
    have hsp := rSat_pos hP _ _ he hp
    rcases lt_or_gt_of_ne hne with hlt | hlt
    · have := (C42_monotone hP _ _ _ _ he hp hv hlt).1
      unfold tdRH at h
      linarith
    · have := (C42_monotone hP _ _ _ _ he hp hsp.le hlt).1
      unfold tdRH at h
      linarith
  · intro h
    rw [← h] at hs
    exact hs

/-- The dewpoint expression is a fixed-point equation for `r_sat(T_d) = r_v`, which lowers a temperature at which the air
holds more than `r_v` and raises one at which it holds less; saturated air has its temperature as dewpoint, computed
after any number of iterations with any weight. -/
theorem C94_dewpoint (hP : Good P) (rho th rv : ℝ) (hr : 0 < rho) (ht : 0 < th) (hv : 0 ≤ rv) :
    (∀ Td, dewpointExpr P rho th rv Td = Td ↔ rSat P Td (tdP P rho th) = rv) ∧
    (∀ Td, dewpointExpr P rho th rv Td < Td ↔ rv < rSat P Td (tdP P rho th)) ∧
    (rSat P (tdT P rho th rv) (tdP P rho th) = rv → ∀ (gamma : ℝ) (n : ℕ) (old : ℝ),
      iterative gamma (dewpointExpr P rho th rv) (tdT P rho th rv) n old = tdT P rho th rv) := by
  have hT := (C94_relations hP rho th rv hr ht hv).2.2.2.2.1
  have h1 : ∀ Td, dewpointExpr P rho th rv Td = Td ↔ rSat P Td (tdP P rho th) = rv := by
    intro Td
    unfold dewpointExpr
    constructor
    · intro h
      have : tdT P rho th rv * (rSat P Td (tdP P rho th) - rv) = 0 := by linarith
      rcases mul_eq_zero.1 this with h0 | h0
      · exact absurd h0 hT.ne'
      · linarith
    · intro h; rw [h]; ring
  refine ⟨h1, fun Td => ?_, fun hs gamma n old => ?_⟩
  · unfold dewpointExpr
    rw [sub_lt_self_iff, mul_pos_iff_of_pos_left hT, sub_pos]
  have hfix := (h1 _).2 hs
  unfold iterative
  apply Function.iterate_fixed
  simp only [hfix, smul_eq_mul]
  ring

/-- The wet-bulb expression comes from a curve of temperatures along which water evaporates at constant internal energy,
`(c_v + c_vv r) dT/dr = -(L_v(T) - R_v T)`, and which starts at the temperature of the air; the fixed points are the
points of the curve which are saturated. -/
theorem C94_wet_bulb (hP : Good P) (rho th rv : ℝ) (hv : 0 ≤ rv) (hcv : 0 < P.cv) (hcvv : 0 < P.cvv)
    (ha : 0 < P.Rv + P.cpl - P.cpv) :
    ∃ curve : ℝ → ℝ, curve rv = tdT P rho th rv ∧
      (∀ r, 0 ≤ r → ∃ s, HasDerivAt curve s r ∧
        (P.cv + P.cvv * r) * s = -(latentHeat P (curve r) - P.Rv * curve r)) ∧
      ∀ Tw, wetBulbExpr P rho th rv Tw = curve (rSat P Tw (tdP P rho th)) := by
  set b := -P.Lv0 - (P.cpl - P.cpv) * P.T0 with hb
  set a := P.Rv + P.cpl - P.cpv with hadef
  set T := tdT P rho th rv with hTdef
  have hB : 0 < P.cvv * rv + P.cv := by positivity
  refine ⟨fun r => (-b) / a + (a * T + b) / a * ((P.cvv * r + P.cv) / (P.cvv * rv + P.cv)) ^ (a / P.cvv), ?_, ?_, ?_⟩
  · simp only [div_self hB.ne', one_rpow, mul_one]
    field_simp
    ring
  · intro r hr
    have hr' : 0 < P.cvv * r + P.cv := by positivity
    have hq : 0 < (P.cvv * r + P.cv) / (P.cvv * rv + P.cv) := div_pos hr' hB
    have h1 : HasDerivAt (fun r : ℝ => (P.cvv * r + P.cv) / (P.cvv * rv + P.cv)) (P.cvv / (P.cvv * rv + P.cv)) r := by
      have := (((hasDerivAt_id r).const_mul P.cvv).add_const P.cv).div_const (P.cvv * rv + P.cv)
      simpa using this
    have h2 := ((h1.rpow_const (p := a / P.cvv) (Or.inl hq.ne')).const_mul ((a * T + b) / a)).const_add ((-b) / a)
    refine ⟨_, h2, ?_⟩
    have hpow : ((P.cvv * r + P.cv) / (P.cvv * rv + P.cv)) ^ (a / P.cvv - 1) =
        ((P.cvv * r + P.cv) / (P.cvv * rv + P.cv)) ^ (a / P.cvv) / ((P.cvv * r + P.cv) / (P.cvv * rv + P.cv)) :=
      rpow_sub_one hq.ne' _
    rw [hpow]
    beta_reduce
    generalize ((P.cvv * r + P.cv) / (P.cvv * rv + P.cv)) ^ (a / P.cvv) = X
    unfold latentHeat
    have e1 : P.Lv0 = -b - (P.cpl - P.cpv) * P.T0 := by rw [hb]; ring
    have e2 : P.Rv = a - P.cpl + P.cpv := by rw [hadef]; ring
    rw [e1, e2]
    clear_value a b
    have := hr'.ne'
    have := hB.ne'
    have := ha.ne'
    have h3 : P.cv + P.cvv * r ≠ 0 := by positivity
    have h4 := hcvv.ne'
    rw [show (-(-b - (P.cpl - P.cpv) * P.T0 - (P.cpl - P.cpv) * ((-b) / a + (a * T + b) / a * X - P.T0) -
        (a - P.cpl + P.cpv) * ((-b) / a + (a * T + b) / a * X))) = (a * T + b) * X by field_simp; ring]
    field_simp
    ring
  · intro Tw
    rfl

/-- Saturated air has its temperature as wet-bulb temperature, after any number of iterations with any weight. -/
theorem C94_wet_bulb_saturated (hP : Good P) (rho th rv : ℝ) (hv : 0 ≤ rv) (hcv : 0 < P.cv) (hcvv : 0 < P.cvv)
    (ha : 0 < P.Rv + P.cpl - P.cpv) (hs : rSat P (tdT P rho th rv) (tdP P rho th) = rv) (gamma : ℝ) (n : ℕ) (old : ℝ) :
    iterative gamma (wetBulbExpr P rho th rv) (tdT P rho th rv) n old = tdT P rho th rv := by
  obtain ⟨curve, h0, -, h2⟩ := C94_wet_bulb hP rho th rv hv hcv hcvv ha
  have hfix : wetBulbExpr P rho th rv (tdT P rho th rv) = tdT P rho th rv := by rw [h2, hs, h0]
  unfold iterative
  apply Function.iterate_fixed
  simp only [hfix, smul_eq_mul]
  ring

example : 0 < defaults.cv ∧ 0 < defaults.cvv ∧ 0 < defaults.Rv + defaults.cpl - defaults.cpv := by
  norm_num [defaults]

/-- The energies of moist air: those of the dry air scaled by the total mass `1 + r_t`, and internal energy of liquid
water lower than that of the same mass of vapour by `L_v - R_v T`. -/
theorem C94_energies {d : ℕ} (rho th rv rl rt g z x : ℝ) (u : Fin d → ℝ) :
    tdKinetic rho rt u = (1 + rt) * kinetic u rho ∧ tdPotential rho rt g z = (1 + rt) * (rho * g * z) ∧
    (P.cvv = P.cpv - P.Rv → ∀ T, internalEnergy P rho T (rv + x) rl - internalEnergy P rho T rv (rl + x) =
      rho * x * (latentHeat P T - P.Rv * T)) ∧
    tdInternal P rho th rv rl = internalEnergy P rho (tdT P rho th rv) rv rl := by
  refine ⟨by unfold tdKinetic kinetic; ring, by unfold tdPotential; ring, fun h T => ?_, rfl⟩
  unfold internalEnergy
  dsimp only
  rw [h]
  ring

/-- The squared Brunt-Väisälä frequency is `g` times the vertical derivative of `ln theta`: along any vertical profile
of positive potential temperature with that derivative. -/
theorem C94_brunt_vaisala (g : ℝ) (profile : ℝ → ℝ) (z s : ℝ) (hpos : 0 < profile z) (hd : HasDerivAt profile s z)
    {d : ℕ} (k grad : Fin d → ℝ) (hk : dot k grad = s) :
    HasDerivAt (fun z => g * Real.log (profile z)) (bruntVaisala g (profile z) k grad) z := by
  have := (hd.log hpos.ne').const_mul g
  unfold bruntVaisala
  rw [hk]
  rw [div_mul_eq_mul_div, mul_div_assoc]
  exact this

/-- Equations with two or more active tracers are refused. -/
theorem C94_brunt_vaisala_refuses (n : Option ℕ) : bvAccepts n = false ↔ ∃ m, n = some m ∧ 2 ≤ m := by
  cases n with
  | none => simp [bvAccepts]
  | some m => simp [bvAccepts]; omega

/-- But equations with one active tracer, which are moist, are accepted although the diagnostic "is not implemented for
moist equations". -/
theorem C94_brunt_vaisala_refuted : bvAccepts (some 1) = true := rfl

end Thermo

/-! ### C94: imbalance and precipitation -/

section Forms
variable {K : Type*} [Field K] [LinearOrder K] [IsStrictOrderedRing K] {d : ℕ} {C F B : Type*}
variable [Fintype C] [Fintype F] [Fintype B]

theorem pgf_sub_left (M : Mesh K d C F B) (vert : F → Bool) (cp : K) (w : Ve K d C F B) (a b e : Sc K d C F B) :
    pgf M vert cp w (EqnDiag.Sc.sub a b) e = pgf M vert cp w a e - pgf M vert cp w b e := by
  have h1 : ∑ x, M.wC x * ((dot ((EqnDiag.Sc.sub a b).g x) (w.c x) + (EqnDiag.Sc.sub a b).c x * w.div x) * e.c x) =
      (∑ x, M.wC x * ((dot (a.g x) (w.c x) + a.c x * w.div x) * e.c x)) -
        ∑ x, M.wC x * ((dot (b.g x) (w.c x) + b.c x * w.div x) * e.c x) := by
    rw [← Finset.sum_sub_distrib]
    refine Finset.sum_congr rfl fun x _ => ?_
    have : dot ((EqnDiag.Sc.sub a b).g x) (w.c x) = dot (a.g x) (w.c x) - dot (b.g x) (w.c x) := by
      simp only [dot, EqnDiag.Sc.sub, ← Finset.sum_sub_distrib, sub_mul]
    rw [this]
    simp only [EqnDiag.Sc.sub]
    ring
  have h2 : (∑ x, if vert x then M.wF x * (((EqnDiag.Sc.sub a b).p x * dot (w.p x) (M.nP x) +
        (EqnDiag.Sc.sub a b).m x * dot (w.m x) (M.nM x)) * (1 / 2 * (e.p x + e.m x))) else 0) =
      (∑ x, if vert x then M.wF x * ((a.p x * dot (w.p x) (M.nP x) + a.m x * dot (w.m x) (M.nM x)) *
        (1 / 2 * (e.p x + e.m x))) else 0) -
      ∑ x, if vert x then M.wF x * ((b.p x * dot (w.p x) (M.nP x) + b.m x * dot (w.m x) (M.nM x)) *
        (1 / 2 * (e.p x + e.m x))) else 0 := by
    rw [← Finset.sum_sub_distrib]
    refine Finset.sum_congr rfl fun x _ => ?_
    simp only [EqnDiag.Sc.sub]
    split_ifs <;> ring
  unfold pgf
  rw [h1, h2]
  ring

theorem pgf_sub_right (M : Mesh K d C F B) (vert : F → Bool) (cp : K) (w : Ve K d C F B) (t a b : Sc K d C F B) :
    pgf M vert cp w t (EqnDiag.Sc.sub a b) = pgf M vert cp w t a - pgf M vert cp w t b := by
  unfold pgf
  have h1 : ∑ x, M.wC x * ((dot (t.g x) (w.c x) + t.c x * w.div x) * (EqnDiag.Sc.sub a b).c x) =
      (∑ x, M.wC x * ((dot (t.g x) (w.c x) + t.c x * w.div x) * a.c x)) -
        ∑ x, M.wC x * ((dot (t.g x) (w.c x) + t.c x * w.div x) * b.c x) := by
    rw [← Finset.sum_sub_distrib]
    exact Finset.sum_congr rfl fun x _ => by simp only [EqnDiag.Sc.sub]; ring
  have h2 : (∑ x, if vert x then M.wF x * ((t.p x * dot (w.p x) (M.nP x) + t.m x * dot (w.m x) (M.nM x)) *
        (1 / 2 * ((EqnDiag.Sc.sub a b).p x + (EqnDiag.Sc.sub a b).m x))) else 0) =
      (∑ x, if vert x then M.wF x * ((t.p x * dot (w.p x) (M.nP x) + t.m x * dot (w.m x) (M.nM x)) *
        (1 / 2 * (a.p x + a.m x))) else 0) -
      ∑ x, if vert x then M.wF x * ((t.p x * dot (w.p x) (M.nP x) + t.m x * dot (w.m x) (M.nM x)) *
        (1 / 2 * (b.p x + b.m x))) else 0 := by
    rw [← Finset.sum_sub_distrib]
    refine Finset.sum_congr rfl fun x _ => ?_
    simp only [EqnDiag.Sc.sub]
    split_ifs <;> ring
  rw [h1, h2]
  ring

/-- The imbalance, for every test function: if the reference state is balanced with the force `G`, the diagnostic is the
residual of the full nonlinear balance minus the product of the two perturbations; in particular it vanishes at the
reference state. -/
theorem C94_imbalance (M : Mesh K d C F B) (vert : F → Bool) (cp : K) (w : Ve K d C F B)
    (th thb ex exb : Sc K d C F B) (G : K) (hbal : pgf M vert cp w thb exb = G) :
    imbalanceRHS M vert cp w th thb ex exb =
      (pgf M vert cp w th ex - G) - pgf M vert cp w (EqnDiag.Sc.sub th thb) (EqnDiag.Sc.sub ex exb) ∧
    imbalanceRHS M vert cp w thb thb exb exb = 0 := by
  constructor
  · unfold imbalanceRHS
    rw [pgf_sub_left, pgf_sub_right, pgf_sub_left, pgf_sub_right, pgf_sub_right, hbal]
    ring
  · unfold imbalanceRHS
    rw [pgf_sub_left, pgf_sub_right]
    ring

variable {I : Type*} [DecidableEq I]

/-- The bottom area of the cell `i`. -/
def bottomArea (M : Mesh K d C F B) (E : Cells C F B I) (bottom : B → Bool) (i : I) : K :=
  ∑ x, if bottom x ∧ E.cB x = i then M.wB x else 0
/-- The integral of `rate` over the bottom of the cell `i`. -/
def bottomFlux (M : Mesh K d C F B) (E : Cells C F B I) (bottom : B → Bool) (rate : B → K) (i : I) : K :=
  ∑ x, if bottom x ∧ E.cB x = i then M.wB x * rate x else 0

theorem precipArea_eq (M : Mesh K d C F B) (E : Cells C F B I) (bottom : B → Bool) (i : I) :
    precipArea M E bottom i = bottomArea M E bottom i / vol M E i := by
  unfold precipArea bottomArea
  congr 1
  refine Finset.sum_congr rfl fun x _ => ?_
  by_cases h1 : bottom x = true <;> by_cases h2 : E.cB x = i <;> simp [h1, h2]

/-- The increment of the precipitation: in a bottom cell exactly the mass which leaves through the bottom in a time step
per unit area, in all other cells nothing; so weighted with the areas it sums up to the whole mass which leaves. -/
theorem C94_precipitation_flux (M : Mesh K d C F B) (E : Cells C F B I) (bottom : B → Bool) (dt : K) (rate : B → K)
    (i : I) (hvol : vol M E i ≠ 0) :
    ((∃ x, bottom x ∧ E.cB x = i) → bottomArea M E bottom i ≠ 0 →
      precipFlux M E bottom dt rate i = dt * bottomFlux M E bottom rate i / bottomArea M E bottom i) ∧
    ((¬ ∃ x, bottom x ∧ E.cB x = i) → precipFlux M E bottom dt rate i = 0) := by
  have key : (∑ x, if bottom x then M.wB x * (dt * (if E.cB x = i then 1 else 0) *
      (rate x / precipArea M E bottom (E.cB x))) else 0) =
      dt * bottomFlux M E bottom rate i / precipArea M E bottom i := by
    unfold bottomFlux
    rw [mul_div_assoc, Finset.sum_div, Finset.mul_sum]
    refine Finset.sum_congr rfl fun x _ => ?_
    by_cases h1 : bottom x = true <;> by_cases h2 : E.cB x = i <;> simp [h1, h2]
    ring
  constructor
  · intro _ hA
    unfold precipFlux
    rw [key, precipArea_eq]
    field_simp
  · intro hno
    have h0 : bottomFlux M E bottom rate i = 0 := by
      unfold bottomFlux
      refine Finset.sum_eq_zero fun x _ => ?_
      rw [if_neg]
      exact fun h => hno ⟨x, h⟩
    unfold precipFlux
    rw [key, h0]
    simp

/-- Over all cells the increments weighted with the areas sum up to the mass which leaves through the bottom. -/
theorem C94_precipitation_total [Fintype I] (M : Mesh K d C F B) (E : Cells C F B I) (bottom : B → Bool) (dt : K)
    (rate : B → K) (hvol : ∀ i, vol M E i ≠ 0) (hw : ∀ x, 0 < M.wB x) :
    ∑ i, precipFlux M E bottom dt rate i * bottomArea M E bottom i =
      dt * ∑ x, if bottom x then M.wB x * rate x else 0 := by
  have h : ∀ i, precipFlux M E bottom dt rate i * bottomArea M E bottom i = dt * bottomFlux M E bottom rate i := by
    intro i
    obtain ⟨h1, h2⟩ := C94_precipitation_flux M E bottom dt rate i (hvol i)
    by_cases hex : ∃ x, bottom x ∧ E.cB x = i
    · have hA : 0 < bottomArea M E bottom i := by
        obtain ⟨x, hx⟩ := hex
        refine Finset.sum_pos' (fun y _ => ?_) ⟨x, Finset.mem_univ _, ?_⟩
        · split_ifs
          · exact (hw y).le
          · exact le_refl _
        · rw [if_pos hx]; exact hw x
      rw [h1 hex hA.ne', div_mul_cancel₀ _ hA.ne']
    · have h0 : bottomFlux M E bottom rate i = 0 := by
        unfold bottomFlux
        refine Finset.sum_eq_zero fun x _ => ?_
        rw [if_neg]
        exact fun h => hex ⟨x, h⟩
      rw [h2 hex, h0]; simp
  rw [Finset.sum_congr rfl fun i _ => h i, ← Finset.mul_sum]
  congr 1
  unfold bottomFlux
  rw [Finset.sum_comm]
  refine Finset.sum_congr rfl fun x _ => ?_
  by_cases h1 : bottom x = true
  · simp [h1]
  · simp [h1]

/-- Falling rain gives a positive rate. -/
theorem C94_precipitation_sign (k : Fin d → K) (rain rho : B → K) (v : B → Fin d → K) (x : B) (hr : 0 < rain x)
    (hrho : 0 < rho x) : 0 < precipRate k rain rho v x ↔ dot (v x) k < 0 := by
  have : dot (fun i => -v x i) k = -dot (v x) k := by simp [dot, Finset.sum_neg_distrib]
  unfold precipRate
  rw [this]
  constructor
  · intro h
    by_contra hc
    have : rain x * -dot (v x) k * rho x ≤ 0 :=
      mul_nonpos_of_nonpos_of_nonneg (mul_nonpos_of_nonneg_of_nonpos hr.le (by linarith)) hrho.le
    linarith
  · intro h
    exact mul_pos (mul_pos hr (by linarith)) hrho

end Forms

section Run
variable {V : Type*} [AddCommGroup V]

/-- Over a run the diagnostic is the sum of the increments of all states, and a run which is interrupted after any step
and picked up ends with the same field. -/
theorem C94_precipitation_run (flux : ℕ → V) (m n : ℕ) :
    precipRun flux n = ∑ j ∈ Finset.range (n + 1), flux j ∧
    precipPickUp flux m (precipRun flux m) n = precipRun flux (m + n) := by
  constructor
  · induction n with
    | zero => simp [precipRun]
    | succ n ih => rw [precipRun, ih, ← Finset.sum_range_succ]
  · induction n with
    | zero => rfl
    | succ n ih => rw [precipPickUp, ih, ← add_assoc, precipRun]

/-- But the sum has one term too many: the initial dump adds a whole time step of rain before any time has passed.  With a
constant flux `F` per step, `n + 1` steps of rain are recorded after `n` steps. -/
theorem C94_precipitation_refuted (F : ℚ) (hF : F ≠ 0) (n : ℕ) :
    precipRun (fun _ => F) n = (n + 1) * F ∧ precipRun (fun _ => F) n ≠ n * F := by
  have h := (C94_precipitation_run (fun _ : ℕ => F) 0 n).1
  have h1 : precipRun (fun _ => F) n = (n + 1) * F := by
    rw [h]; simp
  refine ⟨h1, fun h2 => hF ?_⟩
  rw [h1] at h2
  linarith

end Run

end Gusto.Props.EqnDiagProps
