import Verif.Model.Solvers
import Verif.Props.Recovery

set_option autoImplicit false
set_option linter.unusedSectionVars false
set_option linter.unusedSimpArgs false

/-!
# C99: vertical hybridisation
-/

namespace Gusto.Props.HybridProps
open Gusto.Solvers

/-! ### The algebra of hybridisation -/

section Algebra
variable {K U P T U' : Type*} [Field K] [AddCommGroup U] [AddCommGroup P] [AddCommGroup T] [AddCommGroup U']
  [Module K U] [Module K P] [Module K T] [Module K U']

/-- The reconstruction solves the broken system with the multipliers on the right-hand side. -/
theorem C99_reconstruct (H : Hybrid K U P T) (L : LocalInv K U P) (hA : ∀ r, H.A.a00 (L.invA r) = r)
    (hM : ∀ r, slateSchur H.A L.invA (L.invM r) = r) (g : U) (f : P) (lam : T) :
    H.A.apply (reconstruct H L g f lam) = (g - H.kT lam, f) := by
  unfold Block.apply reconstruct
  simp only
  refine Prod.ext ?_ ?_
  · simp only; rw [hA]; abel
  · simp only
    set u := L.invM (f - H.A.a10 (L.invA g) - -(H.A.a10 (L.invA (H.kT lam)))) with hu
    have h := hM (f - H.A.a10 (L.invA g) - -(H.A.a10 (L.invA (H.kT lam))))
    rw [← hu] at h
    unfold slateSchur at h
    simp only [LinearMap.sub_apply, LinearMap.comp_apply] at h
    have h' : H.A.a11 u = f - H.A.a10 (L.invA g) - -(H.A.a10 (L.invA (H.kT lam))) + H.A.a10 (L.invA (H.A.a01 u)) := by
      rw [← h]; abel
    rw [h']
    simp only [map_sub]
    abel

/-- C99: one application of the preconditioner solves the original system, in the spaces with continuous normal component,
for every right-hand side.  `inj` embeds the velocities into the broken ones, `injT` is its transpose; a broken velocity
without jumps is a velocity, a jump term vanishes on velocities; the cell-wise inverses and the solver of the trace system
are exact; the broken residual represents the residual and the averages reproduce velocities (see `C99_break` and
`C99_unbreak`). -/
theorem C99_solves {G : Type*} [AddCommGroup G] [Module K G] (H : Hybrid K U P T) (L : LocalInv K U P)
    (inv : U × P →ₗ[K] U × P) (inj : U' → U) (injT : U →ₗ[K] G) (brk : G → U) (rec : U → U') (solve : T → T)
    (hA : ∀ r, H.A.a00 (L.invA r) = r) (hM : ∀ r, slateSchur H.A L.invA (L.invM r) = r)
    (hinv : ∀ x, inv (H.A.apply x) = x) (hker : ∀ s, H.k s = 0 → ∃ u, inj u = s) (hT : ∀ l, injT (H.kT l) = 0)
    (hbrk : ∀ r, injT (brk r) = r) (hrec : ∀ u, rec (inj u) = u) (r : G × P)
    (hsolve : ∀ t, t = H.k (inv (brk r.1, r.2)).1 → H.k (inv (H.kT (solve t), 0)).1 = t) :
    let z := hybridApply H L inv brk rec solve r
    (injT (H.A.a00 (inj z.1) + H.A.a01 z.2), H.A.a10 (inj z.1) + H.A.a11 z.2) = r := by
  intro z
  set lam := solve (H.k (inv (brk r.1, r.2)).1) with hlam
  have hs := C99_reconstruct H L hA hM (brk r.1) r.2 lam
  set x := reconstruct H L (brk r.1) r.2 lam with hx
  have hz : z = (rec x.1, x.2) := rfl
  have hxi : x = inv (brk r.1, r.2) - inv (H.kT lam, 0) := by
    rw [← hinv x, hs, ← map_sub]; simp
  have hk : H.k x.1 = 0 := by
    have e := hsolve _ rfl
    rw [← hlam] at e
    rw [hxi, Prod.fst_sub, map_sub, e, sub_self]
  obtain ⟨u, hu⟩ := hker _ hk
  have hru : inj (rec x.1) = x.1 := by rw [← hu, hrec]
  rw [hz]
  simp only [hru]
  have e1 : H.A.a00 x.1 + H.A.a01 x.2 = brk r.1 - H.kT lam := congrArg Prod.fst hs
  have e2 : H.A.a10 x.1 + H.A.a11 x.2 = r.2 := congrArg Prod.snd hs
  rw [e1, e2, map_sub, hbrk, hT, sub_zero]

/-- C99, uniqueness: if the original system has one solution, what the preconditioner returns is that solution. -/
theorem C99_inverse {G : Type*} [AddCommGroup G] [Module K G] (H : Hybrid K U P T) (L : LocalInv K U P)
    (inv : U × P →ₗ[K] U × P) (inj : U' → U) (injT : U →ₗ[K] G) (brk : G → U) (rec : U → U') (solve : T → T)
    (hA : ∀ r, H.A.a00 (L.invA r) = r) (hM : ∀ r, slateSchur H.A L.invA (L.invM r) = r)
    (hinv : ∀ x, inv (H.A.apply x) = x) (hker : ∀ s, H.k s = 0 → ∃ u, inj u = s) (hT : ∀ l, injT (H.kT l) = 0)
    (hbrk : ∀ r, injT (brk r) = r) (hrec : ∀ u, rec (inj u) = u)
    (hsolve : ∀ t, H.k (inv (H.kT (solve t), 0)).1 = t)
    (huniq : Function.Injective fun z : U' × P =>
      (injT (H.A.a00 (inj z.1) + H.A.a01 z.2), H.A.a10 (inj z.1) + H.A.a11 z.2)) (z : U' × P) :
    hybridApply H L inv brk rec solve
      (injT (H.A.a00 (inj z.1) + H.A.a01 z.2), H.A.a10 (inj z.1) + H.A.a11 z.2) = z :=
  huniq (C99_solves H L inv inj injT brk rec solve hA hM hinv hker hT hbrk hrec _ fun t _ => hsolve t)
end Algebra

/-! ### Breaking and averaging -/

section Break
open Gusto.Recovery Gusto.Spec.Recovery Gusto.Props.RecoveryProps
variable {K ι : Type*} [Field K] [LinearOrder K] [IsStrictOrderedRing K] [DecidableEq ι] {m n : ℕ}

/-- A continuous function as a broken one. -/
def inject (node : Fin m → ℕ → ι) (u : ι → K) : Fin m → Fin n → K := fun c i => u (node c i)

/-- A functional on the broken space, restricted to the continuous functions: the basis function of `x` is the sum of the
broken ones. -/
def restrict (node : Fin m → ℕ → ι) (r : Fin m → Fin n → K) (x : ι) : K :=
  ∑ c, ∑ i : Fin n, if node c i = x then r c i else 0

/-- Every degree of freedom belongs to a cell. -/
def Covered (n : ℕ) (node : Fin m → ℕ → ι) : Prop := ∀ x, ∃ c : Fin m, ∃ i : Fin n, node c i = x

theorem coinciding_sum (node : Fin m → ℕ → ι) (v : Fin m → Fin n → K) (x : ι) :
    (coinciding n (List.ofFn fun c => (node c, cellValues (v c))) x).sum = restrict node v x := by
  have hcell : ∀ c, (((List.range n).filter fun i => node c i = x).map (cellValues (v c))).sum =
      ∑ i : Fin n, if node c i = x then v c i else 0 := by
    intro c
    have e1 : ∀ l : List ℕ, ((l.filter fun i => node c i = x).map (cellValues (v c))).sum =
        (l.map fun i => if node c i = x then cellValues (v c) i else 0).sum := by
      intro l
      induction l with
      | nil => rfl
      | cons a l ih => by_cases h : node c a = x <;> simp [h, ih]
    have e2 : List.range n = List.ofFn fun i : Fin n => (i : ℕ) := by
      apply List.ext_getElem <;> simp
    rw [e1, e2, List.map_ofFn, List.sum_ofFn]
    refine Finset.sum_congr rfl fun i _ => ?_
    simp [cellValues]
  have hflat : ∀ (l : List ((ℕ → ι) × (ℕ → K))) (f : (ℕ → ι) × (ℕ → K) → List K),
      (l.flatMap f).sum = (l.map fun c => (f c).sum).sum := by
    intro l f
    induction l with
    | nil => rfl
    | cons a l ih => simp [List.flatMap_cons, ih]
  unfold coinciding restrict
  rw [hflat, List.map_ofFn, List.sum_ofFn]
  exact Finset.sum_congr rfl fun c _ => hcell c

theorem weighting_count (node : Fin m → ℕ → ι) (x : ι) :
    (weighting n (List.ofFn node) x : K) = restrict node (fun (_ : Fin m) (_ : Fin n) => (1 : K)) x := by
  have e : List.ofFn node = (List.ofFn fun c => (node c, cellValues (n := n) fun _ => (1 : K))).map Prod.fst := by
    rw [List.map_ofFn]; rfl
  rw [e, weighting_apply, ← coinciding_sum]
  symm
  have hall : ∀ a ∈ coinciding n (List.ofFn fun c => (node c, cellValues (n := n) fun _ => (1 : K))) x, a = 1 := by
    intro a ha
    unfold coinciding at ha
    simp only [List.mem_flatMap, List.mem_map, List.mem_filter, List.mem_range, List.mem_ofFn] at ha
    obtain ⟨_, ⟨c, rfl⟩, i, ⟨hi, _⟩, rfl⟩ := ha
    simp [cellValues, hi]
  rw [List.sum_eq_card_nsmul _ _ hall]
  simp

theorem count_pos (node : Fin m → ℕ → ι) (h : Covered n node) (x : ι) :
    (0 : K) < restrict node (fun (_ : Fin m) (_ : Fin n) => (1 : K)) x := by
  obtain ⟨c, i, hc⟩ := h x
  unfold restrict
  have h1 : ∀ c' : Fin m, (0 : K) ≤ ∑ i : Fin n, if node c' i = x then (1 : K) else 0 :=
    fun c' => Finset.sum_nonneg fun i _ => by split_ifs <;> norm_num
  refine Finset.sum_pos' (fun c' _ => h1 c') ⟨c, Finset.mem_univ _, ?_⟩
  exact Finset.sum_pos' (fun i _ => by split_ifs <;> norm_num) ⟨i, Finset.mem_univ _, by simp [hc]⟩

/-- C99: the broken residual agrees with the residual on every continuous test function: for every mesh, space and
residual. -/
theorem C99_break (node : Fin m → ℕ → ι) (h : Covered n node) (R : ι → K) :
    restrict node (breakResidual (n := n) node R) = R := by
  funext x
  have e : restrict node (breakResidual (n := n) node R) x =
      R x / weighting n (List.ofFn node) x * restrict node (fun (_ : Fin m) (_ : Fin n) => (1 : K)) x := by
    unfold restrict breakResidual
    rw [Finset.mul_sum]
    refine Finset.sum_congr rfl fun c _ => ?_
    rw [Finset.mul_sum]
    refine Finset.sum_congr rfl fun i _ => ?_
    split_ifs with hx
    · rw [hx]; ring
    · ring
  rw [e, weighting_count, div_mul_cancel₀ _ (count_pos node h x).ne']

/-- C99: the average of a broken function that is continuous is that function. -/
theorem C99_unbreak (node : Fin m → ℕ → ι) (h : Covered n node) (u : ι → K) :
    unbreak (n := n) node (inject node u) = u := by
  funext x
  unfold unbreak
  rw [averageLoop_apply, coinciding_sum, weighting_count, zero_add]
  have e : restrict node (inject (n := n) node u) x =
      u x * restrict node (fun (_ : Fin m) (_ : Fin n) => (1 : K)) x := by
    unfold restrict inject
    rw [Finset.mul_sum]
    refine Finset.sum_congr rfl fun c _ => ?_
    rw [Finset.mul_sum]
    refine Finset.sum_congr rfl fun i _ => ?_
    split_ifs with hx
    · rw [hx]; ring
    · ring
  rw [e, mul_div_cancel_right₀ _ (count_pos node h x).ne']

/-- `restrict` is the transpose of `inject`. -/
theorem C99_transpose [Fintype ι] (node : Fin m → ℕ → ι) (r : Fin m → Fin n → K) (u : ι → K) :
    ∑ x, restrict node r x * u x = ∑ c, ∑ i, r c i * inject node u c i := by
  unfold restrict inject
  simp_rw [Finset.sum_mul]
  rw [Finset.sum_comm]
  refine Finset.sum_congr rfl fun c _ => ?_
  rw [Finset.sum_comm]
  refine Finset.sum_congr rfl fun i _ => ?_
  simp [ite_mul]


/-- `restrict` as a linear map. -/
def restrictL (node : Fin m → ℕ → ι) : (Fin m → Fin n → K) →ₗ[K] (ι → K) where
  toFun := restrict node
  map_add' a b := by
    funext x
    simp only [restrict, Pi.add_apply, ← Finset.sum_add_distrib]
    exact Finset.sum_congr rfl fun c _ => Finset.sum_congr rfl fun i _ => by split_ifs <;> simp
  map_smul' k a := by
    funext x
    simp only [restrict, Pi.smul_apply, smul_eq_mul, RingHom.id_apply, Finset.mul_sum]
    exact Finset.sum_congr rfl fun c _ => Finset.sum_congr rfl fun i _ => by split_ifs <;> simp

/-- C99, with the breaking and the averaging of the code: for every mesh, cell-node map, mixed operator that is assembled
cell by cell, trace form and right-hand side, one application of the preconditioner solves the system in the continuous
space. -/
theorem C99_hybridization {P T : Type*} [AddCommGroup P] [Module K P] [AddCommGroup T] [Module K T]
    (node : Fin m → ℕ → ι) (hcov : Covered n node) (H : Hybrid K (Fin m → Fin n → K) P T)
    (L : LocalInv K (Fin m → Fin n → K) P) (inv : (Fin m → Fin n → K) × P →ₗ[K] (Fin m → Fin n → K) × P) (solve : T → T)
    (hA : ∀ r, H.A.a00 (L.invA r) = r) (hM : ∀ r, slateSchur H.A L.invA (L.invM r) = r)
    (hinv : ∀ x, inv (H.A.apply x) = x) (hker : ∀ s, H.k s = 0 → ∃ u : ι → K, inject node u = s)
    (hT : ∀ l, restrict node (H.kT l) = 0) (hsolve : ∀ t, H.k (inv (H.kT (solve t), 0)).1 = t) (r : (ι → K) × P) :
    let z := hybridApply H L inv (breakResidual node) (unbreak node) solve r
    (restrict node (H.A.a00 (inject node z.1) + H.A.a01 z.2), H.A.a10 (inject node z.1) + H.A.a11 z.2) = r :=
  C99_solves H L inv (inject node) (restrictL node) (breakResidual node) (unbreak node) solve hA hM hinv hker hT
    (C99_break node hcov) (C99_unbreak node hcov) r fun t _ => hsolve t

end Break

/-! ### A concrete system: two cells with one shared degree of freedom -/

section Concrete
open Gusto.Recovery Gusto.Spec.Recovery

/-- Three degrees of freedom on two cells of two. -/
def node2 (c : Fin 2) (i : ℕ) : Fin 3 := if c = 0 then (if i = 0 then 0 else 1) else (if i = 0 then 1 else 2)

/-- The jump at the shared degree of freedom. -/
def jump2 : (Fin 2 → Fin 2 → ℚ) →ₗ[ℚ] ℚ where
  toFun v := v 0 1 - v 1 0
  map_add' a b := by simp; ring
  map_smul' k a := by simp; ring

/-- Its transpose. -/
def jump2T : ℚ →ₗ[ℚ] (Fin 2 → Fin 2 → ℚ) where
  toFun l c i := if c = 0 ∧ i = 1 then l else if c = 1 ∧ i = 0 then -l else 0
  map_add' a b := by funext c i; simp only [Pi.add_apply]; split_ifs <;> ring
  map_smul' k a := by funext c i; simp only [Pi.smul_apply, smul_eq_mul, RingHom.id_apply]; split_ifs <;> ring

/-- Mass matrices `2` and `3`, no coupling. -/
def hyb2 : Hybrid ℚ (Fin 2 → Fin 2 → ℚ) ℚ ℚ :=
  ⟨⟨(2 : ℚ) • LinearMap.id, 0, 0, (3 : ℚ) • LinearMap.id⟩, jump2, jump2T⟩

/-- Its inverse. -/
def inv2 : (Fin 2 → Fin 2 → ℚ) × ℚ →ₗ[ℚ] (Fin 2 → Fin 2 → ℚ) × ℚ :=
  LinearMap.prodMap ((1 / 2 : ℚ) • LinearMap.id) ((1 / 3 : ℚ) • LinearMap.id)

/-- The hypotheses of `C99_hybridization` are met. -/
example : Covered 2 node2 ∧
    (∀ r, hyb2.A.a00 (((1 / 2 : ℚ) • LinearMap.id : (Fin 2 → Fin 2 → ℚ) →ₗ[ℚ] _) r) = r) ∧
    (∀ r, slateSchur hyb2.A ((1 / 2 : ℚ) • LinearMap.id) (((1 / 3 : ℚ) • LinearMap.id : ℚ →ₗ[ℚ] ℚ) r) = r) ∧
    (∀ x, inv2 (hyb2.A.apply x) = x) ∧
    (∀ s, hyb2.k s = 0 → ∃ u : Fin 3 → ℚ, inject node2 u = s) ∧ (∀ l, restrict node2 (hyb2.kT l) = 0) ∧
    (∀ t, hyb2.k (inv2 (hyb2.kT (id t), (0 : ℚ))).1 = t) := by
  refine ⟨fun x => ?_, fun r => ?_, fun r => ?_, fun x => ?_, fun s hs => ?_, fun l => ?_, fun t => ?_⟩
  · fin_cases x
    · exact ⟨0, 0, rfl⟩
    · exact ⟨0, 1, rfl⟩
    · exact ⟨1, 1, rfl⟩
  · simp [hyb2, smul_smul]
  · simp [hyb2, slateSchur]
  · refine Prod.ext ?_ ?_ <;> simp [inv2, hyb2, Block.apply, smul_smul]
  · refine ⟨![s 0 0, s 0 1, s 1 1], ?_⟩
    have h : s 0 1 = s 1 0 := by
      have : s 0 1 - s 1 0 = 0 := hs
      linarith
    funext c i
    fin_cases c <;> fin_cases i <;> simp [inject, node2, h]
  · funext x
    fin_cases x <;> simp [restrict, hyb2, jump2T, node2, Fin.sum_univ_two]
  · simp [inv2, hyb2, jump2, jump2T]
    ring
end Concrete

/-! ### Boundary parts of the trace system -/

/-- C99, boundaries: the top and the bottom are each either a part of the trace system (where the velocity has a
condition) or have a Dirichlet condition for the trace, if the velocity has no condition at all or one at the top or the
bottom. -/
theorem C99_trace_parts (bcs : Option (List String)) (markers : List String) (hm : ∀ s ∈ markers, s ≠ "top" ∧ s ≠ "bottom")
    (s : String) (hs : s = "top" ∨ s = "bottom") :
    (s ∈ (traceParts bcs markers).1 ↔ ∃ b, bcs = some b ∧ s ∈ b) ∧
    (s ∈ (traceParts bcs markers).2 ↔ bcs = none ∨ ∃ b, bcs = some b ∧ s ∉ b ∧ ("top" ∈ b ∨ "bottom" ∈ b)) := by
  cases bcs with
  | none => rcases hs with rfl | rfl <;> simp [traceParts]
  | some b =>
    have h1 : ("top" ∈ markers) = False := by simp; intro h; exact (hm _ h).1 rfl
    have h2 : ("bottom" ∈ markers) = False := by simp; intro h; exact (hm _ h).2 rfl
    rcases hs with rfl | rfl <;> by_cases ht : "top" ∈ b <;> by_cases hb : "bottom" ∈ b <;>
      simp [traceParts, ht, hb, h1, h2, List.filter_cons]

/-- C99, refuted: a velocity condition on a lateral boundary only leaves the top and the bottom in neither part, so that
the trace unknowns there have zero rows. -/
theorem C99_lateral_only_refuted (b markers : List String) (hm : ∀ s ∈ markers, s ≠ "top" ∧ s ≠ "bottom")
    (ht : "top" ∉ b) (hb : "bottom" ∉ b) :
    "top" ∉ (traceParts (some b) markers).1 ∧ "top" ∉ (traceParts (some b) markers).2 ∧
    "bottom" ∉ (traceParts (some b) markers).1 ∧ "bottom" ∉ (traceParts (some b) markers).2 := by
  have e1 := C99_trace_parts (some b) markers hm "top" (Or.inl rfl)
  have e2 := C99_trace_parts (some b) markers hm "bottom" (Or.inr rfl)
  refine ⟨?_, ?_, ?_, ?_⟩
  · rw [e1.1]; simp [ht]
  · rw [e1.2]; simp [ht, hb]
  · rw [e2.1]; simp [hb]
  · rw [e2.2]; simp [ht, hb]

example : traceParts (some ["1"]) ["1", "2"] = (["1"], ["2"]) ∧
    traceParts (some ["bottom"]) ["1"] = (["bottom"], ["top", "1"]) := by decide

end Gusto.Props.HybridProps
