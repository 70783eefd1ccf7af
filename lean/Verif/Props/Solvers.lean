import Verif.Model.Solvers
import Verif.Props.Boussinesq

set_option autoImplicit false
set_option linter.unusedSectionVars false
set_option linter.unusedSimpArgs false

/-!
# C98: solver presets, field splits and Schur complements
-/

namespace Gusto.Props.SolversProps
open Gusto.Solvers

/-! ### Presets -/

/-- Every field index below `n` is in exactly one block of every split, and Firedrake's `HybridizationPC`, which the
auxiliary operator is handed to as well, gets the two fields it requires. -/
def Covers : Pc → ℕ → Prop
  | .schur f0 f1 p0 p1, n => (f0 ++ f1).Perm (List.range n) ∧ Covers p0 f0.length ∧ Covers p1 f1.length
  | .additive f0 f1 p0 p1, n => (f0 ++ f1).Perm (List.range n) ∧ Covers p0 f0.length ∧ Covers p1 f1.length
  | .hybridization, n => n = 2
  | .auxiliary, n => n = 2
  | _, _ => True

/-- The prognostics of the sets without their active tracers. -/
def base : Kind → List String
  | .compressible => ["u", "rho", "theta"]
  | .boussinesq => ["u", "p", "b"]
  | .thermal => ["u", "D", "b"]
  | .shallowWater => ["u", "D"]
  | .shallowWater1d => ["u", "v", "D"]
  | .other => []

/-- C98, tracers: the fields that the preset leaves alone are exactly those that are not solver prognostics. -/
theorem C98_tracers (names progs : List String) (i : ℕ) :
    i ∈ tracers names progs ↔ ∃ h : i < names.length, names[i] ∉ progs := by
  unfold tracers
  simp only [List.mem_filter, List.mem_range]
  constructor
  · rintro ⟨h1, h2⟩
    refine ⟨h1, ?_⟩
    simpa [List.getD_eq_getElem?_getD, List.getElem?_eq_getElem h1] using h2
  · rintro ⟨h1, h2⟩
    refine ⟨h1, ?_⟩
    simpa [List.getD_eq_getElem?_getD, List.getElem?_eq_getElem h1] using h2

theorem filter_ge (k n : ℕ) : (List.range (k + n)).filter (fun i => decide (k ≤ i)) = (List.range n).map (k + ·) := by
  rw [List.range_add, List.filter_append]
  have h1 : (List.range k).filter (fun i => decide (k ≤ i)) = [] := by
    rw [List.filter_eq_nil_iff]; intro a ha; simp at ha ⊢; omega
  have h2 : ((List.range n).map (k + ·)).filter (fun i => decide (k ≤ i)) = (List.range n).map (k + ·) := by
    rw [List.filter_eq_self]; intro a ha; simp at ha ⊢; obtain ⟨b, _, rfl⟩ := ha; omega
  rw [h1, h2, List.nil_append]

/-- For prognostics followed by tracers, the tracers are the last indices. -/
theorem tracers_append (b tr : List String) (h : (b ++ tr).Nodup) :
    tracers (b ++ tr) b = (List.range tr.length).map (b.length + ·) := by
  unfold tracers
  rw [List.length_append, ← filter_ge]
  refine List.filter_congr fun i hi => ?_
  simp only [List.mem_range] at hi
  have hi' : i < (b ++ tr).length := by simpa using hi
  have e : (b ++ tr).getD i "" = (b ++ tr)[i] := by simp [List.getD_eq_getElem?_getD, List.getElem?_eq_getElem hi']
  rw [e]
  by_cases hlt : i < b.length
  · have : (b ++ tr)[i] ∈ b := by rw [List.getElem_append_left hlt]; exact List.getElem_mem _
    simp [this, hlt]
  · have hmem : (b ++ tr)[i] ∈ tr := by
      rw [List.getElem_append_right (by omega)]; exact List.getElem_mem _
    have : (b ++ tr)[i] ∉ b := fun hb => (List.disjoint_of_nodup_append h) hb hmem
    simp only [this, decide_false, Bool.not_false]
    symm
    simpa using hlt

/-- The default solver prognostics are the fields that are not active tracers. -/
theorem C98_default_prognostics (b tr : List String) (h : (b ++ tr).Nodup) :
    solverPrognostics (b ++ tr) (some tr) none = .ok b ∧ solverPrognostics b none none = .ok b := by
  refine ⟨?_, rfl⟩
  unfold solverPrognostics
  simp only
  congr 1
  rw [List.filter_append]
  have h1 : b.filter (fun x => decide (x ∉ tr)) = b := by
    rw [List.filter_eq_self]; intro a ha
    simpa using fun hb => (List.disjoint_of_nodup_append h) ha hb
  have h2 : tr.filter (fun x => decide (x ∉ tr)) = [] := by
    rw [List.filter_eq_nil_iff]; intro a ha; simpa using ha
  rw [h1, h2, List.append_nil]

/-- C98, presets: for the compressible, Boussinesq, thermal and shallow-water sets with any list of distinct active
tracers (Boussinesq takes none) and the default solver prognostics, the preset exists and every split contains every
field exactly once. -/
theorem C98_presets_cover (k : Kind) (tr : List String) (h : (base k ++ tr).Nodup) (hk : k ≠ .other)
    (hb : k = .boussinesq → tr = []) (h1 : k ≠ .shallowWater1d) :
    ∃ progs pc ctx, solverPrognostics (base k ++ tr) (some tr) none = .ok progs ∧
      preset k (base k ++ tr) progs = .ok (pc, ctx) ∧ Covers pc (base k ++ tr).length := by
  have hp := (C98_default_prognostics (base k) tr h).1
  have ht := tracers_append (base k) tr h
  have hlen : ((base k ++ tr).length : ℤ) - (base k).length = tr.length := by simp
  have hperm : ∀ n : ℕ, List.range n ++ (List.range tr.length).map (n + ·) = List.range (n + tr.length) := by
    intro n; rw [List.range_add]
  refine ⟨base k, ?_⟩
  unfold preset
  simp only [hlen, ht]
  have hz : (0 : ℤ) < tr.length ∨ (tr.length : ℤ) = 0 := by omega
  cases k with
  | other => exact absurd rfl hk
  | compressible => exact ⟨_, _, hp, rfl, trivial⟩
  | boussinesq =>
    refine ⟨_, _, hp, rfl, ?_⟩
    rw [hb rfl]
    refine ⟨?_, trivial, rfl⟩
    decide
  | thermal =>
    rcases hz with hz | hz
    · refine ⟨_, _, hp, if_pos hz, ?_⟩
      refine ⟨?_, ⟨?_, trivial, rfl⟩, trivial⟩
      · have := hperm 3
        simp only [base, List.length_append, List.length_cons, List.length_nil] at this ⊢
        rw [show [0, 1, 2] = List.range 3 from rfl]
        rw [show (0 + 1 + 1 + 1 : ℕ) = 3 from rfl, this]
      · decide
    · refine ⟨_, _, hp, if_neg (by omega), ?_⟩
      have : tr = [] := List.length_eq_zero_iff.1 (by exact_mod_cast hz)
      rw [this]
      refine ⟨?_, trivial, rfl⟩
      decide
  | shallowWater =>
    rcases hz with hz | hz
    · refine ⟨_, _, hp, if_pos hz, ?_⟩
      refine ⟨?_, rfl, trivial⟩
      have := hperm 2
      simp only [base, List.length_append, List.length_cons, List.length_nil] at this ⊢
      rw [show [0, 1] = List.range 2 from rfl, show (0 + 1 + 1 : ℕ) = 2 from rfl, this]
    · have : tr = [] := List.length_eq_zero_iff.1 (by exact_mod_cast hz)
      exact ⟨.hybridization, .nothing, hp, by simp [this], by rw [this]; rfl⟩
  | shallowWater1d => exact absurd rfl h1

example : (base .thermal ++ ["water_vapour", "cloud_water"]).Nodup := by decide

/-- C98, refuted: with equivalent buoyancy the moisture `q_t` is a prognostic and not an active tracer, so that the default
solver prognostics contain it and the preset's splits leave it out: field 3 is in no block. -/
theorem C98_equivalent_buoyancy_refuted :
    ∃ progs pc ctx, solverPrognostics ["u", "D", "b_e", "q_t"] (some []) none = .ok progs ∧
      preset .thermal ["u", "D", "b_e", "q_t"] progs = .ok (pc, ctx) ∧ ¬ Covers pc 4 := by
  refine ⟨["u", "D", "b_e", "q_t"], .schur [2] [0, 1] .assembled .auxiliary, .alphaOnly, by decide, by decide, ?_⟩
  rintro ⟨h, _⟩
  have := h.length_eq
  simp at this

/-- C98, refuted: solver prognostics chosen by the user, which the timestepper accepts, give splits with a field in two
blocks: the moist preset with `u` and `D` only in the thermal case, with `u` only in the shallow-water case. -/
theorem C98_user_prognostics_refuted :
    (∃ pc ctx, solverPrognostics ["u", "D", "b"] (some []) (some ["u", "D"]) = .ok ["u", "D"] ∧
      preset .thermal ["u", "D", "b"] ["u", "D"] = .ok (pc, ctx) ∧ ¬ Covers pc 3) ∧
    (∃ pc ctx, solverPrognostics ["u", "D"] (some []) (some ["u"]) = .ok ["u"] ∧
      preset .shallowWater ["u", "D"] ["u"] = .ok (pc, ctx) ∧ ¬ Covers pc 2) ∧
    ∃ pc ctx, preset .shallowWater1d ["u", "v", "D", "q"] ["u", "v", "D"] = .ok (pc, ctx) ∧ ¬ Covers pc 4 := by
  refine ⟨⟨_, _, by decide, rfl, ?_⟩, ⟨_, _, by decide, rfl, ?_⟩, ⟨_, _, rfl, ?_⟩⟩
  all_goals
    rintro ⟨h, _⟩
    have := h.length_eq
    revert this
    decide

/-- C98, refuted: the preset of the one-dimensional shallow-water equations hybridises its three fields `u`, `v`, `D`. -/
theorem C98_one_dimension_refuted :
    preset .shallowWater1d ["u", "v", "D"] ["u", "v", "D"] = .ok (.hybridization, .nothing) ∧
      ¬ Covers .hybridization ["u", "v", "D"].length := by
  refine ⟨rfl, ?_⟩
  intro h
  exact absurd (show 3 = 2 from h) (by decide)

/-- C98, refuted: only the compressible preset gets the relaxation parameters; the other presets build their
preconditioner with `alpha` whatever `tau_values` says. -/
theorem C98_tau_ignored_refuted (k : Kind) (names progs : List String) (pc : Pc) (ctx : Ctx)
    (h : preset k names progs = .ok (pc, ctx)) : ctx = .alphaAndTau ↔ k = .compressible := by
  unfold preset at h
  cases k <;> simp only at h
  · cases h; simp
  · cases h; simp
  · split_ifs at h <;> cases h <;> simp
  · split_ifs at h <;> cases h <;> simp
  · split_ifs at h <;> cases h <;> simp
  · cases h

/-! ### Relaxation parameters -/

/-- C98, relaxation parameters: a solver uses the values given, and `alpha` for the prognostics that have none. -/
theorem C98_tau {A : Type*} (tau : String → Option A) (alpha : A) (progs : List String) (n : String) :
    completeTau tau alpha progs n = if (tau n).isSome then tau n else if n ∈ progs then some alpha else none := by
  unfold completeTau
  induction progs generalizing tau with
  | nil => cases h : tau n <;> simp [h]
  | cons m l ih =>
    simp only [List.foldl_cons]
    rw [ih]
    by_cases hm : (tau m).isSome
    · simp only [hm, if_true]
      cases h : tau n with
      | some a => simp
      | none =>
        have : n ≠ m := fun e => by subst e; rw [h] at hm; cases hm
        simp [this]
    · simp only [hm, Bool.false_eq_true, if_false]
      by_cases e : n = m
      · subst e; simp [hm]
      · simp only [e, if_false]
        cases h : tau n <;> simp [e]

/-- C98, refuted: the parameters are added to the caller's dict, so that a second solver made with the same dict (the two
solvers of `TRBDF2QuasiNewton`, or a second timestepper) uses the `alpha` of the first. -/
theorem C98_shared_tau_refuted {A : Type*} (tau : String → Option A) (a a' : A) (progs : List String) (n : String)
    (hn : n ∈ progs) (ht : tau n = none) :
    ∃ t t', completeTaus tau [(a, progs), (a', progs)] = [t, t'] ∧ t' n = some a ∧
      completeTau tau a' progs n = some a' := by
  refine ⟨_, _, rfl, ?_, ?_⟩
  · rw [C98_tau, C98_tau]; simp [ht, hn]
  · rw [C98_tau]; simp [ht, hn]

/-! ### Block systems -/

section Blocks
variable {K V0 V1 W0 W1 : Type*} [Field K] [AddCommGroup V0] [AddCommGroup V1] [AddCommGroup W0] [AddCommGroup W1]
  [Module K V0] [Module K V1] [Module K W0] [Module K W1]

/-- C98, elimination: with an exact solver of the first block and an exact solver of an approximation `S'` of the Schur
complement `S`, the full Schur factorisation satisfies the first row exactly and the second up to `(S - S')`
applied to its own second component, for all right-hand sides. -/
theorem C98_schur_defect (A : Block K V0 V1 W0 W1) (inv0 : W0 →ₗ[K] V0) (invS : W1 → V1) (S' : V1 →ₗ[K] W1)
    (h0 : ∀ r, A.a00 (inv0 r) = r) (hS : ∀ r, S' (invS r) = r) (r : W0 × W1) :
    A.apply (schurFull A inv0 invS r) =
      (r.1, r.2 + (slateSchur A inv0 - S') (schurFull A inv0 invS r).2) := by
  unfold Block.apply schurFull slateSchur
  refine Prod.ext ?_ ?_
  · simp only [h0]; abel
  · simp only [LinearMap.sub_apply, LinearMap.comp_apply, hS, map_sub]; abel

/-- C98, elimination: with the exact Schur complement the factorisation solves the system. -/
theorem C98_schur_exact (A : Block K V0 V1 W0 W1) (inv0 : W0 →ₗ[K] V0) (invS : W1 → V1)
    (h0 : ∀ r, A.a00 (inv0 r) = r) (hS : ∀ r, slateSchur A inv0 (invS r) = r) (r : W0 × W1) :
    A.apply (schurFull A inv0 invS r) = r := by
  rw [C98_schur_defect A inv0 invS (slateSchur A inv0) h0 hS]
  simp

/-- C98, elimination: it is then the only solution, if the sub-solvers are two-sided inverses. -/
theorem C98_schur_unique (A : Block K V0 V1 W0 W1) (inv0 : W0 →ₗ[K] V0) (invS : W1 → V1)
    (h0' : ∀ x, inv0 (A.a00 x) = x)
    (hS' : ∀ x, invS (slateSchur A inv0 x) = x) (r : W0 × W1) (x : V0 × V1) (hx : A.apply x = r) :
    x = schurFull A inv0 invS r := by
  have e0 : A.a00 x.1 + A.a01 x.2 = r.1 := congrArg Prod.fst hx
  have e1 : A.a10 x.1 + A.a11 x.2 = r.2 := congrArg Prod.snd hx
  have x0 : x.1 = inv0 (r.1 - A.a01 x.2) := by rw [← e0, add_sub_cancel_right, h0']
  have x1 : x.2 = invS (r.2 - A.a10 (inv0 r.1)) := by
    rw [← hS' x.2]; congr 1
    unfold slateSchur
    simp only [LinearMap.sub_apply, LinearMap.comp_apply]
    rw [← e1, ← e0, map_add, h0', map_add]
    abel
  unfold schurFull
  refine Prod.ext ?_ ?_
  · simp only; rw [← x1]; exact x0
  · exact x1

/-- C98, tracers: a field split that leaves a block alone solves the system, whatever the coupling into the first block,
if that block has no coupling from the first and its right-hand side is zero, as for the fields that are not solver
prognostics. -/
theorem C98_additive_exact (A : Block K V0 V1 V0 V1) (inv0 : V0 → V0) (h0 : ∀ r, A.a00 (inv0 r) = r)
    (h10 : A.a10 = 0) (r : V0) :
    A.apply (additive inv0 id (r, 0)) = (r, 0) := by
  unfold Block.apply additive
  simp [h0, h10]

/-- The hypotheses of the elimination theorems are met by a system over the rationals. -/
example : let A : Block ℚ ℚ ℚ ℚ ℚ := ⟨LinearMap.lsmul ℚ ℚ 2, LinearMap.lsmul ℚ ℚ 1, LinearMap.lsmul ℚ ℚ 3, LinearMap.lsmul ℚ ℚ 4⟩
    let inv0 : ℚ →ₗ[ℚ] ℚ := LinearMap.lsmul ℚ ℚ (1 / 2)
    (∀ r, A.a00 (inv0 r) = r) ∧ (∀ x, inv0 (A.a00 x) = x) ∧ ∀ r, slateSchur A inv0 (r * (2 / 5)) = r := by
  refine ⟨fun r => ?_, fun r => ?_, fun r => ?_⟩ <;> simp [slateSchur] <;> ring
end Blocks

/-! ### The quasi-Newton operator -/

section Forms
open Gusto.DG Gusto.EqSet Gusto.SW Gusto.Bou
open Gusto.Props.DGProps Gusto.Props.SWProps Gusto.Props.BouProps

variable {K : Type*} [Field K] [LinearOrder K] [IsStrictOrderedRing K] {d : ℕ} {C F B : Type*}

variable {S : Type*}

/-- The linearisation a term ends up with when the map accepts every term. -/
def effG (Xref : S) (t : LTerm S (S → K)) (h v : S) : K :=
  match t.lin with
  | some l => l h v
  | none => if t.empty then 0 else t.dform Xref h v

/-- The factor of a term in the quasi-Newton operator: 1 for time derivatives, `tau dt` in the equations of solver
prognostics, `dt` for the fully implicit terms among them, 0 otherwise. -/
def factor (progs : List String) (tau : String → K) (dt : K) (t : LTerm S (S → K)) : K :=
  if isTD t then 1 else (progs.map fun n => if isProg n t then (if isImplicit t then dt else tau n * dt) else 0).sum

theorem linOf_gen (Xref : S) (t : LTerm S (S → K)) (h v : S) :
    linOf (if t.lin.isNone && (fun _ => true) t then linearise Xref t else t) h v = effG Xref t h v := by
  unfold linOf effG linearise
  cases hl : t.lin <;> cases he : t.empty <;> simp [hl, he]

/-- The operator is the linearised residual with these factors. -/
theorem qn_value_gen (l : List (LTerm S (S → K))) (Xref : S) (progs : List String) (tau : String → K) (dt : K)
    (hne : ∀ t ∈ l, isTD t = true → t.empty = false) :
    ∃ q, quasiNewton (generateLinear Xref (fun _ => true) l) progs tau dt = .ok q ∧
      ∀ h v, q h v = (l.map fun t => factor progs tau dt t * effG Xref t h v).sum := by
  have hall : ((generateLinear Xref (fun _ => true) l).filter isTD).all (fun t => t.lin.isSome) = true := by
    rw [List.all_eq_true]
    intro t ht
    simp only [List.mem_filter, generateLinear, List.mem_map] at ht
    obtain ⟨⟨t0, h0, rfl⟩, htd⟩ := ht
    have : isTD t0 = true := by
      revert htd; unfold linearise isTD; cases t0.lin <;> cases t0.empty <;> simp
    have he := hne t0 h0 this
    cases hl : t0.lin <;> simp [linearise, hl, he]
  refine ⟨_, if_pos hall, fun h v => ?_⟩
  clear hall
  induction l with
  | nil =>
    simp only [generateLinear, List.map_nil, List.filter_nil, List.sum_nil, add_zero]
    rw [List.sum_eq_zero]; · ring
    intro x hx; simp only [List.mem_map] at hx; obtain ⟨_, _, rfl⟩ := hx; rfl
  | cons t ts ih =>
    have ih := ih fun t' ht' => hne t' (List.mem_cons_of_mem _ ht')
    simp only [List.map_cons, List.sum_cons] at ih ⊢
    rw [← ih]
    set G := generateLinear Xref (fun _ => true) ts with hG
    have hcons : generateLinear Xref (fun _ => true) (t :: ts) =
        (if t.lin.isNone && (fun _ => true) t then linearise Xref t else t) :: G := rfl
    rw [hcons]
    set t' := (if t.lin.isNone && (fun _ => true) t then linearise Xref t else t) with ht'
    have e1 : linOf t' h v = effG Xref t h v := linOf_gen Xref t h v
    have hlab : t'.labels = t.labels := by rw [ht']; unfold linearise; split_ifs <;> rfl
    have hTD : isTD t' = isTD t := by unfold isTD; rw [hlab]
    have hI : isImplicit t' = isImplicit t := by unfold isImplicit; rw [hlab]
    have hP : ∀ n, isProg n t' = isProg n t := fun n => by unfold isProg; rw [hlab]
    have hz : t'.lin.isSome = false → effG Xref t h v = 0 := by
      intro hn
      rw [← e1]; unfold linOf
      cases hl : t'.lin with
      | none => rfl
      | some a => rw [hl] at hn; cases hn
    have key : ∀ n, (((t' :: G).filter fun t => t.lin.isSome && !isTD t && isProg n t && !isImplicit t).map
          (fun t => tau n * dt * linOf t h v)).sum =
        (if !isTD t && isProg n t && !isImplicit t then tau n * dt * effG Xref t h v else 0) +
          ((G.filter fun t => t.lin.isSome && !isTD t && isProg n t && !isImplicit t).map
            (fun t => tau n * dt * linOf t h v)).sum := by
      intro n
      rw [List.filter_cons]
      simp only [hTD, hI, hP]
      cases hs : t'.lin.isSome with
      | false => simp [hz hs]
      | true =>
        cases (isTD t) <;> cases (isProg n t) <;> cases (isImplicit t) <;> simp [e1]
    have key2 : ∀ n, (((t' :: G).filter fun t => t.lin.isSome && !isTD t && isProg n t && isImplicit t).map
          (fun t => dt * linOf t h v)).sum =
        (if !isTD t && isProg n t && isImplicit t then dt * effG Xref t h v else 0) +
          ((G.filter fun t => t.lin.isSome && !isTD t && isProg n t && isImplicit t).map
            (fun t => dt * linOf t h v)).sum := by
      intro n
      rw [List.filter_cons]
      simp only [hTD, hI, hP]
      cases hs : t'.lin.isSome with
      | false => simp [hz hs]
      | true =>
        cases (isTD t) <;> cases (isProg n t) <;> cases (isImplicit t) <;> simp [e1]
    have key3 : (((t' :: G).filter isTD).map fun t => linOf t h v).sum =
        (if isTD t then effG Xref t h v else 0) + ((G.filter isTD).map fun t => linOf t h v).sum := by
      rw [List.filter_cons, hTD]
      cases isTD t <;> simp [e1]
    simp only [key, key2, key3]
    have split : ∀ (a b : String → K), (progs.map fun n => a n + b n).sum = (progs.map a).sum + (progs.map b).sum := by
      intro a b
      exact List.sum_map_add
    have hf : factor progs tau dt t * effG Xref t h v = (if isTD t then effG Xref t h v else 0) +
        (progs.map fun n => (if !isTD t && isProg n t && !isImplicit t then tau n * dt * effG Xref t h v else 0) +
          (if !isTD t && isProg n t && isImplicit t then dt * effG Xref t h v else 0)).sum := by
      unfold factor
      cases isTD t with
      | true => simp
      | false =>
        simp only [Bool.false_eq_true, if_false, Bool.not_false, Bool.true_and, zero_add]
        rw [← List.sum_map_mul_right]
        congr 1
        refine List.map_congr_left fun n _ => ?_
        cases isProg n t <;> cases isImplicit t <;> simp
    rw [hf]
    have hs : (progs.map fun n =>
        ((if !isTD t && isProg n t && !isImplicit t then tau n * dt * effG Xref t h v else 0) +
          ((G.filter fun t => t.lin.isSome && !isTD t && isProg n t && !isImplicit t).map
            (fun t => tau n * dt * linOf t h v)).sum) +
        ((if !isTD t && isProg n t && isImplicit t then dt * effG Xref t h v else 0) +
          ((G.filter fun t => t.lin.isSome && !isTD t && isProg n t && isImplicit t).map
            (fun t => dt * linOf t h v)).sum)).sum =
        (progs.map fun n => ((if !isTD t && isProg n t && !isImplicit t then tau n * dt * effG Xref t h v else 0) +
          (if !isTD t && isProg n t && isImplicit t then dt * effG Xref t h v else 0)) +
          (((G.filter fun t => t.lin.isSome && !isTD t && isProg n t && !isImplicit t).map
            (fun t => tau n * dt * linOf t h v)).sum +
          ((G.filter fun t => t.lin.isSome && !isTD t && isProg n t && isImplicit t).map
            (fun t => dt * linOf t h v)).sum)).sum := by
      congr 1
      exact List.map_congr_left fun n _ => by ring
    rw [hs, split]
    ring

theorem qn_value (l : List (T K d C F B)) (Xref : St K d C F B) (progs : List String) (tau : String → K) (dt : K)
    (hne : ∀ t ∈ l, isTD t = true → t.empty = false) :
    ∃ q, quasiNewton (generateLinear Xref (fun _ => true) l) progs tau dt = .ok q ∧
      ∀ h v, q h v = (l.map fun t => factor progs tau dt t * eff Xref t h v).sum := by
  obtain ⟨q, hq, hv⟩ := qn_value_gen l Xref progs tau dt hne
  refine ⟨q, hq, fun h v => ?_⟩
  rw [hv]
  congr 1
  refine List.map_congr_left fun t _ => ?_
  congr 1
  unfold effG eff
  cases t.lin <;> rfl

variable [Fintype C] [Fintype F] [Fintype B]

/-- The quasi-Newton operator of the Boussinesq equations. -/
theorem bou_qn (c : BCfg K d C F B) (hR : GoodC c.R) (Xref : St K d C F B) (hu : Xref.u = Ve.zero)
    (res : List (T K d C F B)) (h : boussinesq c (fun _ => true) Xref = .ok res) (tau : String → K) (dt : K)
    (op : Option ((Fin d → K) → Fin d → K)) (ho : corOp c = .ok op) :
    ∃ q, quasiNewton res ["u", "p", "b"] tau dt = .ok q ∧ ∀ X v, q X v =
      cells c.M (fun x => dot (X.u.c x) (v.u.c x)) + cells c.M (fun x => X.D.c x * v.D.c x)
        + cells c.M (fun x => X.b.c x * v.b.c x)
        + tau "u" * dt * (bpg c.M v.u X.D + grav c v.u X.b + corF c op X v)
        + (if c.compressible then tau "p" * dt * (advCells c.M v.D Xref.D X.u + divForm c v.D X.u)
            else dt * incForm c v.D X.D X.u)
        + tau "b" * dt * advCells c.M v.b Xref.b X.u := by
  obtain ⟨ut, op', hut, ho', rfl⟩ := built c _ Xref res h
  rw [ho] at ho'; cases ho'
  obtain ⟨q, hq, hv⟩ := qn_value (terms c (fun _ => true) Xref ut op) Xref ["u", "p", "b"] tau dt (by
    intro t ht htd
    have : t ∈ (terms c (fun _ => true) Xref ut op).filter (fun t => decide ("time_derivative" ∈ t.labels)) :=
      List.mem_filter.2 ⟨ht, htd⟩
    rw [terms_td c _ Xref ut op hut] at this
    simp only [List.mem_cons, List.not_mem_nil, or_false] at this
    rcases this with rfl | rfl | rfl <;> rfl)
  refine ⟨q, hq, fun X v => ?_⟩
  rw [hv]
  have eU : (ut.map fun t => factor ["u", "p", "b"] tau dt t * eff Xref t X v).sum = 0 := by
    have hd : (cells c.M fun x => v.u.div x * dot (X.u.c x) ((Ve.zero : Ve K d C F B).c x)) = 0 := by
      unfold cells
      exact Finset.sum_eq_zero fun x _ => by simp [Ve.zero, dot]
    have hk : kinE c.M v.u X.u (Ve.zero : Ve K d C F B) = 0 := by rw [kinE_comm, kin_zero]
    unfold Bou.uTransport at hut
    cases hc : c.uopt <;> rw [hc] at hut <;> cases hut
    · simp [attach, eff, hu, bcirc_zero_q c hR, bcirc_zero_u c hR, hd]
    · simp [attach, eff, hu, bcirc_zero_q c hR, bcirc_zero_u c hR, kin_zero, hk]
    · simp [eff, hu, adv_zero_q, adv_zero_u]
  have eM1 : factor ["u", "p", "b"] tau dt (massU c.M) = 1 := by simp [factor, isTD, massU]
  have eM2 : factor ["u", "p", "b"] tau dt (massP c.M) = 1 := by simp [factor, isTD, massP]
  have eM3 : factor ["u", "p", "b"] tau dt (massB c.M) = 1 := by simp [factor, isTD, massB]
  have eb : factor ["u", "p", "b"] tau dt (bAdv c (fun _ => true) Xref) = tau "b" * dt := by
    simp [factor, isTD, isProg, isImplicit, bAdv, attach_labels]
  have ep : factor ["u", "p", "b"] tau dt (pAdv c (fun _ => true) Xref) = tau "p" * dt := by
    simp [factor, isTD, isProg, isImplicit, pAdv, attach_labels]
  have epg : factor ["u", "p", "b"] tau dt (pgT c) = tau "u" * dt := by
    simp [factor, isTD, isProg, isImplicit, pgT]
  have eg : factor ["u", "p", "b"] tau dt (gravT c) = tau "u" * dt := by
    simp [factor, isTD, isProg, isImplicit, gravT]
  have ed : factor ["u", "p", "b"] tau dt (divT c) = if c.compressible then tau "p" * dt else dt := by
    unfold divT; split_ifs <;> simp [factor, isTD, isProg, isImplicit]
  have e3 : eff Xref (bAdv c (fun _ => true) Xref) X v = advCells c.M v.b Xref.b X.u := by
    simp [bAdv, attach, eff, hu, advs_zero]
  have e4 : eff Xref (divT c) X v = if c.compressible then divForm c v.D X.u else incForm c v.D X.D X.u := by
    unfold divT; split_ifs <;> rfl
  have e5 : ((corTerms c op).map fun t => factor ["u", "p", "b"] tau dt t * eff Xref t X v).sum
      = tau "u" * dt * corF c op X v := by
    cases op with
    | none => simp [corTerms, corF]
    | some f => simp [corTerms, corT, corF, bcor, cells, eff, factor, isTD, isProg, isImplicit]
  have e2 : ((if c.compressible then [pAdv c (fun _ => true) Xref] else []).map
      fun t => factor ["u", "p", "b"] tau dt t * eff Xref t X v).sum =
      if c.compressible then tau "p" * dt * advCells c.M v.D Xref.D X.u else 0 := by
    split_ifs
    · simp only [List.map_cons, List.map_nil, List.sum_cons, List.sum_nil, add_zero, ep]
      simp [pAdv, attach, eff, hu, advs_zero]
    · simp
  have e6 : eff Xref (pgT c) X v = bpg c.M v.u X.D := rfl
  have e7 : eff Xref (gravT c) X v = grav c v.u X.b := rfl
  have e8 : eff Xref (massU c.M) X v = cells c.M (fun x => dot (X.u.c x) (v.u.c x)) := rfl
  have e9 : eff Xref (massP c.M) X v = cells c.M (fun x => X.D.c x * v.D.c x) := rfl
  have e10 : eff Xref (massB c.M) X v = cells c.M (fun x => X.b.c x * v.b.c x) := rfl
  unfold terms
  simp only [List.map_append, List.sum_append, eU, e2, e5, List.map_cons, List.map_nil, List.sum_cons, List.sum_nil, eM1,
    eM2, eM3, eb, epg, eg, ed, e3, e4, e6, e7, e8, e9, e10]
  split_ifs <;> ring

/-! ### Elimination of buoyancy, Boussinesq -/

/-- A test function, or a state, with the given components. -/
def stt (u : Ve K d C F B) (p b : Sc K d C F B) : St K d C F B := ⟨u, p, b, Sc.const 0⟩

/-- C98, Boussinesq: what the preset computes.  `y` is the first buoyancy solve, `(u, p)` the solution of the auxiliary
problem with the right-hand side of the Schur factorisation, `b` the second buoyancy solve; then `(u, p, b)` solves the
quasi-Newton system up to the horizontal gradient of the reference buoyancy and the gradient of the reference pressure.
Vertical components of velocities have to be in the buoyancy space. -/
theorem C98_boussinesq_defect (c : BCfg K d C F B) (hR : GoodC c.R) (Xref : St K d C F B) (hu : Xref.u = Ve.zero)
    (res : List (T K d C F B)) (h : boussinesq c (fun _ => true) Xref = .ok res) (hc : c.compressible = true)
    (hO : c.Omega = none) (alpha dt : K) (q a : St K d C F B → St K d C F B → K)
    (hq : quasiNewton res ["u", "p", "b"] (fun _ => alpha) dt = .ok q)
    (ha : auxBoussinesq c Xref alpha dt (fun _ => none) none = .ok a)
    (Vu : Set (Ve K d C F B)) (Vp Vb : Set (Sc K d C F B))
    (hk : ∀ w ∈ Vu, ∃ γ ∈ Vb, ∀ x, γ.c x = dot (w.c x) (c.k x))
    (rU : Ve K d C F B → K) (rP rB : Sc K d C F B → K) (u : Ve K d C F B) (p b y : Sc K d C F B)
    (hy : ∀ γ ∈ Vb, cells c.M (fun x => y.c x * γ.c x) = rB γ)
    (hup : ∀ w ∈ Vu, ∀ φ ∈ Vp, a (stt u p (Sc.const 0)) (stt w φ (Sc.const 0)) = rU w + rP φ - alpha * dt * grav c w y)
    (hb : ∀ γ ∈ Vb, cells c.M (fun x => b.c x * γ.c x) = rB γ - alpha * dt * advCells c.M γ Xref.b u) :
    ∀ w ∈ Vu, ∀ φ ∈ Vp, ∀ γ ∈ Vb, q (stt u p b) (stt w φ γ) = rU w + rP φ + rB γ
      + alpha * dt * (∑ x, c.M.wC x * (φ.c x * dot (u.c x) (Xref.D.g x)))
      + alpha * dt * (alpha * dt) * ∑ x, c.M.wC x * (dot (w.c x) (c.k x) *
          (dot (u.c x) (Xref.b.g x) - dot (c.k x) (u.c x) * dot (c.k x) (Xref.b.g x))) := by
  intro w hw φ hφ γ hγ
  have hcor : corOp c = .ok none := by unfold corOp; rw [hO]
  obtain ⟨q', hq', hv⟩ := bou_qn c hR Xref hu res h (fun _ => alpha) dt none hcor
  rw [hq] at hq'; cases hq'
  unfold auxBoussinesq at ha
  rw [hO] at ha
  cases ha
  have e1 := hup w hw φ hφ
  simp only [hc, if_true, Option.getD_none, add_zero] at e1
  rw [hv]
  simp only [hc, if_true]
  have e2 := hb γ hγ
  obtain ⟨γ', hγ', hγk⟩ := hk w hw
  have e3 := hb γ' hγ'
  have e4 := hy γ' hγ'
  rw [← e4] at e3
  simp only [hγk, advCells] at e3
  unfold corF divForm grav bpg advCells at *
  simp only [stt] at *
  have s1 : cells c.M (fun x => dot (w.c x) (c.k x) * (-dot (c.k x) (u.c x) * dot (c.k x) (Xref.b.g x) * (dt * alpha))) =
      -(alpha * dt) * ∑ x, c.M.wC x * (dot (w.c x) (c.k x) * (dot (c.k x) (u.c x) * dot (c.k x) (Xref.b.g x))) := by
    unfold cells; rw [Finset.mul_sum]; exact Finset.sum_congr rfl fun x _ => by ring
  have s2 : (∑ x, c.M.wC x * (dot (w.c x) (c.k x) *
          (dot (u.c x) (Xref.b.g x) - dot (c.k x) (u.c x) * dot (c.k x) (Xref.b.g x)))) =
      (∑ x, c.M.wC x * (dot (w.c x) (c.k x) * dot (u.c x) (Xref.b.g x))) -
      ∑ x, c.M.wC x * (dot (w.c x) (c.k x) * (dot (c.k x) (u.c x) * dot (c.k x) (Xref.b.g x))) := by
    rw [← Finset.sum_sub_distrib]; exact Finset.sum_congr rfl fun x _ => by ring
  have s3 : cells c.M (fun x => dot (w.c x) (u.c x)) = cells c.M (fun x => dot (u.c x) (w.c x)) := by
    unfold cells; exact Finset.sum_congr rfl fun x _ => by beta_reduce; rw [dot_comm]
  have s4 : cells c.M (fun x => φ.c x * p.c x) = cells c.M (fun x => p.c x * φ.c x) := by
    unfold cells; exact Finset.sum_congr rfl fun x _ => by ring
  rw [s1, s3, s4] at e1
  rw [s2]
  linear_combination e1 + e2 - alpha * dt * e3

/-- C98, Boussinesq: hence the preset solves the quasi-Newton system exactly, for every timestep, off-centring, mesh and
right-hand side, when the reference state is at rest with uniform pressure and a buoyancy gradient along `k`, a unit
vector. -/
theorem C98_boussinesq_exact (c : BCfg K d C F B) (hR : GoodC c.R) (Xref : St K d C F B) (hu : Xref.u = Ve.zero)
    (res : List (T K d C F B)) (h : boussinesq c (fun _ => true) Xref = .ok res) (hc : c.compressible = true)
    (hO : c.Omega = none) (alpha dt : K) (q a : St K d C F B → St K d C F B → K)
    (hq : quasiNewton res ["u", "p", "b"] (fun _ => alpha) dt = .ok q)
    (ha : auxBoussinesq c Xref alpha dt (fun _ => none) none = .ok a)
    (Vu : Set (Ve K d C F B)) (Vp Vb : Set (Sc K d C F B))
    (hk : ∀ w ∈ Vu, ∃ γ ∈ Vb, ∀ x, γ.c x = dot (w.c x) (c.k x))
    (hp : ∀ x i, Xref.D.g x i = 0) (N2 : C → K) (hbr : ∀ x i, Xref.b.g x i = N2 x * c.k x i)
    (hk1 : ∀ x, dot (c.k x) (c.k x) = 1)
    (rU : Ve K d C F B → K) (rP rB : Sc K d C F B → K) (u : Ve K d C F B) (p b y : Sc K d C F B)
    (hy : ∀ γ ∈ Vb, cells c.M (fun x => y.c x * γ.c x) = rB γ)
    (hup : ∀ w ∈ Vu, ∀ φ ∈ Vp, a (stt u p (Sc.const 0)) (stt w φ (Sc.const 0)) = rU w + rP φ - alpha * dt * grav c w y)
    (hb : ∀ γ ∈ Vb, cells c.M (fun x => b.c x * γ.c x) = rB γ - alpha * dt * advCells c.M γ Xref.b u) :
    ∀ w ∈ Vu, ∀ φ ∈ Vp, ∀ γ ∈ Vb, q (stt u p b) (stt w φ γ) = rU w + rP φ + rB γ := by
  intro w hw φ hφ γ hγ
  rw [C98_boussinesq_defect c hR Xref hu res h hc hO alpha dt q a hq ha Vu Vp Vb hk rU rP rB u p b y hy hup hb w hw φ hφ γ hγ]
  have z1 : (∑ x, c.M.wC x * (φ.c x * dot (u.c x) (Xref.D.g x))) = 0 :=
    Finset.sum_eq_zero fun x _ => by simp [dot, hp]
  have z2 : (∑ x, c.M.wC x * (dot (w.c x) (c.k x) *
          (dot (u.c x) (Xref.b.g x) - dot (c.k x) (u.c x) * dot (c.k x) (Xref.b.g x)))) = 0 := by
    refine Finset.sum_eq_zero fun x _ => ?_
    have hg : Xref.b.g x = fun i => N2 x * c.k x i := funext fun i => hbr x i
    rw [hg, dot_smul, dot_smul, hk1, dot_comm (c.k x) (u.c x)]; ring
  rw [z1, z2]; ring

/-- C98, refuted: the auxiliary form of the rotating equations is never built: `self.parameter` is misspelt. -/
theorem C98_rotating_refuted (c : BCfg K 3 C F B) (Xref : St K 3 C F B) (Om alpha dt : K) (h : c.Omega = some Om)
    (hut : c.uopt ≠ .invalid) (htr : c.tracersGiven = false) (tau : String → Option K) (mu : Option (C → K)) :
    (∃ res, boussinesq c (fun _ => true) Xref = .ok res) ∧
      auxBoussinesq c Xref alpha dt tau mu = .error "AttributeError" := by
  refine ⟨(C97_accepts c _ Xref).2 ⟨hut, htr, Or.inr rfl⟩, ?_⟩
  unfold auxBoussinesq
  rw [h]

/-- C98, refuted: in the incompressible case the auxiliary form is not the operator: for a velocity correction that is
to remove the divergence `δ` of the iterate (`p = 0`, residual `dt δ`), the quasi-Newton system asks for the divergence
`-δ`, the auxiliary problem, which is what the preset solves, for `+dt δ`. -/
theorem C98_incompressible_refuted (c : BCfg K d C F B) (hR : GoodC c.R) (Xref : St K d C F B) (hu : Xref.u = Ve.zero)
    (res : List (T K d C F B)) (h : boussinesq c (fun _ => true) Xref = .ok res) (hc : c.compressible = false)
    (hO : c.Omega = none) (alpha dt : K) (hdt : dt ≠ 0) (q a : St K d C F B → St K d C F B → K)
    (hq : quasiNewton res ["u", "p", "b"] (fun _ => alpha) dt = .ok q)
    (ha : auxBoussinesq c Xref alpha dt (fun _ => none) none = .ok a)
    (u : Ve K d C F B) (b φ δ : Sc K d C F B) :
    (q (stt u (Sc.const 0) b) (onlyP φ) = dt * cells c.M (fun x => φ.c x * δ.c x) ↔
      cells c.M (fun x => φ.c x * u.div x) = -cells c.M (fun x => φ.c x * δ.c x)) ∧
    (a (stt u (Sc.const 0) b) (onlyP φ) = dt * cells c.M (fun x => φ.c x * δ.c x) ↔
      cells c.M (fun x => φ.c x * u.div x) = dt * cells c.M (fun x => φ.c x * δ.c x)) := by
  have hcor : corOp c = .ok none := by unfold corOp; rw [hO]
  obtain ⟨q', hq', hv⟩ := bou_qn c hR Xref hu res h (fun _ => alpha) dt none hcor
  rw [hq] at hq'; cases hq'
  unfold auxBoussinesq at ha
  rw [hO] at ha
  cases ha
  have hz : ∀ f : Fin d → K, dot (fun _ => (0 : K)) f = 0 := fun f => by simp [dot]
  have hz' : ∀ f : Fin d → K, dot f (fun _ => (0 : K)) = 0 := fun f => by simp [dot]
  have q1 : q (stt u (Sc.const 0) b) (onlyP φ) = -dt * cells c.M (fun x => φ.c x * u.div x) := by
    rw [hv]
    simp only [hc, Bool.false_eq_true, if_false]
    simp [stt, onlyP, bpg, grav, corF, advCells, incForm, cells, SW.Ve.zero, hz, hz', DG.Ve.div, Sc.const]
  constructor
  · rw [q1]
    constructor
    · intro e
      have : dt * (cells c.M (fun x => φ.c x * u.div x) + cells c.M (fun x => φ.c x * δ.c x)) = 0 := by
        linear_combination -e
      rcases mul_eq_zero.1 this with h0 | h0
      · exact absurd h0 hdt
      · linear_combination h0
    · intro e; rw [e]; ring
  · simp only [hc, Bool.false_eq_true, if_false]
    simp [stt, onlyP, cells, SW.Ve.zero, hz, hz', DG.Ve.div, Sc.const]
/-! ### Elimination of buoyancy, thermal shallow water -/

/-- What the auxiliary form reads of the rotation: the field `coriolis` is the Coriolis parameter of the residual (true
for the plane; on the sphere up to interpolation into the continuous linear functions). -/
def CorIs (c : Cfg K d C F B) (cor : Option (C → K)) : Prop :=
  (c.rot = .nonrotating ∧ cor = none) ∨ (c.rot ≠ .nonrotating ∧ ∃ f, fexpr c = .ok f ∧ cor = some f)

/-- The Coriolis form, if there is one. -/
def corPart (c : Cfg K d C F B) (cor : Option (C → K)) (X v : St K d C F B) : K :=
  match cor with
  | none => 0
  | some f => corForm c.G c.M f X.u v.u

/-- The quasi-Newton operator of the thermal shallow-water equations about a resting state. -/
theorem thermal_qn (c : Cfg K d C F B) (hG : Good c.G) (Xref : St K d C F B) (hu : Xref.u = Ve.zero)
    (ht : c.topog = none) (res : List (T K d C F B)) (h : thermalShallowWater c (fun _ => true) Xref = .ok res)
    (tau : String → K) (dt : K) (cor : Option (C → K)) (hc : CorIs c cor) :
    ∃ q, quasiNewton res ["u", "D", "b"] tau dt = .ok q ∧ ∀ X v, q X v =
      cells c.M (fun x => dot (X.u.c x) (v.u.c x)) + cells c.M (fun x => X.D.c x * v.D.c x)
        + cells c.M (fun x => X.b.c x * v.b.c x)
        + tau "u" * dt * (thermalLinear c.M v.u Xref.D Xref.b X.D X.b +
            corPart c cor X v)
        + tau "D" * dt * contCells c.M v.D Xref.D X.u
        + tau "b" * dt * advCells c.M v.b Xref.b X.u := by
  unfold thermalShallowWater SW.setupResidual at h
  cases hut : SW.uTransport c (fun _ => true) Xref with
  | error e => rw [hut] at h; cases h
  | ok ut =>
    rw [hut] at h
    simp only [ht, topogTerms, List.append_nil, Option.isSome_none, Bool.false_eq_true, if_false] at h
    have hutl : ∀ t ∈ ut, "pressure_gradient" ∉ t.labels ∧ isTD t = false := by
      intro t hmem
      unfold SW.uTransport at hut
      cases ho : c.uopt <;> rw [ho] at hut <;> cases hut
      · simp only [List.mem_singleton] at hmem; subst hmem; simp [attach_labels, isTD]
      · simp only [List.mem_cons, List.not_mem_nil, or_false] at hmem
        rcases hmem with hmem | hmem <;> subst hmem <;> simp [attach_labels, isTD]
      · simp only [List.mem_singleton] at hmem; subst hmem; simp [isTD]
    have hut' : ut.filter (fun t => !decide ("pressure_gradient" ∈ t.labels)) = ut :=
      List.filter_eq_self.2 fun t hmem => by simp [(hutl t hmem).1]
    have hres : ∃ ct : List (T K d C F B),
        ((cor = none ∧ ct = []) ∨ ∃ f, cor = some f ∧ ct = [corTerm c (fun _ => true) f]) ∧
        res = generateLinear Xref (fun _ => true) ([massU c.M, massD c.M, massB c.M] ++ ut ++
          [dTransport c (fun _ => true) Xref] ++ ct ++ [thermalSourceTerm c Xref, bTransport c (fun _ => true) Xref]) := by
      rcases hc with ⟨hr, rfl⟩ | ⟨hr, f, hf, rfl⟩
      · refine ⟨[], Or.inl ⟨rfl, rfl⟩, ?_⟩
        simp only [hr, if_true] at h
        cases h
        congr 1
        simp only [List.filter_append, hut', List.append_assoc]
        simp [massU, massD, massB, dTransport, pgTerm, attach_labels]
      · refine ⟨[corTerm c (fun _ => true) f], Or.inr ⟨f, rfl, rfl⟩, ?_⟩
        rw [if_neg hr, hf] at h
        cases h
        congr 1
        simp only [List.filter_append, hut', List.append_assoc]
        simp [massU, massD, massB, dTransport, pgTerm, corTerm, attach_labels]
    obtain ⟨ct, hct, rfl⟩ := hres
    obtain ⟨q, hq, hv⟩ := qn_value ([massU c.M, massD c.M, massB c.M] ++ ut ++
          [dTransport c (fun _ => true) Xref] ++ ct ++ [thermalSourceTerm c Xref, bTransport c (fun _ => true) Xref])
        Xref ["u", "D", "b"] tau dt (by
      intro t hmem htd
      simp only [List.mem_append, List.mem_cons, List.not_mem_nil, or_false] at hmem
      rcases hmem with (((hmem | hmem) | hmem) | hmem) | hmem
      · rcases hmem with rfl | rfl | rfl <;> rfl
      · rw [(hutl t hmem).2] at htd; cases htd
      · subst hmem; simp [isTD, dTransport, attach_labels] at htd
      · rcases hct with ⟨_, rfl⟩ | ⟨f, _, rfl⟩
        · cases hmem
        · simp only [List.mem_singleton] at hmem; subst hmem; simp [isTD, corTerm, attach_labels] at htd
      · rcases hmem with rfl | rfl
        · simp [isTD, thermalSourceTerm] at htd
        · simp [isTD, bTransport, attach_labels] at htd)
    refine ⟨q, hq, fun X v => ?_⟩
    rw [hv]
    have eU : (ut.map fun t => factor ["u", "D", "b"] tau dt t * eff Xref t X v).sum = 0 := by
      have hd : (cells c.M fun x => v.u.div x * dot (X.u.c x) ((Ve.zero : Ve K d C F B).c x)) = 0 := by
        unfold cells
        exact Finset.sum_eq_zero fun x _ => by simp [Ve.zero, dot]
      have hk : kinE c.M v.u X.u (Ve.zero : Ve K d C F B) = 0 := by rw [kinE_comm, kin_zero]
      unfold SW.uTransport at hut
      cases ho : c.uopt <;> rw [ho] at hut <;> cases hut
      · simp [attach, eff, hu, circ_zero_q c.M c.G hG, circ_zero_u c.M c.G hG, hd]
      · simp [attach, eff, hu, circ_zero_q c.M c.G hG, circ_zero_u c.M c.G hG, kin_zero, hk]
      · simp [eff, hu, adv_zero_q, adv_zero_u]
    have eM1 : factor ["u", "D", "b"] tau dt (massU c.M) = 1 := by simp [factor, isTD, massU]
    have eM2 : factor ["u", "D", "b"] tau dt (massD c.M) = 1 := by simp [factor, isTD, massD]
    have eM3 : factor ["u", "D", "b"] tau dt (massB c.M) = 1 := by simp [factor, isTD, massB]
    have eb : factor ["u", "D", "b"] tau dt (bTransport c (fun _ => true) Xref) = tau "b" * dt := by
      simp [factor, isTD, isProg, isImplicit, bTransport, attach_labels]
    have ed : factor ["u", "D", "b"] tau dt (dTransport c (fun _ => true) Xref) = tau "D" * dt := by
      simp [factor, isTD, isProg, isImplicit, dTransport, attach_labels]
    have es : factor ["u", "D", "b"] tau dt (thermalSourceTerm c Xref) = tau "u" * dt := by
      simp [factor, isTD, isProg, isImplicit, thermalSourceTerm]
    have e3 : eff Xref (bTransport c (fun _ => true) Xref) X v = advCells c.M v.b Xref.b X.u := by
      simp [bTransport, attach, eff, hu, advs_zero]
    have e4 : eff Xref (dTransport c (fun _ => true) Xref) X v = contCells c.M v.D Xref.D X.u := by
      simp [dTransport, attach, eff, hu, cont_zero]
    have e5 : (ct.map fun t => factor ["u", "D", "b"] tau dt t * eff Xref t X v).sum
        = tau "u" * dt * corPart c cor X v := by
      rcases hct with ⟨rfl, rfl⟩ | ⟨f, rfl, rfl⟩
      · simp [corPart]
      · simp [corPart, corTerm, attach, eff, factor, isTD, isProg, isImplicit]
    have e6 : eff Xref (thermalSourceTerm c Xref) X v = thermalLinear c.M v.u Xref.D Xref.b X.D X.b := rfl
    have e8 : eff Xref (massU c.M) X v = cells c.M (fun x => dot (X.u.c x) (v.u.c x)) := rfl
    have e9 : eff Xref (massD c.M) X v = cells c.M (fun x => X.D.c x * v.D.c x) := rfl
    have e10 : eff Xref (massB c.M) X v = cells c.M (fun x => X.b.c x * v.b.c x) := rfl
    simp only [List.map_append, List.sum_append, eU, e5, List.map_cons, List.map_nil, List.sum_cons, List.sum_nil, eM1,
      eM2, eM3, eb, ed, es, e3, e4, e6, e8, e9, e10]
    ring

/-- C98, thermal shallow water: what the preset computes, in the same notation as for Boussinesq, solves the quasi-Newton
system up to the difference between the weak gradient of buoyancy with the depth of the reference state and the
`Dref b div(w)` of the auxiliary form. -/
theorem C98_thermal_defect (c : Cfg K d C F B) (hG : Good c.G) (Xref : St K d C F B) (hu : Xref.u = Ve.zero)
    (ht : c.topog = none) (res : List (T K d C F B)) (h : thermalShallowWater c (fun _ => true) Xref = .ok res)
    (alpha dt : K) (cor : Option (C → K)) (hc : CorIs c cor) (q : St K d C F B → St K d C F B → K)
    (hq : quasiNewton res ["u", "D", "b"] (fun _ => alpha) dt = .ok q)
    (Vu : Set (Ve K d C F B)) (VD Vb : Set (Sc K d C F B))
    (rU : Ve K d C F B → K) (rD rB : Sc K d C F B → K) (u : Ve K d C F B) (D b y : Sc K d C F B)
    (hup : ∀ w ∈ Vu, ∀ φ ∈ VD, auxThermal c cor Xref alpha dt (fun _ => none) (stt u D (Sc.const 0)) (stt w φ (Sc.const 0)) =
      rU w + rD φ - alpha * dt * (1 / 2 * grad1 c.M w Xref.D y))
    (hb : ∀ γ ∈ Vb, cells c.M (fun x => b.c x * γ.c x) = rB γ - alpha * dt * advCells c.M γ Xref.b u) :
    ∀ w ∈ Vu, ∀ φ ∈ VD, ∀ γ ∈ Vb, q (stt u D b) (stt w φ γ) = rU w + rD φ + rB γ
      + alpha * dt * (1 / 2) * (grad1 c.M w Xref.D b - grad1 c.M w Xref.D y
        - alpha * dt * ∑ x, c.M.wC x * (Xref.D.c x * dot (u.c x) (Xref.b.g x) * w.div x)) := by
  intro w hw φ hφ γ hγ
  obtain ⟨q', hq', hv⟩ := thermal_qn c hG Xref hu ht res h (fun _ => alpha) dt cor hc
  rw [hq] at hq'; cases hq'
  have e1 := hup w hw φ hφ
  unfold auxThermal at e1
  simp only [Option.getD_none, stt] at e1
  rw [hv]
  have e2 := hb γ hγ
  simp only [stt, thermalLinear]
  have s1 : cells c.M (fun x => Xref.D.c x * (-dot (u.c x) (Xref.b.g x) * (dt * alpha)) * w.div x) =
      -(alpha * dt) * ∑ x, c.M.wC x * (Xref.D.c x * dot (u.c x) (Xref.b.g x) * w.div x) := by
    unfold cells; rw [Finset.mul_sum]; exact Finset.sum_congr rfl fun x _ => by ring
  have s3 : cells c.M (fun x => dot (w.c x) (u.c x)) = cells c.M (fun x => dot (u.c x) (w.c x)) := by
    unfold cells; exact Finset.sum_congr rfl fun x _ => by beta_reduce; rw [dot_comm]
  have s4 : cells c.M (fun x => φ.c x * D.c x) = cells c.M (fun x => D.c x * φ.c x) := by
    unfold cells; exact Finset.sum_congr rfl fun x _ => by ring
  rw [s1, s3, s4] at e1
  cases cor with
  | none => simp only [corPart] at e1 ⊢; linear_combination e1 + e2
  | some f => simp only [corPart] at e1 ⊢; linear_combination e1 + e2

/-- C98, thermal shallow water: about a resting state of uniform depth (and any buoyancy) the preset solves the
quasi-Newton system exactly, if the divergences of velocities are in the buoyancy space. -/
theorem C98_thermal_exact (c : Cfg K d C F B) (hG : Good c.G) (Xref : St K d C F B) (hu : Xref.u = Ve.zero)
    (ht : c.topog = none) (res : List (T K d C F B)) (h : thermalShallowWater c (fun _ => true) Xref = .ok res)
    (alpha dt : K) (cor : Option (C → K)) (hc : CorIs c cor) (q : St K d C F B → St K d C F B → K)
    (hq : quasiNewton res ["u", "D", "b"] (fun _ => alpha) dt = .ok q)
    (Vu : Set (Ve K d C F B)) (VD Vb : Set (Sc K d C F B)) (hf : ∀ w ∈ Vu, FluxCont c.M w)
    (hdiv : ∀ w ∈ Vu, ∃ γ ∈ Vb, ∀ x, γ.c x = w.div x) (H : K) (hH : Xref.D = Sc.const H)
    (rU : Ve K d C F B → K) (rD rB : Sc K d C F B → K) (u : Ve K d C F B) (D b y : Sc K d C F B)
    (hy : ∀ γ ∈ Vb, cells c.M (fun x => y.c x * γ.c x) = rB γ)
    (hup : ∀ w ∈ Vu, ∀ φ ∈ VD, auxThermal c cor Xref alpha dt (fun _ => none) (stt u D (Sc.const 0)) (stt w φ (Sc.const 0)) =
      rU w + rD φ - alpha * dt * (1 / 2 * grad1 c.M w Xref.D y))
    (hb : ∀ γ ∈ Vb, cells c.M (fun x => b.c x * γ.c x) = rB γ - alpha * dt * advCells c.M γ Xref.b u) :
    ∀ w ∈ Vu, ∀ φ ∈ VD, ∀ γ ∈ Vb, q (stt u D b) (stt w φ γ) = rU w + rD φ + rB γ := by
  intro w hw φ hφ γ hγ
  rw [C98_thermal_defect c hG Xref hu ht res h alpha dt cor hc q hq Vu VD Vb rU rD rB u D b y hup hb w hw φ hφ γ hγ]
  obtain ⟨γ', hγ', hd⟩ := hdiv w hw
  have e1 := hb γ' hγ'
  rw [← hy γ' hγ'] at e1
  simp only [hd, advCells, cells] at e1
  rw [hH, grad1_const_left c.M w b H (hf w hw), grad1_const_left c.M w y H (hf w hw)]
  unfold pressGrad cells
  have s1 : (∑ x, c.M.wC x * ((Sc.const H : Sc K d C F B).c x * dot (u.c x) (Xref.b.g x) * w.div x)) =
      H * ∑ x, c.M.wC x * (w.div x * dot (u.c x) (Xref.b.g x)) := by
    rw [Finset.mul_sum]; exact Finset.sum_congr rfl fun x _ => by simp only [Sc.const]; ring
  have s2 : ∀ a : Sc K d C F B, (∑ x, c.M.wC x * (w.div x * a.c x)) = ∑ x, c.M.wC x * (a.c x * w.div x) :=
    fun a => Finset.sum_congr rfl fun x _ => by ring
  rw [s1, s2 b, s2 y]
  linear_combination (-(alpha * dt * (1 / 2) * H)) * e1

end Forms

section Concrete
open Gusto.DG Gusto.EqSet Gusto.SW
open Gusto.Props.DGProps Gusto.Props.SWProps

theorem box_rest_built (uopt : UOpt) (hu : uopt ≠ .invalid) (Xref : St ℚ 2 (Fin 2) (Fin 4) (Fin 0)) :
    ∃ res, thermalShallowWater (boxCfg 10 1 uopt none (Sc.const 0)) (fun _ => true) Xref = .ok res := by
  cases uopt <;> first | exact absurd rfl hu | exact ⟨_, rfl⟩

/-- C98, refuted: with a reference depth that varies, the preset does not solve the quasi-Newton system: on the mesh of
two cells, with continuous reference depth and buoyancy, all the sub-solves of the preset are exact, and the residual of
the momentum equation is off by 1. -/
theorem C98_thermal_refuted :
    let c := boxCfg 10 1 .vectorInvariant none (Sc.const 0)
    let Xref : St ℚ 2 (Fin 2) (Fin 4) (Fin 0) := ⟨Ve.zero, bsc ![0, 1] ![1, 0], bsc ![1, 0] ![0, 1], Sc.const 0⟩
    let u := bve (fun _ => 1) 0
    let D : Sc ℚ 2 (Fin 2) (Fin 4) (Fin 0) := Sc.const 0
    let b := bsc ![1, -1] ![1, -1]
    let y : Sc ℚ 2 (Fin 2) (Fin 4) (Fin 0) := Sc.const 0
    ∃ res q, ∃ rU : Ve ℚ 2 (Fin 2) (Fin 4) (Fin 0) → ℚ, ∃ rD rB : Sc ℚ 2 (Fin 2) (Fin 4) (Fin 0) → ℚ,
      thermalShallowWater c (fun _ => true) Xref = .ok res ∧
      quasiNewton res ["u", "D", "b"] (fun _ => 1) 1 = .ok q ∧
      (∀ γ, cells c.M (fun x => y.c x * γ.c x) = rB γ) ∧
      (∀ w φ, auxThermal c (some fun _ => 1) Xref 1 1 (fun _ => none) (stt u D (Sc.const 0)) (stt w φ (Sc.const 0)) =
        rU w + rD φ - 1 / 2 * grad1 c.M w Xref.D y) ∧
      (∀ γ, cells c.M (fun x => b.c x * γ.c x) = rB γ - advCells c.M γ Xref.b u) ∧
      q (stt u D b) (stt u (Sc.const 0) (Sc.const 0)) = rU u + rD (Sc.const 0) + rB (Sc.const 0) - 1 := by
  intro c Xref u D b y
  obtain ⟨res, hres⟩ := box_rest_built .vectorInvariant (by decide) Xref
  have hc : CorIs c (some fun _ => 1) := Or.inr ⟨by decide, _, rfl, rfl⟩
  obtain ⟨q, hq, _⟩ := thermal_qn c C95_plane_good Xref rfl rfl res hres (fun _ => 1) 1 _ hc
  have hadv : ∀ γ : Sc ℚ 2 (Fin 2) (Fin 4) (Fin 0), cells c.M (fun x => b.c x * γ.c x) = 0 - advCells c.M γ Xref.b u := by
    intro γ
    simp [cells, advCells, c, boxCfg, SWProps.box, Xref, u, b, bve, bsc, dot, Fin.sum_univ_two]
    ring
  have hy0 : ∀ w : Ve ℚ 2 (Fin 2) (Fin 4) (Fin 0), grad1 c.M w Xref.D y = 0 := by
    intro w; simp [grad1, Gusto.EqnDiag.pgf, y, Sc.const]
  let rU : Ve ℚ 2 (Fin 2) (Fin 4) (Fin 0) → ℚ := fun w =>
    auxThermal c (some fun _ => 1) Xref 1 1 (fun _ => none) (stt u D (Sc.const 0)) (stt w (Sc.const 0) (Sc.const 0))
  let rD : Sc ℚ 2 (Fin 2) (Fin 4) (Fin 0) → ℚ := fun φ => contCells c.M φ Xref.D u
  have haux : ∀ w φ, auxThermal c (some fun _ => 1) Xref 1 1 (fun _ => none) (stt u D (Sc.const 0)) (stt w φ (Sc.const 0)) =
        rU w + rD φ - 1 / 2 * grad1 c.M w Xref.D y := by
    intro w φ
    rw [hy0]
    simp only [rU, rD, auxThermal, stt, Option.getD_none]
    have z1 : cells c.M (fun x => φ.c x * D.c x) = 0 := Finset.sum_eq_zero fun x _ => by simp [D, Sc.const]
    have z2 : cells c.M (fun x => (Sc.const 0 : Sc ℚ 2 (Fin 2) (Fin 4) (Fin 0)).c x * D.c x) = 0 :=
      Finset.sum_eq_zero fun x _ => by simp [D, Sc.const]
    have z3 : contCells c.M (Sc.const 0) Xref.D u = 0 := Finset.sum_eq_zero fun x _ => by simp [Sc.const]
    rw [z1, z2, z3]; ring
  refine ⟨res, q, rU, rD, fun _ => 0, hres, hq, ?_, haux, hadv, ?_⟩
  · intro γ; exact Finset.sum_eq_zero fun x _ => by simp [y, Sc.const]
  · rw [C98_thermal_defect c C95_plane_good Xref rfl rfl res hres 1 1 _ hc q hq Set.univ Set.univ Set.univ rU rD
      (fun _ => 0) u D b y (fun w _ φ _ => by rw [haux]; ring) (fun γ _ => by rw [hadv]; ring) u trivial (Sc.const 0)
      trivial (Sc.const 0) trivial, hy0]
    simp [grad1, Gusto.EqnDiag.pgf, c, boxCfg, SWProps.box, Xref, u, b, bve, bsc, dot, DG.Ve.div, Fin.sum_univ_two,
      Fin.sum_univ_four]
    norm_num
    ring

/-- The hypotheses of `C98_thermal_exact` hold for a rotating flow with a buoyancy gradient: the spaces are all
velocities and scalars of the mesh of two cells, the increments are not zero. -/
example : let c := boxCfg 10 1 .circulation none (Sc.const 0)
    let Xref : St ℚ 2 (Fin 2) (Fin 4) (Fin 0) := ⟨Ve.zero, Sc.const 5, bsc ![1, 0] ![0, 1], Sc.const 0⟩
    let u := bve (fun _ => 1) 0
    let D : Sc ℚ 2 (Fin 2) (Fin 4) (Fin 0) := Sc.const 0
    let b := bsc ![1, -1] ![1, -1]
    (∃ res q, thermalShallowWater c (fun _ => true) Xref = .ok res ∧
      quasiNewton res ["u", "D", "b"] (fun _ => 1) 1 = .ok q) ∧ CorIs c (some fun _ => 1) ∧
      (∀ a s, FluxCont c.M (bve a s)) ∧ (∀ a s, ∃ l r, ∀ x, (bsc l r).c x = (bve a s).div x) ∧
      (∀ γ, cells c.M (fun x => b.c x * γ.c x) = 0 - advCells c.M γ Xref.b u) ∧ b ≠ D := by
  intro c Xref u D b
  obtain ⟨res, hres⟩ := box_rest_built .circulation (by decide) Xref
  have hc : CorIs c (some fun _ => 1) := Or.inr ⟨by decide, _, rfl, rfl⟩
  obtain ⟨q, hq, _⟩ := thermal_qn c C95_plane_good Xref rfl rfl res hres (fun _ => 1) 1 _ hc
  refine ⟨⟨res, q, hres, hq⟩, hc, fun a s => (box_ok 0 0 a s).2.1, fun a s => ?_, fun γ => ?_, fun hb => ?_⟩
  · refine ⟨![a 0 - a 1, a 1 - a 0], ![a 0 - a 1, a 1 - a 0], fun x => ?_⟩
    fin_cases x <;> simp [bsc, bve, DG.Ve.div, Fin.sum_univ_two]
  · simp [cells, advCells, c, boxCfg, SWProps.box, Xref, u, b, bve, bsc, dot, Fin.sum_univ_two]
    ring
  · have := congrArg (fun s : Sc ℚ 2 (Fin 2) (Fin 4) (Fin 0) => s.c 0) hb
    simp [b, D, bsc, Sc.const] at this

open Gusto.Bou Gusto.Props.BouProps in
/-- The hypotheses of `C98_boussinesq_exact` hold for a stably stratified slice: a uniform rise with the buoyancy it
carries up. -/
example : let c := sliceCfg 2 true .vectorInvariant
    let Xref : St ℚ 2 (Fin 2) (Fin 4) (Fin 0) := ⟨Ve.zero, Sc.const 3, bsc 0 1, Sc.const 0⟩
    let u := bve (fun _ => 1) 0
    let b := bsc (fun _ => -1) (fun _ => -1)
    (∃ res q a, boussinesq c (fun _ => true) Xref = .ok res ∧ quasiNewton res ["u", "p", "b"] (fun _ => 1) 1 = .ok q ∧
      auxBoussinesq c Xref 1 1 (fun _ => none) none = .ok a) ∧
    (∀ a s, ∃ l r, ∀ x, (bsc l r).c x = dot ((bve a s).c x) (c.k x)) ∧ (∀ x i, Xref.D.g x i = 0) ∧
    (∀ x i, Xref.b.g x i = 1 * c.k x i) ∧ (∀ x, dot (c.k x) (c.k x) = 1) ∧
    (∀ γ, cells c.M (fun x => b.c x * γ.c x) = 0 - 1 * 1 * advCells c.M γ Xref.b u) := by
  intro c Xref u b
  obtain ⟨res, hres⟩ := (C97_accepts c (fun _ => true) Xref).2 ⟨by decide, rfl, Or.inl rfl⟩
  obtain ⟨q, hq, _⟩ := bou_qn c C97_slice_good Xref rfl res hres (fun _ => 1) 1 none rfl
  refine ⟨⟨res, q, _, hres, hq, rfl⟩, fun a s => ?_, fun x i => rfl, fun x i => ?_, fun x => ?_, fun γ => ?_⟩
  · refine ⟨fun _ => (a 0 + a 1) / 2, fun _ => (a 0 + a 1) / 2, fun x => ?_⟩
    simp [bsc, bve, c, sliceCfg, dot, Fin.sum_univ_two]
  · simp [Xref, bsc, c, sliceCfg]
  · simp [c, sliceCfg, dot, Fin.sum_univ_two]
  · simp [cells, advCells, c, sliceCfg, SWProps.box, Xref, u, b, bve, bsc, dot, Fin.sum_univ_two]
end Concrete

end Gusto.Props.SolversProps
