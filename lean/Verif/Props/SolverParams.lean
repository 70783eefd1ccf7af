import Verif.Model.SolverParams
import Verif.Props.SUPG
import Mathlib.Tactic.LinearCombination
import Mathlib.Tactic.FieldSimp
import Mathlib.Tactic.NormNum
import Mathlib.Algebra.Module.LinearMap.Basic
import Mathlib.Algebra.Field.Rat

set_option autoImplicit false
set_option linter.unusedSectionVars false
set_option linter.unusedSimpArgs false

/-!
# C140: solver parameters; C141: the mass solves of explicit schemes
-/

namespace Gusto.Props.SolverParamsProps
open Gusto SolverParams

/-! ### Specification -/

/-- The parameters that an explicit scheme sets whatever the user says. -/
def forced : List String := ["ksp_type", "pc_type", "sub_pc_type", "snes_type"]

/-- The parameters that an explicit scheme with a linear time derivative sets if the user does not. -/
def lagging : List String := ["snes_lag_jacobian", "snes_lag_jacobian_persists", "snes_lag_preconditioner", "snes_lag_preconditioner_persists"]

theorem set_of_ne (d : Dict) {k k' : String} (v : String) (h : k' ≠ k) : d.set k v k' = d k' := Function.update_of_ne h _ _

theorem set_self (d : Dict) (k v : String) : d.set k v k = some v := Function.update_self _ _ _

theorem setdefault_of_ne (d : Dict) {k k' : String} (v : String) (h : k' ≠ k) : d.setdefault k v k' = d k' := by
  unfold Dict.setdefault
  split
  · rfl
  · exact set_of_ne d v h

theorem setdefault_self (d : Dict) (k v : String) : d.setdefault k v k = some ((d k).getD v) := by
  unfold Dict.setdefault
  cases h : d k with
  | none => simp [Dict.set]
  | some x => simp [h]

/-- What an explicit scheme makes of a dictionary, key by key. -/
theorem explicitSetup_spec (nl : Bool) (d : Dict) :
    explicitSetup nl d "ksp_type" = some "cg" ∧ explicitSetup nl d "pc_type" = some "bjacobi" ∧
    explicitSetup nl d "sub_pc_type" = some "ilu" ∧ explicitSetup nl d "snes_type" = some (if nl then "newtonls" else "ksponly") ∧
    (∀ k ∈ lagging, explicitSetup nl d k = if nl then d k else some ((d k).getD (if k = "snes_lag_jacobian" ∨ k = "snes_lag_preconditioner" then "-2" else "None"))) ∧
    ∀ k, k ∉ forced → k ∉ lagging → explicitSetup nl d k = d k := by
  cases nl
  · have e : explicitSetup false d = ((((updateMass d).set "snes_type" "ksponly").setdefault "snes_lag_jacobian" "-2").setdefault
        "snes_lag_jacobian_persists" "None" |>.setdefault "snes_lag_preconditioner" "-2").setdefault "snes_lag_preconditioner_persists" "None" := by
      simp [explicitSetup]
    rw [e]
    refine ⟨?_, ?_, ?_, ?_, ?_, ?_⟩
    · simp [setdefault_of_ne, set_of_ne, set_self, updateMass]
    · simp [setdefault_of_ne, set_of_ne, set_self, updateMass]
    · simp [setdefault_of_ne, set_of_ne, set_self, updateMass]
    · simp [setdefault_of_ne, set_of_ne, set_self, updateMass]
    · intro k hk
      simp only [lagging, List.mem_cons, List.not_mem_nil, or_false] at hk
      rcases hk with rfl | rfl | rfl | rfl <;> simp [setdefault_of_ne, setdefault_self, set_of_ne, updateMass]
    · intro k h1 h2
      simp only [forced, lagging, List.mem_cons, List.not_mem_nil, or_false, not_or] at h1 h2
      rw [setdefault_of_ne _ _ h2.2.2.2, setdefault_of_ne _ _ h2.2.2.1, setdefault_of_ne _ _ h2.2.1, setdefault_of_ne _ _ h2.1,
        set_of_ne _ _ h1.2.2.2, updateMass, set_of_ne _ _ h1.2.2.1, set_of_ne _ _ h1.2.1, set_of_ne _ _ h1.1]
  · have e : explicitSetup true d = ((updateMass d).set "snes_type" "ksponly").set "snes_type" "newtonls" := by
      simp [explicitSetup, set_self]
    rw [e]
    refine ⟨?_, ?_, ?_, ?_, ?_, ?_⟩
    · simp [set_of_ne, set_self, updateMass]
    · simp [set_of_ne, set_self, updateMass]
    · simp [set_of_ne, set_self, updateMass]
    · simp [set_of_ne, set_self, updateMass]
    · intro k hk
      simp only [lagging, List.mem_cons, List.not_mem_nil, or_false] at hk
      rcases hk with rfl | rfl | rfl | rfl <;> simp [set_of_ne, updateMass]
    · intro k h1 h2
      simp only [forced, List.mem_cons, List.not_mem_nil, or_false, not_or] at h1
      rw [set_of_ne _ _ h1.2.2.2, set_of_ne _ _ h1.2.2.2, updateMass, set_of_ne _ _ h1.2.2.1, set_of_ne _ _ h1.2.1, set_of_ne _ _ h1.1]

/-- Setting up again changes nothing. -/
theorem explicitSetup_idem (nl : Bool) (d : Dict) : explicitSetup nl (explicitSetup nl d) = explicitSetup nl d := by
  obtain ⟨a1, a2, a3, a4, a5, a6⟩ := explicitSetup_spec nl d
  obtain ⟨b1, b2, b3, b4, b5, b6⟩ := explicitSetup_spec nl (explicitSetup nl d)
  funext k
  by_cases h1 : k ∈ forced
  · simp only [forced, List.mem_cons, List.not_mem_nil, or_false] at h1
    rcases h1 with rfl | rfl | rfl | rfl
    · rw [b1, a1]
    · rw [b2, a2]
    · rw [b3, a3]
    · rw [b4, a4]
  by_cases h2 : k ∈ lagging
  · rw [b5 k h2, a5 k h2]
    cases nl <;> simp
  · rw [b6 k h1 h2]

theorem setup_of_ne (s : Scheme) (h : ℕ → Dict) {r : ℕ} (hr : s.ref ≠ r) : setup s h r = h r := by
  unfold setup
  cases s.kind with
  | explicit nl => exact Function.update_of_ne (Ne.symm hr) _ _
  | implicit => rfl

/-! ### C140 -/

/-- C140: the parameters of a scheme depend only on the setups of the schemes that hold the same dictionary: whatever other schemes there
are and in whatever order and however often all of them are set up, the solver of a scheme which is not explicit, and whose dictionary no
explicit scheme holds, gets what the user gave, key by key; and the dictionary of the user is what it was. -/
theorem C140_implicit (schemes : List Scheme) (heap : ℕ → Dict) (s : Scheme)
    (hs : ∀ s' ∈ schemes, s'.ref = s.ref → s'.kind = .implicit) : parameters s (setups schemes heap) = heap s.ref := by
  unfold parameters setups
  induction schemes generalizing heap with
  | nil => rfl
  | cons a l ih =>
    rw [List.foldl_cons, ih (setup a heap) (fun s' h => hs s' (List.mem_cons_of_mem _ h))]
    unfold setup
    cases hk : a.kind with
    | implicit => rfl
    | explicit nl =>
      have : a.ref ≠ s.ref := fun h => by
        have := hs a List.mem_cons_self h
        rw [hk] at this; cases this
      exact Function.update_of_ne (Ne.symm this) _ _

/-- C140: an explicit scheme that shares its dictionary with no other explicit scheme gets the parameters of the user, except that the
linear solver and the kind of nonlinear solver are always set, and that for a linear time derivative the Jacobian is kept from the first
solve on unless the user says how often to build it. -/
theorem C140_explicit (schemes : List Scheme) (heap : ℕ → Dict) (nl : Bool) (r : ℕ) (hm : (⟨.explicit nl, r⟩ : Scheme) ∈ schemes)
    (hs : ∀ s' ∈ schemes, s'.ref = r → s'.kind = .implicit ∨ s'.kind = .explicit nl) :
    let p := parameters ⟨.explicit nl, r⟩ (setups schemes heap)
    p "ksp_type" = some "cg" ∧ p "pc_type" = some "bjacobi" ∧ p "sub_pc_type" = some "ilu" ∧
    p "snes_type" = some (if nl then "newtonls" else "ksponly") ∧
    (∀ k ∈ lagging, p k = if nl then heap r k else
      some ((heap r k).getD (if k = "snes_lag_jacobian" ∨ k = "snes_lag_preconditioner" then "-2" else "None"))) ∧
    ∀ k, k ∉ forced → k ∉ lagging → p k = heap r k := by
  have key : ∀ (l : List Scheme) (h : ℕ → Dict), (∀ s' ∈ l, s'.ref = r → s'.kind = .implicit ∨ s'.kind = .explicit nl) →
      (h r = heap r ∨ h r = explicitSetup nl (heap r)) →
      (setups l h r = heap r ∧ (⟨.explicit nl, r⟩ : Scheme) ∉ l ∨ setups l h r = explicitSetup nl (heap r)) := by
    intro l
    induction l with
    | nil =>
      intro h _ hh
      rcases hh with hh | hh
      · exact Or.inl ⟨hh, by simp⟩
      · exact Or.inr hh
    | cons a l ih =>
      intro h hl hh
      have hl' := fun s' (h' : s' ∈ l) => hl s' (List.mem_cons_of_mem _ h')
      show (setups l (setup a h) r = _ ∧ _) ∨ setups l (setup a h) r = _
      by_cases har : a.ref = r
      · rcases hl a List.mem_cons_self har with hk | hk
        · have e : setup a h = h := by unfold setup; rw [hk]
          rw [e]
          rcases ih h hl' hh with ⟨e1, e2⟩ | e1
          · refine Or.inl ⟨e1, ?_⟩
            simp only [List.mem_cons, not_or]
            refine ⟨fun h' => ?_, e2⟩
            rw [← h'] at hk; cases hk
          · exact Or.inr e1
        · have e : setup a h r = explicitSetup nl (heap r) := by
            unfold setup; rw [hk, har]
            show Function.update h r (explicitSetup nl (h r)) r = _
            rw [Function.update_self]
            rcases hh with hh | hh
            · rw [hh]
            · rw [hh, explicitSetup_idem]
          have all : ∀ (l : List Scheme) (g : ℕ → Dict), (∀ s' ∈ l, s'.ref = r → s'.kind = .implicit ∨ s'.kind = .explicit nl) →
              g r = explicitSetup nl (heap r) → setups l g r = explicitSetup nl (heap r) := by
            intro l
            induction l with
            | nil => intro g _ hg; exact hg
            | cons b l ih2 =>
              intro g hl2 hg
              refine ih2 (setup b g) (fun s' h' => hl2 s' (List.mem_cons_of_mem _ h')) ?_
              by_cases hbr : b.ref = r
              · rcases hl2 b List.mem_cons_self hbr with hk | hk
                · unfold setup; rw [hk]; exact hg
                · unfold setup; rw [hk, hbr]
                  show Function.update g r (explicitSetup nl (g r)) r = _
                  rw [Function.update_self, hg, explicitSetup_idem]
              · exact (setup_of_ne b g hbr).trans hg
          exact Or.inr (all l (setup a h) hl' e)
      · have e : setup a h r = h r := setup_of_ne a h har
        rcases ih (setup a h) hl' (by rw [e]; exact hh) with ⟨e1, e2⟩ | e1
        · refine Or.inl ⟨e1, ?_⟩
          simp only [List.mem_cons, not_or]
          exact ⟨fun h' => har (by rw [← h']), e2⟩
        · exact Or.inr e1
  have := key schemes heap hs (Or.inl rfl)
  rcases this with ⟨-, h⟩ | h
  · exact absurd hm h
  · intro p
    have hp : p = explicitSetup nl (heap r) := h
    rw [hp]
    exact explicitSetup_spec nl (heap r)

/-- C140, the constructors: without parameters every scheme has a new dictionary with the defaults; with parameters it holds the object
of the user; nothing else is written. -/
theorem C140_construct (kind : Kind) (eN : Bool) (user : Option ℕ) (new : ℕ) (heap : ℕ → Dict) (isEmpty : Dict → Bool)
    (hnew : ∀ r, user = some r → r ≠ new) :
    let c := construct kind eN user new heap isEmpty
    c.1.kind = kind ∧ (∀ r, r ≠ new → c.2 r = heap r) ∧
    (user = none → parameters c.1 c.2 = defaults) ∧
    (∀ r, user = some r → isEmpty (heap r) = false → c.1.ref = r ∧ parameters c.1 c.2 = heap r) := by
  cases user with
  | none => exact ⟨rfl, fun r hr => Function.update_of_ne hr _ _, fun _ => Function.update_self _ _ _, fun r h => by cases h⟩
  | some r0 =>
    by_cases he : (eN && isEmpty (heap r0)) = true
    · have e : construct kind eN (some r0) new heap isEmpty = (⟨kind, new⟩, Function.update heap new defaults) := by
        simp only [construct]; rw [if_pos he]
      rw [e]
      refine ⟨rfl, fun r hr => Function.update_of_ne hr _ _, fun h => (by cases h), fun r h hf => ?_⟩
      cases h
      rw [hf] at he; simp at he
    · have e : construct kind eN (some r0) new heap isEmpty = (⟨kind, r0⟩, heap) := by
        simp only [construct]; rw [if_neg he]
      rw [e]
      refine ⟨rfl, fun r _ => rfl, fun h => (by cases h), fun r h _ => ?_⟩
      cases h
      exact ⟨rfl, rfl⟩

/-- The dictionary of a user: a direct solver, and a tolerance. -/
def mine : Dict := fun k =>
  if k = "ksp_type" then some "preonly" else if k = "pc_type" then some "lu" else if k = "snes_type" then some "newtonls"
  else if k = "snes_rtol" then some "1e-10" else none

/-- The hypotheses of the two theorems are met: an implicit and two explicit schemes, set up in any order. -/
example : parameters ⟨.implicit, 0⟩ (setups [⟨.explicit false, 1⟩, ⟨.implicit, 0⟩, ⟨.explicit true, 2⟩, ⟨.explicit false, 1⟩] fun _ => mine) = mine :=
  C140_implicit _ _ _ (by simp)

example : parameters ⟨.explicit false, 1⟩ (setups [⟨.explicit false, 1⟩, ⟨.implicit, 0⟩, ⟨.explicit true, 2⟩, ⟨.explicit false, 1⟩] fun _ => mine)
    "snes_rtol" = some "1e-10" :=
  (C140_explicit [⟨.explicit false, 1⟩, ⟨.implicit, 0⟩, ⟨.explicit true, 2⟩, ⟨.explicit false, 1⟩] (fun _ => mine) false 1 (by simp)
    (by simp)).2.2.2.2.2 "snes_rtol" (by simp [forced]) (by simp [lagging])

/-- C140 fails for explicit schemes: the linear solver, the preconditioner and the kind of nonlinear solver that the user asks for are
replaced, whatever they are. -/
theorem C140_explicit_refuted (nl : Bool) (heap : ℕ → Dict) (r : ℕ) (ksp : String) (hk : heap r "ksp_type" = some ksp)
    (h1 : ksp ≠ "cg") :
    parameters ⟨.explicit nl, r⟩ (setups [⟨.explicit nl, r⟩] heap) "ksp_type" = some "cg" ∧
    parameters ⟨.explicit nl, r⟩ (setups [⟨.explicit nl, r⟩] heap) "pc_type" = some "bjacobi" ∧
    setups [⟨.explicit nl, r⟩] heap r ≠ heap r := by
  obtain ⟨a, b, -⟩ := C140_explicit [⟨.explicit nl, r⟩] heap nl r (by simp) (by simp)
  refine ⟨a, b, fun h => ?_⟩
  have a : setups [⟨.explicit nl, r⟩] heap r "ksp_type" = some "cg" := a
  rw [h, hk] at a
  exact h1 (Option.some.inj a)

example : setups [⟨.explicit true, 0⟩] (fun _ => mine) 0 ≠ mine :=
  (C140_explicit_refuted true (fun _ => mine) 0 "preonly" rfl (by decide)).2.2

/-- C140 fails: an implicit scheme that is given the same dictionary as an explicit one solves its nonlinear equations with one linear
solve and a Jacobian that is never built again, although the user asks for Newton's method, in whatever order the two are set up. -/
theorem C140_shared_refuted (heap : ℕ → Dict) (r : ℕ) (hl : heap r "snes_lag_jacobian" = none) (schemes : List Scheme)
    (hS : schemes = [⟨.explicit false, r⟩, ⟨.implicit, r⟩] ∨ schemes = [⟨.implicit, r⟩, ⟨.explicit false, r⟩]) :
    parameters ⟨.implicit, r⟩ (setups schemes heap) "snes_type" = some "ksponly" ∧
    parameters ⟨.implicit, r⟩ (setups schemes heap) "snes_lag_jacobian" = some "-2" := by
  obtain ⟨-, -, -, a, b, -⟩ := C140_explicit schemes heap false r (by rcases hS with rfl | rfl <;> simp)
    (by rcases hS with rfl | rfl <;> simp)
  refine ⟨a, ?_⟩
  have := b "snes_lag_jacobian" (by simp [lagging])
  show parameters ⟨.explicit false, r⟩ (setups schemes heap) "snes_lag_jacobian" = _
  simpa [hl] using this

example : parameters ⟨.implicit, 0⟩ (setups [⟨.implicit, 0⟩, ⟨.explicit false, 0⟩] fun _ => mine) "snes_type" = some "ksponly" :=
  (C140_shared_refuted (fun _ => mine) 0 rfl _ (Or.inr rfl)).1

/-- C140 fails: two explicit schemes with one dictionary, the first with a nonlinear and the second with a linear time derivative: the
first, which is announced to use Newton's method, does not. -/
theorem C140_two_explicit_refuted (heap : ℕ → Dict) (r : ℕ) :
    parameters ⟨.explicit true, r⟩ (setups [⟨.explicit true, r⟩, ⟨.explicit false, r⟩] heap) "snes_type" = some "ksponly" := by
  show setup ⟨.explicit false, r⟩ (setup ⟨.explicit true, r⟩ heap) r "snes_type" = _
  unfold setup
  show Function.update (Function.update heap r (explicitSetup true (heap r))) r _ r "snes_type" = _
  rw [Function.update_self]
  exact (explicitSetup_spec false _).2.2.2.1

/-! ### C141 -/

section lag
variable {K X D : Type*} [Field K] [AddCommGroup X] [Module K X] [AddCommGroup D] [Module K D]

/-- C141: if the mass operator is the same in all solves of a run, every solve is exact, whatever the right-hand sides and the guesses. -/
theorem C141_constant_mass (A : X ≃ₗ[K] D) (l : List (D × X)) :
    lagSolves none (l.map fun p => (A, p.1, p.2)) = l.map fun p => A.symm p.1 := by
  have key : ∀ (kept : Option (X ≃ₗ[K] D)), (kept = none ∨ kept = some A) →
      lagSolves kept (l.map fun p => (A, p.1, p.2)) = l.map fun p => A.symm p.1 := by
    induction l with
    | nil => intro _ _; rfl
    | cons p l ih =>
      intro kept hk
      have e : kept.getD A = A := by rcases hk with rfl | rfl <;> rfl
      simp only [List.map_cons, lagSolves, lagSolve, e]
      rw [ih (some A) (Or.inr rfl)]
      simp
  exact key none (Or.inl rfl)

/-- C141: in general a solve is exact if and only if the kept operator and the current one do the same to the error of the guess. -/
theorem C141_exact_iff (J A : X ≃ₗ[K] D) (b : D) (guess : X) :
    A (lagSolve (some J) A b guess).2 = b ↔ A (guess - A.symm b) = J (guess - A.symm b) := by
  simp only [lagSolve, Option.getD_some]
  have e : A guess - b = A (guess - A.symm b) := by simp
  rw [e]
  set w := guess - A.symm b with hw
  have g : guess = w + A.symm b := by rw [hw]; simp
  rw [g, map_sub, map_add, LinearEquiv.apply_symm_apply]
  constructor
  · intro h
    have h1 : A w = A (J.symm (A w)) := by
      have : A w + b - A (J.symm (A w)) - b = 0 := by rw [h]; simp
      have : A w - A (J.symm (A w)) = 0 := by rw [← this]; abel
      exact sub_eq_zero.1 this
    have h2 := A.injective h1
    rw [LinearEquiv.eq_symm_apply] at h2
    exact h2.symm
  · intro h
    have : J.symm (A w) = w := by rw [h]; simp
    rw [this]
    abel

/-- C141: the operator of the first solve is kept for good: every later solve of a run, however long and whatever the operators in
between, is one correction with the operator of the first. -/
theorem C141_first_is_kept (J : X ≃ₗ[K] D) (b0 : D) (g0 : X) (l : List ((X ≃ₗ[K] D) × D × X)) :
    lagSolves none ((J, b0, g0) :: l) = J.symm b0 :: l.map fun p => p.2.2 - J.symm (p.1 p.2.2 - p.2.1) := by
  have key : ∀ l : List ((X ≃ₗ[K] D) × D × X), lagSolves (some J) l = l.map fun p => p.2.2 - J.symm (p.1 p.2.2 - p.2.1) := by
    intro l
    induction l with
    | nil => rfl
    | cons p l ih => simp only [lagSolves, lagSolve, Option.getD_some, ih, List.map_cons]
  have e : (lagSolve none J b0 g0).1 = some J := rfl
  simp only [lagSolves, e, key]
  simp [lagSolve]

/-- C141 fails for every later solve, not only for the one after the change: if the operator is `J` in the first solve and `A` in all the
others, then for each number of solves there is a right-hand side for which the last result is wrong. -/
theorem C141_never_recovers_refuted (J A : X ≃ₗ[K] D) (w : X) (h : A w ≠ J w) (b0 : D) (g0 guess : X) (l : List (D × X)) :
    ∃ b y, (lagSolves none ((J, b0, g0) :: (l.map fun p => (A, p.1, p.2)) ++ [(A, b, guess)])).getLast? = some y ∧ A y ≠ b := by
  refine ⟨A (guess - w), guess - J.symm (A guess - A (guess - w)), ?_, ?_⟩
  · rw [List.cons_append, C141_first_is_kept, List.map_append, ← List.cons_append, List.map_cons, List.map_nil,
      List.getLast?_concat]
  · intro hc
    have := (C141_exact_iff J A (A (guess - w)) guess).1 hc
    simp at this
    exact h this

/-- C141 fails when the mass operator changes, as it does with SUPG, whose test function contains the wind: if the operator of a later
solve differs from that of the first on some state, there is a right-hand side for which the result does not solve its system, from the
guess of the stage (and then for every guess that misses the solution by this state). -/
theorem C141_changing_mass_refuted (J A : X ≃ₗ[K] D) (w : X) (h : A w ≠ J w) (b0 : D) (g0 guess : X) :
    ∃ b, ∃ y0 y, lagSolves none [(J, b0, g0), (A, b, guess)] = [y0, y] ∧ J y0 = b0 ∧ A y ≠ b := by
  refine ⟨A (guess - w), _, _, rfl, ?_, ?_⟩
  · simp [lagSolve]
  · intro hc
    have := (C141_exact_iff J A (A (guess - w)) guess).1 hc
    simp at this
    exact h this

end lag

section supg

open SUPG SUPGProps in
/-- C141: with SUPG the mass term of the wind `u`, tested with `φ`, is the mass term tested with `φ + S u φ`, so it changes with the wind
unless the mass of the state tested with `S u φ` does not. -/
theorem C141_supg_mass {U T D : Type*} [AddCommGroup T] (S : U → T → T) (n b : ℕ) (hb : b < n) (m : T → D) (ls : List String) (f : String) :
    ∀ v φ, (setupVelocity b (setupAll S n [⟨fun _ φ => m φ, ls, f, none, none⟩])).map (fun t => t.form v φ) = [m (φ + S (v b) φ)] := by
  intro v φ
  rw [C135_all S n b hb _ (by simp [Fresh])]
  simp [meant, withVelocity, adjusted]

/-- The mass matrix of two nodes with the test function `φ + tau u φ'`, where the streamline part is antisymmetric: `M + tau u C` with
`M = [[2, 1], [1, 2]]` and `C = [[0, 1], [-1, 0]]`; invertible for every wind. -/
def supgMass (tu : ℚ) : (ℚ × ℚ) ≃ₗ[ℚ] (ℚ × ℚ) where
  toFun x := (2 * x.1 + (1 + tu) * x.2, (1 - tu) * x.1 + 2 * x.2)
  invFun d := ((2 * d.1 - (1 + tu) * d.2) / (3 + tu ^ 2), (2 * d.2 - (1 - tu) * d.1) / (3 + tu ^ 2))
  map_add' x y := by ext <;> simp <;> ring
  map_smul' a x := by ext <;> simp <;> ring
  left_inv x := by
    have : (3 + tu ^ 2 : ℚ) ≠ 0 := by positivity
    ext <;> (simp; field_simp; ring)
  right_inv d := by
    have : (3 + tu ^ 2 : ℚ) ≠ 0 := by positivity
    ext <;> (simp; field_simp; ring)

/-- A wind that changes once, after the first step: a thousand steps later the solves are still wrong. -/
example : ∃ b y, (lagSolves none ((supgMass 0, (1, 1), (0, 0)) :: ((List.replicate 1000 ((1, 2), (0, 0))).map fun p => (supgMass 1, p.1, p.2)) ++
    [(supgMass 1, b, (0, 0))])).getLast? = some y ∧ supgMass 1 y ≠ b :=
  C141_never_recovers_refuted (supgMass 0) (supgMass 1) (1, 0) (by simp [supgMass]) (1, 1) (0, 0) (0, 0) (List.replicate 1000 ((1, 2), (0, 0)))

/-- The first step with the wind 0, the second with the wind 1: the second solve is wrong. -/
example : ∃ b, ∃ y0 y, lagSolves none [(supgMass 0, (1, 1), (0, 0)), (supgMass 1, b, (0, 0))] = [y0, y] ∧ supgMass 0 y0 = (1, 1) ∧
    supgMass 1 y ≠ b :=
  C141_changing_mass_refuted (supgMass 0) (supgMass 1) (1, 0) (by simp [supgMass]) (1, 1) (0, 0) (0, 0)

end supg

end Gusto.Props.SolverParamsProps
