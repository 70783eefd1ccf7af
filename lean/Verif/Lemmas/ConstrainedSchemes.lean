import Verif.Lemmas.ConstrainedRes

set_option autoImplicit false
set_option linter.unusedSectionVars false
set_option linter.unusedSimpArgs false

/-! Every scheme with prescribed boundary values is the same scheme for the restricted equation. -/

namespace Gusto.Constrained
open Gusto Gusto.Spec LForm TimeDisc
variable {K X X₀ D D₀ : Type*} [Field K] [AddCommGroup D] [Module K D] [AddCommGroup D₀] [Module K D₀]

/-- abbreviation -/
abbrev SR (ι : X₀ → X) (ρ : D →ₗ[K] D₀) := RestrictsSolver (X := X) (X₀ := X₀) ι (fun d => ρ d)

theorem solve_rel {ι : X₀ → X} {ρ : D →ₗ[K] D₀} {s : Solver X D} {s₀ : Solver X₀ D₀} (hs : SR ι ρ s s₀)
    (r : X → LForm X D) (r₀ : X₀ → LForm X₀ D₀) (h : ∀ y, FR ι ρ (r (ι y)) (r₀ y)) (g : X₀) :
    s (fun y => (r y).eval) (ι g) = ι (s₀ (fun y => (r₀ y).eval) g) := by
  rw [hs]
  congr 2
  funext y
  exact FR.eval (h y)

theorem comp_update (ι : X₀ → X) (f : ℕ → X₀) (j : ℕ) (x : X₀) :
    (fun i => ι (Function.update f j x i)) = Function.update (fun i => ι (f i)) j (ι x) :=
  Function.comp_update ι f j x

section
variable {ι : X₀ → X} {ρ : D →ₗ[K] D₀}

theorem implicitCycle_rel {s : Solver X D} {s₀ : Solver X₀ D₀} (hs : SR ι ρ s s₀) (r : X → X → LForm X D)
    (r₀ : X₀ → X₀ → LForm X₀ D₀) (h : ∀ y x, FR ι ρ (r (ι y) (ι x)) (r₀ y x)) (x : X₀) :
    implicitCycle s r (ι x) = ι (implicitCycle s₀ r₀ x) :=
  solve_rel hs (fun y => r y (ι x)) (fun y => r₀ y x) (fun y => h y x) x

theorem trBdf2_rel {s : Solver X D} {s₀ : Solver X₀ D₀} (hs : SR ι ρ s s₀) {R : LForm X D} {R₀ : LForm X₀ D₀}
    (hR : FR ι ρ R R₀) (dt c : K) (x : X₀) : trBdf2Apply s R dt c (ι x) = ι (trBdf2Apply s₀ R₀ dt c x) := by
  unfold trBdf2Apply
  simp only
  rw [solve_rel hs (fun y => trRes R dt c y (ι x)) (fun y => trRes R₀ dt c y x) (fun y => trRes_rel hR dt c y x),
    solve_rel hs (fun y => bdf2StageRes R dt c y _ (ι x)) (fun y => bdf2StageRes R₀ dt c y _ x)
      (fun y => bdf2StageRes_rel hR dt c y _ x)]

theorem applyLoop_rel (cycle : ℕ → X → X) (cycle₀ : ℕ → X₀ → X₀) (h : ∀ i x, cycle i (ι x) = ι (cycle₀ i x)) (n : ℕ)
    (x z : X₀) : applyLoop cycle n (ι x) (ι z) = ι (applyLoop cycle₀ n x z) := by
  unfold applyLoop
  refine (foldl_rel (fun (s : X × X) (t : X₀ × X₀) => s = (ι t.1, ι t.2)) (List.range n)
    (s := (ι x, ι z)) (t := (x, z)) rfl ?_ |> congrArg Prod.snd :)
  intro a _ s t hst
  subst hst
  simp only [h]

/-- A multi-level scheme whose two residuals restrict. -/
structure MLRel (ι : X₀ → X) (ρ : D →ₗ[K] D₀) (S : Multilevel.Scheme X D) (S₀ : Multilevel.Scheme X₀ D₀) : Prop where
  n : S.nlevels = S₀.nlevels
  res0 : ∀ x y, FR ι ρ (S.res0 (fun i => ι (x i)) (ι y)) (S₀.res0 x y)
  res : ∀ x y, FR ι ρ (S.res (fun i => ι (x i)) (ι y)) (S₀.res x y)

theorem multilevel_rel {s : Solver X D} {s₀ : Solver X₀ D₀} (hs : SR ι ρ s s₀) {S : Multilevel.Scheme X D}
    {S₀ : Multilevel.Scheme X₀ D₀} (h : MLRel ι ρ S S₀) (n : ℕ) (x : ℕ → X₀) :
    S.apply s n (fun i => ι (x i)) = (ι (S₀.apply s₀ n x).1, (S₀.apply s₀ n x).2) := by
  unfold Multilevel.Scheme.apply
  rw [h.n]
  split
  · simp only
    rw [solve_rel hs (fun y => S.res0 (fun i => ι (x i)) y) (fun y => S₀.res0 x y) (h.res0 x)]
  · simp only
    rw [solve_rel hs (fun y => S.res (fun i => ι (x i)) y) (fun y => S₀.res x y) (h.res x)]

theorem bdf2_rel {R : LForm X D} {R₀ : LForm X₀ D₀} (hR : FR ι ρ R R₀) (dt : K) :
    MLRel ι ρ (Multilevel.bdf2 R dt) (Multilevel.bdf2 R₀ dt) :=
  ⟨rfl, fun x y => bdf2Res0_rel hR dt y _, fun x y => bdf2Res_rel hR dt y _ _⟩

theorem leapfrog_rel {R : LForm X D} {R₀ : LForm X₀ D₀} (hR : FR ι ρ R R₀) (dt : K) :
    MLRel ι ρ (Multilevel.leapfrog R dt) (Multilevel.leapfrog R₀ dt) :=
  ⟨rfl, fun x y => leapfrogRes0_rel hR dt y _, fun x y => baseRes_rel hR dt y _⟩

theorem adamsBashforth_rel {R : LForm X D} {R₀ : LForm X₀ D₀} (hR : FR ι ρ R R₀) (dt : K) (b : List K) :
    MLRel ι ρ (Multilevel.adamsBashforth R dt b) (Multilevel.adamsBashforth R₀ dt b) :=
  ⟨rfl, fun x y => abRes0_rel hR dt y _, fun x y => abRes_rel hR dt b y x⟩

theorem adamsMoulton_rel {R : LForm X D} {R₀ : LForm X₀ D₀} (hR : FR ι ρ R R₀) (dt bl : K) (b : List K) :
    MLRel ι ρ (Multilevel.adamsMoulton R dt bl b) (Multilevel.adamsMoulton R₀ dt bl b) :=
  ⟨rfl, fun x y => amRes0_rel hR dt y _, fun x y => amRes_rel hR dt bl b y x⟩

variable [AddCommGroup X] [Module K X] [AddCommGroup X₀] [Module K X₀]

theorem irkPredApply_rel {S : IRK.Scheme K X D} {S₀ : IRK.Scheme K X₀ D₀} (hR : FR ι ρ S.R S₀.R) (hA : S.A = S₀.A)
    (hdt : S.dt = S₀.dt) (hn : S.nStages = S₀.nStages) (hs : SR ι ρ S.solve S₀.solve) (st : IRK.State K X)
    (st₀ : IRK.State K X₀) (hst : st.xs = fun i => ι (st₀.xs i)) (x : X₀) :
    (IRK.applyPred S st (ι x)).1 = ι (IRK.applyPred S₀ st₀ x).1 ∧
      (IRK.applyPred S st (ι x)).2.xs = fun i => ι ((IRK.applyPred S₀ st₀ x).2.xs i) := by
  have hloop := foldl_rel
    (fun (s : IRK.State K X) (t : IRK.State K X₀) => s.xOut = ι t.xOut ∧ s.xs = fun i => ι (t.xs i))
    (List.range S₀.nStages) (f := IRK.predStage S (ι x)) (g := IRK.predStage S₀ x)
    (s := { st with xOut := ι x }) (t := { st₀ with xOut := x }) ⟨rfl, hst⟩ (by
      rintro stage _ s t ⟨h1, h2⟩
      have hg : (if stage > 0 then s.xs (stage - 1) else s.xOut)
          = ι (if stage > 0 then t.xs (stage - 1) else t.xOut) := by
        rw [h1, h2]; split <;> rfl
      have hsol := solve_rel hs (fun y => IRK.predRes S (fun i => ι (t.xs i)) (ι x) stage y)
        (fun y => IRK.predRes S₀ t.xs x stage y) (fun y => irkPred_rel S S₀ hR hA hdt t.xs x y stage)
        (if stage > 0 then t.xs (stage - 1) else t.xOut)
      unfold IRK.predStage
      rw [h2] at hg
      simp only [h2, hg, hsol, comp_update]
      exact ⟨trivial, trivial⟩)
  unfold IRK.applyPred
  simp only [hn]
  obtain ⟨h1, h2⟩ := hloop
  simp only [h1, h2]
  refine ⟨?_, trivial⟩
  exact solve_rel hs (fun y => IRK.finalRes S _ (ι x) y) (fun y => IRK.finalRes S₀ _ x y)
    (fun y => irkFinal_rel S S₀ hR hA hdt hn _ x y) _
end

section
variable [AddCommGroup X] [Module K X] [AddCommGroup X₀] [Module K X₀]
variable {ι : X₀ →ₗ[K] X} {ρ : D →ₗ[K] D₀}

theorem foldl_lin {α : Type*} (l : List α) (c : α → K) (k : α → X₀) (x : X₀) :
    l.foldl (fun x i => x + c i • ι (k i)) (ι x) = ι (l.foldl (fun x i => x + c i • k i) x) := by
  induction l generalizing x with
  | nil => rfl
  | cons a l ih => simp only [List.foldl_cons]; rw [← ih]; simp

theorem irkIncApply_rel {S : IRK.Scheme K X D} {S₀ : IRK.Scheme K X₀ D₀} (hR : FR ι ρ S.R S₀.R) (hA : S.A = S₀.A)
    (hdt : S.dt = S₀.dt) (hn : S.nStages = S₀.nStages) (hs : SR ι ρ S.solve S₀.solve) (st : IRK.State K X)
    (st₀ : IRK.State K X₀) (hst : st.k = fun i => ι (st₀.k i)) (hc : st.cachedDiag = st₀.cachedDiag) (x : X₀) :
    (IRK.applyInc S st (ι x)).1 = ι (IRK.applyInc S₀ st₀ x).1 ∧
      (IRK.applyInc S st (ι x)).2.k = (fun i => ι ((IRK.applyInc S₀ st₀ x).2.k i)) ∧
      (IRK.applyInc S st (ι x)).2.cachedDiag = (IRK.applyInc S₀ st₀ x).2.cachedDiag := by
  have hloop := foldl_rel
    (fun (s : IRK.State K X) (t : IRK.State K X₀) => s.xOut = ι t.xOut ∧ s.k = (fun i => ι (t.k i)) ∧
      s.cachedDiag = t.cachedDiag)
    (List.range S₀.nStages) (f := IRK.incStage S (ι x)) (g := IRK.incStage S₀ x)
    (s := { st with xOut := ι x }) (t := { st₀ with xOut := x }) ⟨rfl, hst, hc⟩ (by
      rintro stage _ s t ⟨h1, h2, h3⟩
      have hg : (if stage > 0 then s.k (stage - 1) else s.xOut)
          = ι (if stage > 0 then t.k (stage - 1) else t.xOut) := by
        rw [h1, h2]; split <;> rfl
      unfold IRK.incStage
      rw [h2] at hg
      simp only [h2, hg, h3, hA, hdt, foldl_lin]
      have hsol := fun (a b : X₀) (c : K) => solve_rel hs
        (fun y => IRK.incRes S.R (ι a + c • y) y) (fun y => IRK.incRes S₀.R (a + c • y) y)
        (fun y => by
          have := irkInc_rel hR (a + c • y) y
          simpa only [map_add, map_smul] using this) b
      simp only [hsol, comp_update]
      exact ⟨trivial, trivial, trivial⟩)
  unfold IRK.applyInc
  obtain ⟨h1, h2, h3⟩ := hloop
  simp only [hn, h2, h3, hA, hdt, foldl_lin]
  exact ⟨trivial, trivial, trivial⟩

end
end Gusto.Constrained
