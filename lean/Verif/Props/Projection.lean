import Verif.Model.Projection
import Verif.Spec.Projection
import Mathlib.Tactic.LinearCombination
import Mathlib.Tactic.FieldSimp
import Mathlib.Tactic.Ring
import Mathlib.Tactic.NormNum
import Mathlib.Algebra.Algebra.Pi
import Mathlib.Algebra.Algebra.Rat
import Mathlib.Algebra.BigOperators.Pi
import Mathlib.Algebra.BigOperators.Fin

set_option autoImplicit false
set_option linter.unusedSectionVars false
set_option linter.unusedSimpArgs false

/-! # C28, C29: conservative projection and reversible recovery -/

namespace Gusto.Props.ProjectionProps
open Gusto.Projection Gusto.Spec.Projection
variable {K A : Type*} [Field K] [CommRing A] [Algebra K A]

/-- The assumption on the solver: for the target density `rhoT` it returns an element of `V` at which
the variational form vanishes for every test function. -/
def Solves (int : A →ₗ[K] K) (V : Submodule K A) (rhoT : A) (solve : A → A → A → K → A) : Prop :=
  ∀ rhoS mS mean, solve rhoS rhoT mS mean ∈ V ∧
    ∀ test ∈ V, eqn int rhoS rhoT mS mean (solve rhoS rhoT mS mean) test = 0

/-- The results of a sequence of calls of `project`; the Functions may change between the calls. -/
def projectMany (int : A →ₗ[K] K) (solve : A → A → A → K → A) :
    Projector K → List (A × A × A) → List A
  | _, [] => []
  | p, (rhoS, rhoT, mS) :: rest =>
    let q := project int solve p rhoS rhoT mS
    q.2 :: projectMany int solve q.1 rest

variable {int : A →ₗ[K] K} {V : Submodule K A} {solve : A → A → A → K → A}

theorem int_const_mul (int : A →ₗ[K] K) (c : K) (a : A) :
    int (algebraMap K A c * a) = c * int a := by
  rw [← Algebra.smul_def, map_smul, smul_eq_mul]

/-- The variational problem with the mean written out. -/
theorem solve_moments {rhoS rhoT mS : A} {mean : K} (hs : Solves int V rhoT solve) {test : A}
    (ht : test ∈ V) :
    mass int rhoT (test * solve rhoS rhoT mS mean) =
      mass int rhoS (test * mS) + mean * (mass int rhoT test - mass int rhoS test) := by
  have h := (hs rhoS mS mean).2 test ht
  unfold eqn at h
  unfold mass
  have e1 : rhoS * (test * (mS - algebraMap K A mean)) =
      rhoS * (test * mS) - algebraMap K A mean * (rhoS * test) := by ring
  have e2 : rhoT * (test * (solve rhoS rhoT mS mean - algebraMap K A mean)) =
      rhoT * (test * solve rhoS rhoT mS mean) - algebraMap K A mean * (rhoT * test) := by ring
  rw [e1, e2, map_sub, map_sub, int_const_mul, int_const_mul] at h
  linear_combination -h

theorem unique_of_moments {rho a b : A} (hi : Invertible int V rho) (ha : a ∈ V) (hb : b ∈ V)
    (h : ∀ test ∈ V, mass int rho (test * a) = mass int rho (test * b)) : a = b := by
  refine sub_eq_zero.mp (hi _ (V.sub_mem ha hb) fun test ht => ?_)
  have := h test ht
  unfold mass at this ⊢
  rw [mul_sub, mul_sub, map_sub, this, sub_self]

/-! ### C28 -/

/-- **C28** (constructor).  Exactly the listed errors are raised, and only those. -/
theorem C28_setup_check (rhoS rhoT mS : Option (List ℕ)) (mT : List ℕ) :
    (initCheck rhoS rhoT mS mT = .ok () ↔
      mS = some mT ∧ ∃ s, rhoS = some s ∧ rhoT = some s) ∧
    (initCheck rhoS rhoT mS mT = .error "ValueError" ↔ rhoS = none ∨ rhoT = none ∨ mS = none) := by
  rcases rhoS with _ | rs <;> rcases rhoT with _ | rt <;> rcases mS with _ | ms <;>
    simp [initCheck]
  by_cases h1 : ms = mT <;> by_cases h2 : rs = rt <;> simp [h1, h2, eq_comm]

/-- **C28**.  Without `subtract_mean`, every call in every history of calls (densities and source
changing arbitrarily) conserves mass, provided the target space contains the constants; indeed all
moments against the target space agree. -/
theorem C28_mass (calls : List (A × A × A)) (h1 : (1 : A) ∈ V)
    (hs : ∀ c ∈ calls, Solves int V c.2.1 solve) :
    List.Forall₂ (fun c m => mass int c.2.1 m = mass int c.1 c.2.2 ∧
        SameMoments int V c.1 c.2.2 c.2.1 m)
      calls (projectMany int solve (init int false) calls) := by
  have key : ∀ (cs : List (A × A × A)), (∀ c ∈ cs, Solves int V c.2.1 solve) →
      List.Forall₂ (fun c m => mass int c.2.1 m = mass int c.1 c.2.2 ∧
        SameMoments int V c.1 c.2.2 c.2.1 m) cs (projectMany int solve (init int false) cs) := by
    intro cs
    induction cs with
    | nil => intro _; exact List.Forall₂.nil
    | cons c cs ih =>
      intro h
      obtain ⟨rhoS, rhoT, mS⟩ := c
      have hc : Solves int V rhoT solve := h _ (List.mem_cons_self ..)
      have hm : ∀ test ∈ V, mass int rhoS (test * mS) =
          mass int rhoT (test * solve rhoS rhoT mS 0) := fun test ht => by
        rw [solve_moments hc ht]; ring
      refine List.Forall₂.cons ⟨?_, ?_, ?_⟩ (ih fun d hd => h d (List.mem_cons_of_mem _ hd))
      · have := hm 1 h1
        rw [one_mul, one_mul] at this
        exact this.symm
      · exact (hc _ _ _).1
      · exact hm
  exact key calls hs

/-- **C28** (with `subtract_mean`).  The change of mass is the mean of the source times the
difference of the masses of the two densities; it vanishes if these are equal. -/
theorem C28_mass_subtract_mean (p : Projector K) (hp : p.subtractMean = true)
    (hv : p.volume = int 1) (rhoS rhoT mS : A) (h1 : (1 : A) ∈ V) (hs : Solves int V rhoT solve) :
    mass int rhoT (project int solve p rhoS rhoT mS).2 - mass int rhoS mS =
        int mS / int 1 * (int rhoT - int rhoS) ∧
      (int rhoT = int rhoS → mass int rhoT (project int solve p rhoS rhoT mS).2 = mass int rhoS mS) := by
  have e : mass int rhoT (project int solve p rhoS rhoT mS).2 - mass int rhoS mS =
        int mS / int 1 * (int rhoT - int rhoS) := by
    have := solve_moments (rhoS := rhoS) (mS := mS) (mean := int mS / int 1) hs h1
    simp only [one_mul] at this
    simp only [project, hp, if_true, hv]
    rw [this]
    unfold mass
    rw [mul_one, mul_one]; ring
  refine ⟨e, fun h => ?_⟩
  rw [h, sub_self, mul_zero] at e
  exact sub_eq_zero.mp e

/-- **C28** (with `subtract_mean`).  In every history of calls, a source that is the constant `k` is
reproduced exactly, whatever the densities: their masses need not even be equal. -/
theorem C28_constant (calls : List (A × A × A)) (h1 : (1 : A) ∈ V) (hvol : int 1 ≠ 0)
    (hs : ∀ c ∈ calls, Solves int V c.2.1 solve ∧ Invertible int V c.2.1) :
    List.Forall₂ (fun c m => ∀ k : K, c.2.2 = algebraMap K A k → m = algebraMap K A k)
      calls (projectMany int solve (init int true) calls) := by
  have key : ∀ (cs : List (A × A × A)) (p : Projector K), p.subtractMean = true → p.volume = int 1 →
      (∀ c ∈ cs, Solves int V c.2.1 solve ∧ Invertible int V c.2.1) →
      List.Forall₂ (fun c m => ∀ k : K, c.2.2 = algebraMap K A k → m = algebraMap K A k)
        cs (projectMany int solve p cs) := by
    intro cs
    induction cs with
    | nil => intro _ _ _ _; exact List.Forall₂.nil
    | cons c cs ih =>
      intro p hp hv h
      obtain ⟨rhoS, rhoT, mS⟩ := c
      obtain ⟨hc, hi⟩ : Solves int V rhoT solve ∧ Invertible int V rhoT :=
        h _ (List.mem_cons_self ..)
      refine List.Forall₂.cons ?_ (ih _ ?_ ?_ fun d hd => h d (List.mem_cons_of_mem _ hd))
      · intro k hk
        have hk' : mS = algebraMap K A k := hk
        have hmean : int mS / p.volume = k := by
          rw [hk', hv, ← mul_one (algebraMap K A k), int_const_mul]; field_simp
        have hval : (project int solve p rhoS rhoT mS).2 = solve rhoS rhoT mS k := by
          simp only [project, hp, if_true, hmean]
        show (project int solve p rhoS rhoT mS).2 = _
        rw [hval]
        refine unique_of_moments hi (hc _ _ _).1 ?_ fun test ht => ?_
        · rw [Algebra.algebraMap_eq_smul_one]; exact V.smul_mem _ h1
        · rw [solve_moments hc ht, hk']
          unfold mass
          have e : ∀ r : A, int (r * (test * algebraMap K A k)) = k * int (r * test) := fun r => by
            rw [← int_const_mul]; congr 1; ring
          rw [e, e]; ring
      · simp only [project, hp, if_true]
      · simp only [project, hp, if_true, hv]
  exact key calls _ rfl rfl hs

/-- **C28** (without `subtract_mean`).  A non-zero constant is reproduced if and only if the two
densities agree against every test function of the target space. -/
theorem C28_constant_without_mean (rhoS rhoT : A) (k : K) (hk : k ≠ 0) (h1 : (1 : A) ∈ V)
    (hs : Solves int V rhoT solve) (hi : Invertible int V rhoT) :
    (project int solve (init int false) rhoS rhoT (algebraMap K A k)).2 = algebraMap K A k ↔
      SameDensity int V rhoS rhoT := by
  have hval : (project int solve (init int false) rhoS rhoT (algebraMap K A k)).2 =
      solve rhoS rhoT (algebraMap K A k) 0 := by simp [project, init]
  have hmom : ∀ test ∈ V, mass int rhoT (test * solve rhoS rhoT (algebraMap K A k) 0) =
      k * mass int rhoS test := fun test ht => by
    rw [solve_moments hs ht]
    unfold mass
    rw [← int_const_mul, zero_mul, add_zero]; congr 1; ring
  have hconst : ∀ test, mass int rhoT (test * algebraMap K A k) = k * mass int rhoT test :=
    fun test => by unfold mass; rw [← int_const_mul]; congr 1; ring
  rw [hval]
  constructor
  · intro h test ht
    have := hmom test ht
    rw [h, hconst] at this
    exact (mul_left_cancel₀ hk this).symm
  · intro h
    refine unique_of_moments hi (hs _ _ _).1 ?_ fun test ht => ?_
    · rw [Algebra.algebraMap_eq_smul_one]; exact V.smul_mem _ h1
    · rw [hmom test ht, hconst, h test ht]

/-- **C28**.  Projection between equal densities leaves every element of the target space unchanged,
with or without `subtract_mean`. -/
theorem C28_identity (p : Projector K) (rho m : A) (hm : m ∈ V) (hs : Solves int V rho solve)
    (hi : Invertible int V rho) : (project int solve p rho rho m).2 = m := by
  refine unique_of_moments hi (hs _ _ _).1 hm fun test ht => ?_
  unfold project
  dsimp only
  rw [solve_moments hs ht]; ring

/-! Concrete spaces for the hypotheses: a mesh with cells of volume 1 and 2, piecewise constants
(`V = ⊤`) or global constants as target. -/

/-- Integral of a piecewise constant function on two cells. -/
def exInt : (Fin 2 → ℚ) →ₗ[ℚ] ℚ where
  toFun f := f 0 + 2 * f 1
  map_add' f g := by simp; ring
  map_smul' c f := by simp; ring

/-- Solver on piecewise constants. -/
def exSolve (rhoS rhoT mS : Fin 2 → ℚ) (mean : ℚ) : Fin 2 → ℚ :=
  fun i => mean + rhoS i * (mS i - mean) / rhoT i

theorem exSolves (rhoT : Fin 2 → ℚ) (h : ∀ i, rhoT i ≠ 0) : Solves exInt ⊤ rhoT exSolve := by
  intro rhoS mS mean
  refine ⟨trivial, fun test _ => ?_⟩
  have h0 := h 0; have h1 := h 1
  simp [eqn, exInt, exSolve]
  field_simp
  ring

theorem exInvertible (rhoT : Fin 2 → ℚ) (h : ∀ i, rhoT i ≠ 0) : Invertible exInt ⊤ rhoT := by
  intro v _ hv
  have h0 := hv ![1, 0] trivial
  have h1 := hv ![0, 1] trivial
  simp [mass, exInt, h] at h0 h1
  funext i
  fin_cases i
  · exact h0
  · exact h1

example : (1 : Fin 2 → ℚ) ∈ (⊤ : Submodule ℚ (Fin 2 → ℚ)) ∧ exInt 1 ≠ 0 ∧
    ∀ c ∈ [((![1, 2] : Fin 2 → ℚ), (![3, 1] : Fin 2 → ℚ), (![5, 7] : Fin 2 → ℚ))],
      Solves exInt ⊤ c.2.1 exSolve ∧ Invertible exInt ⊤ c.2.1 := by
  refine ⟨trivial, by norm_num [exInt], ?_⟩
  intro c hc
  simp only [List.mem_singleton] at hc
  subst hc
  have h : ∀ i, (![3, 1] : Fin 2 → ℚ) i ≠ 0 := by decide
  exact ⟨exSolves _ h, exInvertible _ h⟩

/-- **C28** (refuted part).  With `subtract_mean` and densities of different mass the projection does
not conserve mass. -/
theorem C28_mass_subtract_mean_refuted :
    ∃ rhoS rhoT mS : Fin 2 → ℚ, Solves exInt ⊤ rhoT exSolve ∧ Invertible exInt ⊤ rhoT ∧
      mass exInt rhoT (project exInt exSolve (init exInt true) rhoS rhoT mS).2 ≠
        mass exInt rhoS mS := by
  refine ⟨![1, 1], ![2, 1], ![1, 1], exSolves _ (by decide), exInvertible _ (by decide), ?_⟩
  norm_num [mass, exInt, exSolve, project, init]

/-! ### C29 -/

theorem selectOp_spec {S T : Type*} (o : Ops S T) (m : String) :
    (m ∈ ["recover", "project", "interpolate"] → ∃ f, selectOp o m = .ok f) ∧
    (m ∉ ["recover", "project", "interpolate"] → selectOp o m = .error "ValueError") := by
  constructor
  · intro h
    simp only [List.mem_cons, List.not_mem_nil, or_false] at h
    rcases h with h | h | h <;> subst h <;> simp [selectOp]
  · intro h
    simp only [List.mem_cons, List.not_mem_nil, or_false, not_or] at h
    simp [selectOp, h.1, h.2.1, h.2.2]

/-- The operators of a transfer and their documented names. -/
def table {S T : Type*} (o : Ops S T) : List (String × (S → T)) :=
  [("recover", o.recover), ("project", o.project), ("interpolate", o.interpolate)]

theorem selectOp_table {S T : Type*} (o : Ops S T) (m : String) (f : S → T)
    (h : selectOp o m = .ok f) : (m, f) ∈ table o := by
  unfold selectOp at h
  split at h
  · rename_i h1; simp only [Except.ok.injEq] at h; subst h; subst h1; simp [table]
  split at h
  · rename_i h1; simp only [Except.ok.injEq] at h; subst h; subst h1; simp [table]
  split at h
  · rename_i h1; simp only [Except.ok.injEq] at h; subst h; subst h1; simp [table]
  · simp at h

/-- **C29** (constructor).  It succeeds exactly when all three method names are known, and then the
operators are the ones named. -/
theorem C29_setup {L R H : Type*} (rec : L → R) (hi : Ops R H) (lo : Ops H L) (inj : Ops L H)
    (mh ml mi : String) :
    ((∃ c, chooseOps rec hi lo inj mh ml mi = .ok c) ↔
      ∀ m ∈ [mh, ml, mi], m ∈ ["recover", "project", "interpolate"]) ∧
    (∀ c, chooseOps rec hi lo inj mh ml mi = .ok c →
      c.recoverer = rec ∧ (mh, c.high) ∈ table hi ∧ (ml, c.low) ∈ table lo ∧
        (mi, c.injector) ∈ table inj) := by
  constructor
  · constructor
    · rintro ⟨c, hc⟩ m hm
      by_contra hn
      simp only [List.mem_cons, List.not_mem_nil, or_false] at hm
      rcases hm with h | h | h <;> subst h <;> simp only [chooseOps] at hc
      · rw [(selectOp_spec hi _).2 hn] at hc; simp at hc
      · rw [(selectOp_spec lo _).2 hn] at hc; split at hc <;> simp at hc
      · rw [(selectOp_spec inj _).2 hn] at hc; split at hc <;> (try split at hc) <;> simp at hc
    · intro h
      obtain ⟨f, hf⟩ := (selectOp_spec hi mh).1 (h _ (by simp))
      obtain ⟨g, hg⟩ := (selectOp_spec lo ml).1 (h _ (by simp))
      obtain ⟨k, hk⟩ := (selectOp_spec inj mi).1 (h _ (by simp))
      exact ⟨⟨rec, f, g, k⟩, by simp only [chooseOps, hf, hg, hk]⟩
  · intro c hc
    simp only [chooseOps] at hc
    split at hc
    · simp at hc
    split at hc
    · simp at hc
    split at hc
    · simp at hc
    simp only [Except.ok.injEq] at hc
    subst hc
    exact ⟨rfl, selectOp_table _ _ _ (by assumption), selectOp_table _ _ _ (by assumption),
      selectOp_table _ _ _ (by assumption)⟩

/-- **C29**.  After `project`, the high-order field is `J (q - P r) + r` with `r` the recovered field
in the high-order space, for every previous content of the buffers; the low-order field is left as it
was.  If `P` is additive and undoes the injection, projecting back gives the original field. -/
theorem C29_reversible {L R H : Type*} [AddCommGroup L] [AddCommGroup H] (c : Chosen L R H)
    (s : Fields L R H) :
    (reversibleProject c s).low = s.low ∧
    (reversibleProject c s).high =
      c.injector (s.low - c.low (c.high (c.recoverer s.low))) + c.high (c.recoverer s.low) ∧
    ((∀ a b, c.low (a + b) = c.low a + c.low b) → (∀ a, c.low (c.injector a) = a) →
      c.low (reversibleProject c s).high = s.low) := by
  refine ⟨rfl, rfl, fun hadd hinv => ?_⟩
  show c.low (c.injector (s.low - c.low (c.high (c.recoverer s.low))) +
    c.high (c.recoverer s.low)) = s.low
  rw [hadd, hinv, sub_add_cancel]

/-- **C29**.  A field that the chain of operators already reproduces (the recovered field projects
back to it) is not corrected: with an injection that maps 0 to 0 the result is the recovered field. -/
theorem C29_no_correction {L R H : Type*} [AddCommGroup L] [AddCommGroup H] (c : Chosen L R H)
    (s : Fields L R H) (hJ : c.injector 0 = 0)
    (h : c.low (c.high (c.recoverer s.low)) = s.low) :
    (reversibleProject c s).high = c.high (c.recoverer s.low) := by
  rw [(C29_reversible c s).2.1, h, sub_self, hJ, zero_add]

/-- Two-point cells: cell means as low-order space, end-point values as high-order space, recovery
by an arbitrary non-linear map. -/
def exChosen (r : ℚ → ℚ × ℚ) : Chosen ℚ (ℚ × ℚ) (ℚ × ℚ) where
  recoverer := r
  high := id
  low p := (p.1 + p.2) / 2
  injector q := (q, q)

example (r : ℚ → ℚ × ℚ) : (∀ a b, (exChosen r).low (a + b) = (exChosen r).low a + (exChosen r).low b) ∧
    (∀ a, (exChosen r).low ((exChosen r).injector a) = a) :=
  ⟨fun a b => by simp [exChosen]; ring, fun a => by simp [exChosen]⟩

/-- The invariants of a `ConservativeRecoverer` object: its two projectors are as constructed, up to
the mean stored by the first. -/
def ConsInv {R : Type*} (int : A →ₗ[K] K) (s : ConsState K A R) : Prop :=
  s.low.subtractMean = true ∧ s.low.volume = int 1 ∧ s.injector = init int false

theorem consInv_init {R : Type*} (f : Fields A R A) : ConsInv int (consInit int f) := ⟨rfl, rfl, rfl⟩

theorem consInv_step {R : Type*} (rec : A → R) (high : R → A) (sl sh : A → A → A → K → A)
    (rl rh : A) (s : ConsState K A R) (h : ConsInv int s) :
    ConsInv int (conservativeProject int rec high sl sh rl rh s) := by
  obtain ⟨a, b, c⟩ := h
  refine ⟨?_, ?_, ?_⟩
  · simp [conservativeProject, project, a]
  · simp [conservativeProject, project, a, b]
  · simp [conservativeProject, project, c, init]

/-- A sequence of uses of one `ConservativeRecoverer`: before each use the caller may overwrite the
fields and densities. -/
def consRun {R : Type*} (int : A →ₗ[K] K) (rec : A → R) (high : R → A)
    (sl sh : A → A → A → K → A) (s : ConsState K A R) (calls : List (A × A × Fields A R A)) :
    ConsState K A R :=
  calls.foldl (fun s c => conservativeProject int rec high sl sh c.1 c.2.1 { s with f := c.2.2 }) s

theorem consInv_run {R : Type*} (rec : A → R) (high : R → A) (sl sh : A → A → A → K → A)
    (s : ConsState K A R) (h : ConsInv int s) (calls : List (A × A × Fields A R A)) :
    ConsInv int (consRun int rec high sl sh s calls) := by
  induction calls generalizing s with
  | nil => exact h
  | cons c cs ih => exact ih _ (consInv_step _ _ _ _ _ _ _ h)

variable {R : Type*} {rec : A → R} {high : R → A} {sl sh : A → A → A → K → A} {VL VH : Submodule K A}

theorem cons_values (s : ConsState K A R) (hs : ConsInv int s) (rl rh : A) :
    let rh' := high (rec s.f.low)
    let c := sl rh rl rh' (int rh' / int 1)
    (conservativeProject int rec high sl sh rl rh s).f.high =
      sh rl rh (s.f.low - c) 0 + rh' := by
  obtain ⟨a, b, c⟩ := hs
  simp [conservativeProject, project, a, b, c, init]

/-- **C29** (ConservativeRecoverer).  After any history of uses, for every recovery operator: the
mass of the recovered field differs from the mass of the source by the mean of the recovered field
times the difference of the masses of the densities; equal density masses give conservation. -/
theorem C29_conservative_mass (calls : List (A × A × Fields A R A)) (f0 f : Fields A R A) (rl rh : A)
    (hL : (1 : A) ∈ VL) (hH : (1 : A) ∈ VH) (hsl : Solves int VL rl sl) (hsh : Solves int VH rh sh) :
    let s := consRun int rec high sl sh (consInit int f0) calls
    let q := (conservativeProject int rec high sl sh rl rh { s with f := f }).f.high
    mass int rh q - mass int rl f.low =
        int (high (rec f.low)) / int 1 * (int rh - int rl) ∧
      (int rh = int rl → mass int rh q = mass int rl f.low) := by
  intro s q
  have hinv : ConsInv int { s with f := f } := consInv_run rec high sl sh _ (consInv_init f0) calls
  have hq := cons_values (sh := sh) (sl := sl) (rec := rec) (high := high) _ hinv rl rh
  dsimp only at hq
  set r := high (rec f.low) with hr
  set c := sl rh rl r (int r / int 1) with hc
  have e1 := solve_moments (rhoS := rh) (mS := r) (mean := int r / int 1) hsl hL
  have e2 := solve_moments (rhoS := rl) (mS := f.low - c) (mean := 0) hsh hH
  rw [← hc] at e1
  have hm : mass int rh q - mass int rl f.low = int r / int 1 * (int rh - int rl) := by
    have hq' : q = sh rl rh (f.low - c) 0 + r := hq
    rw [hq']
    unfold mass at e1 e2 ⊢
    simp only [one_mul, mul_one, mul_add, mul_sub, map_add, map_sub] at e1 e2 ⊢
    linear_combination e2 - e1
  refine ⟨hm, fun h => ?_⟩
  rw [h, sub_self, mul_zero] at hm
  exact sub_eq_zero.mp hm

/-- **C29** (ConservativeRecoverer).  If the densities agree against the low-order space and this
space is contained in the high-order space, the conservative down-projection (with or without mean)
of the recovered field is the original field. -/
theorem C29_conservative_reversible (calls : List (A × A × Fields A R A)) (f0 f : Fields A R A)
    (rl rh : A) (hsub : VL ≤ VH) (hsl : Solves int VL rl sl) (hsh : Solves int VH rh sh)
    (hi : Invertible int VL rl) (hd : SameDensity int VL rl rh) (hf : f.low ∈ VL) :
    let s := consRun int rec high sl sh (consInit int f0) calls
    let q := (conservativeProject int rec high sl sh rl rh { s with f := f }).f.high
    ∀ p : Projector K, (project int sl p rh rl q).2 = f.low := by
  intro s q p
  have hinv : ConsInv int { s with f := f } := consInv_run rec high sl sh _ (consInv_init f0) calls
  have hq := cons_values (sh := sh) (sl := sl) (rec := rec) (high := high) _ hinv rl rh
  dsimp only at hq
  set r := high (rec f.low) with hr
  set c := sl rh rl r (int r / int 1) with hc
  have hq' : q = sh rl rh (f.low - c) 0 + r := hq
  refine unique_of_moments hi (hsl _ _ _).1 hf fun test ht => ?_
  unfold project
  dsimp only
  rw [solve_moments hsl ht, hd test ht, sub_self, mul_zero, add_zero, hq']
  have e1 := solve_moments (rhoS := rh) (mS := r) (mean := int r / int 1) hsl ht
  have e2 := solve_moments (rhoS := rl) (mS := f.low - c) (mean := 0) hsh (hsub ht)
  have e3 := hd test ht
  rw [← hc, e3] at e1
  unfold mass at e1 e2 ⊢
  simp only [mul_add, mul_sub, map_add, map_sub] at e1 e2 ⊢
  linear_combination e2 - e1

/-- **C29** (ConservativeRecoverer).  If the recovery maps the constant `k` to the constant `k`, so
does the conservative recovery, whatever the densities. -/
theorem C29_conservative_constant (calls : List (A × A × Fields A R A)) (f0 f : Fields A R A)
    (rl rh : A) (k : K) (hvol : int 1 ≠ 0) (hL : (1 : A) ∈ VL) (hsl : Solves int VL rl sl)
    (hsh : Solves int VH rh sh) (hiL : Invertible int VL rl) (hiH : Invertible int VH rh)
    (hk : f.low = algebraMap K A k) (hrec : high (rec (algebraMap K A k)) = algebraMap K A k) :
    let s := consRun int rec high sl sh (consInit int f0) calls
    (conservativeProject int rec high sl sh rl rh { s with f := f }).f.high = algebraMap K A k := by
  intro s
  have hinv : ConsInv int { s with f := f } := consInv_run rec high sl sh _ (consInv_init f0) calls
  have hq := cons_values (sh := sh) (sl := sl) (rec := rec) (high := high) _ hinv rl rh
  dsimp only at hq
  rw [hq, hk, hrec]
  have hc := C28_constant (solve := sl) (V := VL) (int := int) [(rh, rl, algebraMap K A k)] hL hvol
    (fun c hc => by
      simp only [List.mem_singleton] at hc
      subst hc
      exact ⟨hsl, hiL⟩)
  simp only [projectMany, List.forall₂_cons, project, init, if_true] at hc
  rw [hc.1 k rfl, sub_self]
  have h0 : sh rl rh 0 0 = 0 := by
    refine unique_of_moments hiH (hsh _ _ _).1 VH.zero_mem fun test ht => ?_
    rw [solve_moments hsh ht]; simp [mass]
  rw [h0, zero_add]

example : Solves exInt ⊤ ![3, 1] exSolve ∧ Invertible exInt ⊤ ![3, 1] ∧
    SameDensity exInt ⊤ ![3, 1] ![3, 1] :=
  ⟨exSolves _ (by decide), exInvertible _ (by decide), fun _ _ => rfl⟩

end Gusto.Props.ProjectionProps
