import Verif.Model.EulerFull
import Verif.Props.Euler

set_option autoImplicit false
set_option linter.unusedSectionVars false
set_option linter.unusedSimpArgs false

/-!
# C136: the compressible Euler equations with tracers, diffusion and extra terms
-/

namespace Gusto.Props.EulerFullProps
open Gusto.DG Gusto.EqSet Gusto.SW Gusto.Bou Gusto.Euler Gusto.EulerFull
open Gusto.Props.EulerProps Gusto.Props.DGProps Gusto.Props.SWProps Gusto.Props.BouProps
open Gusto.EqnDiag (MTracer Phase)
open Gusto.Forms (TType)

variable {d : ℕ} {C F B : Type*} [Fintype C] [Fintype F] [Fintype B]

/-! ### Specification -/

/-- The transport of a tracer `q` by the wind `u`, tested with `φ`: nothing, `div(q u)`, or `u . grad q`. -/
noncomputable def transportOf (M : Mesh ℝ d C F B) (t : TType) (φ q : Sc ℝ d C F B) (u : Ve ℝ d C F B) : ℝ :=
  match t with
  | .noTransport => 0
  | .conservative => ∑ x, M.wC x * (φ.c x * (dot (q.g x) (u.c x) + q.c x * u.div x))
  | _ => ∑ x, M.wC x * (φ.c x * dot (u.c x) (q.g x))

/-- The scalar field of a name. -/
def named (X : EuSt d C F B) (field : String) : Sc ℝ d C F B :=
  if field = "theta" then X.th else if field = "rho" then X.rho else X.tr field

/-- The diffusion `-kappa div(grad q)` of a field, tested. -/
noncomputable def diffusionOf (M : Mesh ℝ d C F B) (L : Lap d C F B) (field : String) (kappa : ℝ) (X v : EuSt d C F B) : ℝ :=
  if field = "u" then -∑ x, M.wC x * dot (v.u.c x) (fun i => kappa * L.v X.u x i)
  else -∑ x, M.wC x * ((named v field).c x * (kappa * L.s (named X field) x))

/-- An expression of the user, tested with its field. -/
noncomputable def extraOf (M : Mesh ℝ d C F B) (field : String) (e : Expr d C F B) (X v : EuSt d C F B) : ℝ :=
  match e with
  | .scalar f _ _ => ∑ x, M.wC x * ((named v field).c x * f X x)
  | .vector f _ _ => ∑ x, M.wC x * dot (v.u.c x) (f X x)

omit [Fintype C] [Fintype F] [Fintype B] in
theorem named_eq (X : EuSt d C F B) (f : String) : named X f = scalarOf X f := by
  unfold named scalarOf
  by_cases h1 : f = "theta"
  · subst h1; simp
  · simp [h1]

/-- The names of all fields. -/
def fieldsOf (q : Extras d C F B) : List String := ["u", "rho", "theta"] ++ q.tracers.map fun t => t.m.name

/-- A field and an expression have the same shape. -/
def Fits (field : String) : Expr d C F B → Prop
  | .scalar _ _ _ => field ≠ "u"
  | .vector _ _ _ => field = "u"

/-- A tracer has a transport equation that exists, and its density is a field. -/
def TracerOk (fields : List String) (t : FTracer) : Prop :=
  match t.eqn with
  | .noTransport | .advective | .conservative => True
  | .tracerConservative => t.density.getD "" ∈ fields
  | _ => False

/-- The equations without the equations of the tracers, diffusion and extra terms (C100), with the tracers as masses. -/
def baseOf (c : ECfg d C F B) (q : Extras d C F B) : ECfg d C F B := { c with tracers := q.tracers.map FTracer.m }

/-! ### The loops -/

theorem collect_ok {α β ε : Type*} (f : α → Except ε β) (l : List α) (r : List β) :
    collect f l = .ok r ↔ List.Forall₂ (fun a b => f a = .ok b) l r := by
  induction l generalizing r with
  | nil => simp [collect, eq_comm]
  | cons a as ih =>
    rw [collect]
    cases hf : f a with
    | error e =>
      simp only [reduceCtorEq, false_iff]
      intro h
      cases h with
      | cons h1 h2 => rw [hf] at h1; cases h1
    | ok b =>
      cases hc : collect f as with
      | error e =>
        simp only [reduceCtorEq, false_iff]
        intro h
        cases h with
        | cons h1 h2 => rw [← ih, hc] at h2; cases h2
      | ok bs =>
        constructor
        · intro h
          cases h
          exact List.Forall₂.cons hf ((ih bs).1 hc)
        · intro h
          cases h with
          | cons h1 h2 =>
            rw [hf] at h1
            cases h1
            rw [← ih, hc] at h2
            cases h2
            rfl

theorem collect_exists {α β ε : Type*} (f : α → Except ε β) (l : List α) :
    (∃ r, collect f l = .ok r) ↔ ∀ a ∈ l, ∃ b, f a = .ok b := by
  induction l with
  | nil => simp [collect]
  | cons a as ih =>
    rw [List.forall_mem_cons, ← ih, collect]
    cases f a with
    | error e => simp
    | ok b => cases collect f as <;> simp

/-- The sum over the terms made from a list. -/
theorem collect_sum {α ε : Type*} (f : α → Except ε (ET d C F B)) (g : α → ℝ) (X v : EuSt d C F B) (l : List α)
    (r : List (ET d C F B)) (h : collect f l = .ok r) (hg : ∀ a ∈ l, ∀ b, f a = .ok b → b.form X v = g a) :
    (r.map fun t => t.form X v).sum = (l.map g).sum := by
  rw [collect_ok] at h
  induction h with
  | nil => rfl
  | cons h1 h2 ih =>
    simp only [List.map_cons, List.sum_cons]
    rw [hg _ (by simp) _ h1, ih fun a ha => hg a (by simp [ha])]

theorem collect_mem {α β ε : Type*} (f : α → Except ε β) (l : List α) (r : List β) (h : collect f l = .ok r) (b : β) (hb : b ∈ r) :
    ∃ a ∈ l, f a = .ok b := by
  rw [collect_ok] at h
  induction h with
  | nil => cases hb
  | cons h1 h2 ih =>
    rcases List.mem_cons.1 hb with e | e
    · subst e; exact ⟨_, by simp, h1⟩
    · obtain ⟨a, ha, e⟩ := ih e; exact ⟨a, by simp [ha], e⟩

theorem addNames_ok (ns : List String) (ts : List FTracer) (r : List String) :
    addNames ns ts = .ok r → r = ns ++ ts.map fun t => t.m.name := by
  induction ts generalizing ns with
  | nil => intro h; cases h; simp
  | cons t ts ih =>
    intro h
    rw [addNames] at h
    split_ifs at h
    rw [ih _ h]
    simp

theorem addNames_exists (ns : List String) (ts : List FTracer) (hn : ns.Nodup) :
    (∃ r, addNames ns ts = .ok r) ↔ (ns ++ ts.map fun t => t.m.name).Nodup := by
  induction ts generalizing ns with
  | nil => simpa [addNames] using hn
  | cons t ts ih =>
    rw [addNames]
    split_ifs with h
    · simp only [reduceCtorEq, exists_false, List.map_cons, false_iff]
      intro hc
      rw [List.nodup_append] at hc
      exact hc.2.2 _ h _ (by simp) rfl
    · rw [ih (ns ++ [t.m.name]) (by
        rw [List.nodup_append]
        refine ⟨hn, by simp, ?_⟩
        intro a ha b hb
        simp only [List.mem_singleton] at hb
        subst hb
        rintro rfl
        exact h ha)]
      simp

/-! ### The terms -/

theorem trMass_spec (M : Mesh ℝ d C F B) (fields : List String) (t : FTracer) (b : ET d C F B) (h : trMass M fields t = .ok b) :
    "time_derivative" ∈ b.labels ∧ (∀ X v, b.form X v = ∑ x, M.wC x * ((X.tr t.m.name).c x * (v.tr t.m.name).c x)) := by
  unfold trMass at h
  simp only at h
  split_ifs at h <;> cases h <;> exact ⟨by simp, fun X v => rfl⟩

theorem trMass_exists (M : Mesh ℝ d C F B) (fields : List String) (t : FTracer) :
    (∃ b, trMass M fields t = .ok b) ↔ (t.eqn = .tracerConservative → t.density.getD "" ∈ fields) := by
  unfold trMass
  simp only
  split_ifs <;> simp_all

theorem trTransport_spec (M : Mesh ℝ d C F B) (fields : List String) (t : FTracer) (b : ET d C F B)
    (h : trTransport M fields t = .ok b) :
    nTD b = true ∧ ∀ X v, b.form X v = transportOf M t.eqn (v.tr t.m.name) (X.tr t.m.name) X.u := by
  unfold trTransport at h
  have hc : ∀ φ q : Sc ℝ d C F B, ∀ u : Ve ℝ d C F B,
      contCells M φ q u = ∑ x, M.wC x * (φ.c x * (dot (q.g x) (u.c x) + q.c x * u.div x)) := by
    intro φ q u
    rfl
  have ha : ∀ φ q : Sc ℝ d C F B, ∀ u : Ve ℝ d C F B, advCells M φ q u = ∑ x, M.wC x * (φ.c x * dot (u.c x) (q.g x)) := by
    intro φ q u
    rfl
  cases he : t.eqn <;> rw [he] at h <;> simp only at h <;> (try split_ifs at h) <;> cases h <;>
    exact ⟨rfl, fun X v => by simp only [trAdvective, trConservative, transportOf, hc, ha]⟩

theorem trTransport_exists (M : Mesh ℝ d C F B) (fields : List String) (t : FTracer) (ht : t.eqn ≠ .noTransport) :
    (∃ b, trTransport M fields t = .ok b) ↔ TracerOk fields t := by
  unfold trTransport TracerOk
  cases he : t.eqn <;> simp_all
  split_ifs <;> simp_all

theorem diffTerm_spec (M : Mesh ℝ d C F B) (L : Lap d C F B) (fields : List String) (q : String × ℝ) (b : ET d C F B)
    (h : diffTerm M L fields q = .ok b) : nTD b = true ∧ ∀ X v, b.form X v = diffusionOf M L q.1 q.2 X v := by
  unfold diffTerm at h
  simp only [diffusionOf, named_eq]
  split_ifs at h with h1 h2 <;> cases h
  · exact ⟨rfl, fun X v => by rw [if_pos h2]; rfl⟩
  · exact ⟨rfl, fun X v => by rw [if_neg h2]; rfl⟩

theorem diffTerm_exists (M : Mesh ℝ d C F B) (L : Lap d C F B) (fields : List String) (q : String × ℝ) :
    (∃ b, diffTerm M L fields q = .ok b) ↔ q.1 ∈ fields := by
  unfold diffTerm
  split_ifs <;> simp_all

theorem extraTerm_spec (M : Mesh ℝ d C F B) (fields : List String) (q : String × Expr d C F B) (b : ET d C F B)
    (h : extraTerm M fields q = .ok b) : nTD b = true ∧ ∀ X v, b.form X v = extraOf M q.1 q.2 X v := by
  unfold extraTerm at h
  simp only [extraOf, named_eq]
  by_cases h1 : q.1 ∈ fields
  · rw [if_pos h1] at h
    cases he : q.2 <;> rw [he] at h <;> simp only at h <;> split_ifs at h <;> cases h <;> exact ⟨rfl, fun X v => rfl⟩
  · rw [if_neg h1] at h
    cases h

theorem extraTerm_exists (M : Mesh ℝ d C F B) (fields : List String) (q : String × Expr d C F B) :
    (∃ b, extraTerm M fields q = .ok b) ↔ q.1 ∈ fields ∧ Fits q.1 q.2 := by
  unfold extraTerm Fits
  cases he : q.2 <;> simp only <;> split_ifs <;> simp_all

/-! ### What is built -/

/-- The residual is a rearrangement of the residual of C100 and the additional terms. -/
theorem builtFull (c : ECfg d C F B) (L : Lap d C F B) (q : Extras d C F B) (p : ET d C F B → Bool) (Xref : EuSt d C F B)
    (res : List (ET d C F B)) (h : eulerFull c L q p Xref = .ok res) :
    ∃ base ms tt df ex, (fieldsOf q).Nodup ∧ Euler.setup (baseOf c q) p Xref = .ok base ∧
      collect (trMass c.base.M (fieldsOf q)) q.tracers = .ok ms ∧
      collect (trTransport c.base.M (fieldsOf q)) (q.tracers.filter fun t => decide (t.eqn ≠ .noTransport)) = .ok tt ∧
      collect (diffTerm c.base.M L (fieldsOf q)) q.diffusion = .ok df ∧
      collect (extraTerm c.base.M (fieldsOf q)) q.extra = .ok ex ∧
      ∃ l, res = generateLinear Xref p l ∧ l.Perm (base ++ (ms ++ tt ++ df ++ ex)) := by
  unfold eulerFull at h
  simp only at h
  cases h1 : addNames ["u", "rho", "theta"] q.tracers with
  | error e => rw [h1] at h; cases h
  | ok fields =>
  have hn := (addNames_exists ["u", "rho", "theta"] q.tracers (by decide)).1 ⟨_, h1⟩
  have hf := addNames_ok _ _ _ h1
  subst hf
  rw [h1] at h
  simp only at h
  change (match collect (trMass c.base.M (fieldsOf q)) q.tracers with | .error e => _ | .ok ms => _) = _ at h
  cases h2 : collect (trMass c.base.M (fieldsOf q)) q.tracers with
  | error e => rw [h2] at h; cases h
  | ok ms =>
  rw [h2] at h
  simp only at h
  change (match Euler.uTransport (baseOf c q) p Xref with | .error e => _ | .ok ut => _) = _ at h
  cases h3 : Euler.uTransport (baseOf c q) p Xref with
  | error e => rw [h3] at h; cases h
  | ok ut =>
  rw [h3] at h
  simp only at h
  change (match collect (trTransport c.base.M (fieldsOf q)) (q.tracers.filter fun t => decide (t.eqn ≠ .noTransport)) with
    | .error e => _ | .ok tt => _) = _ at h
  cases h4 : collect (trTransport c.base.M (fieldsOf q)) (q.tracers.filter fun t => decide (t.eqn ≠ .noTransport)) with
  | error e => rw [h4] at h; cases h
  | ok tt =>
  rw [h4] at h
  simp only at h
  cases h5 : corOp c.base with
  | error e => rw [h5] at h; cases h
  | ok op =>
  rw [h5] at h
  simp only at h
  change (match spongeTerms (baseOf c q) with | .error e => _ | .ok sp => _) = _ at h
  cases h6 : spongeTerms (baseOf c q) with
  | error e => rw [h6] at h; cases h
  | ok sp =>
  rw [h6] at h
  simp only at h
  change (match collect (diffTerm c.base.M L (fieldsOf q)) q.diffusion with | .error e => _ | .ok df => _) = _ at h
  cases h7 : collect (diffTerm c.base.M L (fieldsOf q)) q.diffusion with
  | error e => rw [h7] at h; cases h
  | ok df =>
  rw [h7] at h
  simp only at h
  change (match collect (extraTerm c.base.M (fieldsOf q)) q.extra with | .error e => _ | .ok ex => _) = _ at h
  cases h8 : collect (extraTerm c.base.M (fieldsOf q)) q.extra with
  | error e => rw [h8] at h; cases h
  | ok ex =>
  rw [h8] at h
  simp only at h
  cases h
  refine ⟨[Euler.massU c.base.M, massRho c.base.M, massTh c.base.M] ++ ut ++
          [rhoAdv (baseOf c q) p Xref, thAdv (baseOf c q) p Xref, pg (baseOf c q), Euler.grav (baseOf c q)] ++
          moistTerms (baseOf c q) ++ Euler.corTerms (baseOf c q) op ++ sp, ms, tt, df, ex, hn, ?_, rfl, rfl, rfl, rfl, _, rfl, ?_⟩
  · unfold Euler.setup
    rw [h3]
    simp only
    rw [show corOp (baseOf c q).base = .ok op from h5]
    simp only
    rw [h6]
    rfl
  · classical
    rw [List.perm_iff_count]
    intro a
    simp only [List.count_append, List.count_cons, List.count_nil]
    unfold baseOf
    ring

/-! ### The theorems -/

/-- C136, options: the equations are built exactly if those of C100 are, the names of all fields are distinct, every tracer has a
transport equation for scalars whose density is a field, and every diffusion and every extra term belongs to a field, of the same
shape. -/
theorem C136_accepts (c : ECfg d C F B) (L : Lap d C F B) (q : Extras d C F B) (p : ET d C F B → Bool) (Xref : EuSt d C F B) :
    (∃ res, eulerFull c L q p Xref = .ok res) ↔ (∃ base, euler (baseOf c q) p Xref = .ok base) ∧ (fieldsOf q).Nodup ∧
      (∀ t ∈ q.tracers, TracerOk (fieldsOf q) t) ∧ (∀ e ∈ q.diffusion, e.1 ∈ fieldsOf q) ∧
      ∀ e ∈ q.extra, e.1 ∈ fieldsOf q ∧ Fits e.1 e.2 := by
  constructor
  · rintro ⟨res, h⟩
    obtain ⟨base, ms, tt, df, ex, hn, h1, h2, h3, h4, h5, _⟩ := builtFull c L q p Xref res h
    refine ⟨⟨_, by unfold euler; rw [h1]; rfl⟩, hn, ?_, ?_, ?_⟩
    · intro t ht
      by_cases hno : t.eqn = .noTransport
      · unfold TracerOk; rw [hno]; trivial
      · exact (trTransport_exists _ _ t hno).1 ((collect_exists _ _).1 ⟨_, h3⟩ t (List.mem_filter.2 ⟨ht, by simpa using hno⟩))
    · exact fun e he => (diffTerm_exists _ L _ e).1 ((collect_exists _ _).1 ⟨_, h4⟩ e he)
    · exact fun e he => (extraTerm_exists _ _ e).1 ((collect_exists _ _).1 ⟨_, h5⟩ e he)
  · rintro ⟨⟨base, h1⟩, hn, ht, hd, he⟩
    obtain ⟨fields, h0⟩ := (addNames_exists ["u", "rho", "theta"] q.tracers (by decide)).2 hn
    have hf := addNames_ok _ _ _ h0
    have hf' : fields = fieldsOf q := hf
    rw [hf'] at h0
    obtain ⟨ms, h2⟩ := (collect_exists (trMass c.base.M (fieldsOf q)) q.tracers).2 fun t htm =>
      (trMass_exists _ _ t).2 fun e => by
        have := ht t htm
        unfold TracerOk at this
        rw [e] at this
        exact this
    obtain ⟨tt, h3⟩ := (collect_exists (trTransport c.base.M (fieldsOf q))
      (q.tracers.filter fun t => decide (t.eqn ≠ .noTransport))).2 fun t htm => by
        obtain ⟨a, b⟩ := List.mem_filter.1 htm
        exact (trTransport_exists _ _ t (by simpa using b)).2 (ht t a)
    obtain ⟨df, h4⟩ := (collect_exists (diffTerm c.base.M L (fieldsOf q)) q.diffusion).2 fun e h =>
      (diffTerm_exists _ L _ e).2 (hd e h)
    obtain ⟨ex, h5⟩ := (collect_exists (extraTerm c.base.M (fieldsOf q)) q.extra).2 fun e h => (extraTerm_exists _ _ e).2 (he e h)
    unfold euler Euler.setup at h1
    cases h6 : Euler.uTransport (baseOf c q) p Xref with
    | error e => rw [h6] at h1; cases h1
    | ok ut =>
    cases h7 : corOp (baseOf c q).base with
    | error e => rw [h6] at h1; simp only at h1; rw [h7] at h1; cases h1
    | ok op =>
    cases h8 : spongeTerms (baseOf c q) with
    | error e => rw [h6] at h1; simp only at h1; rw [h7] at h1; simp only at h1; rw [h8] at h1; cases h1
    | ok sp =>
    unfold baseOf at h6 h7 h8
    unfold eulerFull
    simp only
    rw [h0]
    simp only
    rw [h2]
    simp only
    rw [h6]
    simp only
    rw [h3]
    simp only
    rw [h7]
    simp only
    rw [h8]
    simp only
    rw [h4]
    simp only
    rw [h5]
    exact ⟨_, rfl⟩

theorem sum_filter_transport (M : Mesh ℝ d C F B) (X v : EuSt d C F B) (ts : List FTracer) :
    ((ts.filter fun t => decide (t.eqn ≠ .noTransport)).map
      fun t => transportOf M t.eqn (v.tr t.m.name) (X.tr t.m.name) X.u).sum =
    (ts.map fun t => transportOf M t.eqn (v.tr t.m.name) (X.tr t.m.name) X.u).sum := by
  induction ts with
  | nil => rfl
  | cons t ts ih =>
    rw [List.filter_cons]
    by_cases h : t.eqn = .noTransport
    · rw [if_neg (by simp [h]), ih, List.map_cons, List.sum_cons]
      have : transportOf M t.eqn (v.tr t.m.name) (X.tr t.m.name) X.u = 0 := by rw [h]; rfl
      rw [this, zero_add]
    · rw [if_pos (by simp [h]), List.map_cons, List.sum_cons, ih, List.map_cons, List.sum_cons]

/-- C136, the equations: the residual without time derivatives is that of C100, with the tracers as masses, plus the transport of
each tracer, of its type, by the wind of the model, plus the diffusion of each listed field, plus the extra terms; every mass term
of a tracer is added to those of C100. -/
theorem C136_residual (c : ECfg d C F B) (L : Lap d C F B) (q : Extras d C F B) (p : ET d C F B → Bool) (Xref X v : EuSt d C F B)
    (res : List (ET d C F B)) (h : eulerFull c L q p Xref = .ok res) :
    ∃ base, euler (baseOf c q) p Xref = .ok base ∧
      spatialE res X v = spatialE base X v
        + (q.tracers.map fun t => transportOf c.base.M t.eqn (v.tr t.m.name) (X.tr t.m.name) X.u).sum
        + (q.diffusion.map fun e => diffusionOf c.base.M L e.1 e.2 X v).sum
        + (q.extra.map fun e => extraOf c.base.M e.1 e.2 X v).sum ∧
      temporalE res X v = temporalE base X v
        + (q.tracers.map fun t => ∑ x, c.base.M.wC x * ((X.tr t.m.name).c x * (v.tr t.m.name).c x)).sum := by
  obtain ⟨base, ms, tt, df, ex, hn, h1, h2, h3, h4, h5, l, rfl, hl⟩ := builtFull c L q p Xref res h
  refine ⟨generateLinear Xref p base, by unfold euler; rw [h1]; rfl, ?_, ?_⟩
  · have e1 : tt.filter nTD = tt := List.filter_eq_self.2 fun t ht => by
      obtain ⟨a, _, ha⟩ := collect_mem _ _ _ h3 t ht
      exact (trTransport_spec _ _ _ _ ha).1
    have e2 : df.filter nTD = df := List.filter_eq_self.2 fun t ht => by
      obtain ⟨a, _, ha⟩ := collect_mem _ _ _ h4 t ht
      exact (diffTerm_spec _ _ _ _ _ ha).1
    have e3 : ex.filter nTD = ex := List.filter_eq_self.2 fun t ht => by
      obtain ⟨a, _, ha⟩ := collect_mem _ _ _ h5 t ht
      exact (extraTerm_spec _ _ _ _ ha).1
    have e4 : ms.filter nTD = [] := List.filter_eq_nil_iff.2 fun t ht => by
      obtain ⟨a, _, ha⟩ := collect_mem _ _ _ h2 t ht
      simp [nTD, (trMass_spec _ _ _ _ ha).1]
    unfold spatialE
    rw [gen_filterE _ (fun _ _ => rfl), gen_valueE, gen_filterE _ (fun _ _ => rfl), gen_valueE]
    rw [((hl.filter nTD).map fun t => t.form X v).sum_eq]
    simp only [List.filter_append, e1, e2, e3, e4, List.nil_append, List.map_append, List.sum_append]
    rw [collect_sum _ _ X v _ _ h3 fun a _ b hb => (trTransport_spec _ _ _ _ hb).2 X v, sum_filter_transport,
      collect_sum _ _ X v _ _ h4 fun a _ b hb => (diffTerm_spec _ _ _ _ _ hb).2 X v,
      collect_sum _ _ X v _ _ h5 fun a _ b hb => (extraTerm_spec _ _ _ _ hb).2 X v]
    ring
  · have td : ∀ t : ET d C F B, nTD t = true → decide ("time_derivative" ∈ t.labels) = false := fun t ht => by
      simpa [nTD] using ht
    have e1 : tt.filter (fun t => decide ("time_derivative" ∈ t.labels)) = [] := List.filter_eq_nil_iff.2 fun t ht => by
      obtain ⟨a, _, ha⟩ := collect_mem _ _ _ h3 t ht
      rw [td t (trTransport_spec _ _ _ _ ha).1]; simp
    have e2 : df.filter (fun t => decide ("time_derivative" ∈ t.labels)) = [] := List.filter_eq_nil_iff.2 fun t ht => by
      obtain ⟨a, _, ha⟩ := collect_mem _ _ _ h4 t ht
      rw [td t (diffTerm_spec _ _ _ _ _ ha).1]; simp
    have e3 : ex.filter (fun t => decide ("time_derivative" ∈ t.labels)) = [] := List.filter_eq_nil_iff.2 fun t ht => by
      obtain ⟨a, _, ha⟩ := collect_mem _ _ _ h5 t ht
      rw [td t (extraTerm_spec _ _ _ _ ha).1]; simp
    have e4 : ms.filter (fun t => decide ("time_derivative" ∈ t.labels)) = ms := List.filter_eq_self.2 fun t ht => by
      obtain ⟨a, _, ha⟩ := collect_mem _ _ _ h2 t ht
      simp [(trMass_spec _ _ _ _ ha).1]
    unfold temporalE
    rw [gen_filterE _ (fun _ _ => rfl), gen_valueE, gen_filterE _ (fun _ _ => rfl), gen_valueE]
    rw [((hl.filter fun t => decide ("time_derivative" ∈ t.labels)).map fun t => t.form X v).sum_eq]
    simp only [List.filter_append, e1, e2, e3, e4, List.append_nil, List.map_append, List.sum_append]
    rw [collect_sum _ _ X v _ _ h2 fun a _ b hb => (trMass_spec _ _ _ _ hb).2 X v]

/-- C136: without tracers, diffusion and extra terms the equations are those of C100. -/
theorem C136_plain (c : ECfg d C F B) (L : Lap d C F B) (p : ET d C F B → Bool) (Xref X v : EuSt d C F B) (hc : c.tracers = [])
    (res : List (ET d C F B)) (h : eulerFull c L ⟨[], [], []⟩ p Xref = .ok res) :
    ∃ base, euler c p Xref = .ok base ∧ spatialE res X v = spatialE base X v ∧ temporalE res X v = temporalE base X v := by
  obtain ⟨base, h1, h2, h3⟩ := C136_residual c L _ p Xref X v res h
  have hb : baseOf c (⟨[], [], []⟩ : Extras d C F B) = c := by
    unfold baseOf
    rw [List.map_nil, ← hc]
  rw [hb] at h1
  exact ⟨base, h1, by simpa using h2, by simpa using h3⟩

/-! ### The equation of one tracer -/

/-- The test function that sees only the equation of one tracer. -/
noncomputable def onlyTr (n : String) (φ : Sc ℝ d C F B) : EuSt d C F B :=
  ⟨Ve.zero, Sc.const 0, Sc.const 0, fun m => if m = n then φ else Sc.const 0⟩

theorem transportOf_zero (M : Mesh ℝ d C F B) (t : TType) (q : Sc ℝ d C F B) (u : Ve ℝ d C F B) :
    transportOf M t (Sc.const 0) q u = 0 := by
  cases t <;> simp [transportOf, Sc.const]

theorem base_onlyTr (c : ECfg d C F B) (p : ET d C F B → Bool) (Xref X : EuSt d C F B) (n : String)
    (φ : Sc ℝ d C F B) (res : List (ET d C F B)) (h : euler c p Xref = .ok res) :
    spatialE res X (onlyTr n φ) = 0 ∧ temporalE res X (onlyTr n φ) = 0 := by
  obtain ⟨ut, op, sp, hut, ho, hs, _⟩ := builtE c p Xref res h
  rw [euler_spatial c p Xref X _ res h op ho, euler_temporal c p Xref X _ res h]
  have hz : ∀ a : Fin d → ℝ, dot (fun _ => (0 : ℝ)) a = 0 := fun a => by simp [dot]
  have hz' : ∀ a : Fin d → ℝ, dot a (fun _ => (0 : ℝ)) = 0 := fun a => by simp [dot]
  have h2 : uFormE c X (onlyTr n φ) = 0 := by
    unfold uFormE onlyTr bcirc kinE kineticCells advVec cells
    cases c.base.uopt <;> simp [SW.Ve.zero, hz, DG.Ve.div]
  have h3 : corE c op X (onlyTr n φ) = 0 := by
    unfold corE onlyTr
    cases op <;> simp [SW.Ve.zero, hz]
  have h4 : spongeE c X (onlyTr n φ) = 0 := by
    unfold spongeE onlyTr
    cases c.sponge <;> simp [SW.Ve.zero, hz]
  have h5 : moistE c X (onlyTr n φ) = 0 := by
    unfold moistE onlyTr
    split_ifs <;> simp [Sc.const]
  rw [h2, h3, h4, h5]
  constructor
  · simp [onlyTr, EqnDiag.pgf, gravForm, advCells, contCells, cells, SW.Ve.zero, hz, hz', DG.Ve.div, Sc.const]
  · simp [onlyTr, SW.Ve.zero, hz', Sc.const]

theorem sum_one {α : Type*} (l : List α) (f : α → ℝ) (a : α) (ha : a ∈ l) (hz : ∀ b ∈ l, b ≠ a → f b = 0) (hn : l.Nodup) :
    (l.map f).sum = f a := by
  induction l with
  | nil => cases ha
  | cons b l ih =>
    rw [List.map_cons, List.sum_cons]
    rw [List.nodup_cons] at hn
    rcases List.mem_cons.1 ha with e | e
    · subst e
      have : (l.map f).sum = 0 := List.sum_eq_zero fun y hy => by
        obtain ⟨z, hz1, rfl⟩ := List.mem_map.1 hy
        exact hz z (by simp [hz1]) fun e => hn.1 (e ▸ hz1)
      rw [this, add_zero]
    · rw [hz b (by simp) (fun e' => hn.1 (e' ▸ e)), zero_add]
      exact ih e (fun c hc => hz c (by simp [hc])) hn.2

/-- C136, one tracer: its equation is its own mass term, its own transport by the wind, its own diffusion and the extra terms
listed for it; no other field's test function occurs in it, and without extra terms it contains no other tracer. -/
theorem C136_tracer (c : ECfg d C F B) (L : Lap d C F B) (q : Extras d C F B) (p : ET d C F B → Bool) (Xref X : EuSt d C F B)
    (res : List (ET d C F B)) (h : eulerFull c L q p Xref = .ok res) (t : FTracer) (ht : t ∈ q.tracers) (φ : Sc ℝ d C F B) :
    temporalE res X (onlyTr t.m.name φ) = ∑ x, c.base.M.wC x * ((X.tr t.m.name).c x * φ.c x) ∧
    spatialE res X (onlyTr t.m.name φ) = transportOf c.base.M t.eqn φ (X.tr t.m.name) X.u
      + ((q.diffusion.filter fun e => decide (e.1 = t.m.name)).map fun e =>
          -∑ x, c.base.M.wC x * (φ.c x * (e.2 * L.s (X.tr t.m.name) x))).sum
      + ((q.extra.filter fun e => decide (e.1 = t.m.name)).map fun e => extraOf c.base.M e.1 e.2 X (onlyTr t.m.name φ)).sum := by
  obtain ⟨base, h1, h2, h3⟩ := C136_residual c L q p Xref X (onlyTr t.m.name φ) res h
  obtain ⟨z1, z2⟩ := base_onlyTr _ p Xref X t.m.name φ base h1
  obtain ⟨_, _, _, _, _, hn, _⟩ := builtFull c L q p Xref res h
  have hfit := ((C136_accepts c L q p Xref).1 ⟨_, h⟩).2.2.2.2
  have hnt : (q.tracers.map fun t => t.m.name).Nodup := by
    unfold fieldsOf at hn
    exact (List.nodup_append.1 hn).2.1
  have hres : ∀ n ∈ ["u", "rho", "theta"], t.m.name ≠ n := by
    intro n hnn e
    unfold fieldsOf at hn
    exact (List.nodup_append.1 hn).2.2 n hnn t.m.name (List.mem_map.2 ⟨t, ht, rfl⟩) e.symm
  have hu : t.m.name ≠ "u" := hres _ (by simp)
  have hr : t.m.name ≠ "rho" := hres _ (by simp)
  have hth : t.m.name ≠ "theta" := hres _ (by simp)
  have hinj : ∀ s ∈ q.tracers, s ≠ t → s.m.name ≠ t.m.name := fun s hs hne e =>
    hne (List.inj_on_of_nodup_map hnt hs ht e)
  have hnd : q.tracers.Nodup := List.Nodup.of_map _ hnt
  have self : (onlyTr t.m.name φ : EuSt d C F B).tr t.m.name = φ := by simp [onlyTr]
  have other : ∀ s ∈ q.tracers, s ≠ t → (onlyTr t.m.name φ : EuSt d C F B).tr s.m.name = Sc.const 0 := by
    intro s hs hne
    simp [onlyTr, hinj s hs hne]
  have hso : ∀ f : String, f ≠ t.m.name → ∀ x, (scalarOf (onlyTr t.m.name φ : EuSt d C F B) f).c x = 0 := by
    intro f hf x
    unfold scalarOf onlyTr
    split_ifs <;> simp [Sc.const, hf]
  have hst : ∀ Y : EuSt d C F B, scalarOf Y t.m.name = Y.tr t.m.name := by
    intro Y
    simp [scalarOf, hr, hth]
  have hz : ∀ a : Fin d → ℝ, dot (fun _ => (0 : ℝ)) a = 0 := fun a => by simp [dot]
  have huz : ∀ (x : C) (a : Fin d → ℝ), dot ((onlyTr t.m.name φ : EuSt d C F B).u.c x) a = 0 := by
    intro x a
    simp [onlyTr, SW.Ve.zero, hz]
  constructor
  · rw [h3, z2, zero_add, sum_one q.tracers _ t ht _ hnd, self]
    intro s hs hne
    simp [other s hs hne, Sc.const]
  · rw [h2, z1, zero_add, sum_one q.tracers _ t ht _ hnd, self]
    · congr 1
      · congr 1
        clear h h2
        induction q.diffusion with
        | nil => rfl
        | cons e es ih =>
          rw [List.map_cons, List.sum_cons, ih, List.filter_cons]
          by_cases he : e.1 = t.m.name
          · simp only [he, decide_true, if_true, List.map_cons, List.sum_cons]
            congr 1
            simp only [diffusionOf, named_eq]
            rw [if_neg hu]
            simp only [hst, self]
          · simp only [he, decide_false, Bool.false_eq_true, if_false]
            have : diffusionOf c.base.M L e.1 e.2 X (onlyTr t.m.name φ) = 0 := by
              simp only [diffusionOf, named_eq]
              split_ifs
              · simp [huz]
              · simp [hso e.1 he]
            rw [this, zero_add]
      · clear h h2
        revert hfit
        generalize q.extra = es
        intro hfit
        induction es with
        | nil => rfl
        | cons e es ih =>
          rw [List.map_cons, List.sum_cons, ih fun e' he' => hfit e' (by simp [he']), List.filter_cons]
          by_cases he : e.1 = t.m.name
          · simp [he]
          · simp only [he, decide_false, Bool.false_eq_true, if_false]
            have : extraOf c.base.M e.1 e.2 X (onlyTr t.m.name φ) = 0 := by
              simp only [extraOf, named_eq]
              cases e.2 with
              | scalar f df b => simp [hso e.1 he]
              | vector f df b => simp [huz]
            rw [this, zero_add]
    · intro s hs hne
      rw [other s hs hne, transportOf_zero]

/-- C136, mass of a tracer: a conservatively transported tracer without diffusion and extra terms of its own keeps its total, if its
flux through the facets is continuous and vanishes on the boundary. -/
theorem C136_tracer_mass (c : ECfg d C F B) (L : Lap d C F B) (q : Extras d C F B) (p : ET d C F B → Bool) (Xref X : EuSt d C F B)
    (res : List (ET d C F B)) (h : eulerFull c L q p Xref = .ok res) (t : FTracer) (ht : t ∈ q.tracers) (hc : t.eqn = .conservative)
    (hdiff : ∀ e ∈ q.diffusion, e.1 ≠ t.m.name) (hex : ∀ e ∈ q.extra, e.1 ≠ t.m.name) (hw : Flow c.base.M X.u)
    (hr : Continuous (X.tr t.m.name)) (hd : DivThm c.base.M (Sc.const 1) (X.tr t.m.name) X.u) :
    spatialE res X (onlyTr t.m.name (Sc.const 1)) = 0 := by
  rw [(C136_tracer c L q p Xref X res h t ht _).2, hc]
  have f1 : (q.diffusion.filter fun e => decide (e.1 = t.m.name)) = [] :=
    List.filter_eq_nil_iff.2 fun e he => by simpa using hdiff e he
  have f2 : (q.extra.filter fun e => decide (e.1 = t.m.name)) = [] :=
    List.filter_eq_nil_iff.2 fun e he => by simpa using hex e he
  rw [f1, f2, List.map_nil, List.map_nil, List.sum_nil, add_zero, add_zero]
  unfold DivThm at hd
  have h1 : ∑ x, c.base.M.wF x * ((Sc.const 1 : Sc ℝ d C F B).p x * (X.tr t.m.name).p x * dot (X.u.p x) (c.base.M.nP x) +
      (Sc.const 1 : Sc ℝ d C F B).m x * (X.tr t.m.name).m x * dot (X.u.m x) (c.base.M.nM x)) = 0 :=
    Finset.sum_eq_zero fun x _ => by rw [hw.1 x, hr x]; simp [Sc.const]
  have h2 : ∑ x, c.base.M.wB x * ((Sc.const 1 : Sc ℝ d C F B).b x * (X.tr t.m.name).b x * dot (X.u.b x) (c.base.M.nB x)) = 0 :=
    Finset.sum_eq_zero fun x _ => by rw [hw.2 x]; ring
  rw [h1, h2, add_zero] at hd
  rw [← hd]
  unfold transportOf
  refine Finset.sum_congr rfl fun x _ => ?_
  have : dot ((Sc.const 1 : Sc ℝ d C F B).g x) (X.u.c x) = 0 := by simp [Sc.const, dot]
  rw [this]; simp only [Sc.const]; ring

/-- C136, constants: an advected tracer that is constant stays so, whatever the wind (with diffusion that leaves constants alone). -/
theorem C136_tracer_constant (c : ECfg d C F B) (L : Lap d C F B) (q : Extras d C F B) (p : ET d C F B → Bool)
    (Xref X : EuSt d C F B) (res : List (ET d C F B)) (h : eulerFull c L q p Xref = .ok res) (t : FTracer) (ht : t ∈ q.tracers)
    (hc : t.eqn = .advective ∨ t.eqn = .tracerConservative) (hex : ∀ e ∈ q.extra, e.1 ≠ t.m.name)
    (hL : ∀ a x, L.s (Sc.const a) x = 0) (a : ℝ) (hX : X.tr t.m.name = Sc.const a) (φ : Sc ℝ d C F B) :
    spatialE res X (onlyTr t.m.name φ) = 0 := by
  rw [(C136_tracer c L q p Xref X res h t ht _).2]
  have f2 : (q.extra.filter fun e => decide (e.1 = t.m.name)) = [] :=
    List.filter_eq_nil_iff.2 fun e he => by simpa using hex e he
  rw [f2, hX]
  have e1 : transportOf c.base.M t.eqn φ (Sc.const a) X.u = 0 := by
    rcases hc with e | e <;> rw [e] <;> simp [transportOf, Sc.const, dot]
  rw [e1]
  simp [hL]

/-! ### Linearisation -/

/-- UFL differentiates the expression at the reference state (an expression without the state has an empty derivative). -/
def Expr.Differentiable (e : Expr d C F B) (Xref : EuSt d C F B) : Prop :=
  match e with
  | .scalar f df b => ∀ h x, HasDerivAt (fun e : ℝ => f (Xref.axpy e h) x) (if b then 0 else df Xref h x) 0
  | .vector f df b => ∀ h x i, HasDerivAt (fun e : ℝ => f (Xref.axpy e h) x i) (if b then 0 else df Xref h x i) 0

/-- `div(grad(q))` is linear in `q`. -/
structure Lap.Linear (L : Lap d C F B) : Prop where
  s : ∀ a b e x, L.s (Sc.add a (Sc.smul e b)) x = L.s a x + e * L.s b x
  v : ∀ a b e x i, L.v (Ve.add a (Ve.smul e b)) x i = L.v a x i + e * L.v b x i

theorem scalarOf_axpy (X h : EuSt d C F B) (e : ℝ) (f : String) :
    scalarOf (X.axpy e h) f = Sc.add (scalarOf X f) (Sc.smul e (scalarOf h f)) := by
  unfold scalarOf EuSt.axpy
  split_ifs <;> rfl

theorem setup_terms (c : ECfg d C F B) (p : ET d C F B → Bool) (Xref : EuSt d C F B) (base : List (ET d C F B))
    (h : Euler.setup c p Xref = .ok base) : ∃ ut op sp, Bou.uTransport c.base (fun t => p (lift t)) (toSt Xref) = .ok ut ∧
      corOp c.base = .ok op ∧ spongeTerms c = .ok sp ∧ base = termsE c p Xref ut op sp := by
  unfold Euler.setup Euler.uTransport at h
  cases hu : Bou.uTransport c.base (fun t => p (lift t)) (toSt Xref) with
  | error e => rw [hu] at h; cases h
  | ok ut =>
    cases ho : corOp c.base with
    | error e => rw [hu, ho] at h; cases h
    | ok op =>
      cases hs : spongeTerms c with
      | error e => rw [hu, ho, hs] at h; cases h
      | ok sp =>
        rw [hu, ho, hs] at h
        exact ⟨ut, op, sp, rfl, rfl, rfl, by cases h; rfl⟩

theorem trMass_deriv (M : Mesh ℝ d C F B) (fields : List String) (t : FTracer) (b : ET d C F B) (h : trMass M fields t = .ok b)
    (Xref : EuSt d C F B) : DerivAt b.form Xref (effE Xref b) := by
  unfold trMass at h
  simp only at h
  split_ifs at h <;> cases h <;>
  exact fun h v => quadratic _ (cells M fun x => (Xref.tr t.m.name).c x * (v.tr t.m.name).c x) _ 0 fun e => by
    simp only [effE, EuSt.axpy]
    simp only [Bool.false_eq_true, if_false]
    rw [cells_axpy M _ (fun x => (Xref.tr t.m.name).c x * (v.tr t.m.name).c x)
      (fun x => (h.tr t.m.name).c x * (v.tr t.m.name).c x) e fun x => by simp only [scc]; ring]
    ring

theorem trTransport_deriv (M : Mesh ℝ d C F B) (fields : List String) (t : FTracer) (b : ET d C F B)
    (h : trTransport M fields t = .ok b) (Xref : EuSt d C F B) : DerivAt b.form Xref (effE Xref b) := by
  unfold trTransport at h
  cases he : t.eqn <;> rw [he] at h <;> simp only at h <;> (try split_ifs at h) <;> cases h
  · exact fun h v => quadratic _ (advCells M (v.tr t.m.name) (Xref.tr t.m.name) Xref.u) _
      (advCells M (v.tr t.m.name) (h.tr t.m.name) h.u) fun e => by
        simp only [trAdvective, effE, EuSt.axpy, Bool.false_eq_true, if_false]
        rw [adv_q, adv_u, adv_u]; ring
  · exact fun h v => quadratic _ (contCells M (v.tr t.m.name) (Xref.tr t.m.name) Xref.u) _
      (contCells M (v.tr t.m.name) (h.tr t.m.name) h.u) fun e => by
        simp only [trConservative, effE, EuSt.axpy, Bool.false_eq_true, if_false]
        rw [cont_q, cont_u, cont_u]; ring
  · exact fun h v => quadratic _ (advCells M (v.tr t.m.name) (Xref.tr t.m.name) Xref.u) _
      (advCells M (v.tr t.m.name) (h.tr t.m.name) h.u) fun e => by
        simp only [trAdvective, effE, EuSt.axpy, Bool.false_eq_true, if_false]
        rw [adv_q, adv_u, adv_u]; ring

theorem diffTerm_deriv (M : Mesh ℝ d C F B) (L : Lap d C F B) (hL : Lap.Linear L) (fields : List String) (q : String × ℝ)
    (b : ET d C F B) (h : diffTerm M L fields q = .ok b) (Xref : EuSt d C F B) : DerivAt b.form Xref (effE Xref b) := by
  unfold diffTerm at h
  split_ifs at h with h1 h2 <;> cases h
  · exact fun h v => quadratic _ (-cells M fun x => dot (v.u.c x) (fun i => q.2 * L.v Xref.u x i)) _ 0 fun e => by
      simp only [effE, EuSt.axpy, Bool.false_eq_true, if_false]
      rw [cells_axpy M _ (fun x => dot (v.u.c x) (fun i => q.2 * L.v Xref.u x i))
        (fun x => dot (v.u.c x) (fun i => q.2 * L.v h.u x i)) e fun x => by
          simp only [hL.v]
          unfold dot
          rw [Finset.mul_sum, ← Finset.sum_add_distrib]
          exact Finset.sum_congr rfl fun i _ => by ring]
      ring
  · exact fun h v => quadratic _ (-cells M fun x => (scalarOf v q.1).c x * (q.2 * L.s (scalarOf Xref q.1) x)) _ 0 fun e => by
      simp only [effE, scalarOf_axpy, Bool.false_eq_true, if_false]
      rw [cells_axpy M _ (fun x => (scalarOf v q.1).c x * (q.2 * L.s (scalarOf Xref q.1) x))
        (fun x => (scalarOf v q.1).c x * (q.2 * L.s (scalarOf h q.1) x)) e fun x => by
          simp only [hL.s]
          ring]
      ring

theorem extraTerm_deriv (M : Mesh ℝ d C F B) (fields : List String) (q : String × Expr d C F B) (b : ET d C F B)
    (h : extraTerm M fields q = .ok b) (Xref : EuSt d C F B) (hq : Expr.Differentiable q.2 Xref) :
    DerivAt b.form Xref (effE Xref b) := by
  unfold extraTerm at h
  by_cases h1 : q.1 ∈ fields
  · rw [if_pos h1] at h
    cases he : q.2 with
    | scalar f df e0 =>
      rw [he] at h hq
      simp only at h
      split_ifs at h
      cases h
      intro h v
      simp only [effE]
      have : HasDerivAt (fun e : ℝ => ∑ x, M.wC x * ((scalarOf v q.1).c x * f (Xref.axpy e h) x))
          (∑ x, M.wC x * ((scalarOf v q.1).c x * (if e0 then 0 else df Xref h x))) 0 :=
        HasDerivAt.fun_sum fun x _ => ((hq h x).const_mul _).const_mul _
      refine this.congr_deriv ?_
      cases e0 <;> simp [cells]
    | vector f df e0 =>
      rw [he] at h hq
      simp only at h
      split_ifs at h
      cases h
      intro h v
      simp only [effE]
      have : HasDerivAt (fun e : ℝ => ∑ x, M.wC x * dot (v.u.c x) (f (Xref.axpy e h) x))
          (∑ x, M.wC x * dot (v.u.c x) (fun i => if e0 then 0 else df Xref h x i)) 0 := by
        refine HasDerivAt.fun_sum fun x _ => HasDerivAt.const_mul _ ?_
        unfold dot
        exact HasDerivAt.fun_sum fun i _ => (hq h x i).const_mul _
      refine this.congr_deriv ?_
      cases e0 <;> simp [cells, dot]
  · rw [if_neg h1] at h
    cases h

/-- C136, linearisation: with the default linearisation map the linearised equations, those of the tracers, diffusion and extra
terms included, are the derivative of the equations at the reference state. -/
theorem C136_linear_is_derivative (c : ECfg d C F B) (L : Lap d C F B) (q : Extras d C F B) (hR : GoodC c.base.R)
    (hP : ThermoProps.Good c.P) (hcp : c.P.cp ≠ 0) (hL : Lap.Linear L) (Xref : EuSt d C F B) (hX : Positive (baseOf c q) Xref)
    (hq : ∀ e ∈ q.extra, Expr.Differentiable e.2 Xref) (res : List (ET d C F B))
    (h : eulerFull c L q (fun _ => true) Xref = .ok res) (X' v : EuSt d C F B) :
    HasDerivAt (fun e : ℝ => value res (Xref.axpy e X') v) (value (lineariseSet res) X' v) 0 := by
  obtain ⟨base, ms, tt, df, ex, hn, h1, h2, h3, h4, h5, l, rfl, hl⟩ := builtFull c L q _ Xref res h
  obtain ⟨ut, op, sp, hu, ho, hs, rfl⟩ := setup_terms _ _ _ _ h1
  rw [value_linearE]
  simp only [gen_valueE]
  have hd : ∀ t ∈ l, DerivAt t.form Xref (effE Xref t) := by
    intro t ht
    have := hl.subset ht
    simp only [List.mem_append] at this
    rcases this with h' | (((h' | h') | h') | h')
    · exact termsE_deriv (baseOf c q) hR hP hcp Xref hX ut op sp hu ho hs t h'
    · obtain ⟨a, _, ha⟩ := collect_mem _ _ _ h2 t h'
      exact trMass_deriv _ _ _ _ ha Xref
    · obtain ⟨a, _, ha⟩ := collect_mem _ _ _ h3 t h'
      exact trTransport_deriv _ _ _ _ ha Xref
    · obtain ⟨a, _, ha⟩ := collect_mem _ _ _ h4 t h'
      exact diffTerm_deriv _ L hL _ _ _ ha Xref
    · obtain ⟨a, ha', ha⟩ := collect_mem _ _ _ h5 t h'
      exact extraTerm_deriv _ _ _ _ ha Xref (hq a ha')
  clear hl h
  induction l with
  | nil => simpa using hasDerivAt_const (0 : ℝ) (0 : ℝ)
  | cons t ts ih =>
    simp only [List.map_cons, List.sum_cons]
    exact (hd t (by simp) X' v).add (ih fun t' ht' => hd t' (by simp [ht']))

/-! ### A concrete case -/

/-- The moist column of C100 with vapour (advected with a mass-weighted form), cloud (conservative), a passive tracer without
transport, diffusion of the potential temperature and of the wind, a constant heating and a damping of the wind. -/
noncomputable def colExtras : Extras 2 (Fin 2) (Fin 3) (Fin 2) where
  tracers := [⟨⟨"water_vapour", true, true, .gas⟩, .tracerConservative, some "rho"⟩,
    ⟨⟨"cloud", true, true, .liquid⟩, .conservative, none⟩, ⟨⟨"dust", false, false, .gas⟩, .noTransport, none⟩]
  diffusion := [("theta", 75), ("u", 75)]
  extra := [("theta", .scalar (fun _ _ => -1) (fun _ _ _ => 0) true),
    ("u", .vector (fun X x => X.u.c x) (fun _ h x => h.u.c x) false)]

/-- Second derivatives that vanish on the column. -/
noncomputable def colLap : Lap 2 (Fin 2) (Fin 3) (Fin 2) := ⟨fun _ _ => 0, fun _ _ _ => 0⟩

theorem col_accepted : ∃ res, eulerFull (colCfg .circulation) colLap colExtras (fun _ => true) colSt = .ok res := by
  rw [C136_accepts]
  refine ⟨(C100_accepts _ _ _).2 ⟨by simp [baseOf, colCfg], Or.inl rfl, fun s hs => ?_⟩, by decide, ?_, ?_, ?_⟩
  · simp [baseOf, colCfg] at hs; subst hs; norm_num
  · simp [colExtras, TracerOk, fieldsOf]
  · simp [colExtras, fieldsOf]
  · simp [colExtras, fieldsOf, Fits]

example : Lap.Linear colLap ∧ (∀ e ∈ colExtras.extra, Expr.Differentiable e.2 colSt) ∧
    Positive (baseOf (colCfg .circulation) colExtras) colSt := by
  refine ⟨⟨fun _ _ _ _ => by simp [colLap], fun _ _ _ _ _ => by simp [colLap]⟩, ?_, ?_⟩
  · intro e he
    simp only [colExtras, List.mem_cons, List.not_mem_nil, or_false] at he
    rcases he with rfl | rfl
    · intro h x
      exact hasDerivAt_const _ _
    · intro h x i
      simpa [EuSt.axpy, Ve.add, Ve.smul] using lin_path (colSt.u.c x i) (h.u.c x i)
  · have hm : mrOne (baseOf (colCfg .circulation) colExtras).tracers colSt = Sc.const (102 / 100) := by
      simp [mrOne, mrTotal, baseOf, colExtras, colSt, Sc.add, Sc.const]
      norm_num
    exact
    { rc := col_positive.rc, rp := col_positive.rp, rm := col_positive.rm, tc := col_positive.tc, tp := col_positive.tp
      tm := col_positive.tm
      mc := fun x => by rw [hm]; norm_num [Sc.const]
      mp := fun x => by rw [hm]; norm_num [Sc.const]
      mm := fun x => by rw [hm]; norm_num [Sc.const]
      cv := fun x => by
        simp [cvml, mrPhase, baseOf, colExtras, colCfg, colSt, Sc.const]
        norm_num [Thermo.defaults] }

/-- A mistyped field name is refused. -/
example : ¬ ∃ res, eulerFull (colCfg .circulation) colLap { colExtras with diffusion := [("thetaa", 75)] } (fun _ => true) colSt =
    .ok res := by
  rw [C136_accepts]
  rintro ⟨_, _, _, h, _⟩
  have := h ("thetaa", 75) (by simp)
  simp [fieldsOf, colExtras] at this

end Gusto.Props.EulerFullProps
