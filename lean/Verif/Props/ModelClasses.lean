import Verif.Model.ModelClasses
import Verif.Props.EquationSet

set_option autoImplicit false
set_option linter.unusedSectionVars false
set_option linter.unusedSimpArgs false

/-! C103: the model classes apply exactly one transport scheme to every prognostic. -/

namespace Gusto.Props.ModelClassesProps
open Gusto Gusto.MC
open Gusto.Forms (TType)

/-! ### Loops -/

theorem collect_names {A B N : Type} (f : A → Except Err (Option B)) (key : B → N) (k : A → N) (p : A → Bool)
    (hs : ∀ a b, f a = .ok (some b) → p a = true ∧ key b = k a) (hn : ∀ a, f a = .ok none → p a = false) (l : List A)
    (r : List B) (h : collect f l = .ok r) : r.map key = (l.filter p).map k := by
  induction l generalizing r with
  | nil => simp only [collect, Except.ok.injEq] at h; subst h; rfl
  | cons a l ih =>
    rw [collect] at h
    split at h
    · cases h
    · rename_i hfa
      rw [List.filter_cons_of_neg (by rw [hn a hfa]; simp)]
      exact ih r h
    · rename_i b hfa
      split at h
      · cases h
      · rename_i r' hr
        simp only [Except.ok.injEq] at h
        subst h
        rw [List.filter_cons_of_pos (hs a b hfa).1, List.map_cons, List.map_cons, (hs a b hfa).2, ih r' hr]

theorem collect_all {A B : Type} (f : A → Except Err (Option B)) (P : B → Prop)
    (hs : ∀ a b, f a = .ok (some b) → P b) (l : List A) (r : List B) (h : collect f l = .ok r) : ∀ b ∈ r, P b := by
  induction l generalizing r with
  | nil => simp only [collect, Except.ok.injEq] at h; subst h; simp
  | cons a l ih =>
    rw [collect] at h
    split at h
    · cases h
    · exact ih r h
    · rename_i b hfa
      split at h
      · cases h
      · rename_i r' hr
        simp only [Except.ok.injEq] at h
        subst h
        intro b' hb'
        rcases List.mem_cons.1 hb' with rfl | hb'
        · exact hs a b' hfa
        · exact ih r' hr b' hb'

theorem collect_ok_iff {A B : Type} (f : A → Except Err (Option B)) (l : List A) :
    (∃ r, collect f l = .ok r) ↔ ∀ a ∈ l, ∃ b, f a = .ok b := by
  induction l with
  | nil => simp [collect]
  | cons a l ih =>
    rw [collect]
    cases hfa : f a with
    | error e => simp [hfa]
    | ok b =>
      cases b with
      | none => simp [hfa, ih]
      | some b =>
        simp only [List.mem_cons, forall_eq_or_imp, hfa, Except.ok.injEq, exists_eq', true_and]
        rw [← ih]
        cases hc : collect f l with
        | error e => simp
        | ok r => simp

/-! ### Methods -/

theorem dg_ok {g : Geo} {flds : List Fld} {n : String} {a : Bool} {m : Method} (h : dgUpwind g flds n a = .ok m) :
    m.variable_ = n ∧ m.label = .transport := by
  unfold dgUpwind at h
  split at h
  · cases h
  · split at h
    · split at h
      · cases h
      · split at h
        · split at h
          · simp only [Except.ok.injEq] at h; subst h; exact ⟨rfl, rfl⟩
          · cases h
        · split at h
          · cases h
          · simp only [Except.ok.injEq] at h; subst h; exact ⟨rfl, rfl⟩
    · cases h

theorem ip_ok {flds : List Fld} {n : String} {m : Method} (h : interiorPenalty flds n = .ok m) :
    m.variable_ = n ∧ m.label = .diffusion := by
  unfold interiorPenalty at h
  split at h
  · cases h
  · split at h
    · simp only [Except.ok.injEq] at h; subst h; exact ⟨rfl, rfl⟩
    · cases h

theorem map_some {A : Type} {x : Except Err A} {b : A} (h : x.map some = .ok (some b)) : x = .ok b := by
  cases x with
  | error e => cases h
  | ok a => simp only [Except.map, Except.ok.injEq, Option.some.injEq] at h; rw [h]

theorem map_none {A : Type} {x : Except Err A} (h : x.map some = .ok none) : False := by
  cases x with
  | error e => cases h
  | ok a => simp [Except.map] at h

/-- The number of transport methods of a field. -/
def nMethods (ms : List Method) (n : String) : ℕ :=
  (ms.filter fun m => m.variable_ = n ∧ m.label = .transport).length

theorem nMethods_names {ms : List Method} (h : ∀ m ∈ ms, m.label = .transport) (n : String) :
    nMethods ms n = (ms.map (·.variable_)).count n := by
  induction ms with
  | nil => rfl
  | cons m ms ih =>
    have hm := h m List.mem_cons_self
    have := ih (fun m hm => h m (List.mem_cons_of_mem _ hm))
    unfold nMethods at *
    rw [List.map_cons, List.count_cons, ← this]
    by_cases e : m.variable_ = n
    · simp [e, hm]
    · simp [e]

theorem nMethods_diff {ms : List Method} (h : ∀ m ∈ ms, m.label = .diffusion) (n : String) : nMethods ms n = 0 := by
  unfold nMethods
  rw [List.length_eq_zero_iff, List.filter_eq_nil_iff]
  intro m hm
  simp [h m hm]

theorem nMethods_append (a b : List Method) (n : String) : nMethods (a ++ b) n = nMethods a n + nMethods b n := by
  simp [nMethods]

theorem diffMethods_label {flds : List Fld} {l : List String} {r : List Method} (h : diffMethods flds l = .ok r) :
    ∀ m ∈ r, m.label = .diffusion :=
  collect_all _ (fun m => m.label = .diffusion) (fun _ _ hab => (ip_ok (map_some hab)).2) l r h

/-- The fields for which the loops of `transport_methods` make a method. -/
def keptM (metric : Bool) (c : Cls) (f : Fld) : Bool :=
  match c with
  | .siqn => decide (f.space = "L2") || !(metric && decide (f.name = "z"))
  | .lowest => !(metric && decide (f.name = "z"))

theorem loop_methods (c : Cls) (g : Geo) (metric : Bool) (flds l : List Fld) (r : List Method)
    (h : collect (match c with | .siqn => siqnMethod g metric flds | .lowest => lowMethod g metric flds) l = .ok r) :
    r.map (·.variable_) = (l.filter (keptM metric c)).map (·.name) ∧ ∀ m ∈ r, m.label = .transport := by
  cases c with
  | siqn =>
    simp only at h
    refine ⟨collect_names _ _ _ _ ?_ ?_ l r h, collect_all _ (fun m => m.label = .transport) ?_ l r h⟩
    · intro f m hm
      unfold siqnMethod at hm
      split at hm
      · rename_i hs; exact ⟨by simp [keptM, hs], (dg_ok (map_some hm)).1⟩
      · split at hm
        · cases hm
        · rename_i hs hz; exact ⟨by cases metric <;> simp_all [keptM], (dg_ok (map_some hm)).1⟩
    · intro f hm
      unfold siqnMethod at hm
      split at hm
      · exact (map_none hm).elim
      · split at hm
        · rename_i hs hz; simp [keptM, hs, hz.1, hz.2]
        · exact (map_none hm).elim
    · intro f m hm
      unfold siqnMethod at hm
      split at hm
      · exact (dg_ok (map_some hm)).2
      · split at hm
        · cases hm
        · exact (dg_ok (map_some hm)).2
  | lowest =>
    simp only at h
    refine ⟨collect_names _ _ _ _ ?_ ?_ l r h, collect_all _ (fun m => m.label = .transport) ?_ l r h⟩
    · intro f m hm
      unfold lowMethod at hm
      split at hm
      · cases hm
      · rename_i hz; exact ⟨by cases metric <;> simp_all [keptM], (dg_ok (map_some hm)).1⟩
    · intro f hm
      unfold lowMethod at hm
      split at hm
      · rename_i hz; simp [keptM, hz.1, hz.2]
      · exact (map_none hm).elim
    · intro f m hm
      unfold lowMethod at hm
      split at hm
      · cases hm
      · exact (dg_ok (map_some hm)).2

theorem methods_ok {c : Cls} {g : Geo} {metric : Bool} {flds : List Fld} {ms : List Method}
    (h : methods c g metric flds = .ok ms) :
    ms.map (·.variable_) = (if metric then ["z"] else []) ++ (flds.filter (keptM metric c)).map (·.name) ∧
      ∀ m ∈ ms, m.label = .transport := by
  have key : ∃ a l, metricMethod g metric flds = .ok a ∧
      collect (match c with | .siqn => siqnMethod g metric flds | .lowest => lowMethod g metric flds) flds = .ok l ∧
      ms = a ++ l := by
    cases c with
    | siqn =>
      simp only [methods, siqnMethods] at h ⊢
      split at h
      · cases h
      · split at h
        · cases h
        · rename_i a ha _ l hl
          simp only [Except.ok.injEq] at h
          exact ⟨a, l, ha, hl, h.symm⟩
    | lowest =>
      simp only [methods, lowMethods] at h ⊢
      split at h
      · cases h
      · split at h
        · cases h
        · rename_i a ha _ l hl
          simp only [Except.ok.injEq] at h
          exact ⟨a, l, ha, hl, h.symm⟩
  obtain ⟨a, l, ha, hl, rfl⟩ := key
  obtain ⟨h1, h2⟩ := loop_methods c g metric flds flds l hl
  have ha' : a.map (·.variable_) = (if metric then ["z"] else []) ∧ ∀ m ∈ a, m.label = .transport := by
    unfold metricMethod at ha
    split at ha
    · rename_i hm
      cases hd : dgUpwind g flds "z" false with
      | error e => rw [hd] at ha; cases ha
      | ok m =>
        rw [hd] at ha
        simp only [Except.map, Except.ok.injEq] at ha
        subst ha
        simp [hm, (dg_ok hd).1, (dg_ok hd).2]
    · rename_i hm
      simp only [Except.ok.injEq] at ha
      subst ha; simp [hm]
  refine ⟨by rw [List.map_append, ha'.1, h1], ?_⟩
  intro m hm
  rcases List.mem_append.1 hm with hm | hm
  · exact ha'.2 m hm
  · exact h2 m hm

/-! ### The timestepper -/

theorem active_ok {names : List String} {ms : List Method} {ss t : List Scheme}
    (h : activeTransport names ms ss = .ok t) (h1 : ∀ s ∈ ss, nMethods ms s.field = 1) : t = ss := by
  induction ss generalizing t with
  | nil => simp only [activeTransport, Except.ok.injEq] at h; exact h.symm
  | cons s ss ih =>
    rw [activeTransport] at h
    split at h
    · cases h
    · rename_i a ha
      split at h
      · cases h
      · rename_i r hr
        simp only [Except.ok.injEq] at h
        have hr' := ih hr (fun s hs => h1 s (List.mem_cons_of_mem _ hs))
        have h2 := h1 s List.mem_cons_self
        unfold matchScheme at ha
        unfold nMethods at h2
        split at ha
        · dsimp only at ha
          split at ha
          · cases ha
          · simp only [Except.ok.injEq] at ha
            obtain ⟨m, hm⟩ := List.length_eq_one_iff.1 h2
            rw [hm] at ha
            rw [← h, ← ha, hr']; rfl
        · cases ha

theorem active_iff {names : List String} {ms : List Method} {ss : List Scheme} :
    (∃ t, activeTransport names ms ss = .ok t) ↔ ∀ s ∈ ss, s.field ∈ names ∧ nMethods ms s.field ≠ 0 := by
  induction ss with
  | nil => simp [activeTransport]
  | cons s ss ih =>
    rw [activeTransport]
    have hm : (∃ a, matchScheme names ms s = .ok a) ↔ s.field ∈ names ∧ nMethods ms s.field ≠ 0 := by
      unfold matchScheme nMethods
      by_cases hn : s.field ∈ names
      · rw [if_pos hn]
        dsimp only
        by_cases he : (List.map (fun _ => s) (ms.filter fun m => m.variable_ = s.field ∧ m.label = .transport)) = []
        · rw [if_pos he]
          have := List.map_eq_nil_iff.1 he
          rw [this]; simp
        · rw [if_neg he]
          have : (ms.filter fun m => m.variable_ = s.field ∧ m.label = .transport) ≠ [] := fun h => he (by rw [h]; rfl)
          simp only [Except.ok.injEq, exists_eq', hn, true_and, ne_eq, true_iff, List.length_eq_zero_iff]
          exact this
      · rw [if_neg hn]; simp [hn]
    simp only [List.mem_cons, forall_eq_or_imp]
    rw [← hm, ← ih]
    cases hs : matchScheme names ms s with
    | error e => simp
    | ok a =>
      cases ht : activeTransport names ms ss with
      | error e => simp
      | ok t => simp

theorem setup_parts {c : Cls} {g : Geo} {metric sm : Bool} {flds : List Fld} {diff : Option (List String)} {st : Stepper}
    (h : setup c g metric sm flds diff = .ok st) :
    ∃ ss ms dn dm ds t d, transported c g metric flds = .ok ss ∧ methods c g metric flds = .ok ms ∧ diff = some dn ∧
      diffMethods flds dn = .ok dm ∧ diffSchemes c g flds dn = .ok ds ∧
      metricCheck sm (flds.map (·.name)) ss = .ok () ∧
      activeTransport (flds.map (·.name)) (ms ++ dm) ss = .ok t ∧
      activeDiffusion (flds.map (·.name)) (ms ++ dm) ds = .ok d ∧ st = ⟨t, d, sm⟩ := by
  unfold setup at h
  split at h
  · cases h
  rename_i ss hss
  split at h
  · cases h
  rename_i ms hms
  split at h
  · cases h
  rename_i dn
  split at h
  · cases h
  rename_i dm hdm
  split at h
  · cases h
  rename_i ds hds
  unfold stepper at h
  split at h
  · cases h
  rename_i u hmc
  split at h
  · cases h
  rename_i t ht
  split at h
  · cases h
  rename_i d hd
  simp only [Except.ok.injEq] at h
  exact ⟨ss, ms, dn, dm, ds, t, d, hss, hms, rfl, hdm, hds, hmc, ht, hd, h.symm⟩

/-- The fields for which the loops of `transported_fields` make a scheme. -/
def keptS (metric : Bool) (c : Cls) (f : Fld) : Bool :=
  match c with
  | .siqn => decide (f.space = "L2") || decide (f.space = "theta") || !(metric && decide (f.name = "z"))
  | .lowest => decide (f.space = "HDiv") || decide (f.space = "L2") ||
      (decide (f.space = "theta") && !(metric && decide (f.name = "z")))

theorem siqnScheme_ok (metric : Bool) (f : Fld) : siqnScheme metric f =
    .ok (if keptS metric .siqn f then
      some ⟨f.name, .ssprk3, if f.space = "theta" then .embedded else .none, decide (f.space = "L2")⟩ else none) := by
  unfold siqnScheme keptS
  by_cases h1 : f.space = "L2"
  · simp [h1]
  · by_cases h2 : f.space = "theta"
    · simp [h2]
    · by_cases h3 : metric = true ∧ f.name = "z"
      · simp [h1, h2, h3.1, h3.2]
      · rw [if_neg h1, if_neg h2, if_neg h3, if_pos (by cases metric <;> simp_all), if_neg h2]
        simp [h1]

theorem lowScheme_ok (metric : Bool) (f : Fld) : lowScheme metric f =
    .ok (if keptS metric .lowest f then
      some ⟨f.name, .ssprk3, if f.space = "HDiv" then .recoverU else if f.space = "L2" then .recoverDG else .recoverTheta,
        false⟩ else none) := by
  unfold lowScheme keptS
  by_cases h1 : f.space = "HDiv"
  · simp [h1]
  · by_cases h2 : f.space = "L2"
    · simp [h2]
    · by_cases h3 : metric = true ∧ f.name = "z"
      · simp [h1, h2, h3.1, h3.2]
      · by_cases h4 : f.space = "theta"
        · rw [if_neg h1, if_neg h2, if_neg h3, if_pos h4, if_pos (by cases metric <;> simp_all), if_neg h1, if_neg h2]
        · rw [if_neg h1, if_neg h2, if_neg h3, if_neg h4, if_neg (by simp [h1, h2, h4])]

theorem collect_pure {A B : Type} (p : A → Bool) (k : A → B) (l : List A) :
    collect (fun a => .ok (if p a then some (k a) else none)) l = .ok ((l.filter p).map k) := by
  induction l with
  | nil => rfl
  | cons a l ih =>
    rw [collect]
    by_cases h : p a
    · simp only [h, if_true, ih]; simp [h]
    · simp only [h, Bool.false_eq_true, if_false, ih]; simp [h]

/-- The scheme of a field in the two classes. -/
def schemeOf (c : Cls) (f : Fld) : Scheme :=
  match c with
  | .siqn => ⟨f.name, .ssprk3, if f.space = "theta" then .embedded else .none, decide (f.space = "L2")⟩
  | .lowest => ⟨f.name, .ssprk3,
      if f.space = "HDiv" then .recoverU else if f.space = "L2" then .recoverDG else .recoverTheta, false⟩

/-- The scheme of the metric term. -/
def metricScheme (c : Cls) : Scheme :=
  match c with
  | .siqn => ⟨"z", .forwardEuler, .embedded, false⟩
  | .lowest => ⟨"z", .forwardEuler, .recoverTheta, false⟩

theorem transported_eq (c : Cls) (g : Geo) (metric : Bool) (flds : List Fld) (hg : c = .lowest → g.extruded = true) :
    transported c g metric flds =
      .ok ((if metric then [metricScheme c] else []) ++ (flds.filter (keptS metric c)).map (schemeOf c)) := by
  cases c with
  | siqn =>
    simp only [transported, siqnTransported]
    rw [show siqnScheme metric = _ from funext (siqnScheme_ok metric)]
    rw [collect_pure]
    rfl
  | lowest =>
    simp only [transported, lowTransported, recoverySpaces, hg rfl, if_true]
    rw [show lowScheme metric = _ from funext (lowScheme_ok metric)]
    rw [collect_pure]
    rfl

theorem schemeOf_field (c : Cls) (f : Fld) : (schemeOf c f).field = f.name := by cases c <;> rfl
theorem metricScheme_field (c : Cls) : (metricScheme c).field = "z" := by cases c <;> rfl

/-! ### C103 -/

/-- **C103** (each field once).  Without the consistent metric term, if `setup` succeeds, the timestepper transports the
prognostics one after another in their order, each with one scheme: with `SIQNModel` always, with
`LowestOrderSIQNModel` when the prognostics are in the spaces `HDiv`, `L2` and `theta`.  The scheme is SSPRK3: of linear
formulation for `L2` fields, embedded in DG for `theta` fields, recovered in the lowest-order model. -/
theorem C103_once (c : Cls) (g : Geo) (sm : Bool) (flds : List Fld) (diff : Option (List String)) (st : Stepper)
    (hn : (flds.map (·.name)).Nodup)
    (hsp : c = .lowest → ∀ f ∈ flds, f.space = "HDiv" ∨ f.space = "L2" ∨ f.space = "theta")
    (h : setup c g false sm flds diff = .ok st) : st.transport = flds.map (schemeOf c) := by
  obtain ⟨ss, ms, dn, dm, ds, t, d, hss, hms, -, hdm, -, -, ht, -, rfl⟩ := setup_parts h
  have hext : c = .lowest → g.extruded = true := by
    rintro rfl
    by_contra hx
    simp [transported, lowTransported, recoverySpaces, hx] at hss
  rw [transported_eq c g false flds hext] at hss
  have hall : flds.filter (keptS false c) = flds := by
    rw [List.filter_eq_self]
    intro f hf
    cases c with
    | siqn => simp [keptS]
    | lowest => rcases hsp rfl f hf with h | h | h <;> simp [keptS, h]
  have hallm : flds.filter (keptM false c) = flds := by
    rw [List.filter_eq_self]
    intro f hf
    cases c <;> simp [keptM]
  rw [hall] at hss
  simp only [Bool.false_eq_true, if_false, List.nil_append, Except.ok.injEq] at hss
  obtain ⟨hv, hl⟩ := methods_ok hms
  rw [hallm] at hv
  simp only [Bool.false_eq_true, if_false, List.nil_append] at hv
  have := active_ok ht (by
    intro s hs
    rw [← hss] at hs
    obtain ⟨f, hf, rfl⟩ := List.mem_map.1 hs
    rw [nMethods_append, nMethods_names hl, nMethods_diff (diffMethods_label hdm), hv, schemeOf_field]
    exact List.count_eq_one_of_mem hn (List.mem_map.2 ⟨f, hf, rfl⟩))
  simp only
  rw [this, hss]

theorem find_self {flds : List Fld} (hn : (flds.map (·.name)).Nodup) {f : Fld} (hf : f ∈ flds) :
    flds.find? (fun x => x.name = f.name) = some f := by
  induction flds with
  | nil => cases hf
  | cons x l ih =>
    rw [List.map_cons, List.nodup_cons] at hn
    rcases List.mem_cons.1 hf with rfl | hf
    · simp
    · rw [List.find?_cons_of_neg]
      · exact ih hn.2 hf
      · simp only [decide_eq_true_eq]
        intro e
        exact hn.1 (e ▸ List.mem_map.2 ⟨f, hf, rfl⟩)

/-- What a transport method for a field needs. -/
def Transportable (g : Geo) (flux : Bool) (f : Fld) : Prop :=
  ∃ ty, f.transport = [ty] ∧ ty ≠ .noTransport ∧ (flux = true → ty = .conservative) ∧
    (g.oneD = true → ty = .advective ∨ ty = .conservative)

theorem dg_iff {g : Geo} {flds : List Fld} (hn : (flds.map (·.name)).Nodup) {f : Fld} (hf : f ∈ flds) (a : Bool) :
    (∃ m, dgUpwind g flds f.name a = .ok m) ↔ Transportable g a f := by
  unfold dgUpwind Transportable
  rw [find_self hn hf]
  simp only
  match htr : f.transport with
  | [] => simp
  | [ty] =>
    simp only [List.cons.injEq, and_true, exists_eq_left']
    cases a <;> cases ho : g.oneD <;> cases ty <;> simp
  | _ :: _ :: _ => simp

/-- **C103** (when `setup` succeeds).  Without the metric term and without diffusion `SIQNModel.setup` succeeds exactly if
every prognostic has one transport term of a type with an upwind form, and the prognostics of the space `L2` have a
conservative one. -/
theorem C103_setup (g : Geo) (flds : List Fld) (hn : (flds.map (·.name)).Nodup) :
    (∃ st, setup .siqn g false false flds (some []) = .ok st) ↔
      ∀ f ∈ flds, Transportable g (decide (f.space = "L2")) f := by
  have hm : (∃ ms, methods .siqn g false flds = .ok ms) ↔ ∀ f ∈ flds, Transportable g (decide (f.space = "L2")) f := by
    have : ∀ f ∈ flds, (∃ b, siqnMethod g false flds f = .ok b) ↔ Transportable g (decide (f.space = "L2")) f := by
      intro f hf
      rw [← dg_iff hn hf]
      unfold siqnMethod
      by_cases hs : f.space = "L2"
      · simp only [hs, if_true, decide_true]
        cases dgUpwind g flds f.name true <;> simp [Except.map]
      · simp only [hs, if_false, Bool.false_eq_true, false_and, decide_false]
        cases dgUpwind g flds f.name false <;> simp [Except.map]
    rw [← forall₂_congr this, ← collect_ok_iff]
    simp only [methods, siqnMethods, metricMethod, Bool.false_eq_true, if_false]
    cases collect (siqnMethod g false flds) flds <;> simp
  rw [← hm]
  constructor
  · rintro ⟨st, h⟩
    obtain ⟨ss, ms, dn, dm, ds, t, d, hss, hms, -⟩ := setup_parts h
    exact ⟨ms, hms⟩
  · rintro ⟨ms, hms⟩
    have hss := transported_eq .siqn g false flds (by simp)
    obtain ⟨hv, hl⟩ := methods_ok hms
    have hallm : flds.filter (keptM false .siqn) = flds := by
      rw [List.filter_eq_self]; intro f hf; simp [keptM]
    rw [hallm] at hv
    obtain ⟨t, ht⟩ := (active_iff (names := flds.map (·.name)) (ms := ms ++ []) (ss :=
        (if false = true then [metricScheme .siqn] else []) ++ (flds.filter (keptS false .siqn)).map (schemeOf .siqn))).2 (by
      intro s hs
      simp only [Bool.false_eq_true, if_false, List.nil_append] at hs
      obtain ⟨f, hf, rfl⟩ := List.mem_map.1 hs
      have hf' := List.mem_of_mem_filter hf
      rw [schemeOf_field, nMethods_append, nMethods_names hl, hv]
      refine ⟨List.mem_map.2 ⟨f, hf', rfl⟩, ?_⟩
      have : 0 < ((if false = true then ["z"] else []) ++ flds.map (·.name)).count f.name :=
        List.count_pos_iff.2 (List.mem_append_right _ (List.mem_map.2 ⟨f, hf', rfl⟩))
      omega)
    refine ⟨⟨t, [], false⟩, ?_⟩
    unfold setup
    rw [hss]
    simp only
    rw [hms]
    simp only [diffMethods, collect, diffSchemes, siqnDiffSchemes, List.map_nil, stepper, metricCheck]
    simp only [Bool.false_eq_true, if_false] at ht ⊢
    rw [ht]
    simp [activeDiffusion]

/-! #### The equation sets -/

/-- The prognostics of the equation sets (shallow_water_equations.py:75, 339-348, 701; compressible_euler_equations.py:89;
boussinesq_equations.py:85), with the types of their transport terms. -/
def shallowWater : List Fld := [⟨"u", "HDiv", [.vectorInvariant], 0⟩, ⟨"D", "L2", [.conservative], 0⟩]
def thermal : List Fld := shallowWater ++ [⟨"b", "L2", [.advective], 0⟩]
def shallowWater1d : List Fld :=
  [⟨"u", "HDiv", [.advective], 0⟩, ⟨"v", "L2", [.advective], 0⟩, ⟨"D", "L2", [.conservative], 0⟩]
def euler : List Fld :=
  [⟨"u", "HDiv", [.vectorInvariant], 0⟩, ⟨"rho", "L2", [.conservative], 0⟩, ⟨"theta", "theta", [.advective], 0⟩]
def boussinesq (compressible : Bool) : List Fld :=
  [⟨"u", "HDiv", [.vectorInvariant], 0⟩, ⟨"p", "L2", if compressible then [.advective] else [], 0⟩,
    ⟨"b", "theta", [.advective], 0⟩]

/-- **C103** (refuted: every equation set).  `SIQNModel.setup` fails with the thermal shallow-water equations, with the
one-dimensional ones and with the Boussinesq equations, compressible or not, on every mesh and with every choice of
diffusion: it asks for the advective-then-flux form of all fields in `L2`, whose transport is not conservative there. -/
theorem C103_equations_refuted (g : Geo) (metric sm : Bool) (diff : Option (List String)) (st : Stepper) (cp : Bool) :
    setup .siqn g metric sm thermal diff ≠ .ok st ∧ setup .siqn g metric sm shallowWater1d diff ≠ .ok st ∧
    setup .siqn g metric sm (boussinesq cp) diff ≠ .ok st := by
  have key : ∀ flds : List Fld, (flds.map (·.name)).Nodup → (∃ f ∈ flds, f.space = "L2" ∧ f.transport ≠ [.conservative]) →
      setup .siqn g metric sm flds diff ≠ .ok st := by
    rintro flds hn ⟨f, hf, hs, ht⟩ h
    obtain ⟨ss, ms, dn, dm, ds, t, d, hss, hms, -⟩ := setup_parts h
    simp only [methods, siqnMethods] at hms
    split at hms
    · cases hms
    split at hms
    · cases hms
    rename_i l hl
    obtain ⟨b, hb⟩ := (collect_ok_iff _ _).1 ⟨l, hl⟩ f hf
    unfold siqnMethod at hb
    rw [if_pos hs] at hb
    have : ∃ m, dgUpwind g flds f.name true = .ok m := by
      cases hd : dgUpwind g flds f.name true with
      | error e => rw [hd] at hb; cases hb
      | ok m => exact ⟨m, rfl⟩
    obtain ⟨ty, h1, -, h2, -⟩ := (dg_iff hn hf true).1 this
    exact ht (by rw [h1, h2 rfl])
  refine ⟨key _ (by decide) ⟨⟨"b", "L2", [.advective], 0⟩, by decide, by decide, by decide⟩,
    key _ (by decide) ⟨⟨"v", "L2", [.advective], 0⟩, by decide, by decide, by decide⟩, ?_⟩
  cases cp
  · exact key _ (by decide) ⟨⟨"p", "L2", [], 0⟩, by decide, by decide, by decide⟩
  · exact key _ (by decide) ⟨⟨"p", "L2", [.advective], 0⟩, by decide, by decide, by decide⟩

/-- A vertical slice and a sphere. -/
def sliceGeo : Geo := ⟨true, "interval", false⟩
def sphereGeo : Geo := ⟨false, "triangle", false⟩

/-- The shallow-water and the compressible Euler equations are accepted, so the hypotheses of `C103_once` hold. -/
example : ∃ st, setup .siqn sphereGeo false false shallowWater (some []) = .ok st :=
  (C103_setup sphereGeo shallowWater (by decide)).2 (by
    intro f hf
    simp only [shallowWater, List.mem_cons, List.not_mem_nil, or_false] at hf
    rcases hf with rfl | rfl
    · exact ⟨_, rfl, by decide, by decide, by decide⟩
    · exact ⟨_, rfl, by decide, by decide, by decide⟩)
example : ∃ st, setup .siqn sliceGeo false false euler (some []) = .ok st ∧ st.transport = euler.map (schemeOf .siqn) := by
  obtain ⟨st, h⟩ := (C103_setup sliceGeo euler (by decide)).2 (by
    intro f hf
    simp only [euler, List.mem_cons, List.not_mem_nil, or_false] at hf
    rcases hf with rfl | rfl | rfl
    · exact ⟨_, rfl, by decide, by decide, by decide⟩
    · exact ⟨_, rfl, by decide, by decide, by decide⟩
    · exact ⟨_, rfl, by decide, by decide, by decide⟩)
  exact ⟨st, h, C103_once .siqn _ _ _ _ st (by decide) (by simp) h⟩
example : ∃ st, setup .lowest sliceGeo false false euler (some []) = .ok st ∧
    st.transport.map (·.field) = ["u", "rho", "theta"] :=
  ⟨_, rfl, by decide⟩

/-! #### The metric term -/

theorem nMethods_metric {c : Cls} {g : Geo} {flds : List Fld} {ms dm : List Method} (hn : (flds.map (·.name)).Nodup)
    (hz : ∀ f ∈ flds, f.name = "z" → f.space = "theta") (hms : methods c g true flds = .ok ms)
    (hdm : ∀ m ∈ dm, m.label = .diffusion) (n : String) (hnn : n = "z" ∨ n ∈ flds.map (·.name)) :
    nMethods (ms ++ dm) n = 1 := by
  obtain ⟨hv, hl⟩ := methods_ok hms
  rw [nMethods_append, nMethods_names hl, nMethods_diff hdm, hv]
  have hk : (flds.filter (keptM true c)).map (·.name) = (flds.map (·.name)).filter (fun x => !decide (x = "z")) := by
    rw [List.filter_map]
    congr 1
    apply List.filter_congr
    intro f hf
    cases c
    · simp only [keptM, Bool.true_and, Function.comp]
      by_cases e : f.name = "z"
      · simp [e, hz f hf e]
      · simp [e]
    · simp [keptM]
  rw [hk]
  simp only [if_true, List.singleton_append, Nat.add_zero]
  by_cases e : n = "z"
  · subst e
    rw [List.count_cons_self, List.count_eq_zero_of_not_mem (by simp)]
  · rw [List.count_cons_of_ne (fun h => e h.symm)]
    have hmem : n ∈ flds.map (·.name) := hnn.resolve_left e
    exact List.count_eq_one_of_mem (hn.filter _) (List.mem_filter.2 ⟨hmem, by simp [e]⟩)

theorem keptS_metric {flds : List Fld} (hz : ∀ f ∈ flds, f.name = "z" → f.space = "theta")
    (hsp : ∀ f ∈ flds, f.space = "HDiv" ∨ f.space = "L2" ∨ f.space = "theta") :
    flds.filter (keptS true .lowest) = flds.filter (fun f => !decide (f.name = "z")) ∧
    flds.filter (keptS true .siqn) = flds := by
  refine ⟨List.filter_congr ?_, ?_⟩
  · intro f hf
    simp only [keptS, Bool.true_and]
    by_cases e : f.name = "z"
    · simp [e, hz f hf e]
    · rcases hsp f hf with h | h | h <;> simp [h, e]
  · rw [List.filter_eq_self]
    intro f hf
    by_cases e : f.name = "z"
    · simp [keptS, hz f hf e]
    · simp [keptS, e]

/-- **C103** (the metric term, lowest order).  With the consistent metric term `LowestOrderSIQNModel` transports `z` first,
with forward Euler, and then every other prognostic once, in order. -/
theorem C103_metric (g : Geo) (sm : Bool) (flds : List Fld) (diff : Option (List String)) (st : Stepper)
    (hn : (flds.map (·.name)).Nodup) (hz : ∀ f ∈ flds, f.name = "z" → f.space = "theta")
    (hsp : ∀ f ∈ flds, f.space = "HDiv" ∨ f.space = "L2" ∨ f.space = "theta")
    (h : setup .lowest g true sm flds diff = .ok st) :
    st.transport = ⟨"z", .forwardEuler, .recoverTheta, false⟩ ::
      (flds.filter fun f => !decide (f.name = "z")).map (schemeOf .lowest) := by
  obtain ⟨ss, ms, dn, dm, ds, t, d, hss, hms, -, hdm, -, -, ht, -, rfl⟩ := setup_parts h
  have hext : g.extruded = true := by
    by_contra hx
    simp [transported, lowTransported, recoverySpaces, hx] at hss
  rw [transported_eq .lowest g true flds (fun _ => hext), (keptS_metric hz hsp).1] at hss
  simp only [if_true, Except.ok.injEq, List.singleton_append] at hss
  have := active_ok ht (by
    intro s hs
    rw [← hss] at hs
    apply nMethods_metric hn hz hms (diffMethods_label hdm)
    rcases List.mem_cons.1 hs with rfl | hs
    · exact Or.inl rfl
    · obtain ⟨f, hf, rfl⟩ := List.mem_map.1 hs
      rw [schemeOf_field]
      exact Or.inr (List.mem_map.2 ⟨f, List.mem_of_mem_filter hf, rfl⟩))
  simp only
  rw [this, ← hss]; rfl

/-- **C103** (refuted: the metric term).  `SIQNModel` with the consistent metric term transports `z` twice in every
transport step, for every equation set with the tracer `z` in the space `theta` (where the constructor puts it): first with
forward Euler and then, after the potential temperature, with SSPRK3, which overwrites the result and the wind. -/
theorem C103_metric_refuted (g : Geo) (sm : Bool) (flds : List Fld) (diff : Option (List String)) (st : Stepper)
    (hn : (flds.map (·.name)).Nodup) (hz : ∀ f ∈ flds, f.name = "z" → f.space = "theta") (hmem : "z" ∈ flds.map (·.name))
    (h : setup .siqn g true sm flds diff = .ok st) :
    st.transport = ⟨"z", .forwardEuler, .embedded, false⟩ :: flds.map (schemeOf .siqn) ∧
      (st.transport.map (·.field)).count "z" = 2 := by
  obtain ⟨ss, ms, dn, dm, ds, t, d, hss, hms, -, hdm, -, -, ht, -, rfl⟩ := setup_parts h
  have hk : flds.filter (keptS true .siqn) = flds := by
    rw [List.filter_eq_self]
    intro f hf
    by_cases e : f.name = "z"
    · simp [keptS, hz f hf e]
    · simp [keptS, e]
  rw [transported_eq .siqn g true flds (by simp), hk] at hss
  simp only [if_true, Except.ok.injEq, List.singleton_append] at hss
  have := active_ok ht (by
    intro s hs
    rw [← hss] at hs
    apply nMethods_metric hn hz hms (diffMethods_label hdm)
    rcases List.mem_cons.1 hs with rfl | hs
    · exact Or.inl rfl
    · obtain ⟨f, hf, rfl⟩ := List.mem_map.1 hs
      rw [schemeOf_field]
      exact Or.inr (List.mem_map.2 ⟨f, hf, rfl⟩))
  simp only
  rw [this, ← hss]
  refine ⟨rfl, ?_⟩
  rw [List.map_cons, metricScheme_field, List.count_cons_self, List.map_map]
  have : ((fun s : Scheme => s.field) ∘ schemeOf .siqn) = fun f : Fld => f.name := rfl
  rw [this, List.count_eq_one_of_mem hn hmem]

/-- The compressible Euler equations with the tracer of model.py:82-88. -/
def eulerZ : List Fld := euler ++ [⟨"z", "theta", [.advective], 0⟩]

example : ∃ st, setup .siqn sliceGeo true true eulerZ (some []) = .ok st ∧
    st.transport.map (fun s => (s.field, s.kind)) =
        [("z", .forwardEuler), ("u", .ssprk3), ("rho", .ssprk3), ("theta", .ssprk3), ("z", .ssprk3)] :=
  ⟨_, rfl, by decide⟩
example : ∃ st, setup .lowest sliceGeo true true eulerZ (some []) = .ok st ∧
    st.transport.map (fun s => (s.field, s.kind)) =
        [("z", .forwardEuler), ("u", .ssprk3), ("rho", .ssprk3), ("theta", .ssprk3)] :=
  ⟨_, rfl, by decide⟩

/-- **C103** (refuted: the option of the constructor).  The timestepper uses the consistent metric term exactly if the
keyword is given to `setup` again; the argument of the constructor alone only adds the tracer and its schemes. -/
theorem C103_flag_refuted (c : Cls) (g : Geo) (metric sm : Bool) (flds : List Fld) (diff : Option (List String))
    (st : Stepper) (h : setup c g metric sm flds diff = .ok st) : st.metric = sm := by
  obtain ⟨ss, ms, dn, dm, ds, t, d, -, -, -, -, -, -, -, -, rfl⟩ := setup_parts h
  rfl

example : ∃ st, setup .lowest sliceGeo true false eulerZ (some []) = .ok st ∧
    st.metric = false ∧ st.transport.map (·.field) = ["z", "u", "rho", "theta"] :=
  ⟨_, rfl, by decide⟩

/-- **C103** (the metric term needs its fields).  The timestepper accepts the consistent metric only for an equation that has the
fields `theta` and `z`. -/
theorem C103_metric_needs (c : Cls) (g : Geo) (metric : Bool) (flds : List Fld) (diff : Option (List String))
    (st : Stepper) (h : setup c g metric true flds diff = .ok st) :
    "theta" ∈ flds.map (·.name) ∧ "z" ∈ flds.map (·.name) := by
  obtain ⟨ss, ms, dn, dm, ds, t, d, -, -, -, -, -, hm, -⟩ := setup_parts h
  unfold metricCheck at hm
  rw [if_pos rfl] at hm
  split at hm
  · cases hm
  · rename_i h1
    split at hm
    · cases hm
    · rename_i h2
      exact ⟨not_not.1 h1, not_not.1 h2⟩

example : ∃ st, setup .lowest sliceGeo true true eulerZ (some []) = .ok st := ⟨_, rfl⟩

/-! #### Lowest order -/

/-- **C103** (refuted: other spaces).  `LowestOrderSIQNModel` transports no field in a space other than `HDiv`, `L2` and
`theta`, without an error, and diffuses none either: such a field keeps its value although it has a transport method. -/
theorem C103_space_refuted (g : Geo) (sm : Bool) (flds : List Fld) (diff : Option (List String)) (st : Stepper) (f : Fld)
    (hn : (flds.map (·.name)).Nodup) (hf : f ∈ flds) (h1 : f.space ≠ "HDiv") (h2 : f.space ≠ "L2") (h3 : f.space ≠ "theta")
    (h : setup .lowest g false sm flds diff = .ok st) :
    f.name ∉ st.transport.map (·.field) ∧ f.name ∉ st.diffusion.map (·.field) := by
  obtain ⟨ss, ms, dn, dm, ds, t, d, hss, hms, -, hdm, hds, -, ht, hd, rfl⟩ := setup_parts h
  have hext : g.extruded = true := by
    by_contra hx
    simp [transported, lowTransported, recoverySpaces, hx] at hss
  have hinj : ∀ f' ∈ flds, f'.name = f.name → f' = f := by
    intro f' hf' e
    have a := find_self hn hf'
    have b := find_self hn hf
    rw [e, b] at a
    exact (Option.some.inj a).symm
  rw [transported_eq .lowest g false flds (fun _ => hext)] at hss
  simp only [Bool.false_eq_true, if_false, List.nil_append, Except.ok.injEq] at hss
  constructor
  · simp only
    intro hmem
    obtain ⟨s, hs, he⟩ := List.mem_map.1 hmem
    have sub : ∀ (ss t : List Scheme), activeTransport (flds.map (·.name)) (ms ++ dm) ss = .ok t → ∀ s ∈ t, s ∈ ss := by
      intro ss
      induction ss with
      | nil => intro t ht s hs; simp only [activeTransport, Except.ok.injEq] at ht; subst ht; exact hs
      | cons a ss ih =>
        intro t ht s hs
        rw [activeTransport] at ht
        split at ht
        · cases ht
        rename_i l hl
        split at ht
        · cases ht
        rename_i r hr
        simp only [Except.ok.injEq] at ht
        subst ht
        rcases List.mem_append.1 hs with hs | hs
        · unfold matchScheme at hl
          split at hl
          · dsimp only at hl
            split at hl
            · cases hl
            · simp only [Except.ok.injEq] at hl
              subst hl
              obtain ⟨_, -, rfl⟩ := List.mem_map.1 hs
              exact List.mem_cons_self
          · cases hl
        · exact List.mem_cons_of_mem _ (ih r hr s hs)
    have := sub ss t ht s hs
    rw [← hss] at this
    obtain ⟨f', hf', rfl⟩ := List.mem_map.1 this
    rw [schemeOf_field] at he
    have e := hinj f' (List.mem_of_mem_filter hf') he
    subst e
    have := (List.mem_filter.1 hf').2
    simp [keptS, h1, h2, h3] at this
  · simp only
    intro hmem
    obtain ⟨s, hs, he⟩ := List.mem_map.1 hmem
    have sub : ∀ (ds d : List Scheme), activeDiffusion (flds.map (·.name)) (ms ++ dm) ds = .ok d → d = ds := by
      intro ds
      induction ds with
      | nil => intro d hd; simp only [activeDiffusion, Except.ok.injEq] at hd; exact hd.symm
      | cons a ds ih =>
        intro d hd
        rw [activeDiffusion] at hd
        split at hd
        · split at hd
          · cases hd
          · rename_i r hr
            simp only [Except.ok.injEq] at hd
            rw [← hd, ih r hr]
        · cases hd
    rw [sub ds d hd] at hs
    simp only [diffSchemes, lowDiffSchemes, recoverySpaces, hext, if_true] at hds
    refine collect_all _ (fun s => s.field ≠ f.name) ?_ dn ds hds s hs he
    intro n s hns e
    unfold lowDiff at hns
    split at hns
    · cases hns
    · rename_i f' hf'
      have hmem' := List.mem_of_find?_eq_some hf'
      have hname : f'.name = n := by simpa using List.find?_some hf'
      have hsf : s.field = n := by
        split at hns
        · simp only [Except.ok.injEq, Option.some.injEq] at hns; subst hns; rfl
        · split at hns
          · simp only [Except.ok.injEq, Option.some.injEq] at hns; subst hns; rfl
          · split at hns
            · simp only [Except.ok.injEq, Option.some.injEq] at hns; subst hns; rfl
            · cases hns
      have e2 := hinj f' hmem' (by rw [hname, ← hsf, e])
      subst e2
      rw [if_neg h1, if_neg h2, if_neg h3] at hns
      cases hns

example : ∃ st, setup .lowest sliceGeo false false (euler ++ [⟨"q", "H1", [.advective], 1⟩]) (some ["q"]) = .ok st ∧
    st.transport.map (·.field) = ["u", "rho", "theta"] ∧ st.diffusion = [] :=
  ⟨_, rfl, by decide⟩

/-- **C103** (refuted: meshes).  `LowestOrderSIQNModel.setup` raises an `AttributeError` on every mesh that is not extruded,
for instance on the sphere with the shallow-water equations. -/
theorem C103_mesh_refuted (g : Geo) (hg : g.extruded = false) (metric sm : Bool) (flds : List Fld)
    (diff : Option (List String)) : setup .lowest g metric sm flds diff = .error .attributeError := by
  simp [setup, transported, lowTransported, recoverySpaces, hg]

/-! #### Relaxation and diffusion -/

/-- **C103** (relaxation).  The linear solver made from a model relaxes the velocity with `alpha` and every other prognostic
with 1. -/
theorem C103_tau {K : Type*} [One K] (names progs : List String) (hp : ∀ n ∈ progs, n ∈ names) (alpha : K) (n : String)
    (hn : n ∈ progs) : Solvers.completeTau (tauValues names) alpha progs n = some (if n = "u" then alpha else 1) := by
  have key : ∀ (l : List String) (t : String → Option K),
      (∀ m, m ≠ "u" → m ∈ names → t m = some 1) → (∀ m, m = "u" → t m = none ∨ t m = some alpha) →
      (∀ m ∈ l, m ∈ names) →
      let r := l.foldl (fun (t : String → Option K) n => if (t n).isSome then t else fun m => if m = n then some alpha else t m) t
      (∀ m, m ≠ "u" → m ∈ names → r m = some 1) ∧ (("u" ∈ l ∨ t "u" = some alpha) → r "u" = some alpha) := by
    intro l
    induction l with
    | nil =>
      intro t h1 h2 _
      exact ⟨h1, fun h => h.resolve_left (by simp)⟩
    | cons a l ih =>
      intro t h1 h2 h3
      simp only [List.foldl_cons]
      by_cases ha : (t a).isSome
      · rw [if_pos ha]
        obtain ⟨r1, r2⟩ := ih t h1 h2 (fun m hm => h3 m (List.mem_cons_of_mem _ hm))
        refine ⟨r1, fun h => r2 ?_⟩
        rcases h with h | h
        · rcases List.mem_cons.1 h with rfl | h
          · right
            rcases h2 "u" rfl with e | e
            · rw [e] at ha; cases ha
            · exact e
          · exact Or.inl h
        · exact Or.inr h
      · rw [if_neg ha]
        have hau : a = "u" := by
          by_contra hne
          rw [h1 a hne (h3 a List.mem_cons_self)] at ha
          exact ha rfl
        subst hau
        obtain ⟨r1, r2⟩ := ih (fun m => if m = "u" then some alpha else t m)
          (fun m hm hmem => by simp only [hm, if_false]; exact h1 m hm hmem)
          (fun m hm => by subst hm; simp)
          (fun m hm => h3 m (List.mem_cons_of_mem _ hm))
        exact ⟨r1, fun _ => r2 (Or.inr (by simp))⟩
  obtain ⟨r1, r2⟩ := key progs (tauValues names) (fun m hm hmem => by simp [tauValues, hm, hmem])
    (fun m hm => by subst hm; left; simp [tauValues]) hp
  unfold Solvers.completeTau
  by_cases e : n = "u"
  · subst e
    rw [if_pos rfl]
    exact r2 (Or.inl hn)
  · rw [if_neg e]
    exact r1 n e (hp n hn)

example : Solvers.completeTau (tauValues ["u", "rho", "theta"]) (1/2 : ℚ) ["u", "rho", "theta"] "u" = some (1/2) ∧
    Solvers.completeTau (tauValues ["u", "rho", "theta"]) (1/2 : ℚ) ["u", "rho", "theta"] "rho" = some 1 := by
  refine ⟨C103_tau _ _ (by simp) _ "u" (by simp), C103_tau _ _ (by simp) _ "rho" (by simp)⟩

/-- **C103** (diffusion).  If `SIQNModel.setup` succeeds, the fields of the diffusion options are diffused with backward
Euler, in the order of the options. -/
theorem C103_diffusion (g : Geo) (metric sm : Bool) (flds : List Fld) (dn : List String) (st : Stepper)
    (h : setup .siqn g metric sm flds (some dn) = .ok st) :
    st.diffusion = dn.map fun n => ⟨n, .backwardEuler, .none, false⟩ := by
  obtain ⟨ss, ms, dn', dm, ds, t, d, -, -, hdn, -, hds, -, -, hd, rfl⟩ := setup_parts h
  have sub : ∀ (ds d : List Scheme), activeDiffusion (flds.map (·.name)) (ms ++ dm) ds = .ok d → d = ds := by
    intro ds
    induction ds with
    | nil => intro d hd; simp only [activeDiffusion, Except.ok.injEq] at hd; exact hd.symm
    | cons a ds ih =>
      intro d hd
      rw [activeDiffusion] at hd
      split at hd
      · split at hd
        · cases hd
        · rename_i r hr
          simp only [Except.ok.injEq] at hd
          rw [← hd, ih r hr]
      · cases hd
  simp only
  rw [sub ds d hd]
  simp only [Option.some.injEq] at hdn
  subst hdn
  simp only [diffSchemes, siqnDiffSchemes, Except.ok.injEq] at hds
  exact hds.symm

example : ∃ st, setup .siqn sliceGeo false false
      [⟨"u", "HDiv", [.vectorInvariant], 1⟩, ⟨"rho", "L2", [.conservative], 0⟩, ⟨"theta", "theta", [.advective], 1⟩]
      (some ["u", "theta"]) = .ok st ∧
    st.diffusion.map (·.field) = ["u", "theta"] :=
  ⟨_, rfl, by decide⟩

/-- **C103** (refuted: `None`).  Passing `diffusion_options=None`, the documented default of the equation sets, makes
`setup` fail. -/
theorem C103_none_refuted (c : Cls) (g : Geo) (metric sm : Bool) (flds : List Fld) (st : Stepper) :
    setup c g metric sm flds none ≠ .ok st := by
  intro h
  obtain ⟨ss, ms, dn, dm, ds, t, d, -, -, hdn, -⟩ := setup_parts h
  cases hdn

/-! #### The list of tracers -/

/-- The tracer `z`, model.py:83-88. -/
def zTracer : EqSet.Tracer := ⟨"z", "theta", .advective, none⟩

/-- **C103** (refuted: the caller's list).  The constructor with the metric term appends `z` to the caller's list of tracers:
a second model made with the same list is always refused, whatever the equation. -/
theorem C103_list_refuted (l : List EqSet.Tracer) (n n' : EqSet.Names) (l1 l2 : Option (List EqSet.Tracer))
    (c1 c2 : Option (Option (List EqSet.Tracer))) (h1 : withMetric zTracer true (some (some l)) = .ok (l1, c1))
    (h2 : withMetric zTracer true c1 = .ok (l2, c2)) : EqSet.addTracers n (l2.getD []) ≠ .ok n' := by
  simp only [withMetric, if_true, Except.ok.injEq, Prod.mk.injEq] at h1
  obtain ⟨rfl, rfl⟩ := h1
  simp only [withMetric, if_true, Except.ok.injEq, Prod.mk.injEq] at h2
  obtain ⟨rfl, rfl⟩ := h2
  intro h
  have := (EqSetProps.C55_add_partial n ((some (l ++ [zTracer] ++ [zTracer])).getD [])).1.1 ⟨n', h⟩
  have hnd := this.1
  simp only [EqSetProps.NamesNodup, Option.getD_some, List.map_append, List.append_assoc] at hnd
  have := (List.nodup_append.1 hnd).2.1
  simp at this

example : ∃ n', EqSet.addTracers ⟨["u", "rho", "theta"], [], []⟩
    ((match withMetric zTracer true (some (some [])) with | .ok p => p.1.getD [] | .error _ => [])) = .ok n' :=
  ⟨_, rfl⟩

/-- **C103** (families).  The default family depends on the cell alone, an argument is taken as it is, and on the cells
for which there is a default the spaces of the domain can be built with it. -/
theorem C103_family (g : Geo) (f : Option String) (r : String) (h : chooseFamily g f = .ok r) :
    (∀ x, f = some x → r = x) ∧ (f = none → (g.cell, r) ∈ [("interval", "CG"), ("quadrilateral", "RTCF"), ("triangle", "BDM")]
      ∧ ∀ k v : ℕ, ∃ d, Spaces.buildComplex ⟨g.extruded, g.cell, 2⟩ (some r) k (some v) = .ok d) := by
  cases f with
  | some x =>
    simp only [chooseFamily, Except.ok.injEq] at h
    exact ⟨fun y hy => by rw [← h]; exact Option.some.inj hy, by simp⟩
  | none =>
    refine ⟨by simp, fun _ => ?_⟩
    simp only [chooseFamily] at h
    have hb : ∀ r, r ∈ ["CG", "RTCF", "BDM"] → ∀ k v : ℕ,
        ∃ d, Spaces.buildComplex ⟨g.extruded, g.cell, 2⟩ (some r) k (some v) = .ok d := by
      intro r hr k v
      simp only [List.mem_cons, List.not_mem_nil, or_false] at hr
      rcases hr with rfl | rfl | rfl <;> cases hx : g.extruded <;>
        simp [Spaces.buildComplex, Spaces.implemented, Spaces.buildBase, Spaces.hdivOf, Spaces.hcurlOf, Spaces.h1Degree,
          Except.map, Except.bind, hx]
    split at h
    · rename_i hc; simp only [Except.ok.injEq] at h; subst h; exact ⟨by simp [hc], hb _ (by simp)⟩
    · split at h
      · rename_i hc; simp only [Except.ok.injEq] at h; subst h; exact ⟨by simp [hc], hb _ (by simp)⟩
      · split at h
        · rename_i hc; simp only [Except.ok.injEq] at h; subst h; exact ⟨by simp [hc], hb _ (by simp)⟩
        · cases h

end Gusto.Props.ModelClassesProps
