import Verif.Model.Logging

set_option autoImplicit false
set_option linter.unusedSectionVars false
set_option linter.unusedSimpArgs false

/-!
# C114: what a simulation logs, and where
-/

namespace Gusto.Props.LoggingProps

open Gusto.Logging

/-! ### Specification -/

/-- A setting of a level that the documentation allows (or none). -/
def Allowed (v : Option String) : Prop :=
  v = none ∨ v = some "DEBUG" ∨ v = some "INFO" ∨ v = some "WARNING" ∨ v = some "ERROR" ∨ v = some "CRITICAL"

/-- The texts gusto's logging writes itself. -/
def own (r : Rec) : Bool :=
  decide (r.msg ∈ ["Running", "Closing temporary logger and moving logfile", "Re-opening logger"])

/-- The records of a history that are not gusto's own texts. -/
def records (evs : List Event) : List Rec :=
  (evs.flatMap fun ev => match ev with | .log r => [r] | .unhandled m => [⟨40, m⟩] | _ => []).filter fun r => !own r

/-- The directories of the simulations of a history, in order. -/
def dirs (evs : List Event) : List String :=
  evs.flatMap fun ev => match ev with | .relocate d => [d] | _ => []

/-- Nobody calls `set_log_handler` again. -/
def Plain (evs : List Event) : Prop := ∀ ev ∈ evs, ∀ n, ev ≠ .setHandler n

/-- The ranks that print. -/
def Prints (e : Env) (r : ℕ) : Prop := r = 0 ∨ e.par.hasConsole = true
/-- The ranks that have a log file. -/
def Writes (e : Env) (r : ℕ) : Prop := r = 0 ∨ e.par.hasFile = true

/-! ### Normal form of the states -/

section Normal

variable (lvl fl cl : ℕ) (F C : Bool)

/-- The state of a rank that has not met a second `set_log_handler`. -/
def form (moved : Bool) (p : Path) (content out : List Rec) (b : ℕ) : St where
  level := lvl
  handlers :=
    if moved then (if C then [.console cl] else (if F then [] else [.null])) ++ (if F then [.file p fl] else [])
    else (if F then [.tempFile p fl] else []) ++ (if C then [.console cl] else (if F then [] else [.null]))
  disk := fun q => if F && decide (q = p) then some content else none
  out := out
  barriers := b

theorem emit_form (hl : 0 < lvl) (hf : lvl ≤ fl) (hc : lvl ≤ cl) (r : Rec) (moved : Bool) (p : Path)
    (content out : List Rec) (b : ℕ) :
    emit r (form lvl fl cl F C moved p content out b)
      = form lvl fl cl F C moved p (if F ∧ fl ≤ r.lvl then content ++ [r] else content)
          (if C ∧ cl ≤ r.lvl then out ++ [r] else out) b := by
  have he : effective lvl = lvl := by simp [effective]; omega
  by_cases h : lvl ≤ r.lvl
  · cases F <;> cases C <;> cases moved <;> by_cases h1 : fl ≤ r.lvl <;> by_cases h2 : cl ≤ r.lvl <;>
      simp [emit, form, he, h, emitTo, h1, h2, setFile] <;>
      (try (funext q; by_cases hq : q = p <;> simp [hq, setFile]))
  · have h1 : ¬ fl ≤ r.lvl := by omega
    have h2 : ¬ cl ≤ r.lvl := by omega
    simp [emit, form, he, h, h1, h2]

/-- Where the file is after the log was moved into `dir`. -/
def movedPath (p : Path) (dir : String) : Path := ⟨some dir, { p.name with temp := false }⟩

theorem update_form (par : Par) (hl : 0 < lvl) (hf : lvl ≤ fl) (hc : lvl ≤ cl) (dir : String) (p : Path)
    (hF : F = true) (hp : p.dir = none) (content out : List Rec) (b : ℕ) :
    ∃ b' content' out', updateLocation par fl dir (form lvl fl cl F C false p content out b)
        = .ok (form lvl fl cl F C true (movedPath p dir) content' out' b')
      ∧ content'.filter (fun r => !own r) = content.filter (fun r => !own r)
      ∧ out'.filter (fun r => !own r) = out.filter (fun r => !own r)
      ∧ b' = b + if par.hasFile then 1 else 0 := by
  subst hF
  have ht : tempPaths (form lvl fl cl true C false p content out b).handlers = [(p, fl)] := by
    cases C <;> simp [form, tempPaths]
  set c1 := (if fl ≤ 10 then content ++ [⟨10, "Closing temporary logger and moving logfile"⟩] else content) with hc1
  set o1 := (if C ∧ cl ≤ 10 then out ++ [⟨10, "Closing temporary logger and moving logfile"⟩] else out) with ho1
  set c2 := (if fl ≤ 10 then c1 ++ [⟨10, "Re-opening logger"⟩] else c1) with hc2
  set o2 := (if C ∧ cl ≤ 10 then o1 ++ [⟨10, "Re-opening logger"⟩] else o1) with ho2
  refine ⟨b + if par.hasFile then 1 else 0, c2, o2, ?_, ?_, ?_, rfl⟩
  · unfold updateLocation
    rw [ht]
    simp only [relocated]
    rw [emit_form lvl fl cl true C hl hf hc]
    have hne : movedPath p dir ≠ p := by
      intro h
      have := congrArg Path.dir h
      simp [movedPath, hp] at this
    have hd : setFile (setFile (form lvl fl cl true C false p c1 o1 b).disk p none) (movedPath p dir)
        ((form lvl fl cl true C false p c1 o1 b).disk p) = fun q => if q = movedPath p dir then some c1 else none := by
      funext q
      by_cases h1 : q = movedPath p dir
      · subst h1
        simp [setFile, form]
      · by_cases h2 : q = p
        · subst h2
          simp [setFile, h1]
        · simp [setFile, form, h1, h2]
    have key : (⟨lvl, dropTemp (form lvl fl cl true C false p c1 o1 b).handlers ++ [.file (movedPath p dir) fl],
        setFile (setFile (form lvl fl cl true C false p c1 o1 b).disk p none) (movedPath p dir)
          ((form lvl fl cl true C false p c1 o1 b).disk p), o1, b + if par.hasFile then 1 else 0⟩ : St)
        = form lvl fl cl true C true (movedPath p dir) c1 o1 (b + if par.hasFile then 1 else 0) := by
      rw [hd]
      cases C <;> simp [form, dropTemp]
    have := congrArg (fun s => (Except.ok (emit ⟨10, "Re-opening logger"⟩ s) : Except Err St)) key
    simp only [true_and]
    refine this.trans ?_
    rw [emit_form lvl fl cl true C hl hf hc]
    simp [hc2, ho2]
  · simp only [hc2, hc1]
    by_cases h : fl ≤ 10 <;> simp [h, List.filter_append, own]
  · simp only [ho2, ho1]
    by_cases h : (C = true ∧ cl ≤ 10) <;> simp [h, List.filter_append, own]

theorem update_noop (par : Par) (dir : String) (moved : Bool) (p : Path) (h : moved = true ∨ F = false)
    (content out : List Rec) (b : ℕ) :
    updateLocation par fl dir (form lvl fl cl F C moved p content out b)
      = .ok (form lvl fl cl F C moved p content out b) := by
  have : tempPaths (form lvl fl cl F C moved p content out b).handlers = [] := by
    rcases h with h | h <;> subst h
    · cases F <;> cases C <;> simp [form, tempPaths]
    · cases moved <;> cases C <;> simp [form, tempPaths]
  unfold updateLocation
  rw [this]

end Normal

/-- The path of the log file of a rank before it is moved. -/
def tempPath (e : Env) (r stamp pid : ℕ) : Path :=
  ⟨none, ⟨true, stamp, if e.par.hasFile then some r else none, pid⟩⟩

/-- Where the log file is after a history. -/
def finalPath (e : Env) (r stamp pid : ℕ) (evs : List Event) : Path :=
  match dirs evs with
  | [] => tempPath e r stamp pid
  | d :: _ => movedPath (tempPath e r stamp pid) d

theorem set_form (e : Env) (lvl fl cl r stamp pid : ℕ) (hl : 0 < lvl) (hf : lvl ≤ fl) (hc : lvl ≤ cl) :
    ∃ content out b, setLogHandler e.par fl cl r stamp pid (fresh lvl)
        = form lvl fl cl (decide (r = 0) || e.par.hasFile) (decide (r = 0) || e.par.hasConsole) false
            (tempPath e r stamp pid) content out b
      ∧ content.filter (fun r => !own r) = [] ∧ out.filter (fun r => !own r) = [] := by
  set F := (decide (r = 0) || e.par.hasFile) with hF
  set C := (decide (r = 0) || e.par.hasConsole) with hC
  set b := (if e.par.hasFile then 1 else 0 : ℕ) with hb
  have key : setLogHandler e.par fl cl r stamp pid (fresh lvl)
      = emit ⟨20, "Running"⟩ (form lvl fl cl F C false (tempPath e r stamp pid) [] [] b) := by
    unfold setLogHandler tempPath
    have hset : ∀ p : Path, setFile (fun _ => none) p (some []) = fun q => if q = p then some [] else none := fun p => rfl
    by_cases hr : r = 0 <;> cases hp : e.par <;>
      simp [hF, hC, hb, hr, hp, Par.hasFile, Par.hasConsole, form, fresh, openTemp, hset]
  refine ⟨_, _, b, by rw [key, emit_form lvl fl cl F C hl hf hc], ?_, ?_⟩
  · by_cases h : (F = true ∧ fl ≤ 20) <;> simp [h, own]
  · by_cases h : (C = true ∧ cl ≤ 20) <;> simp [h, own]

theorem steps_form (e : Env) (lvl fl cl r pid : ℕ) (F C : Bool) (hl : 0 < lvl) (hf : lvl ≤ fl) (hc : lvl ≤ cl)
    (p : Path) (hp : p.dir = none) (evs : List Event) (hevs : Plain evs) :
    ∀ (moved : Bool) (q : Path), (moved = false → q = p) → ∀ (content out : List Rec) (b : ℕ),
    ∃ content' out' b', steps e fl cl r pid (form lvl fl cl F C moved q content out b) evs
        = .ok (form lvl fl cl F C (moved || (F && !(dirs evs).isEmpty))
            (if moved = true ∨ F = false then q else match dirs evs with | [] => q | d :: _ => movedPath p d)
            content' out' b')
      ∧ content'.filter (fun r => !own r) = content.filter (fun r => !own r)
          ++ (records evs).filter (fun r => F && decide (fl ≤ r.lvl))
      ∧ out'.filter (fun r => !own r) = out.filter (fun r => !own r)
          ++ (records evs).filter (fun r => C && decide (cl ≤ r.lvl)) := by
  induction evs with
  | nil =>
    intro moved q hq content out b
    refine ⟨content, out, b, ?_, ?_, ?_⟩
    · simp [steps, dirs]
    · simp [records]
    · simp [records]
  | cons ev evs ih =>
    intro moved q hq content out b
    have hev' : Plain evs := fun x hx => hevs x (List.mem_cons_of_mem _ hx)
    have emitCase : ∀ rec : Rec, step e fl cl r pid (form lvl fl cl F C moved q content out b) ev
          = .ok (emit rec (form lvl fl cl F C moved q content out b)) → dirs (ev :: evs) = dirs evs →
        records (ev :: evs) = ([rec].filter fun r => !own r) ++ records evs →
        ∃ content' out' b', steps e fl cl r pid (form lvl fl cl F C moved q content out b) (ev :: evs)
          = .ok (form lvl fl cl F C (moved || (F && !(dirs (ev :: evs)).isEmpty))
            (if moved = true ∨ F = false then q else match dirs (ev :: evs) with | [] => q | d :: _ => movedPath p d)
            content' out' b')
        ∧ content'.filter (fun r => !own r) = content.filter (fun r => !own r)
            ++ (records (ev :: evs)).filter (fun r => F && decide (fl ≤ r.lvl))
        ∧ out'.filter (fun r => !own r) = out.filter (fun r => !own r)
            ++ (records (ev :: evs)).filter (fun r => C && decide (cl ≤ r.lvl)) := by
      intro rec h1 h2 h3
      rw [emit_form lvl fl cl F C hl hf hc] at h1
      obtain ⟨c', o', b', k1, k2, k3⟩ := ih hev' moved q hq
        (if F = true ∧ fl ≤ rec.lvl then content ++ [rec] else content)
        (if C = true ∧ cl ≤ rec.lvl then out ++ [rec] else out) b
      refine ⟨c', o', b', ?_, ?_, ?_⟩
      · rw [h2, ← k1]
        simp [steps, h1, bind, Except.bind]
      · rw [k2, h3]
        by_cases hF : F = true <;> by_cases hx : fl ≤ rec.lvl <;> cases ho : own rec <;>
          simp [hF, hx, ho, List.filter_append]
      · rw [k3, h3]
        by_cases hF : C = true <;> by_cases hx : cl ≤ rec.lvl <;> cases ho : own rec <;>
          simp [hF, hx, ho, List.filter_append]
    cases ev with
    | log rec =>
      refine emitCase rec rfl (by simp [dirs]) ?_
      simp only [records, List.flatMap_cons, List.filter_append]
    | unhandled m =>
      refine emitCase ⟨40, m⟩ rfl (by simp [dirs]) ?_
      simp only [records, List.flatMap_cons, List.filter_append]
    | setHandler n => exact absurd rfl (hevs _ List.mem_cons_self n)
    | relocate d =>
      have hr : records (.relocate d :: evs) = records evs := by simp [records]
      have hd : dirs (.relocate d :: evs) = d :: dirs evs := by simp [dirs]
      by_cases h : moved = true ∨ F = false
      · have h1 : step e fl cl r pid (form lvl fl cl F C moved q content out b) (.relocate d)
            = .ok (form lvl fl cl F C moved q content out b) :=
          update_noop lvl fl cl F C e.par d moved q h content out b
        obtain ⟨c', o', b', k1, k2, k3⟩ := ih hev' moved q hq content out b
        refine ⟨c', o', b', ?_, by rw [hr, k2], by rw [hr, k3]⟩
        have : steps e fl cl r pid (form lvl fl cl F C moved q content out b) (.relocate d :: evs)
            = steps e fl cl r pid (form lvl fl cl F C moved q content out b) evs := by
          simp [steps, h1, bind, Except.bind]
        rw [this, k1, if_pos h, if_pos h]
        rcases h with h | h <;> simp [h]
      · simp only [not_or, Bool.not_eq_true, Bool.not_eq_false] at h
        obtain ⟨hm, hF⟩ := h
        have hqp := hq hm
        subst hqp hm hF
        obtain ⟨b1, c1, o1, h1, h2, h3, -⟩ := update_form lvl fl cl true C e.par hl hf hc d q rfl hp content out b
        obtain ⟨c', o', b', k1, k2, k3⟩ := ih hev' true (movedPath q d) (by simp) c1 o1 b1
        refine ⟨c', o', b', ?_, by rw [hr, k2, h2], by rw [hr, k3, h3]⟩
        have h1' : step e fl cl r pid (form lvl fl cl true C false q content out b) (.relocate d)
            = .ok (form lvl fl cl true C true (movedPath q d) c1 o1 b1) := h1
        have : steps e fl cl r pid (form lvl fl cl true C false q content out b) (.relocate d :: evs)
            = steps e fl cl r pid (form lvl fl cl true C true (movedPath q d) c1 o1 b1) evs := by
          simp [steps, h1', bind, Except.bind]
        rw [this, k1, hd]
        simp

/-- The level of a setting, as documented: a setting that is absent takes the one given as default. -/
def levelOf (v : Option String) (dflt : ℕ) : ℕ := (v.bind nameToLevel).getD dflt

/-- `GUSTO_CONSOLE_LOG_LEVEL`, by default `GUSTO_LOG_LEVEL`, by default `INFO`. -/
def consoleLevel (e : Env) : ℕ := levelOf e.consoleLogLevel (levelOf e.logLevel 20)
/-- The level the code uses for files. -/
def fileLevel (e : Env) : ℕ := levelOf e.fileLogLevel (levelOf e.logLevel 20)
/-- The level of the documentation: `GUSTO_LOGFILE_LOG_LEVEL`. -/
def documentedFileLevel (e : Env) : ℕ := levelOf e.logfileLogLevel (levelOf e.logLevel 20)

theorem allowed_level {v : Option String} (h : Allowed v) {d : ℕ} (hd : 0 < d) : 0 < levelOf v d := by
  rcases h with h | h | h | h | h | h <;> simp [h, levelOf, nameToLevel, hd]

theorem allowed_resolve {v : Option String} (h : Allowed v) {d : Lev} {n : ℕ} (hd : d.resolve = some n) :
    (envGet v d).resolve = some (levelOf v n) := by
  rcases h with h | h | h | h | h | h
  · simpa [h, levelOf, envGet] using hd
  all_goals simp [h, levelOf, nameToLevel, envGet, Lev.resolve]

/-- **C114.**  With documented settings of the levels gusto can be imported, and after any history of records, unhandled
exceptions and simulations on a rank: the rank has printed exactly the records that reach the console level, in order, if
it is rank 0 or `GUSTO_PARALLEL_LOG` is `CONSOLE` or `BOTH`, and otherwise nothing; there is a log file exactly if it is
rank 0 or `GUSTO_PARALLEL_LOG` is `FILE` or `BOTH`, only one, in the directory of the first simulation, holding exactly the
records that reach the file level, in order: the move loses and repeats none.  Partial: the file level is the one of
`GUSTO_FILE_LOG_LEVEL`, not the documented variable; see the refutations. -/
theorem C114_records_partial (e : Env) (h1 : Allowed e.logLevel) (h2 : Allowed e.fileLogLevel)
    (h3 : Allowed e.consoleLogLevel) (r stamp pid : ℕ) (evs : List Event) (hevs : Plain evs) :
    ∃ s, process e r stamp pid evs = .ok s
      ∧ (Prints e r → s.out.filter (fun x => !own x)
          = (records evs).filter fun x => decide (consoleLevel e ≤ x.lvl))
      ∧ (¬ Prints e r → s.out.filter (fun x => !own x) = [])
      ∧ (Writes e r → (∃ content, s.disk (finalPath e r stamp pid evs) = some content
            ∧ content.filter (fun x => !own x) = (records evs).filter fun x => decide (fileLevel e ≤ x.lvl))
          ∧ ∀ p, p ≠ finalPath e r stamp pid evs → s.disk p = none)
      ∧ (¬ Writes e r → ∀ p, s.disk p = none) := by
  set L := levelOf e.logLevel 20 with hL
  have rl : e.log.resolve = some L := allowed_resolve h1 rfl
  have rf : e.file.resolve = some (fileLevel e) := allowed_resolve h2 rl
  have rc : e.console.resolve = some (consoleLevel e) := allowed_resolve h3 rl
  have pL : 0 < L := allowed_level h1 (by omega)
  have pf : 0 < fileLevel e := allowed_level h2 pL
  have pcl : 0 < consoleLevel e := allowed_level h3 pL
  set lvl := min L (min (fileLevel e) (consoleLevel e)) with hlvl
  have k1 : 0 < lvl := by omega
  have k2 : lvl ≤ fileLevel e := by omega
  have k3 : lvl ≤ consoleLevel e := by omega
  have himp : importGusto e r stamp pid
      = .ok (setLogHandler e.par (fileLevel e) (consoleLevel e) r stamp pid (fresh lvl)) := by
    simp [importGusto, loggerLevel, rl, rf, rc, bind, Except.bind, hlvl]
  obtain ⟨c0, o0, b0, hs, hc0, ho0⟩ := set_form e lvl (fileLevel e) (consoleLevel e) r stamp pid k1 k2 k3
  obtain ⟨c, o, b, hst, hc, ho⟩ := steps_form e lvl (fileLevel e) (consoleLevel e) r pid
    (decide (r = 0) || e.par.hasFile) (decide (r = 0) || e.par.hasConsole) k1 k2 k3 (tempPath e r stamp pid) rfl evs hevs
    false (tempPath e r stamp pid) (fun _ => rfl) c0 o0 b0
  have hpr : process e r stamp pid evs = steps e (fileLevel e) (consoleLevel e) r pid
      (form lvl (fileLevel e) (consoleLevel e) (decide (r = 0) || e.par.hasFile) (decide (r = 0) || e.par.hasConsole) false
            (tempPath e r stamp pid) c0 o0 b0) evs := by
    simp [process, himp, rf, rc, bind, Except.bind, hs]
  refine ⟨_, hpr.trans hst, ?_, ?_, ?_, ?_⟩
  · intro hP
    have : (decide (r = 0) || e.par.hasConsole) = true := by simpa [Prints] using hP
    rw [this] at ho
    show o.filter _ = _
    rw [ho, ho0]; simp
  · intro hP
    have : (decide (r = 0) || e.par.hasConsole) = false := by simpa [Prints] using hP
    rw [this] at ho
    show o.filter _ = _
    rw [ho, ho0]; simp
  · intro hW
    have hFt : (decide (r = 0) || e.par.hasFile) = true := by simpa [Writes] using hW
    have hpath : (if (false : Bool) = true ∨ (decide (r = 0) || e.par.hasFile) = false then tempPath e r stamp pid
        else match dirs evs with | [] => tempPath e r stamp pid | d :: _ => movedPath (tempPath e r stamp pid) d)
        = finalPath e r stamp pid evs := by
      rw [if_neg (by simp [hFt])]
      rfl
    rw [hpath]
    refine ⟨⟨c, ?_, ?_⟩, ?_⟩
    · simp only [form, hFt]; simp
    · rw [hc, hc0, hFt]; simp
    · intro p hp
      simp [form, hp]
  · intro hW p
    have hFt : (decide (r = 0) || e.par.hasFile) = false := by simpa [Writes] using hW
    simp [form, hFt]

/-- An environment with the documented settings. -/
def demoEnv : Env := ⟨some "INFO", none, none, some "DEBUG", some "file".toList⟩

example : Allowed demoEnv.logLevel ∧ Allowed demoEnv.fileLogLevel ∧ Allowed demoEnv.consoleLogLevel
    ∧ Plain [.log ⟨10, "a"⟩, .relocate "run", .log ⟨20, "b"⟩] ∧ Writes demoEnv 3 ∧ ¬ Prints demoEnv 3 := by
  refine ⟨by simp [Allowed, demoEnv], by simp [Allowed, demoEnv], by simp [Allowed, demoEnv], ?_, ?_, ?_⟩
  · intro ev hev n h
    subst h
    simp at hev
  · right; rfl
  · intro h
    rcases h with h | h
    · omega
    · exact absurd h (by decide)

/-- The level names of Python's logging and their numbers: the standard ones of its documentation and the old synonyms. -/
def levelNames : List (String × ℕ) :=
  [("NOTSET", 0), ("DEBUG", 10), ("INFO", 20), ("WARNING", 30), ("WARN", 30), ("ERROR", 40), ("CRITICAL", 50), ("FATAL", 50)]

/-- **C114, settings.**  The names that a level variable can hold and their levels: no other name is accepted, upper case only. -/
theorem C114_level_names (s : String) (n : ℕ) : nameToLevel s = some n ↔ (s, n) ∈ levelNames := by
  constructor
  · intro h
    unfold nameToLevel at h
    split at h <;> simp_all [levelNames]
  · intro h
    simp only [levelNames, List.mem_cons, Prod.mk.injEq, List.not_mem_nil, or_false] at h
    rcases h with ⟨rfl, rfl⟩ | ⟨rfl, rfl⟩ | ⟨rfl, rfl⟩ | ⟨rfl, rfl⟩ | ⟨rfl, rfl⟩ | ⟨rfl, rfl⟩ | ⟨rfl, rfl⟩ | ⟨rfl, rfl⟩ <;> rfl

example : nameToLevel "WARN" = some 30 ∧ nameToLevel "info" = none :=
  ⟨(C114_level_names _ _).2 (by simp [levelNames]), by
    by_contra h
    obtain ⟨n, hn⟩ := Option.ne_none_iff_exists'.1 h
    have := (C114_level_names _ _).1 hn
    simp [levelNames] at this⟩

/-- A level that Python's logging knows, or none. -/
def Known (v : Option String) : Prop := ∀ s, v = some s → (nameToLevel s).isSome

/-- **C114, settings.**  Gusto can be imported exactly if every one of the three variables it reads is unset or holds a name
Python's logging knows: one unknown name, also in a variable that the others override, makes `import gusto` fail. -/
theorem C114_import_iff (e : Env) (r stamp pid : ℕ) :
    (∃ s, importGusto e r stamp pid = .ok s) ↔ Known e.logLevel ∧ Known e.fileLogLevel ∧ Known e.consoleLogLevel := by
  have res : ∀ (v : Option String) (d : Lev), (envGet v d).resolve.isSome ↔ Known v ∧ (v = none → d.resolve.isSome) := by
    intro v d
    cases v with
    | none => simp [envGet, Known]
    | some s => simp [envGet, Known, Lev.resolve]
  have h1 : e.log.resolve.isSome ↔ Known e.logLevel := by
    rw [Env.log, res]; simp [Lev.resolve]
  have h2 := res e.fileLogLevel e.log
  have h3 := res e.consoleLogLevel e.log
  change e.file.resolve.isSome ↔ _ at h2
  change e.console.resolve.isSome ↔ _ at h3
  have key : (∃ s, importGusto e r stamp pid = .ok s)
      ↔ e.log.resolve.isSome ∧ e.file.resolve.isSome ∧ e.console.resolve.isSome := by
    unfold importGusto loggerLevel
    cases e.log.resolve <;> cases e.file.resolve <;> cases e.console.resolve <;> simp [bind, Except.bind]
  rw [key]
  constructor
  · rintro ⟨a, b, c⟩
    exact ⟨h1.1 a, (h2.1 b).1, (h3.1 c).1⟩
  · rintro ⟨a, b, c⟩
    have a' := h1.2 a
    exact ⟨a', h2.2 ⟨b, fun _ => a'⟩, h3.2 ⟨c, fun _ => a'⟩⟩

example : ¬ Known (some "debug") ∧ Known (some "DEBUG") ∧ Known none := by
  refine ⟨fun h => ?_, ?_, ?_⟩
  · exact absurd (h _ rfl) (by simp [nameToLevel])
  · intro s hs
    cases hs
    simp [nameToLevel]
  · intro s hs
    cases hs

/-- **C114, refuted: the documented variable.**  `GUSTO_LOGFILE_LOG_LEVEL` changes nothing: whatever its value the process
does the same; so with `GUSTO_LOGFILE_LOG_LEVEL=DEBUG` a record of level `DEBUG` is not in the log file. -/
theorem C114_logfile_variable_refuted :
    (∀ (e : Env) (v : Option String) (r stamp pid : ℕ) (evs : List Event),
      process { e with logfileLogLevel := v } r stamp pid evs = process e r stamp pid evs)
    ∧ ¬ ∀ (e : Env), Allowed e.logLevel → Allowed e.fileLogLevel → Allowed e.logfileLogLevel → Allowed e.consoleLogLevel →
        ∀ s, process e 0 0 0 [.log ⟨10, "details"⟩] = .ok s → documentedFileLevel e ≤ 10 →
          ∃ p content, s.disk p = some content ∧ ⟨10, "details"⟩ ∈ content := by
  constructor
  · intro e v r stamp pid evs
    have hs : ∀ fl cl s evs, steps { e with logfileLogLevel := v } fl cl r pid s evs = steps e fl cl r pid s evs := by
      intro fl cl s evs
      induction evs generalizing s with
      | nil => rfl
      | cons ev evs ih =>
        have : step { e with logfileLogLevel := v } fl cl r pid s ev = step e fl cl r pid s ev := by cases ev <;> rfl
        simp only [steps, this, ih]
    unfold process
    show (do
      let s ← importGusto e r stamp pid
      match e.file.resolve, e.console.resolve with
      | some fl, some cl => steps { e with logfileLogLevel := v } fl cl r pid s evs
      | _, _ => .error .valueError) = _
    simp only [hs]
    rfl
  · intro h
    set e : Env := ⟨none, none, some "DEBUG", none, none⟩ with he
    obtain ⟨s, hs, -, -, hW, -⟩ := C114_records_partial e (Or.inl rfl) (Or.inl rfl) (Or.inl rfl) 0 0 0
      [.log ⟨10, "details"⟩] (by intro ev hev n h; subst h; simp at hev)
    obtain ⟨⟨c, hc1, hc2⟩, hn⟩ := hW (Or.inl rfl)
    obtain ⟨p, content, hp, hm⟩ := h e (Or.inl rfl) (Or.inl rfl) (Or.inr (Or.inl rfl)) (Or.inl rfl) s hs (by decide)
    by_cases hpe : p = finalPath e 0 0 0 [.log ⟨10, "details"⟩]
    · rw [hpe, hc1] at hp
      cases hp
      have : (⟨10, "details"⟩ : Rec) ∈ c.filter fun x => !own x := by
        simp [hm, own]
      rw [hc2] at this
      simp [fileLevel, levelOf, he] at this
    · rw [hn p hpe] at hp
      cases hp

/-- **C114, refuted: unhandled exceptions.**  An exception that is not handled is reported on rank 0, but by default on no
other rank: nothing is printed and nothing written there. -/
theorem C114_unhandled_partial (e : Env) (h1 : Allowed e.logLevel) (h2 : Allowed e.fileLogLevel)
    (h3 : Allowed e.consoleLogLevel) (hc : consoleLevel e ≤ 40) (r stamp pid : ℕ) (hr : Prints e r) (evs : List Event)
    (hevs : Plain evs) (m : String) (hm : Event.unhandled m ∈ evs) (ho : own ⟨40, m⟩ = false) :
    ∃ s, process e r stamp pid evs = .ok s ∧ ⟨40, m⟩ ∈ s.out := by
  obtain ⟨s, hs, hp, -⟩ := C114_records_partial e h1 h2 h3 r stamp pid evs hevs
  refine ⟨s, hs, ?_⟩
  have hx : (⟨40, m⟩ : Rec) ∈ (records evs).filter fun x => decide (consoleLevel e ≤ x.lvl) := by
    rw [List.mem_filter]
    refine ⟨?_, by simpa using hc⟩
    rw [records, List.mem_filter]
    refine ⟨List.mem_flatMap.2 ⟨_, hm, by simp⟩, by simp [ho]⟩
  rw [← hp hr, List.mem_filter] at hx
  exact hx.1

example : consoleLevel demoEnv ≤ 40 ∧ Prints demoEnv 0 ∧ own ⟨40, "ValueError"⟩ = false :=
  ⟨by decide, Or.inl rfl, by decide⟩

/-- **C114, refuted: unhandled exceptions of other ranks.** -/
theorem C114_unhandled_refuted :
    ¬ ∀ (e : Env), Allowed e.logLevel → Allowed e.fileLogLevel → Allowed e.consoleLogLevel →
      ∀ r m, own ⟨40, m⟩ = false → ∀ s, process e r 0 0 [.unhandled m] = .ok s →
        ⟨40, m⟩ ∈ s.out ∨ ∃ p content, s.disk p = some content ∧ ⟨40, m⟩ ∈ content := by
  intro h
  set e : Env := ⟨none, none, none, none, none⟩ with he
  obtain ⟨s, hs, -, hP, -, hW⟩ := C114_records_partial e (Or.inl rfl) (Or.inl rfl) (Or.inl rfl) 1 0 0
    [.unhandled "x"] (by intro ev hev n h; subst h; simp at hev)
  have nP : ¬ Prints e 1 := by rintro (h | h) <;> simp [he, Env.par, Par.hasConsole] at h
  have nW : ¬ Writes e 1 := by rintro (h | h) <;> simp [he, Env.par, Par.hasFile] at h
  rcases h e (Or.inl rfl) (Or.inl rfl) (Or.inl rfl) 1 "x" (by decide) s hs with h | ⟨p, content, hp, -⟩
  · have : (⟨40, "x"⟩ : Rec) ∈ s.out.filter fun x => !own x := by simp [h, own]
    rw [hP nP] at this
    simp at this
  · rw [hW nW p] at hp
    cases hp

/-- **C114, refuted: the second simulation.**  If a script runs two simulations with different directories, the records of
the second are in the directory of the first. -/
theorem C114_second_simulation_refuted :
    ¬ ∀ (e : Env), Allowed e.logLevel → Allowed e.fileLogLevel → Allowed e.consoleLogLevel →
      ∀ (d1 d2 : String) (x : Rec), fileLevel e ≤ x.lvl → own x = false →
      ∀ s, process e 0 0 0 [.relocate d1, .relocate d2, .log x] = .ok s →
        ∃ p content, p.dir = some d2 ∧ s.disk p = some content ∧ x ∈ content := by
  intro h
  set e : Env := ⟨none, none, none, none, none⟩ with he
  obtain ⟨s, hs, -, -, hW, -⟩ := C114_records_partial e (Or.inl rfl) (Or.inl rfl) (Or.inl rfl) 0 0 0
    [.relocate "a", .relocate "b", .log ⟨20, "x"⟩] (by intro ev hev n h; subst h; simp at hev)
  obtain ⟨p, content, hp, hc, -⟩ := h e (Or.inl rfl) (Or.inl rfl) (Or.inl rfl) "a" "b" ⟨20, "x"⟩ (by decide) (by decide) s hs
  obtain ⟨-, hn⟩ := hW (Or.inl rfl)
  have hne : p ≠ finalPath e 0 0 0 [.relocate "a", .relocate "b", .log ⟨20, "x"⟩] := by
    intro hpe
    rw [hpe] at hp
    simp [finalPath, dirs, movedPath] at hp
  rw [hn p hne] at hc
  cases hc

/-- **C114, refuted: the most verbose level.**  `NOTSET`, which gusto exports with the other levels and which is lower than
`DEBUG`, logs less: the logger then takes the level of the root logger, so that a record of level `INFO` is not printed. -/
theorem C114_notset_refuted :
    ∃ s, process ⟨some "NOTSET", none, none, none, none⟩ 0 0 0 [.log ⟨20, "x"⟩] = .ok s
      ∧ ⟨20, "x"⟩ ∉ s.out ∧ levelOf (some "NOTSET") 20 ≤ 20 := by
  refine ⟨_, rfl, ?_, by simp [levelOf, nameToLevel]⟩
  decide

/-- **C114, refuted: calling `set_log_handler` again.**  The function is exported; calling it once more makes the next
simulation that writes output raise `LoggingError`, on every rank that has a log file. -/
theorem C114_second_handler_refuted (e : Env) (h1 : Allowed e.logLevel) (h2 : Allowed e.fileLogLevel)
    (h3 : Allowed e.consoleLogLevel) (r stamp stamp' pid : ℕ) (hr : Writes e r) (d : String) :
    process e r stamp pid [.setHandler stamp', .relocate d] = .error .loggingError := by
  have rl := allowed_resolve h1 (d := .num 20) (n := 20) rfl
  have rf : e.file.resolve = some (fileLevel e) := allowed_resolve h2 rl
  have rc : e.console.resolve = some (consoleLevel e) := allowed_resolve h3 rl
  have hE : ∀ x s, (emit x s).handlers = s.handlers := by
    intro x s
    have hf : ∀ (hs : List Handler) (s : St), (hs.foldl (emitTo x) s).handlers = s.handlers := by
      intro hs
      induction hs with
      | nil => intro s; rfl
      | cons a t ih =>
        intro s
        rw [List.foldl_cons, ih]
        cases a <;> simp only [emitTo] <;> (try split) <;> rfl
    unfold emit
    split
    · split
      · split <;> rfl
      · exact hf _ _
    · rfl
  have hT : ∀ (st : ℕ) (s : St), ∃ p, tempPaths (setLogHandler e.par (fileLevel e) (consoleLevel e) r st pid s).handlers
      = tempPaths s.handlers ++ [(p, fileLevel e)] := by
    intro st s
    refine ⟨⟨none, ⟨true, st, if e.par.hasFile then some r else none, pid⟩⟩, ?_⟩
    unfold setLogHandler
    simp only [hE]
    by_cases h0 : r = 0
    · cases hp : e.par <;> simp [h0, hp, Par.hasFile, openTemp, tempPaths]
    · have hF : e.par.hasFile = true := by
        rcases hr with h | h
        · exact absurd h h0
        · exact h
      cases hp : e.par <;> simp [hp, Par.hasFile] at hF <;>
        simp [h0, Par.hasFile, Par.hasConsole, openTemp, tempPaths]
  have himp : importGusto e r stamp pid = .ok (setLogHandler e.par (fileLevel e) (consoleLevel e) r stamp pid
      (fresh (min (levelOf e.logLevel 20) (min (fileLevel e) (consoleLevel e))))) := by
    have rl' : e.log.resolve = some (levelOf e.logLevel 20) := rl
    simp [importGusto, loggerLevel, rl', rf, rc, bind, Except.bind]
  obtain ⟨p, hp⟩ := hT stamp (fresh (min (levelOf e.logLevel 20) (min (fileLevel e) (consoleLevel e))))
  obtain ⟨q, hq⟩ := hT stamp' (setLogHandler e.par (fileLevel e) (consoleLevel e) r stamp pid
      (fresh (min (levelOf e.logLevel 20) (min (fileLevel e) (consoleLevel e)))))
  rw [hp] at hq
  have h0 : ∀ n, tempPaths (fresh n).handlers = [] := fun n => rfl
  rw [h0, List.nil_append, List.singleton_append] at hq
  simp only [process, himp, rf, rc, bind, Except.bind, steps, step]
  have hu : ∀ s : St, tempPaths s.handlers = [(p, fileLevel e), (q, fileLevel e)] →
      updateLocation e.par (fileLevel e) d s = .error .loggingError := by
    intro s hs
    unfold updateLocation
    rw [hs]
  rw [hu]
  exact hq

theorem emit_handlers (x : Rec) (s : St) : (emit x s).handlers = s.handlers ∧ (emit x s).barriers = s.barriers := by
  have hf : ∀ (hs : List Handler) (s : St), (hs.foldl (emitTo x) s).handlers = s.handlers
      ∧ (hs.foldl (emitTo x) s).barriers = s.barriers := by
    intro hs
    induction hs with
    | nil => intro s; exact ⟨rfl, rfl⟩
    | cons a t ih =>
      intro s
      rw [List.foldl_cons, (ih _).1, (ih _).2]
      cases a <;> simp only [emitTo] <;> (try split) <;> simp
  unfold emit
  split
  · split
    · split <;> exact ⟨rfl, rfl⟩
    · exact hf _ _
  · exact ⟨rfl, rfl⟩

/-- What the barriers of a rank depend on: how many temporary files are open, and the number of barriers so far. -/
def count : ℕ × ℕ → List Event → Option (ℕ × ℕ)
  | c, [] => some c
  | (t, b), .setHandler _ :: evs => count (t + 1, b + 1) evs
  | (0, b), .relocate _ :: evs => count (0, b) evs
  | (1, b), .relocate _ :: evs => count (0, b + 1) evs
  | (_ + 2, _), .relocate _ :: _ => none
  | c, .log _ :: evs => count c evs
  | c, .unhandled _ :: evs => count c evs

theorem setHandler_count (par : Par) (fl cl r st pid : ℕ) (s : St) :
    (setLogHandler par fl cl r st pid s).barriers = s.barriers + (if par.hasFile then 1 else 0)
    ∧ (tempPaths (setLogHandler par fl cl r st pid s).handlers).length
        = (tempPaths s.handlers).length + if r = 0 ∨ par.hasFile = true then 1 else 0 := by
  have happ : ∀ (a b : List Handler), tempPaths (a ++ b) = tempPaths a ++ tempPaths b := by
    intro a b; simp [tempPaths]
  unfold setLogHandler
  simp only [(emit_handlers _ _).1, (emit_handlers _ _).2]
  by_cases h0 : r = 0
  · cases par <;> simp [h0, Par.hasFile, openTemp, happ] <;> simp [tempPaths]
  · cases par
    · by_cases hn : s.handlers = [] <;> simp [h0, hn, Par.hasFile, Par.hasConsole, openTemp] <;> simp [tempPaths]
    · simp [h0, Par.hasFile, Par.hasConsole, openTemp, happ]; simp [tempPaths]
    · simp [h0, Par.hasFile, Par.hasConsole, openTemp, happ]; simp [tempPaths]
    · simp [h0, Par.hasFile, Par.hasConsole, openTemp, happ]; simp [tempPaths]

theorem dropTemp_count (hs : List Handler) (q : Path) (fl : ℕ) : tempPaths (dropTemp hs ++ [.file q fl]) = [] := by
  induction hs with
  | nil => rfl
  | cons a t ih => cases a <;> simpa [dropTemp, tempPaths] using ih

theorem update_count (par : Par) (fl : ℕ) (d : String) (s : St) :
    match tempPaths s.handlers with
    | [] => updateLocation par fl d s = .ok s
    | [_] => ∃ s', updateLocation par fl d s = .ok s' ∧ tempPaths s'.handlers = []
        ∧ s'.barriers = s.barriers + (if par.hasFile then 1 else 0)
    | _ => updateLocation par fl d s = .error .loggingError := by
  match h : tempPaths s.handlers with
  | [] => simp only [updateLocation, h]
  | [(p, l)] =>
    refine ⟨relocated par fl d p s, by simp only [updateLocation, h], ?_, ?_⟩
    · simp only [relocated]
      rw [(emit_handlers _ _).1]
      exact dropTemp_count _ _ _
    · simp only [relocated]
      rw [(emit_handlers _ _).2]
      simp only [(emit_handlers _ _).2]
  | a :: b :: c => simp only [updateLocation, h]

theorem steps_count (e : Env) (hF : e.par.hasFile = true) (fl cl r pid : ℕ) (evs : List Event) : ∀ s : St,
    match count ((tempPaths s.handlers).length, s.barriers) evs with
    | some c => ∃ s', steps e fl cl r pid s evs = .ok s' ∧ s'.barriers = c.2
    | none => ∃ err, steps e fl cl r pid s evs = .error err := by
  induction evs with
  | nil => intro s; exact ⟨s, rfl, rfl⟩
  | cons ev evs ih =>
    intro s
    cases ev with
    | log x =>
      have := ih (emit x s)
      rw [(emit_handlers _ _).1, (emit_handlers _ _).2] at this
      simpa [count, steps, step, bind, Except.bind] using this
    | unhandled m =>
      have := ih (emit ⟨40, m⟩ s)
      rw [(emit_handlers _ _).1, (emit_handlers _ _).2] at this
      simpa [count, steps, step, bind, Except.bind] using this
    | setHandler st =>
      have := ih (setLogHandler e.par fl cl r st pid s)
      rw [(setHandler_count _ _ _ _ _ _ _).1, (setHandler_count _ _ _ _ _ _ _).2] at this
      simpa [count, steps, step, bind, Except.bind, hF] using this
    | relocate d =>
      have hu := update_count e.par fl d s
      match h : tempPaths s.handlers with
      | [] =>
        rw [h] at hu
        have := ih s
        rw [h] at this
        simpa [count, steps, step, bind, Except.bind, hu] using this
      | [a] =>
        rw [h] at hu
        obtain ⟨s', h1, h2, h3⟩ := hu
        have := ih s'
        rw [h2, h3] at this
        simpa [count, steps, step, bind, Except.bind, h1, hF] using this
      | a :: b :: c =>
        rw [h] at hu
        simp [count, steps, step, bind, Except.bind, hu]

theorem steps_barriers (e : Env) (hF : e.par.hasFile = false) (fl cl r pid : ℕ) (evs : List Event) : ∀ s s' : St,
    steps e fl cl r pid s evs = .ok s' → s'.barriers = s.barriers := by
  induction evs with
  | nil => intro s s' h; simp only [steps, Except.ok.injEq] at h; rw [h]
  | cons ev evs ih =>
    intro s s' h
    simp only [steps, bind, Except.bind] at h
    cases hs : step e fl cl r pid s ev with
    | error err => rw [hs] at h; cases h
    | ok s1 =>
      rw [hs] at h
      rw [ih s1 s' h]
      cases ev with
      | log x => cases hs; exact (emit_handlers _ _).2
      | unhandled m => cases hs; exact (emit_handlers _ _).2
      | setHandler st =>
        cases hs
        rw [(setHandler_count _ _ _ _ _ _ _).1, hF]; simp
      | relocate d =>
        have hu := update_count e.par fl d s
        simp only [step] at hs
        match h : tempPaths s.handlers with
        | [] => rw [h] at hu; rw [hu] at hs; cases hs; rfl
        | [a] =>
          rw [h] at hu
          obtain ⟨s2, h1, -, h3⟩ := hu
          rw [h1] at hs
          cases hs
          rw [h3, hF]; simp
        | a :: b :: c => rw [h] at hu; rw [hu] at hs; cases hs

/-- **C114, barriers.**  The ranks enter the same number of barriers, whatever they log and however often the log is moved
or `set_log_handler` is called: none waits for another for ever. -/
theorem C114_barriers (e : Env) (r r' stamp stamp' pid pid' : ℕ) (evs : List Event) (s s' : St)
    (h : process e r stamp pid evs = .ok s) (h' : process e r' stamp' pid' evs = .ok s') :
    s.barriers = s'.barriers := by
  have key : ∀ (r stamp pid : ℕ) (s : St), process e r stamp pid evs = .ok s →
      ∃ fl cl lvl, steps e fl cl r pid (setLogHandler e.par fl cl r stamp pid (fresh lvl)) evs = .ok s := by
    intro r stamp pid s h
    unfold process importGusto at h
    cases hl : loggerLevel e with
    | error err => simp [hl, bind, Except.bind] at h
    | ok lvl =>
      cases hf : e.file.resolve with
      | none => simp [hl, hf, bind, Except.bind] at h
      | some fl =>
        cases hc : e.console.resolve with
        | none => simp [hl, hf, hc, bind, Except.bind] at h
        | some cl =>
          simp only [hl, hf, hc, bind, Except.bind] at h
          exact ⟨fl, cl, lvl, h⟩
  obtain ⟨fl, cl, lvl, k⟩ := key r stamp pid s h
  obtain ⟨fl', cl', lvl', k'⟩ := key r' stamp' pid' s' h'
  cases hF : e.par.hasFile with
  | false =>
    rw [steps_barriers e hF _ _ _ _ _ _ _ k, steps_barriers e hF _ _ _ _ _ _ _ k',
      (setHandler_count _ _ _ _ _ _ _).1, (setHandler_count _ _ _ _ _ _ _).1]
    rfl
  | true =>
    have c := steps_count e hF fl cl r pid evs (setLogHandler e.par fl cl r stamp pid (fresh lvl))
    have c' := steps_count e hF fl' cl' r' pid' evs (setLogHandler e.par fl' cl' r' stamp' pid' (fresh lvl'))
    rw [(setHandler_count _ _ _ _ _ _ _).1, (setHandler_count _ _ _ _ _ _ _).2] at c c'
    simp only [hF, or_true, if_true, fresh, tempPaths, List.filterMap_nil, List.length_nil, Nat.zero_add] at c c' k k'
    cases hcount : count (1, 1) evs with
    | none =>
      rw [hcount] at c
      obtain ⟨err, he⟩ := c
      rw [he] at k
      cases k
    | some x =>
      rw [hcount] at c c'
      obtain ⟨a, ha, hb⟩ := c
      obtain ⟨a', ha', hb'⟩ := c'
      rw [ha] at k
      rw [ha'] at k'
      cases k
      cases k'
      rw [hb, hb']

/-! ### The files of different ranks -/

/-- The files a rank may touch. -/
def Mine (e : Env) (r : ℕ) (p : Path) : Prop :=
  Writes e r ∧ p.name.rank = if e.par.hasFile then some r else none

/-- A rank has touched only its own files, and its handlers write only there. -/
def Tidy (e : Env) (r : ℕ) (s : St) : Prop :=
  (∀ p, s.disk p ≠ none → Mine e r p) ∧ ∀ h ∈ s.handlers, ∀ p l, h = .tempFile p l ∨ h = .file p l → Mine e r p

theorem tidy_emit (e : Env) (r : ℕ) (x : Rec) (s : St) (hs : Tidy e r s) : Tidy e r (emit x s) := by
  have hset : ∀ (s : St) (p : Path) (v : Option (List Rec)), Tidy e r s → Mine e r p →
      Tidy e r { s with disk := setFile s.disk p v } := by
    intro s p v hs hp
    refine ⟨fun q hq => ?_, hs.2⟩
    by_cases h : q = p
    · rw [h]; exact hp
    · exact hs.1 q (by simpa [setFile, h] using hq)
  have hf : ∀ (hl : List Handler) (s : St), (∀ h ∈ hl, ∀ p l, h = .tempFile p l ∨ h = .file p l → Mine e r p) →
      Tidy e r s → Tidy e r (hl.foldl (emitTo x) s) := by
    intro hl
    induction hl with
    | nil => intro s _ hs; exact hs
    | cons a t ih =>
      intro s ha hs
      rw [List.foldl_cons]
      refine ih _ (fun h hh => ha h (List.mem_cons_of_mem _ hh)) ?_
      have ha' := ha a List.mem_cons_self
      cases a with
      | tempFile p l =>
        simp only [emitTo]
        split
        · exact hset s p _ hs (ha' p l (Or.inl rfl))
        · exact hs
      | file p l =>
        simp only [emitTo]
        split
        · exact hset s p _ hs (ha' p l (Or.inr rfl))
        · exact hs
      | console l =>
        simp only [emitTo]
        split
        · exact hs
        · exact hs
      | null => exact hs
  unfold emit
  split
  · split
    · split
      · exact hs
      · exact hs
    · exact hf _ s hs.2 hs
  · exact hs

theorem tidy_openTemp (e : Env) (r st pid fl : ℕ) (hW : Writes e r) (s : St) (hs : Tidy e r s) :
    Tidy e r (openTemp ⟨none, ⟨true, st, if e.par.hasFile then some r else none, pid⟩⟩ fl s) := by
  have hm : Mine e r ⟨none, ⟨true, st, if e.par.hasFile then some r else none, pid⟩⟩ := ⟨hW, rfl⟩
  refine ⟨fun q hq => ?_, ?_⟩
  · by_cases h : q = ⟨none, ⟨true, st, if e.par.hasFile then some r else none, pid⟩⟩
    · rw [h]; exact hm
    · exact hs.1 q (by simpa [openTemp, setFile, h] using hq)
  · intro h hh p l hp
    simp only [openTemp, List.mem_append, List.mem_singleton] at hh
    rcases hh with hh | hh
    · exact hs.2 h hh p l hp
    · subst hh
      rcases hp with hp | hp
      · cases hp; exact hm
      · cases hp

theorem tidy_add (e : Env) (r : ℕ) (s : St) (hs : Tidy e r s) (a : Handler)
    (ha : ∀ p l, a ≠ .tempFile p l ∧ a ≠ .file p l) : Tidy e r { s with handlers := s.handlers ++ [a] } := by
  refine ⟨hs.1, ?_⟩
  intro h hh p l hp
  simp only [List.mem_append, List.mem_singleton] at hh
  rcases hh with hh | hh
  · exact hs.2 h hh p l hp
  · subst hh
    rcases hp with hp | hp
    · exact absurd hp (ha p l).1
    · exact absurd hp (ha p l).2

theorem tidy_set (e : Env) (fl cl r st pid : ℕ) (s : St) (hs : Tidy e r s) :
    Tidy e r (setLogHandler e.par fl cl r st pid s) := by
  have hb : Tidy e r (if e.par.hasFile then { s with barriers := s.barriers + 1 } else s) := by
    split
    · exact hs
    · exact hs
  unfold setLogHandler
  apply tidy_emit
  simp only []
  split
  · next h0 => exact tidy_add e r _ (tidy_openTemp e r st pid fl (Or.inl h0) _ hb) _ (fun p l => ⟨by simp, by simp⟩)
  · have h1 : Tidy e r (if e.par.hasFile = true then openTemp
        ⟨none, ⟨true, st, if e.par.hasFile then some r else none, pid⟩⟩ fl
        (if e.par.hasFile then { s with barriers := s.barriers + 1 } else s)
        else (if e.par.hasFile then { s with barriers := s.barriers + 1 } else s)) := by
      by_cases h : e.par.hasFile = true
      · rw [if_pos h]
        exact tidy_openTemp e r st pid fl (Or.inr h) _ hb
      · rw [if_neg h]
        exact hb
    set s1 := (if e.par.hasFile = true then openTemp
        ⟨none, ⟨true, st, if e.par.hasFile then some r else none, pid⟩⟩ fl
        (if e.par.hasFile then { s with barriers := s.barriers + 1 } else s)
        else (if e.par.hasFile then { s with barriers := s.barriers + 1 } else s)) with hs1
    have h2 : Tidy e r (if e.par.hasConsole = true then { s1 with handlers := s1.handlers ++ [.console cl] } else s1) := by
      split
      · exact tidy_add e r _ h1 _ (fun p l => ⟨by simp, by simp⟩)
      · exact h1
    set s2 := (if e.par.hasConsole = true then { s1 with handlers := s1.handlers ++ [.console cl] } else s1) with hs2
    show Tidy e r (if s2.handlers = [] then { s2 with handlers := [.null] } else s2)
    split
    · refine ⟨h2.1, ?_⟩
      intro h hh p l hp
      simp only [List.mem_singleton] at hh
      subst hh
      rcases hp with hp | hp <;> cases hp
    · exact h2

theorem tidy_update (e : Env) (fl r : ℕ) (d : String) (s s' : St) (hs : Tidy e r s)
    (h : updateLocation e.par fl d s = .ok s') : Tidy e r s' := by
  match ht : tempPaths s.handlers with
  | [] =>
    simp only [updateLocation, ht, Except.ok.injEq] at h
    rw [← h]; exact hs
  | [(p, l)] =>
    simp only [updateLocation, ht, Except.ok.injEq] at h
    rw [← h]
    have hmem : (p, l) ∈ tempPaths s.handlers := by rw [ht]; exact List.mem_singleton.2 rfl
    have hp : Mine e r p := by
      rw [tempPaths, List.mem_filterMap] at hmem
      obtain ⟨a, ha, hb⟩ := hmem
      cases a with
      | tempFile p' l' =>
        simp only [Option.some.injEq, Prod.mk.injEq] at hb
        exact hs.2 _ ha p l (Or.inl (by rw [hb.1, hb.2]))
      | file p' l' => cases hb
      | console l' => cases hb
      | null => cases hb
    have hq : Mine e r ⟨some d, { p.name with temp := false }⟩ := ⟨hp.1, hp.2⟩
    simp only [relocated]
    apply tidy_emit
    have h1 := tidy_emit e r ⟨10, "Closing temporary logger and moving logfile"⟩ s hs
    set s1 := emit ⟨10, "Closing temporary logger and moving logfile"⟩ s with hs1
    refine ⟨fun q hq' => ?_, ?_⟩
    · by_cases hqe : q = ⟨some d, { p.name with temp := false }⟩
      · rw [hqe]; exact hq
      · by_cases hqp : q = p
        · rw [hqp]; exact hp
        · refine h1.1 q ?_
          have : setFile (setFile s1.disk p none) ⟨some d, { p.name with temp := false }⟩ (s1.disk p) q ≠ none := hq'
          simpa [setFile, hqe, hqp] using this
    · intro a ha p' l' hp'
      simp only [List.mem_append, List.mem_singleton] at ha
      rcases ha with ha | ha
      · exact h1.2 a (List.mem_of_mem_filter ha) p' l' hp'
      · subst ha
        rcases hp' with hp' | hp'
        · cases hp'
        · cases hp'; exact hq
  | a :: b :: c => simp only [updateLocation, ht] at h; cases h

/-- **C114, files of the ranks.**  No log file is written by two ranks, whatever the history of either. -/
theorem C114_files_distinct (e : Env) (r r' stamp stamp' pid pid' : ℕ) (hr : r ≠ r') (evs evs' : List Event) (s s' : St)
    (h : process e r stamp pid evs = .ok s) (h' : process e r' stamp' pid' evs' = .ok s') (p : Path) :
    s.disk p = none ∨ s'.disk p = none := by
  have key : ∀ (r stamp pid : ℕ) (evs : List Event) (s : St), process e r stamp pid evs = .ok s → Tidy e r s := by
    intro r stamp pid evs s h
    have hst : ∀ (fl cl : ℕ) (evs : List Event) (s s' : St), Tidy e r s → steps e fl cl r pid s evs = .ok s' →
        Tidy e r s' := by
      intro fl cl evs
      induction evs with
      | nil => intro s s' hs h; simp only [steps, Except.ok.injEq] at h; rw [← h]; exact hs
      | cons ev evs ih =>
        intro s s' hs h
        simp only [steps, bind, Except.bind] at h
        cases h1 : step e fl cl r pid s ev with
        | error err => rw [h1] at h; cases h
        | ok s1 =>
          rw [h1] at h
          refine ih s1 s' ?_ h
          cases ev with
          | log x => cases h1; exact tidy_emit e r _ _ hs
          | unhandled m => cases h1; exact tidy_emit e r _ _ hs
          | setHandler st => cases h1; exact tidy_set e fl cl r st pid s hs
          | relocate d => exact tidy_update e fl r d s s1 hs h1
    unfold process importGusto at h
    cases hl : loggerLevel e with
    | error err => simp [hl, bind, Except.bind] at h
    | ok lvl =>
      cases hf : e.file.resolve with
      | none => simp [hl, hf, bind, Except.bind] at h
      | some fl =>
        cases hc : e.console.resolve with
        | none => simp [hl, hf, hc, bind, Except.bind] at h
        | some cl =>
          simp only [hl, hf, hc, bind, Except.bind] at h
          refine hst fl cl evs _ s (tidy_set e fl cl r stamp pid _ ⟨?_, ?_⟩) h
          · intro p hp; exact absurd rfl hp
          · intro a ha; cases ha
  have t := key r stamp pid evs s h
  have t' := key r' stamp' pid' evs' s' h'
  by_contra hcon
  rw [not_or] at hcon
  obtain ⟨w, n⟩ := t.1 p hcon.1
  obtain ⟨w', n'⟩ := t'.1 p hcon.2
  cases hF : e.par.hasFile with
  | true =>
    rw [hF] at n n'
    rw [n] at n'
    simp at n'
    exact hr n'
  | false =>
    rcases w with w | w
    · rcases w' with w' | w'
      · exact hr (w.trans w'.symm)
      · rw [hF] at w'; cases w'
    · rw [hF] at w; cases w

example : ∃ s s', process demoEnv 2 7 100 [.log ⟨20, "a"⟩, .relocate "run"] = .ok s
    ∧ process demoEnv 5 8 100 [.log ⟨20, "a"⟩, .relocate "run"] = .ok s' := by
  have hp : Plain [.log ⟨20, "a"⟩, .relocate "run"] := by intro ev hev n h; subst h; simp at hev
  obtain ⟨s, hs, -⟩ := C114_records_partial demoEnv (by simp [Allowed, demoEnv]) (by simp [Allowed, demoEnv])
    (by simp [Allowed, demoEnv]) 2 7 100 _ hp
  obtain ⟨s', hs', -⟩ := C114_records_partial demoEnv (by simp [Allowed, demoEnv]) (by simp [Allowed, demoEnv])
    (by simp [Allowed, demoEnv]) 5 8 100 _ hp
  exact ⟨s, s', hs, hs'⟩

end Gusto.Props.LoggingProps
