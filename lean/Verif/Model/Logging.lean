import Mathlib.Data.List.Basic
import Mathlib.Data.List.Forall2

set_option autoImplicit false

/-!
# Logging: `gusto/core/logging.py`

What importing gusto does with the environment, what reaches the console and the log file of a rank, and the move of
the temporary log file into the results directory.  Left out: the format of the records, handlers that a user attaches
to the root logger, and the time at which buffers are written.
-/

namespace Gusto.Logging

/-- The environment variables read by core/logging.py 71-73 and 84, and the one its documentation names instead of
`GUSTO_FILE_LOG_LEVEL` (core/logging.py 16-19); `none` means not set.  `GUSTO_PARALLEL_LOG` is given by its characters. -/
structure Env where
  logLevel : Option String
  fileLogLevel : Option String
  logfileLogLevel : Option String
  consoleLogLevel : Option String
  parallelLog : Option (List Char)

/-- The value of a level: the number `INFO` or a string of the environment (core/logging.py 71-73). -/
inductive Lev where
  | num (n : ℕ)
  | str (s : String)
  deriving DecidableEq

/-- The result of `logging.getLevelName` on a string: a number for a known name, and otherwise the string `Level <name>`
(Python's logging, called at core/logging.py 75-79). -/
def nameToLevel : String → Option ℕ
  | "CRITICAL" => some 50
  | "FATAL" => some 50
  | "ERROR" => some 40
  | "WARN" => some 30
  | "WARNING" => some 30
  | "INFO" => some 20
  | "DEBUG" => some 10
  | "NOTSET" => some 0
  | _ => none

/-- The entry of `log_levels` for a value, core/logging.py 75-79; `none` stands for the string `Level <name>`. -/
def Lev.resolve : Lev → Option ℕ
  | .num n => some n
  | .str s => nameToLevel s

/-- `os.environ.get(name, default)` (core/logging.py 71-73). -/
def envGet (v : Option String) (dflt : Lev) : Lev :=
  match v with
  | some s => .str s
  | none => dflt

/-- `log_level`, core/logging.py 71. -/
def Env.log (e : Env) : Lev := envGet e.logLevel (.num 20)
/-- `logfile_level`, core/logging.py 72. -/
def Env.file (e : Env) : Lev := envGet e.fileLogLevel e.log
/-- `logconsole_level`, core/logging.py 73. -/
def Env.console (e : Env) : Lev := envGet e.consoleLogLevel e.log

/-- The exceptions of core/logging.py 80 (`min` of a string and a number; an unknown level) and 210-213. -/
inductive Err where
  | typeError | valueError | loggingError
  deriving DecidableEq, Repr

/-- `logger.setLevel(min(log_levels))`, core/logging.py 74-80.  If all three are unknown names the minimum is a string,
which `setLevel` does not know; if some are, `min` compares a string with a number. -/
def loggerLevel (e : Env) : Except Err ℕ :=
  match e.log.resolve, e.file.resolve, e.console.resolve with
  | some a, some b, some c => .ok (min a (min b c))
  | none, none, none => .error .valueError
  | _, _, _ => .error .typeError

/-- The effective level: a logger with level 0 takes the level of the root logger, which is `WARNING` (Python's logging;
core/logging.py 53, 80). -/
def effective (lvl : ℕ) : ℕ := if lvl = 0 then 30 else lvl

/-- The accepted values of `GUSTO_PARALLEL_LOG`, core/logging.py 84-89. -/
inductive Par where
  | off | console | file | both
  deriving DecidableEq

/-- `parallel_log`, core/logging.py 84-89. -/
def Env.par (e : Env) : Par :=
  match e.parallelLog with
  | none => .off
  | some cs =>
    if cs.map Char.toUpper = "CONSOLE".toList then .console
    else if cs.map Char.toUpper = "FILE".toList then .file
    else if cs.map Char.toUpper = "BOTH".toList then .both
    else .off

/-- `parallel_log in ["FILE", "BOTH"]`, core/logging.py 128, 133, 153, 196. -/
def Par.hasFile : Par → Bool
  | .file => true
  | .both => true
  | _ => false
/-- `parallel_log in ["CONSOLE", "BOTH"]`, core/logging.py 139, 157. -/
def Par.hasConsole : Par → Bool
  | .console => true
  | .both => true
  | _ => false

/-- The name of a log file without its directory, core/logging.py 127-131, 189-192: whether it starts with `temp-`, the
time stamp, the rank if all ranks log to files, and the process number. -/
structure FName where
  temp : Bool
  stamp : ℕ
  rank : Option ℕ
  pid : ℕ
  deriving DecidableEq

/-- A path: directory and name (core/logging.py 136, 201).  The directory `results` is `none`, `results/<dirname>` is
`some dirname`. -/
structure Path where
  dir : Option String
  name : FName
  deriving DecidableEq

/-- The handlers, core/logging.py 92-119, 145-162, 203-205, with the level given to `setLevel`. -/
inductive Handler where
  | tempFile (p : Path) (lvl : ℕ)
  | file (p : Path) (lvl : ℕ)
  | console (lvl : ℕ)
  | null
  deriving DecidableEq

/-- A record: its level and its text. -/
structure Rec where
  lvl : ℕ
  msg : String
  deriving DecidableEq

/-- A rank: the level of the logger, its handlers, its part of the file system (the contents of a file, `none` if it does
not exist), what it has printed, and how many barriers it has entered (core/logging.py 121-213). -/
structure St where
  level : ℕ
  handlers : List Handler
  disk : Path → Option (List Rec)
  out : List Rec
  barriers : ℕ

/-- Write a file (core/logging.py 98, 201). -/
def setFile (d : Path → Option (List Rec)) (p : Path) (v : Option (List Rec)) : Path → Option (List Rec) :=
  fun q => if q = p then v else d q

/-- A handler emits a record if its level allows (Python's logging; the levels of core/logging.py 99, 116). -/
def emitTo (r : Rec) (s : St) : Handler → St
  | .tempFile p l => if l ≤ r.lvl then { s with disk := setFile s.disk p (some ((s.disk p).getD [] ++ [r])) } else s
  | .file p l => if l ≤ r.lvl then { s with disk := setFile s.disk p (some ((s.disk p).getD [] ++ [r])) } else s
  | .console l => if l ≤ r.lvl then { s with out := s.out ++ [r] } else s
  | .null => s

/-- `logger.log(level, message)`: the logger's level, then every handler (Python's logging; core/logging.py 53).
`logging.lastResort` is only used if there is no handler at all. -/
def emit (r : Rec) (s : St) : St :=
  if effective s.level ≤ r.lvl then
    (if s.handlers = [] then (if 30 ≤ r.lvl then { s with out := s.out ++ [r] } else s)
     else s.handlers.foldl (emitTo r) s)
  else s

/-- `create_logfile_handler(path)` with mode `w` creates an empty file (core/logging.py 92-104). -/
def openTemp (p : Path) (lvl : ℕ) (s : St) : St :=
  { s with disk := setFile s.disk p (some []), handlers := s.handlers ++ [.tempFile p lvl] }

/-- `set_log_handler` on rank `r`, core/logging.py 121-165, at the time `stamp` in the process `pid`; `fl`, `cl` are the
levels of file and console. -/
def setLogHandler (par : Par) (fl cl r stamp pid : ℕ) (s : St) : St :=
  let p : Path := ⟨none, ⟨true, stamp, if par.hasFile then some r else none, pid⟩⟩
  let s := if par.hasFile then { s with barriers := s.barriers + 1 } else s
  let s :=
    if r = 0 then
      let s := openTemp p fl s
      { s with handlers := s.handlers ++ [.console cl] }
    else
      let s := if par.hasFile then openTemp p fl s else s
      let s := if par.hasConsole then { s with handlers := s.handlers ++ [.console cl] } else s
      if s.handlers = [] then { s with handlers := [.null] } else s
  emit ⟨20, "Running"⟩ s

/-- The paths of the handlers with the name `gusto-temp-file-log` (core/logging.py 177-178, 184-185). -/
def tempPaths (hs : List Handler) : List (Path × ℕ) :=
  hs.filterMap fun h => match h with | .tempFile p l => some (p, l) | _ => none

/-- Remove the handlers with the name `gusto-temp-file-log` (core/logging.py 195). -/
def dropTemp (hs : List Handler) : List Handler :=
  hs.filter fun h => match h with | .tempFile _ _ => false | _ => true

/-- The body of `update_logfile_location` for one handler, core/logging.py 180-208; `fl` is `logfile_level`.  `shutil.move`
replaces a file of the new name, and the new handler appends. -/
def relocated (par : Par) (fl : ℕ) (dir : String) (p : Path) (s : St) : St :=
  let s := emit ⟨10, "Closing temporary logger and moving logfile"⟩ s
  let q : Path := ⟨some dir, { p.name with temp := false }⟩
  emit ⟨10, "Re-opening logger"⟩
    { level := s.level
      handlers := dropTemp s.handlers ++ [.file q fl]
      disk := setFile (setFile s.disk p none) q (s.disk p)
      out := s.out
      barriers := s.barriers + if par.hasFile then 1 else 0 }

/-- `update_logfile_location(new_path, comm)`, core/logging.py 168-213. -/
def updateLocation (par : Par) (fl : ℕ) (dir : String) (s : St) : Except Err St :=
  match tempPaths s.handlers with
  | [] => .ok s
  | [(p, _)] => .ok (relocated par fl dir p s)
  | _ => .error .loggingError

/-- The state of the process before gusto is imported: nothing attached to the logger (core/logging.py 53). -/
def fresh (lvl : ℕ) : St := ⟨lvl, [], fun _ => none, [], 0⟩

/-- `import gusto` on rank `r`: core/logging.py 71-89 and `gusto/__init__.py` 4. -/
def importGusto (e : Env) (r stamp pid : ℕ) : Except Err St := do
  let lvl ← loggerLevel e
  match e.file.resolve, e.console.resolve with
  | some fl, some cl => .ok (setLogHandler e.par fl cl r stamp pid (fresh lvl))
  | _, _ => .error .valueError

/-- What happens afterwards on a rank: a record is logged, a simulation moves the log into its results directory
(core/io.py 64, 425, 609), `set_log_handler` is called again by the user (core/logging.py 42-45 exports it), or an
exception is not handled (core/logging.py 57-68). -/
inductive Event where
  | log (r : Rec)
  | relocate (dir : String)
  | setHandler (stamp : ℕ)
  | unhandled (msg : String)

/-- The effect of an event on rank `r` of process `pid`. -/
def step (e : Env) (fl cl r pid : ℕ) (s : St) : Event → Except Err St
  | .log rec => .ok (emit rec s)
  | .relocate dir => updateLocation e.par fl dir s
  | .setHandler stamp => .ok (setLogHandler e.par fl cl r stamp pid s)
  | .unhandled m => .ok (emit ⟨40, m⟩ s)

/-- A history of events; an exception ends the process (core/logging.py 121-213). -/
def steps (e : Env) (fl cl r pid : ℕ) : St → List Event → Except Err St
  | s, [] => .ok s
  | s, ev :: evs => do
    let s' ← step e fl cl r pid s ev
    steps e fl cl r pid s' evs

/-- A process: import, then the events (`gusto/__init__.py` 1-4). -/
def process (e : Env) (r stamp pid : ℕ) (evs : List Event) : Except Err St := do
  let s ← importGusto e r stamp pid
  match e.file.resolve, e.console.resolve with
  | some fl, some cl => steps e fl cl r pid s evs
  | _, _ => .error .valueError

end Gusto.Logging
