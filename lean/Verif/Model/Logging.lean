import Verif.Model.Py
import Mathlib.Logic.Function.Basic

/-!
# Logging: utils/logging.py, and `setup_logging` of utils/debugging.py

Python's `logging` module is modelled as a tree of loggers.  A logger is named by the components of
its dotted name in reverse order, so that the tails of a name are its ancestors and `[]` is the root.
Simplifications: message texts, formatters and file rotation are left out, file system errors and
`logging.disable` are not modelled, nor are level names that are no levels (`BASIC_FORMAT`) and the name
`root`, which is another name of the root logger; nobody else changes loggers.
-/

namespace Valori

abbrev LogName := List String

/-- Where a handler writes; `lastResort` is Python's handler for messages nobody handles. -/
inductive LogOut where
  | stdout
  | stderr
  | file (path : String)
  | lastResort
deriving DecidableEq

/-- A handler with its level. -/
structure LogHandler where
  out : LogOut
  level : Nat
deriving DecidableEq

/-- A logger; level 0 is `NOTSET`. -/
structure Logger where
  level : Nat
  handlers : List LogHandler
deriving DecidableEq

abbrev Loggers := LogName → Logger

/-- A fresh interpreter: the root logger has level WARNING, and there is no handler. -/
def freshLoggers : Loggers := fun n => if n = [] then ⟨30, []⟩ else ⟨0, []⟩

/-- `logger.getEffectiveLevel()` of Python: the first level that is set on the way to the root. -/
def effLevel (s : Loggers) (n : LogName) : Nat :=
  ((n.tails.map fun a => (s a).level).find? (· ≠ 0)).getD 0

/-- The handlers that write a message of a given level, `Logger.log` of Python: those of the logger
and its ancestors whose level is not higher. -/
def logEmits (s : Loggers) (n : LogName) (level : Nat) : List LogHandler :=
  if level < effLevel s n then []
  else
    let hs := n.tails.flatMap fun a => (s a).handlers
    if hs = [] then (if 30 ≤ level then [⟨.lastResort, 30⟩] else [])
    else hs.filter fun h => h.level ≤ level

/-- `get_logger`, logging.py:11-45.  `attr` is `getattr(logging, level.upper())`, `none` for unknown
names. -/
def getLogger (attr : String → Option Nat) (n : LogName) (level : String) (s : Loggers) : Loggers :=
  if (s n).handlers ≠ [] then s
  else
    let numeric := (attr level).getD 20
    Function.update s n ⟨numeric, [⟨.stdout, numeric⟩]⟩

/-- The configuration of `setup_logging` after merging the defaults, logging.py:58-69. -/
structure LogSetup where
  level : String := "INFO"
  toFile : Bool := false
  file : String := "valori.log"

/-- `setup_logging`, logging.py:48-107. -/
def setupLogging (attr : String → Option Nat) (c : LogSetup) (s : Loggers) : Loggers :=
  let level := (attr c.level).getD 20
  let hs := [⟨.stdout, level⟩] ++ (if c.toFile then [⟨.file c.file, level⟩] else [])
  Function.update s [] ⟨level, hs⟩

/-- `setup_logging`, debugging.py:401-425; an unknown level is an `AttributeError`.  Handlers made
without a level have level 0. -/
def debugSetup (attr : String → Option Nat) (level : String) (file : Option String) (s : Loggers) :
    Res Loggers Unit :=
  match attr level with
  | none => (.error .attribute, s)
  | some l =>
    let hs := [⟨.stderr, 0⟩] ++ (match file with | some f => if f = "" then [] else [⟨.file f, 0⟩] | none => [])
    (.ok (), Function.update s ["valori"] ⟨l, (s ["valori"]).handlers ++ hs⟩)

/-- The helpers `log_performance`, `log_memory_usage`, `log_vector_operation`, `log_index_stats`,
`log_search_query`, `log_error`, `log_warning`, `log_info` and `log_debug`, logging.py:110-271: each
takes the logger `valori.<topic>` and logs one message of a fixed level.  Returns the handlers that
write it. -/
def logVia (attr : String → Option Nat) (topic : String) (level : Nat) (s : Loggers) :
    List LogHandler × Loggers :=
  let s' := getLogger attr [topic, "valori"] "INFO" s
  (logEmits s' [topic, "valori"] level, s')

/-- The levels of the helpers, logging.py:129-271. -/
def helperLevel : List (String × Nat) :=
  [("performance", 20), ("memory", 20), ("operations", 20), ("index", 20), ("search", 20),
   ("error", 40), ("warning", 30), ("info", 20), ("debug", 10)]

/-- Calls (harness). -/
inductive LogCall where
  | get (n : LogName) (level : String)
  | setup (c : LogSetup)
  | debug (level : String) (file : Option String)
  | log (topic : String) (level : Nat)

/-- The effect of a call (harness). -/
def logStep (attr : String → Option Nat) (s : Loggers) : LogCall → Loggers
  | .get n l => getLogger attr n l s
  | .setup c => setupLogging attr c s
  | .debug l f => (debugSetup attr l f s).2
  | .log t l => (logVia attr t l s).2

/-- The loggers after a history (harness). -/
def logAfter (attr : String → Option Nat) (h : List LogCall) : Loggers :=
  h.foldl (logStep attr) freshLoggers

end Valori
