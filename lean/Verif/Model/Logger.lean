/-
Logging.

Models include/maf/logging/Logger.h and src/common/maf/logging/Logger.cpp. The allowed levels are one atomic byte, so every access to it
is a step of its own (the check reads it relaxed; here it reads the latest value); a call that logs a message makes several steps, other threads' steps come between them. The pieces of a message are
what the stream makes of them (text). Not modelled: `init` while another thread writes (a data race on the functions), exceptions of the
functions.
-/
namespace Maf.Log

/-- Logger.h 14-20 -/
inductive Level where
  | info | warn | error | fatal | debug | verbose
deriving DecidableEq

/-- Logger.h 14-20: the runtime numbering -/
def bit : Level → BitVec 8
  | .info => 1
  | .warn => 2
  | .error => 4
  | .fatal => 8
  | .debug => 16
  | .verbose => 32

/-- Logger.h 21-26: `LOG_LEVEL_FROM_ERROR`, `FROM_WARN`, `FROM_INFO` -/
def fromError : BitVec 8 := bit .error ||| bit .fatal
def fromWarn : BitVec 8 := bit .warn ||| fromError
def fromInfo : BitVec 8 := bit .info ||| fromWarn

/-- Logger.h 118-124: the numbering for the preprocessor -/
def macroLevel : Level → Nat
  | .debug => 1
  | .info => 2
  | .warn => 4
  | .error => 8
  | .fatal => 16
  | .verbose => 32

/-- Logger.h 130-178: is the macro of this level compiled, with `MAF_MIN_ALLOWED_LOG_LEVEL = min`? -/
def compiled (min : Nat) : Level → Bool
  | .debug => true
  | l => decide (min ≤ macroLevel l)

/-- Logger.h 65-88 -/
def head : Level → String
  | .debug => "DEBUG   :    "
  | .info => "INFO    :    "
  | .warn => "WARN    :    "
  | .error => "ERROR   :    "
  | .fatal => "FATAL   :    "
  | .verbose => "VERBOSE :    "

/-- A call that logs: `log(level, …)`, `info(…)` and so on, `MAF_LOGGER_INFO(…)` and so on (with file and line). -/
inductive Call where
  | raw (mask : BitVec 8) (pieces : List String)
  | named (l : Level) (pieces : List String)
  | mac (l : Level) (pieces : List String) (place : List String)

/-- The level that is asked for. -/
def Call.mask : Call → BitVec 8
  | .raw m _ => m
  | .named l _ => bit l
  | .mac l _ _ => bit l

/-- How far a call is. -/
inductive Phase where
  /-- a macro before its first check -/
  | begun
  /-- a macro before it looks whether debug messages are allowed -/
  | entered
  /-- in `log`, before its check -/
  | inLog (pieces : List String)
  /-- in `log`, after its check -/
  | passed (text : String)
  | written
  | skipped
deriving DecidableEq

structure Job where
  call : Call
  phase : Phase

/-- Logger.cpp 10-14. Functions are numbers; 0 is the one that does nothing. -/
structure State where
  out : Nat
  err : Nat
  levels : BitVec 8
  jobs : List Job
  /-- what the functions were given: number of the call, function, text -/
  given : List (Nat × Nat × String)

def init0 : State := ⟨0, 0, 0, [], []⟩

/-- Logger.cpp 42-44 -/
def allowed (levels mask : BitVec 8) : Bool := levels &&& mask != 0

/-- Logger.cpp 23-35. `none`: an empty function. -/
def init (s : State) (levels : BitVec 8) (out err : Option Nat) : State :=
  { s with out := out.getD s.out, err := err.getD (out.getD s.out), levels := levels }

/-- Logger.cpp 46 -/
def enable (s : State) (m : BitVec 8) : State := { s with levels := s.levels &&& m }

/-- Logger.cpp 48 -/
def disable (s : State) (m : BitVec 8) : State := { s with levels := s.levels &&& ~~~m }

/-- Logger.cpp 38-40; 36 (`stopLogging`) is the same with `LOG_LEVEL_SILENCE` -/
def change (s : State) (m : BitVec 8) : State := { s with levels := m }

/-- Logger.cpp 50-62 -/
def sink (s : State) (mask : BitVec 8) : Nat :=
  if mask = bit .info || mask = bit .debug || mask = bit .verbose then s.out else s.err

/-- The first step of a call: a macro has its own check first. -/
def first : Call → Phase
  | .raw _ ps => .inLog ps
  | .named l ps => .inLog (head l :: ps)
  | .mac _ _ _ => .begun

/-- Logger.h 130-136: always with the place; 138-148: with the place if debug messages are allowed -/
def macroPieces (levels : BitVec 8) : Call → List String
  | .raw _ ps => ps
  | .named l ps => head l :: ps
  | .mac l ps pl => if l = .debug || allowed levels (bit .debug) then head l :: ps ++ pl else head l :: ps

/-- One step of a call (Logger.h 57-64, 130-148). -/
def advance (s : State) (i : Nat) (j : Job) : Option State :=
  match j.phase with
  | .begun => some { s with jobs := s.jobs.set i { j with phase := if allowed s.levels j.call.mask then .entered else .skipped } }
  | .entered => some { s with jobs := s.jobs.set i { j with phase := .inLog (macroPieces s.levels j.call) } }
  | .inLog ps => some { s with jobs := s.jobs.set i { j with phase := if allowed s.levels j.call.mask then .passed (String.join ps) else .skipped } }
  | .passed text => some { s with jobs := s.jobs.set i { j with phase := .written }, given := s.given ++ [(i, sink s j.call.mask, text)] }
  | .written => none
  | .skipped => none

inductive Act where
  | init (levels : BitVec 8) (out err : Option Nat)
  | stop
  | change (m : BitVec 8)
  | enable (m : BitVec 8)
  | disable (m : BitVec 8)
  | call (c : Call)
  /-- the next step of call `i` -/
  | go (i : Nat)

def step (s : State) : Act → Option State
  | .init l o e => some (init s l o e)
  | .stop => some (change s 0)
  | .change m => some (change s m)
  | .enable m => some (enable s m)
  | .disable m => some (disable s m)
  | .call c => some { s with jobs := s.jobs ++ [⟨c, first c⟩] }
  | .go i =>
    match s.jobs[i]? with
    | none => none
    | some j => advance s i j

def run (s : State) : List Act → Option State
  | [] => some s
  | a :: as => (step s a).bind fun s' => run s' as

/-- Logger.h 98-109: the rest of `str`, `last` is what is returned if there is no further slash -/
def pastLastSlash : List Char → List Char → List Char
  | [], last => last
  | c :: cs, last => if c = '/' then pastLastSlash cs cs else pastLastSlash cs last

/-- Logger.h 111-113 -/
def shortFileName (str : List Char) : List Char := pastLastSlash str str

end Maf.Log
