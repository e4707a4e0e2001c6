import Verif.Model.Timer
/-
Timers on several threads.

Models src/common/maf/messaging/Timer.cpp as Model/Timer.lean does, for any number of processors: `mgr()` (90-93) is thread-local, so each thread has its own
`records_` and `state_`, while the data of a timer (30-56, behind a shared pointer) are the same for all: a call on a `Timer` works on the data and on
the manager of the thread that makes the call (95-99, 129-131, 103: `~Timer` calls `stop`). Every step of Model/Timer.lean, on any thread, is a step here;
`start(…, comp)` (119-125) and `stop(comp)` (133-136) are jobs whose user code makes the call on the thread of `comp`. There are also
threads without a processor: `stop` there (104, 131, 212-220) finds no record in the manager of its own thread.

Simplified: calls are atomic towards other threads. The accesses to the data of a timer are not synchronized in the code, so calls on one timer from two threads
at the same time are data races, with undefined behaviour; here they happen in some order, one by one.
-/
namespace Maf.Xtm
open Maf.Tmr (Tm Data Op upd)

abbrev Tid := Nat

structure State where
  now : Nat
  data : Tm → Data
  /-- per thread; the fields `now` and `data` in here are not used -/
  proc : Tid → Tmr.State
  /-- undefined behaviour on some thread -/
  ub : Bool

def init : State := { now := 0, data := fun _ => {}, proc := fun _ => Tmr.init, ub := false }

/-- What thread `p` works with: its own manager, processor and stack, and the common data. -/
def view (s : State) (p : Tid) : Tmr.State := { s.proc p with now := s.now, data := s.data }

def put (s : State) (p : Tid) (v : Tmr.State) : State := { now := v.now, data := v.data, proc := upd s.proc p v, ub := v.ub }

inductive Act where
  | tick (t : Nat)
  | on (p : Tid) (a : Tmr.Act)
  /-- `stop` or `~Timer` on a thread without a processor -/
  | outside (i : Tm)
deriving DecidableEq

def isTick : Tmr.Act → Bool
  | .tick _ => true
  | _ => false

def step (s : State) (a : Act) : Option State :=
  if s.ub then none else
  match a with
  | .tick t => some { s with now := t }
  | .on p a => if isTick a then none else (Tmr.step (view s p) a).map (put s p)
  -- 212-220 with empty `records_`
  | .outside i => some { s with data := upd s.data i { s.data i with running := false } }

def run (s : State) : List Act → Option State
  | [] => some s
  | a :: as => (step s a).bind fun s' => run s' as

end Maf.Xtm
