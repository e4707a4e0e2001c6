/-
`ServiceStatusSignal`: wait for a service to become available.

Models include/maf/messaging/client-server/ServiceStatusSignal.h 11-80 for any number of threads. Every member
function holds the mutex `m_` from its first line to its last, except while it sleeps in the condition variable; what
happens under the mutex is one step. The condition variable is modelled by its specification: going to sleep and
releasing the mutex is atomic; `notify_all` wakes all sleepers; spurious wake-ups at any time; a timed wait may time
out at any time after its interval. Time: milliseconds, as natural numbers; the clock never goes back.
Not modelled: intervals so long that their end cannot be represented.
-/
namespace Maf.Await

/-- CSStatus.h `Availability` -/
inductive Avail where
  | unknown | unavailable | available
deriving DecidableEq

/-- ServiceStatusSignal.h 15 `WaitStatus::Status` -/
inductive WaitStatus where
  | ready | timeOut | interrupted
deriving DecidableEq

/-- Where a `waitIfNot` is. -/
inductive Pc where
  /-- not called -/
  | none
  /-- about to take the mutex (and look): at line 26 or 42, or woken by line 61, 69 or spuriously -/
  | looking
  /-- in the condition variable, line 27 or 43 -/
  | asleep
  /-- its interval has passed (line 43); it looks a last time -/
  | expired
  | done
deriving DecidableEq

/-- A `waitIfNot`: what it waits for; until when (`none`: the overload without interval, lines 25-34). -/
structure Wait where
  expected : Avail
  until_ : Option Nat
deriving DecidableEq

/-- What can be observed. -/
inductive Ev where
  /-- wait `n` begins at time `t` -/
  | waits (n : Nat) (w : Avail) (interval : Option Nat) (t : Nat)
  /-- wait `n` returns at time `t` -/
  | returned (n : Nat) (r : WaitStatus) (t : Nat)
  /-- `onServiceStatusChanged` with this new status -/
  | told (a : Avail)
  /-- `stop` -/
  | stopped
  /-- `currentStatus` returns this -/
  | asked (a : Avail)
deriving DecidableEq

structure State where
  /-- line 78 `currentStatus_` -/
  current : Avail
  /-- line 79 `stopped_` -/
  stopped : Bool
  now : Nat
  next : Nat
  wait : Nat → Wait
  pc : Nat → Pc
  log : List Ev

/-- lines 78, 79 -/
def init : State := ⟨.unavailable, false, 0, 0, fun _ => ⟨.unknown, none⟩, fun _ => .none, []⟩

def upd {β : Type} (f : Nat → β) (i : Nat) (v : β) : Nat → β := fun j => if j = i then v else f j

/-- lines 28, 44: what is waited for -/
def pred (s : State) (w : Wait) : Bool := w.expected == s.current || s.stopped

/-- lines 30-33, 46-50: the result when the predicate holds -/
def found (s : State) : WaitStatus := if !s.stopped then .ready else .interrupted

/-- lines 61, 69: `notify_all` -/
def wakeAll (pc : Nat → Pc) : Nat → Pc := fun n => if pc n = .asleep then .looking else pc n

def finish (s : State) (n : Nat) (r : WaitStatus) : State :=
  { s with pc := upd s.pc n .done, log := s.log ++ [.returned n r s.now] }

inductive Act where
  /-- `waitIfNot(expected)` or, with an interval, `waitIfNot(expected, interval)` (lines 25, 36, 41) is called -/
  | wait (expected : Avail) (interval : Option Nat)
  /-- a wait takes the mutex and evaluates the predicate -/
  | look (n : Nat)
  /-- a spurious wake-up -/
  | spurious (n : Nat)
  /-- the interval of a timed wait has passed -/
  | expire (n : Nat)
  /-- `onServiceStatusChanged` (lines 64-70) -/
  | tell (a : Avail)
  /-- `stop` (lines 58-62) -/
  | stop
  /-- `currentStatus` (lines 72-75) -/
  | ask
  /-- time passes -/
  | tick

def step (s : State) : Act → Option State
  | .wait e i => some { s with
      next := s.next + 1, wait := upd s.wait s.next ⟨e, i.map fun d => s.now + d⟩, pc := upd s.pc s.next .looking
      log := s.log ++ [.waits s.next e i s.now] }
  | .look n =>
    if s.pc n = .looking then
      if pred s (s.wait n) then some (finish s n (found s)) else some { s with pc := upd s.pc n .asleep }
    else if s.pc n = .expired then
      if pred s (s.wait n) then some (finish s n (found s)) else some (finish s n .timeOut)
    else none
  | .spurious n => if s.pc n = .asleep then some { s with pc := upd s.pc n .looking } else none
  | .expire n =>
    if s.pc n = .asleep ∧ (s.wait n).until_.any (fun t => t ≤ s.now) then some { s with pc := upd s.pc n .expired } else none
  | .tell a => some { s with current := a, pc := wakeAll s.pc, log := s.log ++ [.told a] }
  | .stop => some { s with stopped := true, pc := wakeAll s.pc, log := s.log ++ [.stopped] }
  | .ask => some { s with log := s.log ++ [.asked s.current] }
  | .tick => some { s with now := s.now + 1 }

def run (s : State) : List Act → Option State
  | [] => some s
  | a :: as => (step s a).bind fun s' => run s' as

end Maf.Await
