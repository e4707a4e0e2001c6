/-
Model of callbacks for the status of a service.

Models /repo/include/maf/messaging/client-server/BasicProxy.h 212-224 (`onServiceStatusChanged`, `noexcept`),
/repo/include/maf/messaging/client-server/ServiceStatusObserverDelegater.h, ServiceRequester.cpp 120-147 (`registerServiceStatusObserver`,
`unregisterServiceStatusObserver`), 244-285 (`onServiceStatusChanged`, `forwardServiceStatusToObservers`), with the executors of
/repo/src/common/maf/messaging/Processor.cpp 38-63, 299-314 and /repo/src/common/maf/utils/DirectExecutor.cpp.

The requester's other work when a service is lost is in Model/Requester (C42), observers that are not callbacks in Model/Client, the executor that waits in
Model/Executor (C91), callbacks that call back into the library in C84. Allocation does not fail.
A processor that is let go is destroyed with its queue.
-/

namespace Maf.Watch

inductive Avail where
  | unknown | available | unavailable
deriving DecidableEq, Repr

/-- the executor of a proxy: the direct one, or the asynchronous or default one of a processor -/
inductive Exec where
  | direct
  | async (p : Nat)
  | dflt (p : Nat)
deriving DecidableEq, Repr

/-- callback `o` was given to a proxy with executor `exec o`; does it throw (a `std::exception`)? -/
structure Conf where
  exec : Nat → Exec
  throws : Nat → Bool

inductive Ev where
  /-- `onServiceStatusChanged(o)` has put the callback into the list, and seen status `a` -/
  | registered (o : Nat) (a : Avail)
  | unregistered (o : Nat)
  /-- the requester's status has changed -/
  | changed (x y : Avail)
  /-- the list, as it was then, is locked to tell this change; and unlocked -/
  | locked (x y : Avail) (l : List Nat)
  | unlocked
  /-- the change is given to the executor of `o` -/
  | told (o : Nat) (x y : Avail)
  /-- the executor has refused, and the callback is taken from the list -/
  | removed (o : Nat)
  /-- a registration gives the current status to the executor -/
  | greeted (o : Nat)
  /-- the callback is called by a thread whose processor is `on` -/
  | called (o : Nat) (x y : Avail) (on : Option Nat)
  /-- an exception left the loop that runs processor `p` -/
  | left (p : Nat)
  | stopped (p : Nat)
  | reused (p : Nat)
  | gone (p : Nat)
  | terminated
deriving DecidableEq, Repr

structure Task where
  obs : Nat
  old : Avail
  new : Avail
deriving DecidableEq, Repr

/-- the list is locked by a thread of processor `on`, which has to tell `todo` -/
structure Walk where
  old : Avail
  new : Avail
  on : Option Nat
  todo : List Nat
deriving DecidableEq, Repr

structure State where
  status : Avail
  /-- `serviceStatusObservers_` -/
  listed : List Nat
  walk : Option Walk
  /-- changes not yet told -/
  waiting : List (Avail × Avail)
  /-- registrations that have still to greet -/
  greets : List Nat
  alive : Nat → Bool
  closed : Nat → Bool
  queue : Nat → List Task
  dead : Bool
  log : List Ev

def init : State := ⟨.unknown, [], none, [], [], fun _ => true, fun _ => false, fun _ => [], false, []⟩

def upd {α : Type} (f : Nat → α) (i : Nat) (a : α) : Nat → α := fun j => if j = i then a else f j

def State.note (s : State) (es : List Ev) : State := { s with log := s.log ++ es }

/-- What giving a callback to its executor came to. -/
inductive Out where
  /-- refused: the processor is gone -/
  | refused
  /-- dropped, although the executor says yes: the processor is stopped -/
  | dropped
  | queued
  /-- run at once and returned -/
  | ran
  /-- run at once and threw; the direct executor catches it, and says no -/
  | caught
  /-- run at once and threw; the default executor's `execute` is `noexcept` -/
  | killed
deriving DecidableEq, Repr

/-- Processor.cpp 42-48 and 299-301 -/
def onAsync (s : State) (p : Nat) : Out := if s.alive p then (if s.closed p then .dropped else .queued) else .refused

/-- Processor.cpp 56-62 and 303-314 -/
def onDflt (c : Conf) (s : State) (p : Nat) (on : Option Nat) (o : Nat) : Out :=
  if s.alive p then
    (if s.closed p then .dropped else if on = some p then (if c.throws o then .killed else .ran) else .queued)
  else .refused

/-- `executor_->execute(...)` -/
def outcome (c : Conf) (s : State) (on : Option Nat) (o : Nat) : Out :=
  match c.exec o with
  | .direct => if c.throws o then .caught else .ran
  | .async p => onAsync s p
  | .dflt p => onDflt c s p on o

/-- what `execute` returns (nothing, if it does not return) -/
def Out.says : Out → Bool
  | .refused | .caught => false
  | _ => true

def proc (c : Conf) (o : Nat) : Nat :=
  match c.exec o with
  | .direct => 0
  | .async p => p
  | .dflt p => p

/-- the effect of `execute` -/
def hand (c : Conf) (s : State) (on : Option Nat) (o : Nat) (x y : Avail) : State :=
  match outcome c s on o with
  | .refused => s
  | .dropped => s
  | .queued => { s with queue := upd s.queue (proc c o) (s.queue (proc c o) ++ [⟨o, x, y⟩]) }
  | .ran => s.note [.called o x y on]
  | .caught => s.note [.called o x y on]
  | .killed => { s.note [.called o x y on, .terminated] with dead := true }

inductive Act where
  /-- `proxy->onServiceStatusChanged(callback)`: the part in the critical section (ServiceRequester.cpp 125-132) -/
  | register (o : Nat)
  /-- ... and the part after it (134-140), on a thread of processor `on` -/
  | greet (o : Nat) (on : Option Nat)
  | unregister (o : Nat)
  /-- 244-254: a change reaches the requester -/
  | change (x y : Avail)
  /-- 262: the i-th change that waits locks the list -/
  | lock (i : Nat) (on : Option Nat)
  /-- one round of the loop 263-284, or its end -/
  | tell
  /-- a thread of processor `p` runs the next task -/
  | run (p : Nat)
  | stop (p : Nat)
  | reuse (p : Nat)
  | drop (p : Nat)
deriving DecidableEq, Repr

/-- an observer is new -/
def used (o : Nat) : List Ev → Bool
  | [] => false
  | .registered o' _ :: l => o' == o || used o l
  | _ :: l => used o l

def State.greeting (s : State) (o : Nat) : List Nat := if s.status = .available then s.greets ++ [o] else s.greets

def register (s : State) (o : Nat) : Option State :=
  if s.walk = none ∧ used o s.log = false then
    some { s.note [.registered o s.status] with listed := s.listed ++ [o], greets := s.greeting o }
  else none

/-- A refusal becomes an `UnavailableException`, which leaves `onServiceStatusChanged`, which is `noexcept`. -/
def afterGreet (s : State) (out : Out) : State :=
  match out with
  | .refused => { s.note [.terminated] with dead := true }
  | .caught => { s.note [.terminated] with dead := true }
  | _ => s

def greet (c : Conf) (s : State) (o : Nat) (on : Option Nat) : Option State :=
  if o ∈ s.greets then
    some (afterGreet (hand c { s.note [.greeted o] with greets := s.greets.erase o } on o .unknown .available) (outcome c s on o))
  else none

def change (s : State) (x y : Avail) : State :=
  if y = s.status then s
  else { s.note [.changed x y] with status := y, waiting := s.waiting ++ [(x, y)] }

def lock (s : State) (i : Nat) (on : Option Nat) : Option State :=
  match s.walk, s.waiting[i]? with
  | none, some (x, y) =>
    some { s.note [.locked x y s.listed] with walk := some ⟨x, y, on, s.listed⟩, waiting := s.waiting.eraseIdx i }
  | _, _ => none

/-- An observer that throws `UnavailableException` is erased. -/
def afterTell (s : State) (w : Walk) (o : Nat) (rest : List Nat) (says : Bool) : State :=
  { s.note (if says then [] else [.removed o]) with
    walk := some { w with todo := rest }
    listed := if says then s.listed else s.listed.erase o }

def tell (c : Conf) (s : State) : Option State :=
  match s.walk with
  | none => none
  | some w =>
    match w.todo with
    | [] => some { s.note [.unlocked] with walk := none }
    | o :: rest => some (afterTell (hand c (s.note [.told o w.old w.new]) w.on o w.old w.new) w o rest (outcome c s w.on o).says)

/-- Processor.cpp 208-210: unguarded -/
def run (c : Conf) (s : State) (p : Nat) : Option State :=
  if s.closed p then none
  else
    match s.queue p with
    | [] => none
    | t :: rest =>
      some { s.note (.called t.obs t.old t.new (some p) :: (if c.throws t.obs then [.left p] else [])) with queue := upd s.queue p rest }

def live (c : Conf) (s : State) : Act → Option State
  | .register o => register s o
  | .greet o on => greet c s o on
  | .unregister o => if s.walk = none then some { s.note [.unregistered o] with listed := s.listed.erase o } else none
  | .change x y => some (change s x y)
  | .lock i on => lock s i on
  | .tell => tell c s
  | .run p => Watch.run c s p
  | .stop p => some { s.note [.stopped p] with closed := upd s.closed p true, queue := upd s.queue p [] }
  | .reuse p => some { s.note [.reused p] with closed := upd s.closed p false }
  | .drop p => some { s.note [.gone p] with alive := upd s.alive p false, queue := upd s.queue p [] }

/-- One step; none once the program has ended. -/
def step (c : Conf) (s : State) (a : Act) : Option State := if s.dead then none else live c s a

def runs (c : Conf) (s : State) : List Act → Option State
  | [] => some s
  | a :: as => (step c s a).bind fun t => runs c t as

end Maf.Watch
