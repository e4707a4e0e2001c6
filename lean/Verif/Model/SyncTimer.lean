/-
`SyncTimer`: a timer whose `start` blocks the caller.

Models src/common/maf/messaging/SyncTimer.cpp (all of it but construction and destruction) for any number of threads
that use one timer. What happens under the mutex, between two moments when it is free, is one step; `running()`
(line 79) reads without the mutex and is a step of its own. The mutex is recursive: callbacks are called while it is
held, and may use the timer, even `start` it. The condition variable is modelled by its specification: going to sleep
and releasing the mutex is atomic, `notify_one` wakes one sleeper if there is one (any), spurious wake-ups at any
time, a timed wait times out at any time after its end. A wait of a `start` that was called from a callback releases
only its own level of the mutex: the mutex stays with the thread. Time: milliseconds, natural numbers.
Simplified: an executor (line 51) is any function that is given the callback and returns; a callback that throws is not modelled.
-/
namespace Maf.SyncT

/-- Where a `start` is. -/
inductive Pc where
  | none
  /-- line 34, about to read `running()` -/
  | check
  /-- line 36, about to `stop()` -/
  | stopping
  /-- line 39, about to take the mutex -/
  | enter
  /-- line 43, in the condition variable -/
  | asleep
  /-- notified, or spuriously woken -/
  | woken
  /-- the interval has passed -/
  | expired
  /-- lines 45-49: in the callback, or in the executor -/
  | calling
  | gone
deriving DecidableEq

/-- A `start`. -/
structure Frame where
  /-- the calling thread -/
  thr : Nat
  /-- the interval -/
  d : Nat
  /-- an executor was given -/
  exec : Bool
  /-- called from a callback of this timer -/
  nested : Bool
  /-- `callback` has not been moved from (line 46) -/
  cb : Bool
  pc : Pc
  /-- when the current wait ends -/
  deadline : Nat
deriving DecidableEq

/-- What can be observed. -/
inductive Ev where
  /-- `start` number `f` is called by thread `th`, with interval `d`, at time `t` -/
  | begun (f th d t : Nat)
  /-- it sets `running` -/
  | entered (f : Nat)
  /-- it calls the callback, or gives it to the executor, at time `t`; `cb = false`: an empty function -/
  | fired (f t : Nat) (cb : Bool)
  /-- the callback, or the executor, returns -/
  | calledBack (f : Nat)
  | returned (f t : Nat)
  /-- a `stop` by thread `th`, or the stop of its `start` that has found the timer running -/
  | stopped (th : Nat)
  | cyclicSet (b : Bool)
  | restarted
deriving DecidableEq

structure State where
  /-- `d_->running` -/
  running : Bool
  /-- `d_->cyclic` -/
  cyclic : Bool
  /-- who has the mutex -/
  owner : Option Nat
  now : Nat
  next : Nat
  frame : Nat → Frame
  /-- the `start`s a thread is in, the latest first -/
  stack : Nat → List Nat
  log : List Ev

/-- line 21: `SyncTimer(cyclic)` -/
def init (cyclic : Bool) : State := ⟨false, cyclic, none, 0, 0, fun _ => ⟨0, 0, false, false, false, .none, 0⟩, fun _ => [], []⟩

def upd {β : Type} (f : Nat → β) (i : Nat) (v : β) : Nat → β := fun j => if j = i then v else f j

/-- The `start` that thread `t` is executing. -/
def State.top (s : State) (t : Nat) : Option Nat := (s.stack t).head?

/-- Thread `t` is in user code: in no `start`, or in a callback. -/
def State.free (s : State) (t : Nat) : Bool := match s.top t with
  | none => true
  | some f => (s.frame f).pc == .calling

/-- Thread `t` can take the mutex. -/
def State.mutex (s : State) (t : Nat) : Bool := s.owner == none || s.owner == some t

def State.setPc (s : State) (f : Nat) (p : Pc) : State := { s with frame := upd s.frame f { s.frame f with pc := p } }

/-- The mutex after `f` of thread `t` gives up its level. -/
def State.release (s : State) (t f : Nat) : Option Nat := if (s.frame f).nested then some t else none

/-- line 43: `wait_for` begins; the predicate is false -/
def State.sleep (s : State) (t f : Nat) : State :=
  { s with frame := upd s.frame f { s.frame f with pc := .asleep, deadline := s.now + (s.frame f).d }, owner := s.release t f }

/-- lines 55-62: `start` returns -/
def State.leave (s : State) (t f : Nat) : State :=
  { s with
    running := false, frame := upd s.frame f { s.frame f with pc := .gone }, stack := upd s.stack t (s.stack t).tail
    owner := s.release t f, log := s.log ++ [.returned f s.now] }

/-- `notify_one`: `w` names the one that is woken; `none` if nobody sleeps. -/
def State.notify (s : State) (w : Option Nat) : Option State := match w with
  | none => if (List.range s.next).any (fun f => (s.frame f).pc == .asleep) then none else some s
  | some f => if (s.frame f).pc = .asleep then some (s.setPc f .woken) else none

def State.note (s : State) (e : Ev) : State := { s with log := s.log ++ [e] }

/-- lines 68-74: `stop`, under the mutex -/
def State.stopNow (s : State) (t : Nat) (w : Option Nat) : Option State :=
  if s.running then ({ s with running := false }.note (.stopped t)).notify w else some (s.note (.stopped t))

/-- lines 45-49: the time is over -/
def State.fire (s : State) (t f : Nat) : State :=
  { s with
    frame := upd s.frame f { s.frame f with pc := .calling, cb := (s.frame f).cb && (!(s.frame f).exec || s.cyclic) }
    owner := some t, log := s.log ++ [.fired f s.now (s.frame f).cb] }

inductive Act where
  /-- thread `t` calls `start` (lines 27-65) with a callback; without one, nothing happens (31) -/
  | start (t d : Nat) (exec : Bool)
  /-- its next step; `w`: who is woken if it notifies -/
  | go (t : Nat) (w : Option Nat)
  /-- the callback, or the executor, of thread `t` returns -/
  | ret (t : Nat)
  | spurious (f : Nat)
  | expire (f : Nat)
  | stop (t : Nat) (w : Option Nat)
  /-- line 66 -/
  | restart (t : Nat) (w : Option Nat)
  /-- lines 81-84 -/
  | setCyclic (t : Nat) (b : Bool)
  | tick

/-- A step of the `start` that thread `t` is in. -/
def stepGo (s : State) (t : Nat) (w : Option Nat) (f : Nat) : Option State := match (s.frame f).pc with
  | .check => some (s.setPc f (if s.running then .stopping else .enter))
  | .stopping => if s.mutex t then (s.setPc f .enter).stopNow t w else none
  | .enter => if s.mutex t then some (({ s with running := true }.note (.entered f)).sleep t f) else none
  | .woken =>
    if s.mutex t then
      if s.running then some { s with frame := upd s.frame f { s.frame f with pc := .asleep } }
      else some (s.leave t f)
    else none
  | .expired =>
    if s.mutex t then
      if s.running then some (s.fire t f)
      else some (s.leave t f)
    else none
  | _ => none

/-- lines 55-61, after the callback -/
def stepRet (s : State) (t f : Nat) : Option State :=
  if (s.frame f).pc = .calling then
    if s.running && s.cyclic then some ((s.note (.calledBack f)).sleep t f) else some ((s.note (.calledBack f)).leave t f)
  else none

def step (s : State) : Act → Option State
  | .start t d exec =>
    if s.free t then some { s with
      frame := upd s.frame s.next ⟨t, d, exec, !(s.stack t).isEmpty, true, .check, 0⟩, stack := upd s.stack t (s.next :: s.stack t)
      next := s.next + 1, log := s.log ++ [.begun s.next t d s.now] }
    else none
  | .go t w => (s.top t).bind (stepGo s t w)
  | .ret t => (s.top t).bind (stepRet s t)
  | .spurious f => if (s.frame f).pc = .asleep then some (s.setPc f .woken) else none
  | .expire f => if (s.frame f).pc = .asleep ∧ (s.frame f).deadline ≤ s.now then some (s.setPc f .expired) else none
  | .stop t w => if s.free t && s.mutex t then s.stopNow t w else none
  | .restart t w => if s.free t then (s.note .restarted).notify w else none
  | .setCyclic t b => if s.free t && s.mutex t then some { s with cyclic := b, log := s.log ++ [.cyclicSet b] } else none
  | .tick => some { s with now := s.now + 1 }

def run (s : State) : List Act → Option State
  | [] => some s
  | a :: as => (step s a).bind fun s' => run s' as

end Maf.SyncT
