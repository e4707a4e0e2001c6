import Verif.Model.Processor
/-
A processor with a thread of its own.

Models include/maf/messaging/ProcessorEx.h 43-100 (`AsyncProcessor`: `launch`, `stopAndWait`, `running`, `wait`; the
destructor is `stopAndWait`), on top of Model/Processor: the thread made by `std::async` calls `run`, everybody else uses
the processor as before (through `instance()` or `->`). `stopSignal_` is valid from `launch` until `get` has returned; it
becomes ready when `run` returns. The threads made by `launch` are 1, 3, 5, ...; all others are even. As the class has no
lock, one call on it happens at a time (by any thread; calls of `run` and `stop` of the processor itself are not
restricted). Not modelled: a null instance, exceptions out of `run`, `threadInit` and `threadDeinit`, moving.
-/
namespace Maf.Async

open Maf.Proc (Tid)

/-- the thread of launch `k` -/
def thr (k : Nat) : Nat := 2 * k + 1

/-- What can be observed. -/
inductive Ev where
  /-- something that happens to the processor -/
  | proc (e : Proc.Ev)
  /-- `launch` makes thread `k` -/
  | launched (k : Nat)
  /-- `launch` does nothing -/
  | ignored
  /-- `run` of thread `k` returns, the thread is over -/
  | ended (k : Nat)
  /-- `stopAndWait` finds that the processor was launched -/
  | stopCalled (t : Tid)
  /-- `wait` finds that the processor was launched -/
  | waitCalled (t : Tid)
  /-- `get` of the signal of launch `k` returns -/
  | joined (k : Nat)
  /-- `stopAndWait` or `wait` returns -/
  | returned (t : Tid) (timedOut : Bool)
  /-- `running` returns -/
  | running (b : Bool)
deriving DecidableEq

/-- Where a call of `stopAndWait` or `wait` is. -/
inductive Stage where
  /-- line 75: about to call `stop` -/
  | calling (timed : Bool)
  /-- line 75: in `stop` -/
  | stopping (timed : Bool)
  /-- lines 85-92 -/
  | waiting (timed : Bool)
deriving DecidableEq

structure State where
  p : Proc.State
  /-- `stopSignal_`, if valid: of which launch -/
  fut : Option Nat
  /-- number of launches -/
  n : Nat
  /-- the thread has called `run` -/
  begun : Nat → Bool
  call : Option (Tid × Stage)
  log : List Ev

def init : State := ⟨Proc.init, none, 0, fun _ => false, none, []⟩

/-- `run` has returned: the signal is ready -/
def ready (s : State) (k : Nat) : Bool := s.begun k && (s.p.stk (thr k)).isEmpty

/-- The processor has made a step. -/
def moved (s : State) (p : Proc.State) : State := { s with p := p, log := s.log ++ (p.log.drop s.p.log.length).map .proc }

/-- The thread of a launch is over when `run` returns. -/
def moveThread (s : State) (p : Proc.State) (k : Nat) : State :=
  if (p.stk (thr k)).isEmpty then { moved s p with log := (moved s p).log ++ [.ended k] } else moved s p

/-- Who is in a call of `stopAndWait` can only go on in there. -/
def mayMove (s : State) (a : Proc.Act) : Bool :=
  match s.call with
  | none => true
  | some (t, .stopping _) => a.tid != t || a == .doClose t || a == .doClear t
  | some (t, .waiting _) | some (t, .calling _) => a.tid != t

inductive Act where
  /-- a thread (not one made by `launch`) makes a step on the processor -/
  | other (t : Nat) (a : Proc.Act)
  /-- the thread of launch `k` makes a step inside `run` -/
  | thread (k : Nat) (a : Proc.Act)
  /-- the thread of launch `k` calls `run` -/
  | begin (k : Nat)
  | launch (t : Tid)
  | stopAndWait (t : Tid) (timed : Bool)
  | wait (t : Tid) (timed : Bool)
  /-- line 75 -/
  | callStop
  /-- `stop` has returned, line 76 -/
  | stopDone
  /-- the signal is ready -/
  | get
  /-- `wait_for` has timed out, line 86 -/
  | timeOut
  | running (t : Tid)

/-- a thread made by `launch` is alive inside `run` only -/
def alive (s : State) (t : Tid) : Bool := t % 2 == 0 || !(s.p.stk t).isEmpty

/-- a thread can call a method of the class -/
def canCall (s : State) (t : Tid) : Bool := Proc.canCall s.p t && alive s t && s.call.isNone && !s.p.ub

/-- line 69-72 -/
def launch (s : State) : State :=
  match s.fut with
  | some _ => { s with log := s.log ++ [.ignored] }
  | none => { s with fut := some s.n, n := s.n + 1, log := s.log ++ [.launched s.n] }

/-- lines 73-78 -/
def stopAndWait (s : State) (t : Tid) (timed : Bool) : State :=
  match s.fut with
  | none => { s with log := s.log ++ [.returned t false] }
  | some _ => { s with call := some (t, .calling timed), log := s.log ++ [.stopCalled t] }

/-- line 75 -/
def callStop (s : State) : Option State :=
  match s.call with
  | some (t, .calling timed) => (Proc.step s.p (.callStop t)).map fun p => { moved s p with call := some (t, .stopping timed) }
  | _ => none

/-- lines 82-93 -/
def wait (s : State) (t : Tid) (timed : Bool) : State :=
  match s.fut with
  | none => { s with log := s.log ++ [.returned t false] }
  | some _ => { s with call := some (t, .waiting timed), log := s.log ++ [.waitCalled t] }

def stopDone (s : State) : Option State :=
  match s.call with
  | some (t, .stopping timed) => if Proc.canCall s.p t then some { s with call := some (t, .waiting timed) } else none
  | _ => none

/-- line 87, line 90 -/
def get (s : State) : Option State :=
  match s.call, s.fut with
  | some (t, .waiting _), some k => if ready s k then some { s with call := none, fut := none, log := s.log ++ [.joined k, .returned t false] } else none
  | _, _ => none

def timeOut (s : State) : Option State :=
  match s.call with
  | some (t, .waiting true) => some { s with call := none, log := s.log ++ [.returned t true] }
  | _ => none

def step (s : State) : Act → Option State
  | .other t a => if a.tid = t ∧ t % 2 = 0 ∧ mayMove s a then (Proc.step s.p a).map (moved s) else none
  | .thread k a => if a.tid = thr k ∧ s.begun k ∧ ¬ ready s k ∧ mayMove s a then (Proc.step s.p a).map fun p => moveThread s p k else none
  | .begin k => if k < s.n ∧ s.begun k = false then (Proc.step s.p (.callRun (thr k) .forever)).map fun p => { moved s p with begun := fun j => if j = k then true else s.begun j } else none
  | .launch t => if canCall s t then some (launch s) else none
  | .stopAndWait t timed => if canCall s t then some (stopAndWait s t timed) else none
  | .wait t timed => if canCall s t then some (wait s t timed) else none
  | .callStop => callStop s
  | .stopDone => stopDone s
  | .get => get s
  | .timeOut => timeOut s
  | .running t => if canCall s t then some { s with log := s.log ++ [.running s.fut.isSome] } else none

def run (s : State) : List Act → Option State
  | [] => some s
  | a :: as => (step s a).bind fun s' => run s' as

end Maf.Async
