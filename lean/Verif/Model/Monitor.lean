import Verif.Model.Timer

/-!
# The thread that serves local IPC

Models src/common/maf/messaging/client-server/SingleThreadPool.cpp (one processor, never stopped, whose thread runs
everything), LocalIPCClient.cpp 74-90 (`start`, `stop`, destructor), 127-153 (`monitorServerStatus`, `onBytesCome`) and
LocalIPCServer.cpp 138-151 (`onBytesCome`), for any number of clients and servers in a process, on top of Model/Timer:
`t` is the thread's processor and timer manager, and timer `i` is client `i`'s `serverMonitorTimer_`.

`TimerMgr` is thread-local (Timer.cpp 90-93): `Timer::stop` called by another thread works on that thread's manager, in
which the timer is not recorded; all it does is clear `running` (Timer.cpp 212-215).  That write is a data race, modelled
as an atomic write.

Not modelled: what `checkReceiverStatus` and the registration do (they are in Model/Framing and Model/Client): the
action says what they return; other timers on this thread; the receiver's thread (Model/Receiver).
-/

namespace Maf
namespace Mon
open Maf.Tmr (Tm Job)

/-- What is submitted to the thread, or called by a timer. -/
inductive Work where
  /-- `monitorServerStatus(k)` of client `i` -/
  | monitor (i k : Nat)
  /-- message `m` that came in for client `i` (LocalIPCClient.cpp 144-152) -/
  | message (i m : Nat)
  /-- message `m` that came in for server `i` (LocalIPCServer.cpp 139-150) -/
  | server (i m : Nat)
  /-- done, about to return -/
  | over
deriving DecidableEq

/-- What can be observed. -/
inductive Ev where
  | came (w : Work)
  /-- a message was handled -/
  | handled (w : Work)
  /-- a message for a server that is gone was dropped -/
  | dropped (w : Work)
  /-- client `i` found its server there or not, and could send its registration or not; the next look is due `k`
  milliseconds later -/
  | checked (i : Nat) (up ok : Bool) (k : Nat)
  | stopped (i : Nat)
  | destroyed (i : Nat)
deriving DecidableEq

structure State where
  t : Tmr.State
  /-- the functions behind the `user` jobs of `t`, in order -/
  works : List Work
  /-- the one being executed -/
  cur : Option Work
  /-- LocalIPCClient.cpp 135-137: the interval captured by the timer's callback -/
  tuned : Nat → Nat
  /-- `currentServerStatus_` -/
  status : Nat → Bool
  started : Nat → Bool
  /-- clients -/
  gone : Nat → Bool
  /-- servers -/
  srvGone : Nat → Bool
  /-- a client was used after its destruction -/
  ub : Bool
  log : List Ev

def init : State :=
  { t := Tmr.init, works := [], cur := none, tuned := fun _ => 0, status := fun _ => false, started := fun _ => false,
    gone := fun _ => false, srvGone := fun _ => false, ub := false, log := [] }

inductive Act where
  /-- `start` of client `i` -/
  | start (i : Nat)
  /-- bytes come in (the receiver's thread): a message for a client or a server -/
  | arrive (w : Work)
  /-- `stop` of client `i`, by a thread of the user -/
  | stop (i : Nat)
  /-- client `i` is destroyed -/
  | destroy (i : Nat)
  /-- server `i` is destroyed -/
  | destroySrv (i : Nat)
  | tick (t : Nat)
  /-- the thread's loop takes a job -/
  | take
  /-- it takes one while it waits for a timer -/
  | waitJob
  | look
  | waitOut
  | fire (r : List Tm)
  /-- the work being executed is done: for `monitor`, `up` is what `checkReceiverStatus` says and `ok` whether the
  registration with the server could be sent -/
  | work (up ok : Bool) (r : List Tm)
  /-- it returns -/
  | ret
deriving DecidableEq

/-- Steps of the thread itself. -/
def Act.own : Act → Bool
  | .take => true
  | .waitJob => true
  | .look => true
  | .waitOut => true
  | .fire _ => true
  | .work _ _ _ => true
  | .ret => true
  | _ => false

/-- LocalIPCClient.cpp 127-134: the next interval. -/
def next (changed : Bool) (k : Nat) : Nat := if changed then 500 else if k < 500 then k + 5 else k

/-- `single_threadpool::submit`, SingleThreadPool.cpp 23. -/
def submit (s : State) (w : Work) : State := { s with t := Tmr.push s.t .user, works := s.works ++ [w] }

/-- A job was taken; its function, if it is one of ours, begins. -/
def taken (s : State) (j : Job) (t : Tmr.State) : Option State :=
  match j with
  | .user =>
    match s.works with
    | w :: ws => some { s with t := t, works := ws, cur := some w }
    | [] => none
  | _ => some { s with t := t }

/-- The function being executed does what it does. -/
def perform (s : State) (up ok : Bool) (r : List Tm) : Option State :=
  match s.cur with
  | some (.monitor i k) =>
    if s.gone i then some { s with ub := true }
    else
      (Tmr.step s.t (.op (.start i (next (decide (s.status i ≠ up)) k)) r)).map fun t =>
        { s with t := t, cur := some .over, tuned := Tmr.upd s.tuned i (next (decide (s.status i ≠ up)) k)
                 status := Tmr.upd s.status i (if up && !ok then s.status i else up)
                 log := s.log ++ [.checked i up ok (next (decide (s.status i ≠ up)) k)] }
  | some (.message i m) =>
    if s.gone i then some { s with ub := true }
    else some { s with cur := some .over, log := s.log ++ [.handled (.message i m)] }
  | some (.server i m) =>
    if s.srvGone i then some { s with cur := some .over, log := s.log ++ [.dropped (.server i m)] }
    else some { s with cur := some .over, log := s.log ++ [.handled (.server i m)] }
  | _ => none

/-- `Timer::stop` by a thread that is not the pool's, Timer.cpp 128, 212-215. -/
def foreignStop (t : Tmr.State) (i : Tm) : Tmr.State := { t with data := Tmr.upd t.data i { t.data i with running := false } }

def step (s : State) (a : Act) : Option State :=
  if s.ub then none else
  match a with
  -- 74-78; the factory starts a client once
  | .start i => if s.started i then none else some (submit { s with started := Tmr.upd s.started i true } (.monitor i 0))
  | .arrive w =>
    match w with
    | .message _ _ => some (submit { s with log := s.log ++ [.came w] } w)
    | .server _ _ => some (submit { s with log := s.log ++ [.came w] } w)
    | _ => none
  -- 80-86
  | .stop i => some { s with t := foreignStop s.t i, log := s.log ++ [.stopped i] }
  -- 90, and the destructor of the timer (Timer.cpp 103)
  | .destroy i => some { s with t := foreignStop s.t i, gone := Tmr.upd s.gone i true, log := s.log ++ [.destroyed i] }
  | .destroySrv i => some { s with srvGone := Tmr.upd s.srvGone i true }
  | .tick n => (Tmr.step s.t (.tick n)).map fun t => { s with t := t }
  | .take =>
    if s.cur.isSome then none
    else match s.t.jobs with
      | j :: _ => (Tmr.step s.t .take).bind (taken s j)
      | [] => none
  | .waitJob =>
    match s.t.jobs with
    | j :: _ => (Tmr.step s.t .waitJob).bind (taken s j)
    | [] => none
  | .look => (Tmr.step s.t .look).map fun t => { s with t := t }
  | .waitOut => (Tmr.step s.t .waitOut).map fun t => { s with t := t }
  -- a timer whose callback is called leaves a `user` frame on the stack
  | .fire r =>
    match s.t.stack with
    | .waited i _ :: _ =>
      (Tmr.step s.t (.fire r)).map fun t =>
        if t.stack.head? = some .user then { s with t := t, cur := some (.monitor i (s.tuned i)) } else { s with t := t }
    | _ => none
  | .work up ok r => perform s up ok r
  | .ret =>
    match s.cur with
    | some .over => (Tmr.step s.t .ret).map fun t => { s with t := t, cur := none }
    | _ => none

/-- Any schedule. -/
def run (s : State) : List Act → Option State
  | [] => some s
  | a :: as => (step s a).bind fun s' => run s' as

end Mon
end Maf
