import Verif.Model.Timer
/-
The callbacks of timers: which function a timer calls, and when a function it was given is destroyed.

Models src/common/maf/messaging/Timer.cpp: `TimerData::reset` (50-55), `onExpired` (49), `~Timer` (103), `timeoutAfter` (147-151, and 161-164 as it runs on the processor), the
lifetime of `TimerData` (the shared pointers in the `Timer` object, in `records_` and in the local variable of the loop in `checkAllTimers`, 179-199), on top of the model of the
timers (Model/Timer.lean), every step of which is a step here.

A callback is a `std::function`; every one that is passed to `start` or `timeoutAfter` gets a number of its own. `start` with an empty function (an assertion, 109) is not modelled.
Everything happens on the processor's thread (see Model/Timer.lean). The end of that thread, which destroys its records, is not modelled. References from jobs that are posted by
`start(…, processor)` and have not been run are not modelled: a function that has not been given to the timer yet.
-/
namespace Maf.Tcb
open Maf.Tmr (Tm Frame upd)

inductive Ev where
  /-- timer `i` was given the function `c` -/
  | given (i : Tm) (c : Nat)
  | called (i : Tm) (c : Nat)
  /-- an empty function is called: `std::bad_function_call` -/
  | calledEmpty (i : Tm)
  | returned (i : Tm) (c : Nat)
  /-- the function is destroyed, with all it has captured -/
  | dropped (i : Tm) (c : Nat)
  /-- the `Timer` object is destroyed -/
  | destroyed (i : Tm)
  /-- `timeoutAfter` made a timer without a `Timer` object -/
  | detached (i : Tm)
deriving DecidableEq

structure State where
  t : Tmr.State
  /-- `TimerData::callback` (31) -/
  cb : Tm → Option Nat
  next : Nat
  /-- user code that is being run, innermost first: a callback, or (`none`) a job -/
  run : List (Option (Tm × Nat))
  /-- timers without a `Timer` object: it was destroyed, or there was none (`timeoutAfter`) -/
  released : List Tm
  log : List Ev

def init : State := { t := Tmr.init, cb := fun _ => none, next := 0, run := [], released := [], log := [] }

inductive Act where
  | base (a : Tmr.Act)
  /-- `~Timer`, on the processor's thread -/
  | destroy (i : Tm) (r : List Tm)
  | timeoutAfter (i : Tm) (d : Nat) (r : List Tm)

/-- The timer whose shared pointer the loop of `checkAllTimers` holds in this frame (179). -/
def about : Frame → Option Tm
  | .waiting i _ => some i
  | .held i _ => some i
  | .waited i _ => some i
  | _ => none

def isOf (i : Tm) : Option (Tm × Nat) → Bool
  | some (j, _) => decide (j = i)
  | none => false

/-- Somebody else than a `Timer` object has a shared pointer to the data: the records, or a loop of `checkAllTimers` (also while it calls the callback). -/
def referenced (s : State) (i : Tm) : Bool :=
  decide (i ∈ s.t.records) || s.t.stack.any (fun f => decide (about f = some i)) || s.run.any (isOf i)

/-- The end of the last shared pointer destroys the data, and with it the function. -/
def sweepOne (s : State) (i : Tm) : State :=
  match s.cb i with
  | some c => if referenced s i then s else { s with cb := upd s.cb i none, log := s.log ++ [.dropped i c] }
  | none => s

def sweep (s : State) : State := s.released.foldl sweepOne s

/-- 51: `callback = move(cb)` (the new function is in place when the old one is destroyed) -/
def give (s : State) (i : Tm) : State :=
  { s with
    cb := upd s.cb i (some s.next), next := s.next + 1
    log := s.log ++ .given i s.next :: (match s.cb i with | some c => [.dropped i c] | none => []) }

/-- The timer whose callback the step calls (236). -/
def firedIn (old new : List Tmr.Ev) : Option Tm :=
  match (new.drop old.length).getLast? with
  | some (.fired i _ _ _) => some i
  | _ => none

/-- 49: `callback()` -/
def call (s : State) (i : Tm) : State :=
  match s.cb i with
  | some c => { s with run := some (i, c) :: s.run, log := s.log ++ [.called i c] }
  | none => { s with run := none :: s.run, log := s.log ++ [.calledEmpty i] }

/-- What a step of the timers, from `s.t` to `t`, does to the callbacks. -/
def follow (s : State) (t : Tmr.State) : Tmr.Act → State
  | .op (.start i _) _ => give { s with t := t } i
  | .fire _ =>
    match firedIn s.t.log t.log with
    | some i => call { s with t := t } i
    | none => { s with t := t }
  | .take | .waitJob =>
    match s.t.jobs with
    | .user :: _ => { s with t := t, run := none :: s.run }
    | _ => { s with t := t }
  | .ret =>
    match s.run with
    | some (i, c) :: rs => { s with t := t, run := rs, log := s.log ++ [.returned i c] }
    | _ :: rs => { s with t := t, run := rs }
    | [] => { s with t := t }
  | _ => { s with t := t }

/-- The timer operated on. -/
def target : Tmr.Act → Option Tm
  | .op (.start i _) _ => some i
  | .op (.stop i) _ => some i
  | .op (.restart i) _ => some i
  | .op (.setCyclic i _) _ => some i
  | _ => none

/-- Nobody can operate on a timer that has no `Timer` object. -/
def allowed (s : State) (a : Tmr.Act) : Bool :=
  match target a with
  | some i => decide (i ∉ s.released)
  | none => true

def step (s : State) : Act → Option State
  | .base a => if allowed s a then (Tmr.step s.t a).map fun t => sweep (follow s t a) else none
  -- 103: `stop()`, then the shared pointer is released
  | .destroy i r =>
    if i ∈ s.released then none
    else (Tmr.step s.t (.op (.stop i) r)).map fun t => sweep { s with t := t, released := s.released ++ [i], log := s.log ++ [.destroyed i] }
  -- 147-151: a `TimerData` of its own
  | .timeoutAfter i d r =>
    if i ∈ s.released ∨ s.cb i ≠ none ∨ s.t.data i ≠ {} then none
    else (Tmr.step s.t (.op (.start i d) r)).map fun t =>
      let s1 := give { s with t := t } i
      sweep { s1 with released := s1.released ++ [i], log := s1.log ++ [.detached i] }

def run (s : State) : List Act → Option State
  | [] => some s
  | a :: as => (step s a).bind fun s' => run s' as

end Maf.Tcb
