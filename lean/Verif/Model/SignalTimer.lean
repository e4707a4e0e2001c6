import Verif.Model.Timer
import Verif.Model.Signal
/-
Timers with a signal.

Models include/maf/messaging/SignalTimer.h (whole file) on top of the models of timers (Model/Timer.lean: Timer.cpp) and of signals (Model/Signal.lean: SignalSlots.h), for any number of
`SignalTimer` objects of one processor: every step of theirs is a step here. The function that `start` gives to the timer (19) emits `timeoutSignal`; the object's members are destroyed in reverse
order, first the timer, which stops it (Timer.cpp 103), then the signal.

Each expiry of a timer has a number, which exists only in the model: the signal has no arguments, here its argument is that number.
Simplified: as in Model/Timer.lean everything happens on the processor's thread (other threads are in Model/TimerThreads.lean); all timers are timers of `SignalTimer` objects;
users do not emit `timeoutSignal` themselves; slots do not throw.
-/
namespace Maf.Stm
open Maf.Tmr (Tm Op upd)

inductive Ev where
  /-- of a timer -/
  | tm (e : Tmr.Ev)
  /-- of the signal of `i` -/
  | sg (i : Tm) (e : Sig.Ev Nat)
  /-- `~SignalTimer` has returned -/
  | destroyed (i : Tm)
deriving DecidableEq

structure State where
  /-- the timers: `impl_` (33) -/
  t : Tmr.State
  /-- `timeoutSignal` (30) -/
  sig : Tm → Sig.State Nat
  /-- user code that is being run, innermost first: a job, or (`some i`) the function of line 19 of `i` -/
  fr : List (Option Tm)
  /-- number of expiries of each timer -/
  fires : Tm → Nat
  ub : Bool
  log : List Ev

def init : State := { t := Tmr.init, sig := fun _ => Sig.init Nat, fr := [], fires := fun _ => 0, ub := false, log := [] }

/-- What has been added to a log. -/
def news {E : Type} (before after : List E) : List E := after.drop before.length

/-- The timers make a step. -/
def onTimer (s : State) (a : Tmr.Act) : Option State :=
  (Tmr.step s.t a).map fun t' => { s with t := t', ub := s.ub || t'.ub, log := s.log ++ (news s.t.log t'.log).map .tm }

/-- The signal of `i` makes a step. -/
def onSignal (s : State) (i : Tm) (a : Sig.Act Nat) : Option State :=
  (Sig.step (s.sig i) a).map fun g => { s with sig := upd s.sig i g, ub := s.ub || g.ub, log := s.log ++ (news (s.sig i).log g.log).map (.sg i) }

/-- Is a slot of `i` being called? -/
def inSlot (s : State) (i : Tm) : Bool :=
  match (s.sig i).emission with
  | some e => e.running.isSome
  | none => false

/-- User code is running: a job or a slot. -/
def userCode (s : State) : Bool :=
  match s.t.stack, s.fr with
  | .user :: _, none :: _ => true
  | .user :: _, some i :: _ => inSlot s i
  | _, _ => false

def users (t : Tmr.State) : Nat := t.stack.count .user

/-- A job may have been begun. -/
def enter (s s' : State) : State := { s' with fr := if users s.t < users s'.t then none :: s'.fr else s'.fr }

/-- Has the last step been the expiry of a timer? -/
def expiredNow (before after : List Tmr.Ev) : Option Tm :=
  match (news before after).getLast? with
  | some (.fired i _ _ _) => some i
  | _ => none

/-- 19: `timeoutSignal()`; undefined behaviour if the object is gone. -/
def emitNow (s : State) (i : Tm) : Option State :=
  if (s.sig i).alive then (onSignal s i (.emit (s.fires i))).map fun s' => { s' with fr := some i :: s'.fr, fires := upd s'.fires i (s'.fires i + 1) }
  else some { s with ub := true, fires := upd s.fires i (s.fires i + 1) }

/-- Timer.cpp 49: the function given by line 19 is called, if a timer has expired -/
def afterFire (s s' : State) : Option State :=
  match expiredNow s.t.log s'.t.log with
  | none => some s'
  | some i => emitNow s' i

def opTm : Op → Tm
  | .start i _ => i
  | .stop i => i
  | .restart i => i
  | .setCyclic i _ => i

/-- What users may do with a signal and its connections. -/
def byUser : Sig.Act Nat → Bool
  | .emit _ | .iter | .ret | .destroy => false
  | _ => true

/-- the function of line 19 of `i` goes on: the slot being called returns, or the emission is over -/
def slotReturns (s : State) (i : Tm) (fs : List (Option Tm)) : Option State :=
  if inSlot s i then onSignal s i .ret
  else if (s.sig i).emission.isSome then none
  else (onTimer s .ret).map fun s' => { s' with fr := fs }

/-- `~SignalTimer`, after `~Timer` -/
def destroySignal (i : Tm) (s : State) : Option State :=
  if s.ub then some s else (onSignal s i .destroy).map fun s' => { s' with log := s'.log ++ [.destroyed i] }

inductive Act where
  | tick (t : Nat)
  | post
  | stopProc
  | reuse
  | take
  | look
  | waitJob
  | waitOut
  | fire (r : List Tm)
  /-- 16-28: user code calls `start`, `restart`, `stop`, `setCyclic` -/
  | timer (o : Op) (r : List Tm)
  /-- user code connects or disconnects a slot -/
  | conn (i : Tm) (a : Sig.Act Nat)
  /-- the emission goes on to its next slot -/
  | iter
  /-- a job, a slot, or the function of line 19 returns -/
  | ret
  /-- user code destroys the object -/
  | destroy (i : Tm) (r : List Tm)

def step (s : State) (a : Act) : Option State :=
  if s.ub then none else
  match a with
  | .tick t => onTimer s (.tick t)
  | .post => onTimer s .post
  | .stopProc => onTimer s .stopProc
  | .reuse => onTimer s .reuse
  | .look => onTimer s .look
  | .waitOut => onTimer s .waitOut
  | .waitJob => (onTimer s .waitJob).map (enter s)
  | .take => if s.t.stack = [] ∨ userCode s = true then (onTimer s .take).map (enter s) else none
  | .fire r => (onTimer s (.fire r)).bind (afterFire s)
  | .timer o r => if userCode s = true ∧ (s.sig (opTm o)).alive = true then onTimer s (.op o r) else none
  | .conn i a => if userCode s = true ∧ byUser a = true then onSignal s i a else none
  | .iter =>
    match s.t.stack, s.fr with
    | .user :: _, some i :: _ => onSignal s i .iter
    | _, _ => none
  | .ret =>
    match s.t.stack, s.fr with
    | .user :: _, none :: fs => (onTimer s .ret).map fun s' => { s' with fr := fs }
    | .user :: _, some i :: fs => slotReturns s i fs
    | _, _ => none
  | .destroy i r =>
    if userCode s = true ∧ (s.sig i).alive = true then
      (onTimer s (.op (.stop i) r)).bind (destroySignal i)
    else none

def run (s : State) : List Act → Option State
  | [] => some s
  | a :: as => (step s a).bind fun s' => run s' as

end Maf.Stm
