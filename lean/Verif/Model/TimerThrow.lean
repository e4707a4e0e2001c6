/-
Timers of a thread on which exceptions come out.

Models src/common/maf/messaging/Timer.cpp 62-309 (`TimerMgr::checkAllTimers`, `start`, `stop`, `onTimerModified`, `onShortestTimerExpired`, `remove`, `checkRecordListEmpty`): the state
`state_` and the places from which an exception leaves `checkAllTimers` without resetting it (182: a function executed by `runOnceUntil` throws; 236: a timer's callback throws).
Whoever runs the processor catches the exception and runs it again (Processor.cpp 208, 224, 242: nothing is caught in between; what is queued stays queued, Model/ThisProcessor.lean).
Simplified: which timer is due is open (Model/Timer.lean: deadlines and the heap); functions do not run loops of their own; the processor is not stopped; the empty function that `stop` may queue
(294-300 `interruptCurrentTimer`) is one of the functions that may come.
-/
namespace Maf.Tth

abbrev Tid := Nat

/-- `TimerMgr::State` -/
inductive St where
  | noTimer | haveTimer | waiting
deriving DecidableEq

inductive Frame where
  /-- a function the processor executes -/
  | fn
  /-- a timer's callback -/
  | cb (t : Tid)
  /-- `checkAllTimers`, between two steps of its loop -/
  | check
  /-- `checkAllTimers`, in `runOnceUntil` (182) -/
  | wait
deriving DecidableEq

def Frame.isUser : Frame → Bool
  | .fn | .cb _ => true
  | _ => false

structure State where
  /-- `records_`: the running timers -/
  recs : List Tid
  /-- `state_` -/
  st : St
  /-- calls of `checkAllTimers` that are queued -/
  jobs : Nat
  /-- the thread's stack, innermost first -/
  stk : List Frame
  /-- callbacks called -/
  fired : List Tid
deriving DecidableEq

def start : State := { recs := [], st := .noTimer, jobs := 0, stk := [], fired := [] }

inductive Act where
  /-- a function or callback starts timer `t` -/
  | start (t : Tid)
  /-- a function or callback stops timer `t` -/
  | stop (t : Tid)
  /-- the processor executes a function -/
  | runFn
  /-- the processor executes a queued `checkAllTimers` -/
  | runJob
  /-- the function or callback returns -/
  | ret
  /-- the function or callback throws -/
  | throw
  /-- the loop of `checkAllTimers` ends: no timers (179) -/
  | leave
  /-- 180-182: no timer is due -/
  | doze
  /-- 182-183: time is up -/
  | wake
  /-- timer `t` is due: 194-198, 229-237 -/
  | expire (t : Tid)
deriving DecidableEq

/-- 302-309 `checkRecordListEmpty`, after a removal -/
def stAfter (recs : List Tid) (st : St) : St := if recs = [] then .noTimer else st

/-- Can the processor's loop execute something now: nothing is being executed, or `runOnceUntil` waits. -/
def idle (s : State) : Bool :=
  match s.stk with
  | [] => true
  | .wait :: _ => true
  | _ => false

/-- What is executed in `runOnceUntil` is done: `runOnceUntil` returns (182-183). -/
def done (s : State) (stk : List Frame) : State :=
  match stk with
  | .wait :: fs => { s with stk := .check :: fs, st := .haveTimer }
  | fs => { s with stk := fs }

/-- `cyc t`: timer `t` is cyclic. -/
def step (cyc : Tid → Bool) (s : State) : Act → Option State
  | .start t =>
    match s.stk with
    | f :: _ =>
      -- 202-210, 222-227
      if f.isUser then some { s with recs := if t ∈ s.recs then s.recs else s.recs ++ [t], jobs := s.jobs + 1 } else none
    | [] => none
  | .stop t =>
    match s.stk with
    | f :: _ =>
      -- 212-220, 256-270
      if f.isUser then
        if t ∈ s.recs then some { s with recs := s.recs.filter (· ≠ t), st := stAfter (s.recs.filter (· ≠ t)) s.st } else some s
      else none
    | [] => none
  | .runFn => if idle s then some { s with stk := .fn :: s.stk } else none
  | .runJob =>
    if idle s && 0 < s.jobs then
      -- 175-177
      if s.st = .waiting then some (done { s with jobs := s.jobs - 1 } s.stk)
      else some { s with jobs := s.jobs - 1, stk := .check :: s.stk }
    else none
  | .ret =>
    match s.stk with
    | .fn :: fs => some (done s fs)
    | .cb _ :: fs => some { s with stk := fs }
    | _ => none
  | .throw =>
    match s.stk with
    | f :: _ => if f.isUser then some { s with stk := [] } else none
    | [] => none
  | .leave =>
    match s.stk with
    | .check :: fs => if s.recs = [] then some (done s fs) else none
    | _ => none
  | .doze =>
    match s.stk with
    | .check :: fs => if s.recs = [] then none else some { s with stk := .wait :: fs, st := .waiting }
    | _ => none
  | .wake =>
    match s.stk with
    | .wait :: fs => some { s with stk := .check :: fs, st := .haveTimer }
    | _ => none
  | .expire t =>
    match s.stk with
    | .check :: fs =>
      if t ∈ s.recs then
        if cyc t then some { s with st := .haveTimer, stk := .cb t :: .check :: fs, fired := s.fired ++ [t] }
        else some { s with
          recs := s.recs.filter (· ≠ t), st := stAfter (s.recs.filter (· ≠ t)) .haveTimer
          stk := .cb t :: .check :: fs, fired := s.fired ++ [t] }
      else none
    | _ => none

def run (cyc : Tid → Bool) (s : State) : List Act → Option State
  | [] => some s
  | a :: as => (step cyc s a).bind fun s' => run cyc s' as

end Maf.Tth
