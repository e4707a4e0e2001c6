/-
Timers of a processor.

Models src/common/maf/messaging/Timer.cpp (whole file, including the `checkAllTimers` loop and
the jobs it runs while it waits), with `Processor::runOnceUntil` (Processor.cpp 233-247) and the
processor's queue of jobs as far as timers see it.

`TimerMgr` is thread-local and everything here happens on the processor's thread; other threads
only post jobs and stop the processor. The thread has a stack: user code (a job or a timer's
callback) may run the processor's loop again (`runOnce` inside a job), and the `checkAllTimers`
loop runs jobs while it waits for a deadline.

Line 224-226 lacks a `;` after the assertion; we model what is meant.

The clock is `system_clock`: it may jump in both directions, so `tick` sets it to anything.

`records_` is a binary heap. The heap algorithms are modelled by their specification: the action
carries the new order `r` of the records, any permutation with a smallest deadline in front, as
long as the heap's precondition holds (`heapOk`). `updateShortestTimer` and `restart` change the
deadline of the front record before they call `pop_heap`, which is outside the letter of its
precondition; the implementations of `pop_heap` do not look at the front element, and that is what we
assume.
-/
namespace Maf.Tmr

/-- A timer (`TimerData`). -/
abbrev Tm := Nat

structure Data where
  deadline : Nat := 0
  duration : Nat := 0
  cyclic : Bool := false
  running : Bool := false
deriving DecidableEq

/-- `TimerMgr::State` -/
inductive St where
  | noTimer
  | haveTimer
  | waiting
deriving DecidableEq

inductive Job where
  | user
  /-- `checkAllTimers` (226) -/
  | check
  /-- the empty callback (296-298) -/
  | wake
deriving DecidableEq

inductive Frame where
  /-- user code: a job or a callback -/
  | user
  /-- `checkAllTimers`, at the head of the loop (179) -/
  | check
  /-- in `runOnceUntil` (182), for timer `i`, until `dl` -/
  | waiting (i : Tm) (dl : Nat)
  /-- `runOnceUntil` is running a job; `touched`: a timer was operated on or has fired meanwhile (our
  bookkeeping, not in the code) -/
  | held (i : Tm) (touched : Bool)
  /-- after the wait (186) -/
  | waited (i : Tm) (touched : Bool)
deriving DecidableEq

inductive Op where
  | start (i : Tm) (d : Nat)
  | stop (i : Tm)
  | restart (i : Tm)
  | setCyclic (i : Tm) (b : Bool)
deriving DecidableEq

inductive Ev where
  /-- `start` at time `t` with duration `d` -/
  | started (i : Tm) (t d : Nat)
  | restarted (i : Tm) (t : Nat)
  | stopped (i : Tm)
  /-- the callback is called; `dl`: the deadline that has passed -/
  | fired (i : Tm) (t dl : Nat) (cyclic : Bool)
  /-- a job run while waiting for timer `i` operated on timers and lasted past the deadline -/
  | overran (i : Tm)
  /-- the loop picks the timer to wait for -/
  | picked (i : Tm)
  | procStopped
deriving DecidableEq

structure State where
  now : Nat
  data : Tm → Data
  records : List Tm
  st : St
  jobs : List Job
  closed : Bool
  stack : List Frame
  /-- the heap's precondition holds -/
  heapOk : Bool
  ub : Bool
  log : List Ev

def init : State :=
  { now := 0, data := fun _ => {}, records := [], st := .noTimer, jobs := [], closed := false, stack := [], heapOk := true, ub := false, log := [] }

def upd {β : Type} (f : Nat → β) (i : Nat) (v : β) : Nat → β := fun j => if j = i then v else f j

/-- `executeAsync` on the processor -/
def push (s : State) (j : Job) : State := if s.closed then s else { s with jobs := s.jobs ++ [j] }

/-- A new order of the records: a permutation, a smallest one in front if the heap is in order. -/
def Order (data : Tm → Data) (ok : Bool) (old r : List Tm) : Prop :=
  r.Perm old ∧ (ok = true → ∀ f ∈ r.head?, ∀ j ∈ r, (data f).deadline ≤ (data j).deadline)

instance (data : Tm → Data) (ok : Bool) (old r : List Tm) : Decidable (Order data ok old r) := by
  unfold Order; infer_instance

def Frame.touch : Frame → Frame
  | .held i _ => .held i true
  | f => f

def touch (s : State) : State := { s with stack := s.stack.map Frame.touch }

/-- A frame is done; `runOnceUntil` below it returns (183). -/
def ret (s : State) : List Frame → State
  | .held i t :: fs => { s with stack := .waited i t :: fs, st := .haveTimer }
  | fs => { s with stack := fs }

/-- `checkRecordListEmpty` (302-308) -/
def noteEmpty (s : State) : State := if s.records = [] then { s with st := .noTimer } else s

/-- A job begins, on top of the frames `fs` (the processor's `invoke`). -/
def begin (s : State) (fs : List Frame) : Job → State
  | .user => { s with stack := .user :: fs }
  | .wake => ret s fs
  -- 174-177
  | .check => if s.st = .waiting then ret s fs else { s with stack := .check :: fs }

/-- A timer operation by user code. -/
def operate (s : State) (r : List Tm) : Op → Option State
  -- 95-99, 202-210, 222-227, 250-254
  | .start i d =>
    let old := s.data i
    let data := upd s.data i { old with deadline := s.now + d, duration := d, running := true }
    let s := { s with data := data, log := s.log ++ [Ev.started i s.now d] }
    if old.running then
      if Order data true s.records r then some (push { s with records := r, heapOk := true } .check) else none
    else
      let ok := s.heapOk && !s.records.contains i
      if Order data ok (s.records ++ [i]) r then some (push { s with records := r, heapOk := ok } .check) else none
  -- 212-220, 256-270, 279-286, 294-300
  | .stop i =>
    let old := s.data i
    let s := { s with log := s.log ++ [.stopped i] }
    if old.running = false then some s
    else
      let data := upd s.data i { old with running := false }
      let s := { s with data := data }
      match s.records with
      | [] => some s
      | f :: rest =>
        if f = i then
          if Order data s.heapOk rest r then
            let s := noteEmpty { s with records := r }
            some (if r ≠ [] ∧ s.st = .waiting then push s .wake else s)
          else none
        -- `erase(it)` erases one element only: several copies leave null pointers behind
        else if rest.count i > 1 then some { s with ub := true }
        else if rest.contains i then
          if Order data true ((f :: rest).erase i) r then some { s with records := r, heapOk := true } else none
        else some s
  -- 44-47, 239-248
  | .restart i =>
    let old := s.data i
    let data := upd s.data i { old with deadline := s.now + old.duration, running := true }
    let s := { s with data := data, log := s.log ++ [Ev.restarted i s.now] }
    match s.records with
    | [] => some { s with ub := true }
    | f :: _ =>
      let ok := if f = i then s.heapOk else true
      if Order data ok s.records r then some (push { s with records := r, heapOk := ok } .check) else none
  -- 137-141
  | .setCyclic i b => some { s with data := upd s.data i { s.data i with cyclic := b } }

inductive Act where
  | tick (t : Nat)
  /-- a job is posted to the processor -/
  | post
  | stopProc
  | reuse
  /-- the processor's loop, or user code that calls `runOnce`, takes a job -/
  | take
  /-- user code operates on a timer -/
  | op (o : Op) (r : List Tm)
  /-- user code returns -/
  | ret
  /-- `checkAllTimers`: 179-182 -/
  | look
  /-- `runOnceUntil` takes a job -/
  | waitJob
  /-- `runOnceUntil` returns without a job: timeout, or the processor is stopped -/
  | waitOut
  /-- `checkAllTimers`: 186-198, 229-237 -/
  | fire (r : List Tm)
deriving DecidableEq

def step (s : State) (a : Act) : Option State :=
  if s.ub then none else
  match a with
  | .tick t => some { s with now := t }
  | .post => some (push s .user)
  -- Processor.cpp 249-254
  | .stopProc => some { s with closed := true, jobs := [], log := s.log ++ [.procStopped] }
  | .reuse => some { s with closed := false }
  | .take =>
    if s.closed then none
    else match s.jobs, s.stack with
      | j :: js, [] => some (begin { s with jobs := js } [] j)
      | j :: js, .user :: fs => some (begin { s with jobs := js } (.user :: fs) j)
      | _, _ => none
  | .op o r =>
    match s.stack with
    | .user :: _ => operate (touch s) r o
    | _ => none
  | .ret =>
    match s.stack with
    | .user :: fs => some (ret s fs)
    | _ => none
  | .look =>
    match s.stack with
    | .check :: fs =>
      match s.records with
      | [] => some (ret s fs)
      | i :: _ =>
        let s := { s with log := s.log ++ [Ev.picked i] }
        if (s.data i).deadline ≤ s.now then some { s with stack := .waited i false :: fs }
        else some { s with stack := .waiting i (s.data i).deadline :: fs, st := .waiting }
    | _ => none
  | .waitJob =>
    match s.stack with
    | .waiting i _ :: fs =>
      if s.closed then none
      else match s.jobs with
        | j :: js => some (begin { s with jobs := js } (.held i false :: fs) j)
        | [] => none
    | _ => none
  | .waitOut =>
    match s.stack with
    | .waiting i dl :: fs =>
      if s.closed ∨ (s.jobs = [] ∧ dl ≤ s.now) then some { s with stack := .waited i false :: fs, st := .haveTimer } else none
    | _ => none
  | .fire r =>
    match s.stack with
    | .waited i touched :: fs =>
      if s.closed then some (ret s fs)
      else if s.now < (s.data i).deadline then some { s with stack := .check :: fs }
      else if (s.data i).running = false then some { s with stack := .check :: fs, st := .haveTimer }
      else
        let d := s.data i
        let es := (if touched then [Ev.overran i] else []) ++ [.fired i s.now d.deadline d.cyclic]
        match s.records with
        | [] => some { s with ub := true }
        | f :: rest =>
          let s := { s with st := .haveTimer, stack := .user :: .check :: fs.map Frame.touch, log := s.log ++ es }
          if d.cyclic then
            let data := upd s.data f { s.data f with deadline := (s.data f).deadline + (s.data f).duration }
            if Order data s.heapOk (f :: rest) r then some { s with data := data, records := r } else none
          else
            let data := upd s.data i { d with running := false }
            if Order data s.heapOk rest r then some (noteEmpty { s with data := data, records := r }) else none
    | _ => none

/-- Any schedule. -/
def run (s : State) : List Act → Option State
  | [] => some s
  | a :: as => (step s a).bind fun s' => run s' as

end Maf.Tmr
