/-
Waiting for work given to processors: any number of processors and threads.

Models src/common/maf/messaging/Processor.cpp `waitableExecute` (316-329), `executeAsync` (299-301), `addExecution` (89-97), `run`,
`runUntil`, `runOnceUntil` (194-247), `stop` (249-254, 130-133), `reuse` (256), the thread-local `instance_` (388-402); the function template
`waitableExecute` that returns a value (include/maf/messaging/Processor.h 86-94); `wait` and `get` of the signal
(include/maf/threading/Upcoming.h 24-26). The test of `stopped()`, the two halves of `Queue::push`, taking an element, closing and clearing
are steps of their own, as in `Model/Processor`. A processor is the same as its id (C21).

The function given to `waitableExecute` is a task. `std::packaged_task` by its specification: when the function returns or throws the
signal is ready; when the task is destroyed before, the promise is broken. Work queued by `executeAsync`, `execute` and `post` is here a task
whose signal nobody has. Between the steps user code may do anything; it may pass signals to other threads. Loops that end by time
(`runFor`, `runUntil`, `runOnceFor`, `runOnceUntil`) may end at any time here. Not modelled: exceptions of functions that are not waitable,
allocation failures, the destructor (it does what `stop` does).
-/
namespace Maf.Wait

/-- What is in the signal. -/
inductive Sig where
  | pending
  | done (v : Nat)
  | threw
  | broken
deriving DecidableEq

inductive Frame where
  /-- in a run loop of processor `p`, about to wait on the queue; `set`: this call has set `instance_` -/
  | loop (p : Nat) (timed set : Bool)
  /-- taken out of the queue, about to be run -/
  | taken (k : Nat)
  /-- the function of task `k` runs -/
  | code (k : Nat)
  /-- the function of task `k` runs, called by `waitableExecute` itself (326) -/
  | inline (k : Nat)
  /-- about to test `stopped()` (300) -/
  | check (k : Nat)
  /-- `Queue::push`, about to test `isClosed()` -/
  | push1 (k : Nat)
  /-- `Queue::push`, found it open, about to insert -/
  | push2 (k : Nat)
  /-- in `get` (or `wait`) of the signal -/
  | get (k : Nat)
  /-- Processor.h 92: in `wait` -/
  | value (k : Nat)
  /-- `stop`: not stopped (250), about to close the queue (131) -/
  | stop1 (p : Nat)
  /-- `stop`: closed, about to clear the queue (132) -/
  | stop2 (p : Nat)
deriving DecidableEq

inductive Ev where
  /-- `waitableExecute` makes task `k` for processor `p` -/
  | made (t k p : Nat)
  /-- it returns an invalid signal -/
  | refused (t p : Nat)
  /-- the function starts, in a loop of processor `p`, or (inline) where `instance_` is `p` -/
  | ran (t k p : Nat)
  | returned (t k v : Nat)
  | threw (t k : Nat)
  /-- what `get` of the signal gives: a value, an exception -/
  | got (t k : Nat) (r : Sig)
  /-- the template returns -/
  | value (t k v : Nat)
  /-- the template throws as there is no signal -/
  | noValue (t p : Nat)
  | closed (t p : Nat)
  | stopped (t p : Nat)
  | reopened (t p : Nat)
deriving DecidableEq

structure State where
  /-- `pendingExecutions` of each processor -/
  q : Nat → List Nat
  closed : Nat → Bool
  stk : Nat → List Frame
  /-- `instance_` of each thread -/
  inst : Nat → Option Nat
  sig : Nat → Sig
  /-- the processor of a task -/
  proc : Nat → Nat
  /-- the signal has been returned -/
  out : Nat → Bool
  next : Nat
  log : List Ev

def State.init : State := ⟨fun _ => [], fun _ => false, fun _ => [], fun _ => none, fun _ => .pending, fun _ => 0, fun _ => false, 0, []⟩

def upd {β : Type} (f : Nat → β) (i : Nat) (v : β) : Nat → β := fun j => if j = i then v else f j

def Frame.isUser : Frame → Bool
  | .code _ | .inline _ => true
  | _ => false

/-- Only user code, or a thread outside, makes calls. -/
def canCall (s : State) (t : Nat) : Bool :=
  match s.stk t with
  | [] => true
  | f :: _ => f.isUser

/-- Processor.cpp 316-328, with the frames of the caller -/
def execute (s : State) (t p : Nat) (below : List Frame) : State :=
  if s.inst t = some p then
    { s with
      stk := upd s.stk t (.inline s.next :: below), proc := upd s.proc s.next p, next := s.next + 1,
      log := s.log ++ [.made t s.next p, .ran t s.next p] }
  else
    { s with
      stk := upd s.stk t (.check s.next :: below), proc := upd s.proc s.next p, next := s.next + 1, log := s.log ++ [.made t s.next p] }

/-- Processor.cpp 316-329 -/
def callExecute (s : State) (t p : Nat) : State :=
  if s.closed p then { s with log := s.log ++ [.refused t p] } else execute s t p (s.stk t)

/-- Processor.h 86-94 -/
def callValue (s : State) (t p : Nat) : State :=
  if s.closed p then { s with log := s.log ++ [.refused t p, .noValue t p] } else execute s t p (.value s.next :: s.stk t)

/-- A task is destroyed. -/
def Sig.drop : Sig → Sig
  | .pending => .broken
  | r => r

/-- The value the template returns: what the function has returned, else the initial one (written 0; for built-in types it is indeterminate). -/
def Sig.val : Sig → Nat
  | .done v => v
  | _ => 0

/-- the signal is thrown away or returned to the caller -/
def handOut (s : State) (t k : Nat) (rest : List Frame) : State := { s with stk := upd s.stk t rest, out := upd s.out k true }

inductive Act where
  | callExecute (t p : Nat)
  | callValue (t p : Nat)
  | callGet (t k : Nat)
  | callRun (t p : Nat) (timed : Bool)
  | callStop (t p : Nat)
  | reuse (t p : Nat)
  /-- user code of a task returns -/
  | ret (t v : Nat)
  /-- user code of a task throws -/
  | throw (t : Nat)
  /-- a loop that ends by time ends -/
  | timeout (t : Nat)
  /-- the library goes on -/
  | lib (t : Nat)

/-- The end of a run loop (200-205, 220-222, 237-239). -/
def endLoop (s : State) (t : Nat) (rest : List Frame) (set : Bool) : State :=
  { s with stk := upd s.stk t rest, inst := if set then upd s.inst t none else s.inst }

/-- The library goes on. -/
def lib (s : State) (t : Nat) : Option State :=
  match s.stk t with
  -- executeAsync (300): the execution is destroyed if stopped
  | .check k :: rest =>
    if s.closed (s.proc k) then some { handOut s t k rest with sig := upd s.sig k (s.sig k).drop }
    else some { s with stk := upd s.stk t (.push1 k :: rest) }
  -- Queue::push: a closed queue drops the element
  | .push1 k :: rest =>
    if s.closed (s.proc k) then some { handOut s t k rest with sig := upd s.sig k (s.sig k).drop }
    else some { s with stk := upd s.stk t (.push2 k :: rest) }
  -- insertion
  | .push2 k :: rest => some { handOut s t k rest with q := upd s.q (s.proc k) (s.q (s.proc k) ++ [k]) }
  -- Queue::wait / waitUntil (208, 224, 241)
  | .loop p timed set :: rest =>
    if s.closed p then some (endLoop s t rest set)
    else
      match s.q p with
      | [] => none
      | k :: q' => some { s with stk := upd s.stk t (.taken k :: .loop p timed set :: rest), q := upd s.q p q' }
  -- invoke (136)
  | .taken k :: rest => some { s with stk := upd s.stk t (.code k :: rest), log := s.log ++ [.ran t k (s.proc k)] }
  | .get k :: rest => if s.sig k = .pending then none else some { s with stk := upd s.stk t rest, log := s.log ++ [.got t k (s.sig k)] }
  | .value k :: rest => if s.sig k = .pending then none else some { s with stk := upd s.stk t rest, log := s.log ++ [.value t k (s.sig k).val] }
  -- Queue::close
  | .stop1 p :: rest => some { s with stk := upd s.stk t (.stop2 p :: rest), closed := upd s.closed p true, log := s.log ++ [.closed t p] }
  -- Queue::clear: the executions are destroyed
  | .stop2 p :: rest =>
    some
      { s with
        stk := upd s.stk t rest, q := upd s.q p [], sig := fun k => if k ∈ s.q p then (s.sig k).drop else s.sig k,
        log := s.log ++ [.stopped t p] }
  | _ => none

/-- The function of the task on top ends. -/
def finish (s : State) (t : Nat) (r : Sig) (e : Nat → Ev) : Option State :=
  match s.stk t with
  | .code k :: rest => some { s with stk := upd s.stk t rest, sig := upd s.sig k r, log := s.log ++ [e k] }
  | .inline k :: rest => some { handOut s t k rest with sig := upd s.sig k r, log := s.log ++ [e k] }
  | _ => none

def step (s : State) : Act → Option State
  | .callExecute t p => if canCall s t then some (callExecute s t p) else none
  | .callValue t p => if canCall s t then some (callValue s t p) else none
  | .callGet t k => if canCall s t && s.out k then some { s with stk := upd s.stk t (.get k :: s.stk t) } else none
  -- testAndSetThreadLocalInstance (388-394)
  | .callRun t p timed =>
    if canCall s t then
      some
        { s with
          stk := upd s.stk t (.loop p timed (s.inst t).isNone :: s.stk t),
          inst := if (s.inst t).isNone then upd s.inst t (some p) else s.inst }
    else none
  | .callStop t p =>
    if canCall s t then
      if s.closed p then some { s with log := s.log ++ [.stopped t p] } else some { s with stk := upd s.stk t (.stop1 p :: s.stk t) }
    else none
  | .reuse t p => if canCall s t then some { s with closed := upd s.closed p false, log := s.log ++ [.reopened t p] } else none
  | .ret t v => finish s t (.done v) fun k => .returned t k v
  | .throw t => finish s t .threw fun k => .threw t k
  | .timeout t =>
    match s.stk t with
    | .loop _ true set :: rest => some (endLoop s t rest set)
    | _ => none
  | .lib t => lib s t

end Maf.Wait
