/-
Where and when a processor destroys the functions it was given, and what their destructors may do.

Models src/common/maf/messaging/Processor.cpp 89-97 (`addExecution`), 130-133 (`closeAndClearExecutionsQueue`), 194-247 (`run`, `runUntil`,
`runOnceUntil`: the variable `exc`), 249-258 (`stop`, `reuse`), 299-301 (`executeAsync`), 384 (`pendingCout`), and of
include/maf/threading/ThreadSafeQueue.h the members these use, with the mutex of the queue (Lockable.h: a `std::mutex`): 31-37 (`push`),
54-66 and 87-97 (`waitUntil`, `wait`: `value = std::move(queue_->front())` destroys what `value` pointed to, with the mutex locked),
121-133 (`clear`: `*queue_ = {}` destroys the elements, with the mutex locked), 135 (`size`).

A function handed over is an item; destroying it destroys what it owns (captured objects), whose destructors are user code like
the function itself: on any thread whose topmost activation is user code, any call can be made. Every test of the closed flag and every
critical section is a step of its own; where destructors run in a critical section, the mutex has an owner over several steps.
Simplified: one processor; messages are functions, too (`post` queues a closure); no exceptions; waking up is not modelled: a waiting thread goes on
when its predicate holds and the mutex is free; no allocation failures. `execute` on the processor's own thread runs the function
without queueing it and is not modelled here.
-/
namespace Maf.Drop

abbrev Tid := Nat
abbrev Item := Nat

/-- `run`; `runUntil`, `runFor`; `runOnceUntil`, `runOnceFor` -/
inductive Loop where
  | forever | timed | once
deriving DecidableEq

inductive Frame where
  /-- user code: the function itself -/
  | code (x : Item)
  /-- user code: destructors of what the function owns -/
  | dtor (x : Item)
  /-- in a run loop, about to wait on the queue; `prev`: what `exc` points to -/
  | loop (k : Loop) (prev : Option Item)
  /-- in `wait`, the mutex is locked: `x` is out of the queue and in `exc` -/
  | swap (k : Loop) (x : Item)
  /-- `invoke` (Processor.cpp 136) has been called for `x` -/
  | after (k : Loop) (x : Item)
  /-- the end of the loop: `exc` goes out of scope -/
  | ending (prev : Option Item)
  /-- `Queue::push`, about to test `isClosed()` -/
  | push1 (x : Item)
  /-- `Queue::push`, about to lock the mutex -/
  | push2 (x : Item)
  /-- `pendingCout`, about to lock the mutex -/
  | size
  /-- `stop`: closed, about to lock the mutex in `clear` -/
  | clear
  /-- in `clear`, the mutex is locked; still to be destroyed -/
  | clearing (xs : List Item)
deriving DecidableEq

def Frame.isUser : Frame → Bool
  | .code _ | .dtor _ => true
  | _ => false

/-- What the frame keeps from being destroyed. -/
def Frame.items : Frame → List Item
  | .loop _ (some x) => [x]
  | .swap _ x => [x]
  | .after _ x => [x]
  | .ending (some x) => [x]
  | .push1 x => [x]
  | .push2 x => [x]
  | .clearing xs => xs
  | _ => []

/-- The frame has locked the mutex. -/
def Frame.holds : Frame → Bool
  | .swap .. | .clearing _ => true
  | _ => false

inductive Call where
  /-- `executeAsync` of a new function -/
  | async
  | size
  | stop
  | reuse
  | run (k : Loop)
deriving DecidableEq

inductive Ev where
  /-- a function is handed over -/
  | made (t : Tid) (x : Item)
  /-- it is in the queue -/
  | entered (x : Item)
  /-- it is called -/
  | began (t : Tid) (x : Item)
  /-- it has returned -/
  | done (t : Tid) (x : Item)
  /-- it is destroyed, on this thread -/
  | dropped (t : Tid) (x : Item)
  /-- a run loop is entered -/
  | enters (t : Tid)
  /-- and left -/
  | leaves (t : Tid)
deriving DecidableEq

structure State where
  q : List Item
  closed : Bool
  /-- the owner of the queue's mutex, where it is kept over a step -/
  lock : Option Tid
  stk : Tid → List Frame
  next : Item
  log : List Ev

def init : State := { q := [], closed := false, lock := none, stk := fun _ => [], next := 0, log := [] }

def upd {β : Type} (f : Nat → β) (i : Nat) (v : β) : Nat → β := fun j => if j = i then v else f j

def go (s : State) (t : Tid) (l : List Frame) (es : List Ev) : State := { s with stk := upd s.stk t l, log := s.log ++ es }

/-- Only user code (or a thread outside) can make calls. -/
def canCall (s : State) (t : Tid) : Bool :=
  match s.stk t with
  | [] => true
  | f :: _ => f.isUser

def callStep (s : State) (t : Tid) : Call → State
  -- 299-301; a refused function is destroyed by the caller
  | .async =>
    if s.closed then { go s t (.dtor s.next :: s.stk t) [.made t s.next, .dropped t s.next] with next := s.next + 1 }
    else { go s t (.push1 s.next :: s.stk t) [.made t s.next] with next := s.next + 1 }
  -- 384
  | .size => go s t (.size :: s.stk t) []
  -- 249-251, ThreadSafeQueue.h 111-117
  | .stop => if s.closed then s else { go s t (.clear :: s.stk t) [] with closed := true }
  -- 256
  | .reuse => { s with closed := false }
  -- 194-206, 217-222, 234-239
  | .run k => go s t (.loop k none :: s.stk t) [.enters t]

def stepFrame (s : State) (t : Tid) (rest : List Frame) : Frame → Option State
  -- user code returns
  | .code x => some (go s t rest [.done t x])
  | .dtor _ => some (go s t rest [])
  -- ThreadSafeQueue.h 54-66, 87-97
  | .loop k prev =>
    if s.lock ≠ none then none
    else if s.closed then some (go s t (.ending prev :: rest) [])
    else match s.q with
      | [] => none
      | x :: q' =>
        match prev with
        | none => some { go s t (.swap k x :: rest) [] with q := q', lock := some t }
        | some y => some { go s t (.dtor y :: .swap k x :: rest) [.dropped t y] with q := q', lock := some t }
  -- the mutex is unlocked, `invoke` (208-210)
  | .swap k x => some { go s t (.code x :: .after k x :: rest) [.began t x] with lock := none }
  -- 208, 224, 241-244
  | .after k x => some (go s t ((if k = .once then .ending (some x) else .loop k (some x)) :: rest) [])
  -- 211, 227, 247
  | .ending prev =>
    match prev with
    | some x => some (go s t (.dtor x :: .ending none :: rest) [.dropped t x])
    | none => some (go s t rest [.leaves t])
  -- ThreadSafeQueue.h 32; the element is destroyed by the caller
  | .push1 x => if s.closed then some (go s t (.dtor x :: rest) [.dropped t x]) else some (go s t (.push2 x :: rest) [])
  -- 33-35
  | .push2 x => if s.lock ≠ none then none else some { go s t rest [.entered x] with q := s.q ++ [x] }
  -- 135
  | .size => if s.lock ≠ none then none else some (go s t rest [])
  -- 121-133
  | .clear => if s.lock ≠ none then none else some { go s t (.clearing s.q :: rest) [] with q := [], lock := some t }
  | .clearing xs =>
    match xs with
    | x :: xs => some (go s t (.dtor x :: .clearing xs :: rest) [.dropped t x])
    | [] => some { go s t rest [] with lock := none }

inductive Act where
  | call (t : Tid) (c : Call)
  /-- the topmost activation goes on -/
  | step (t : Tid)
  /-- a wait with a deadline gives up (ThreadSafeQueue.h 57-59: the predicate is tested with the mutex locked) -/
  | timeout (t : Tid)
deriving DecidableEq

def Act.tid : Act → Tid
  | .call t _ => t
  | .step t => t
  | .timeout t => t

def step (s : State) : Act → Option State
  | .call t c => if canCall s t then some (callStep s t c) else none
  | .step t =>
    match s.stk t with
    | [] => none
    | f :: rest => stepFrame s t rest f
  | .timeout t =>
    match s.stk t with
    | .loop k prev :: rest =>
      if k = .forever ∨ s.lock ≠ none ∨ s.closed ∨ s.q ≠ [] then none
      else some (go s t (.ending prev :: rest) [])
    | _ => none

def run (s : State) : List Act → Option State
  | [] => some s
  | a :: as => (step s a).bind fun s' => run s' as

end Maf.Drop
