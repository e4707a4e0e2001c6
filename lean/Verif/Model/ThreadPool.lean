import Verif.Model.Queue
/-
The thread pools, on top of the queue model.

Models include/maf/threading/ThreadPoolImplBase.h (all), and
src/common/maf/threading/threadpool/{StableThreadPool,DynamicCountThreadPool,
PriorityThreadPool}.cpp.

A pool step is either a step of its task queue (`Maf.Q.step`), or one of the pool's own
atomic actions. Threads: `w t` says where `t` is in the worker loop (`notWorker` for the
threads that use the pool), `u t` where `t` is inside the pool's `run`.
Not modelled: exceptions thrown by a task; a task that shuts down the pool it runs on.
-/
namespace Maf.Pool
open Maf.Q (Tid)

/-- Where a thread is in `coptRunPendingTask`/`coptRun` (78-89). -/
inductive WPc (α : Type) where
  /-- not a thread of the pool -/
  | notWorker
  /-- inside `_taskQueue.wait(task)` (86) or about to call it -/
  | loop
  /-- about to `addToRunningTasks` (79) -/
  | toAdd (x : α)
  /-- about to call `_fRun` (80) -/
  | toRun (x : α)
  /-- inside `_fRun` -/
  | running (x : α)
  /-- about to `removeFromRunningTasks` (81) -/
  | toRemove (x : α)
  /-- about to call `_fDone` (82) -/
  | toDone (x : α)
  /-- left the loop -/
  | exited
deriving DecidableEq

/-- Where a thread is in the pool's `run`. -/
inductive UPc (α : Type) where
  | idle
  /-- `activeThreadCount() < maxThreadCount()` was true (DynamicCountThreadPool.cpp:12),
  about to evaluate `_pool.size() < _maxThreadCount` again (39) -/
  | tryLaunch (x : α)
  /-- that was true too, about to `emplace_back` (41) -/
  | emplace (x : α)
  /-- about to push (49) -/
  | toPush (x : α)
deriving DecidableEq

/-- Where the (only, `call_once`) execution of `stopThePool` (69-74) is. -/
inductive SPc where
  | notCalled
  /-- inside `close`, before its `notify_all` -/
  | closing (t : Tid)
  | stopping (t : Tid)
  | clearing (t : Tid)
  /-- in the join loop (123-127), about to look at the `i`-th thread -/
  | joining (t : Tid) (i : Nat)
  | finished
deriving DecidableEq

/-- What the pool does with tasks. -/
inductive PEv (α : Type) where
  /-- `_taskQueue.wait` gave `x` to worker `t` -/
  | took (t : Tid) (x : α)
  /-- `_fRun(x)` -/
  | ran (t : Tid) (x : α)
  /-- `_fStop(x)` -/
  | stopped (x : α)
  /-- `_fDone(x)` by a worker, after running it -/
  | doneRun (t : Tid) (x : α)
  /-- `_fDone(x)` for a task still queued at shutdown -/
  | doneQueued (x : α)
deriving DecidableEq

structure State (α : Type) where
  tq : Maf.Q.State α
  /-- `_pool` -/
  workers : List Tid
  /-- the threads of `_pool` that were joined -/
  joined : List Tid
  w : Tid → WPc α
  u : Tid → UPc α
  sh : SPc
  /-- `_runningTasks` -/
  runningTasks : List α
  /-- `_maxThreadCount` -/
  max : Nat
  /-- `std::thread::hardware_concurrency()` -/
  hw : Nat
  /-- launches the constructor still has to try (StableThreadPool.cpp:27,
  PriorityThreadPool.cpp:33); 0 for the dynamic pool -/
  ctor : Nat
  /-- the pool was destroyed: `some true` normally, `some false` by `std::terminate`
  (a joinable `std::thread` was destroyed) -/
  destroyed : Option Bool
  log : List (PEv α)

/-- Constructor (30-34): 0 means `hardware_concurrency()`. -/
def maxCount (hw n : Nat) : Nat := if n ≠ 0 then n else hw

/-- A new pool. `stable`: the fixed-size pools (Stable, Priority). -/
def init (α : Type) (stable : Bool) (hw n : Nat) : State α :=
  { tq := Maf.Q.init α, workers := [], joined := [], w := fun _ => .notWorker, u := fun _ => .idle
    sh := .notCalled, runningTasks := [], max := maxCount hw n, hw := hw
    ctor := if stable then maxCount hw n else 0, destroyed := none, log := [] }

inductive Act (α : Type) where
  /-- constructor: one `tryLaunchNewThread`; `ok = false`: std::system_error (43) -/
  | ctorLaunch (t : Tid) (ok : Bool)
  /-- call of the pool's `run(x)`, fixed-size pools -/
  | callRun (t : Tid) (x : α)
  /-- call of the dynamic pool's `run(x)` -/
  | callRunDyn (t : Tid) (x : α)
  /-- `_pool.size() < _maxThreadCount` (39) -/
  | checkSize (t : Tid)
  /-- `emplace_back` of thread `n` (41) -/
  | emplace (t : Tid) (n : Tid) (ok : Bool)
  /-- `_taskQueue.push`, first half -/
  | push (t : Tid)
  /-- `_taskQueue.push`, second half -/
  | doPush (t : Tid) (wake : Option Tid)
  /-- a step of worker `t` inside `_taskQueue.wait` -/
  | wait (t : Tid) (a : Maf.Q.Act α)
  | add (t : Tid)
  | begin (t : Tid)
  | finish (t : Tid)
  | remove (t : Tid)
  | done (t : Tid)
  /-- `setMaxThreadCount` of the dynamic pool (it does nothing for the others: StableThreadPool.cpp:43, PriorityThreadPool.h:13) -/
  | setMax (t : Tid) (n : Nat)
  | shutdown (t : Tid)
  | notify (t : Tid)
  | stopRunning (t : Tid)
  | clear (t : Tid)
  | join (t : Tid)
  /-- the destructor, after `shutdown` -/
  | destroy

def set {β : Type} (f : Tid → β) (t : Tid) (b : β) : Tid → β := fun v => if v = t then b else f v

/-- The thread of a queue step that is part of an untimed `wait` (ThreadSafeQueue.h:55-66). -/
def waitStep {α : Type} : Maf.Q.Act α → Option Tid
  | .callWait t false => some t
  | .evalEmpty t => some t
  | .evalClosed t => some t
  | .block t => some t
  | .spurious t => some t
  | .reacquire t => some t
  | .finish t _ => some t
  | _ => none

/-- `while (_taskQueue.wait(task))` (86): what a step of `wait` returned, if it returned. -/
def afterWait {α : Type} (before after : List (Maf.Q.Ev α)) : WPc α :=
  match after.drop before.length with
  | [.got _ x] => .toAdd x
  | [.gaveUp _] => .exited
  | _ => .loop

/-- A thread that may call the pool: a foreign one, or a task running on a worker. -/
def mayCall {α : Type} (s : State α) (t : Tid) : Bool :=
  s.ctor == 0 && s.destroyed.isNone && (match s.w t with | .notWorker => true | .running _ => true | _ => false)

def step {α : Type} [DecidableEq α] (k : Maf.Q.Kind α) (s : State α) : Act α → Option (State α)
  -- StableThreadPool.cpp:27-29, PriorityThreadPool.cpp:33-35 with ThreadPoolImplBase.h:38-47
  | .ctorLaunch n ok =>
    match s.ctor with
    | 0 => none
    | c + 1 =>
      if s.w n ≠ .notWorker ∨ s.u n ≠ .idle then none
      else if s.workers.length < s.max ∧ ok then
        some { s with ctor := c, workers := s.workers ++ [n], w := set s.w n .loop }
      else some { s with ctor := c }
  -- StableThreadPool.cpp:39-41, PriorityThreadPool.cpp:47-49
  | .callRun t x =>
    if mayCall s t = false ∨ s.u t ≠ .idle ∨ (s.tq.pc t).isIdle = false then none
    else some { s with u := set s.u t (.toPush x) }
  -- DynamicCountThreadPool.cpp:10-17 (a null task never gets here)
  | .callRunDyn t x =>
    if mayCall s t = false ∨ s.u t ≠ .idle ∨ (s.tq.pc t).isIdle = false then none
    else if s.workers.length < s.max then some { s with u := set s.u t (.tryLaunch x) }
    else some { s with u := set s.u t (.toPush x) }
  -- ThreadPoolImplBase.h:39
  | .checkSize t =>
    match s.u t with
    | .tryLaunch x =>
      if s.workers.length < s.max then some { s with u := set s.u t (.emplace x) }
      else some { s with u := set s.u t (.toPush x) }
    | _ => none
  -- ThreadPoolImplBase.h:41-45
  | .emplace t n ok =>
    match s.u t with
    | .emplace x =>
      if s.w n ≠ .notWorker ∨ s.u n ≠ .idle ∨ n = t ∨ (s.tq.pc n).isIdle = false then none
      else if ok then
        some { s with workers := s.workers ++ [n], w := set s.w n .loop, u := set s.u t (.toPush x) }
      else some { s with u := set s.u t (.toPush x) }
    | _ => none
  -- ThreadPoolImplBase.h:49
  | .push t =>
    match s.u t with
    | .toPush x => (Maf.Q.step k s.tq (.callPush t [x] false)).map fun q' => { s with tq := q', u := set s.u t .idle }
    | _ => none
  | .doPush t wake =>
    if mayCall s t = false then none
    else (Maf.Q.step k s.tq (.doPush t wake)).map fun q' => { s with tq := q' }
  -- ThreadPoolImplBase.h:84-89
  | .wait t a =>
    if s.w t ≠ .loop ∨ waitStep a ≠ some t then none
    else (Maf.Q.step k s.tq a).map fun q' =>
      { s with
        tq := q', w := set s.w t (afterWait s.tq.log q'.log)
        log := s.log ++ match afterWait s.tq.log q'.log with | .toAdd x => [.took t x] | _ => [] }
  -- ThreadPoolImplBase.h:79, 101-104
  | .add t =>
    match s.w t with
    | .toAdd x => some { s with runningTasks := s.runningTasks ++ [x], w := set s.w t (.toRun x) }
    | _ => none
  -- ThreadPoolImplBase.h:80
  | .begin t =>
    match s.w t with
    | .toRun x => some { s with w := set s.w t (.running x), log := s.log ++ [.ran t x] }
    | _ => none
  | .finish t =>
    match s.w t with
    | .running x =>
      if s.u t ≠ .idle ∨ (s.tq.pc t).isIdle = false then none
      else some { s with w := set s.w t (.toRemove x) }
    | _ => none
  -- ThreadPoolImplBase.h:81, 105-114
  | .remove t =>
    match s.w t with
    | .toRemove x => some { s with runningTasks := s.runningTasks.erase x, w := set s.w t (.toDone x) }
    | _ => none
  -- ThreadPoolImplBase.h:82
  | .done t =>
    match s.w t with
    | .toDone x => some { s with w := set s.w t .loop, log := s.log ++ [.doneRun t x] }
    | _ => none
  -- ThreadPoolImplBase.h:57-63, DynamicCountThreadPool.cpp:19-21
  | .setMax t n =>
    if mayCall s t = false then none
    else some { s with max := maxCount s.hw n }
  -- ThreadPoolImplBase.h:65-67, 70: first caller only
  | .shutdown t =>
    if s.sh ≠ .notCalled ∨ s.w t ≠ .notWorker ∨ s.u t ≠ .idle ∨ s.ctor ≠ 0 then none
    else (Maf.Q.step k s.tq (.callClose t)).map fun q' => { s with tq := q', sh := .closing t }
  | .notify t =>
    if s.sh ≠ .closing t then none
    else (Maf.Q.step k s.tq (.notifyAll t)).map fun q' => { s with tq := q', sh := .stopping t }
  -- ThreadPoolImplBase.h:71, 115-120
  | .stopRunning t =>
    if s.sh ≠ .stopping t then none
    else some { s with sh := .clearing t, log := s.log ++ s.runningTasks.map .stopped }
  -- ThreadPoolImplBase.h:72
  | .clear t =>
    if s.sh ≠ .clearing t then none
    else (Maf.Q.step k s.tq (.clear t)).map fun q' =>
      { s with tq := q', sh := .joining t 0, log := s.log ++ s.tq.q.map .doneQueued }
  -- ThreadPoolImplBase.h:73, 122-128
  | .join t =>
    match s.sh with
    | .joining v i =>
      if v ≠ t then none
      else match s.workers[i]? with
        | some n =>
          if s.w n = .exited then some { s with sh := .joining t (i + 1), joined := s.joined ++ [n] } else none
        | none => some { s with sh := .finished }
    | _ => none
  -- ThreadPoolImplBase.h:36 and the destructor of `_pool`
  | .destroy =>
    if s.sh ≠ .finished ∨ s.destroyed.isSome then none
    else some { s with destroyed := some (s.workers.all fun n => s.joined.contains n) }

/-- Any schedule. -/
def run {α : Type} [DecidableEq α] (k : Maf.Q.Kind α) (s : State α) : List (Act α) → Option (State α)
  | [] => some s
  | a :: as => (step k s a).bind fun s' => run k s' as

end Maf.Pool
