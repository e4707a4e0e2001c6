/-
`ThreadSafeQueue`: a labelled transition system.

Models include/maf/threading/ThreadSafeQueue.h (all of it) for any number of threads.

Granularity. `closed_` is read and written without the mutex, so every access to it is a
step of its own. Everything else happens under the mutex of `queue_`; a critical section
that contains no access to `closed_` and does not block (push's, clear's) is one step;
`tryPop` reads `closed_` once, while holding the mutex, and is one step. A wait is several
steps. The condition variable is modelled by its specification: a wait set, atomic
release-and-block, `notify_one` wakes one member of the wait set (any) if there is one,
`notify_all` wakes all, spurious wake-ups at any time, timed waits may time out at any
time. Mutex: one owner.
-/
namespace Maf.Q

/-- Threads. -/
abbrev Tid := Nat

/-- Where a thread is inside a call on the queue. -/
inductive Pc (α : Type) where
  /-- outside -/
  | idle
  /-- `push`: `isClosed()` returned false (lines 25, 32, 46), mutex not yet taken.
  `all`: it is the sequence overload, which uses `notify_all` (line 51) -/
  | pushing (xs : List α) (all : Bool)
  /-- waits: holds the mutex, about to evaluate `!queue_->empty()` (58, 72, 90).
  `timed`: `waitUntil`/`waitFor`; `last`: the evaluation after a timeout -/
  | checkEmpty (timed last : Bool)
  /-- the queue was empty, about to evaluate `isClosed()` of the predicate -/
  | checkClosed (timed last : Bool)
  /-- the predicate was false; still holds the mutex, about to block -/
  | willBlock (timed : Bool)
  /-- in the wait set -/
  | blocked (timed : Bool)
  /-- notified (or woken spuriously), needs the mutex -/
  | woken (timed : Bool)
  /-- timed out, needs the mutex -/
  | expired
  /-- the predicate was true; holds the mutex, about to evaluate `isClosed()` again
  (lines 60, 75, 91) -/
  | recheck
  /-- `close` (line 113) has set `closed_`; about to `notify_all` -/
  | closing
deriving DecidableEq

def Pc.isIdle {α : Type} : Pc α → Bool
  | .idle => true
  | _ => false

/-- What can be observed, in order. -/
inductive Ev (α : Type) where
  /-- a push found the queue open and will insert these -/
  | accepted (t : Tid) (xs : List α)
  /-- a push found the queue closed -/
  | refused (t : Tid) (xs : List α)
  /-- an element was put in -/
  | entered (t : Tid) (x : α)
  /-- a wait or `tryPop` returned true with this element -/
  | got (t : Tid) (x : α)
  /-- a wait or `tryPop` returned false -/
  | gaveUp (t : Tid)
  /-- an element was discarded by `clear` -/
  | cleared (x : α)
deriving DecidableEq

structure State (α : Type) where
  q : List α
  closed : Bool
  owner : Option Tid
  waiters : List Tid
  pc : Tid → Pc α
  /-- undefined behaviour has happened: `front()`/`pop()` on an empty container -/
  ub : Bool
  log : List (Ev α)

/-- The container adaptor behind the queue: which element may be `front()`.
`std::queue`: the first; `std::priority_queue` (`PriorityQueue`, lines 149-159): any one
such that no element is greater; elements are kept in insertion order. -/
structure Kind (α : Type) where
  mayBeFront : List α → Nat → Bool

/-- `stdwrap::Queue` = `std::queue` (147). -/
def fifo (α : Type) : Kind α := ⟨fun _ i => i == 0⟩

/-- `stdwrap::PriorityQueue` (149-159) with comparison `lt`. -/
def prio {α : Type} (lt : α → α → Bool) : Kind α :=
  ⟨fun q i => match q[i]? with
    | some x => q.all fun y => !lt x y
    | none => false⟩

inductive Act (α : Type) where
  | callPush (t : Tid) (xs : List α) (all : Bool)
  | doPush (t : Tid) (wake : Option Tid)
  | callWait (t : Tid) (timed : Bool)
  | evalEmpty (t : Tid)
  | evalClosed (t : Tid)
  | block (t : Tid)
  | spurious (t : Tid)
  | timeout (t : Tid)
  | reacquire (t : Tid)
  | finish (t : Tid) (i : Nat)
  | tryPop (t : Tid) (i : Nat)
  | callClose (t : Tid)
  | notifyAll (t : Tid)
  | reOpen (t : Tid)
  | clear (t : Tid)
deriving DecidableEq

/-- Assignment of one thread's program counter. -/
def upd {α : Type} (f : Tid → Pc α) (t : Tid) (p : Pc α) : Tid → Pc α :=
  fun u => if u = t then p else f u

/-- A waiter is taken out of the wait set. -/
def wakeOne {α : Type} (s : State α) (t : Tid) : State α :=
  match s.pc t with
  | .blocked timed => { s with waiters := s.waiters.erase t, pc := upd s.pc t (.woken timed) }
  | _ => s

/-- `notify_all`. -/
def wakeAll {α : Type} (s : State α) : State α :=
  { s with
    waiters := []
    pc := fun u => match s.pc u with
      | .blocked timed => .woken timed
      | p => p }

/-- The initial state: constructor, line 21. -/
def init (α : Type) : State α :=
  { q := [], closed := false, owner := none, waiters := [], pc := fun _ => .idle, ub := false, log := [] }

/-- One step; `none`: not possible in this state. -/
def body {α : Type} (k : Kind α) (s : State α) : Act α → Option (State α)
  -- lines 25, 32, 46: the test outside the mutex. `all = false`: exactly one element.
  | .callPush t xs all =>
    if (s.pc t).isIdle = false ∨ (all = false ∧ xs.length ≠ 1) then none
    else if s.closed then some { s with log := s.log ++ [.refused t xs] }
    else some { s with pc := upd s.pc t (.pushing xs all), log := s.log ++ [.accepted t xs] }
  -- lines 26-28, 33-35, 47-51
  | .doPush t wake =>
    if s.owner ≠ none then none else
    match s.pc t with
    | .pushing xs all =>
      let s1 := { s with
        q := s.q ++ xs, pc := upd s.pc t .idle
        log := s.log ++ xs.map fun x => .entered t x }
      if all then (if wake = none then some (wakeAll s1) else none)
      else match wake with
        | none => if s.waiters = [] then some s1 else none
        | some w => if w ∈ s.waiters then some (wakeOne s1 w) else none
    | _ => none
  -- lines 56, 70, 88: take the mutex
  | .callWait t timed =>
    if (s.pc t).isIdle = false ∨ s.owner ≠ none then none
    else some { s with owner := some t, pc := upd s.pc t (.checkEmpty timed false) }
  -- first half of the predicate
  | .evalEmpty t =>
    match s.pc t with
    | .checkEmpty timed last =>
      if s.q = [] then some { s with pc := upd s.pc t (.checkClosed timed last) }
      else some { s with pc := upd s.pc t .recheck }
    | _ => none
  -- second half of the predicate; a false one after a timeout makes the wait return false
  | .evalClosed t =>
    match s.pc t with
    | .checkClosed timed last =>
      if s.closed then some { s with pc := upd s.pc t .recheck }
      else if last then
        some { s with pc := upd s.pc t .idle, owner := none, log := s.log ++ [.gaveUp t] }
      else some { s with pc := upd s.pc t (.willBlock timed) }
    | _ => none
  -- atomically release the mutex and enter the wait set
  | .block t =>
    match s.pc t with
    | .willBlock timed =>
      some { s with pc := upd s.pc t (.blocked timed), owner := none, waiters := t :: s.waiters }
    | _ => none
  | .spurious t =>
    match s.pc t with
    | .blocked _ => some (wakeOne s t)
    | _ => none
  | .timeout t =>
    match s.pc t with
    | .blocked true => some { s with waiters := s.waiters.erase t, pc := upd s.pc t .expired }
    | _ => none
  -- take the mutex again after waking up
  | .reacquire t =>
    if s.owner ≠ none then none else
    match s.pc t with
    | .woken timed => some { s with owner := some t, pc := upd s.pc t (.checkEmpty timed false) }
    | .expired => some { s with owner := some t, pc := upd s.pc t (.checkEmpty true true) }
    | _ => none
  -- lines 60-65, 75-80, 91-96
  | .finish t i =>
    match s.pc t with
    | .recheck =>
      if s.closed then
        some { s with pc := upd s.pc t .idle, owner := none, log := s.log ++ [.gaveUp t] }
      else if s.q = [] then some { s with ub := true }
      else match s.q[i]? with
        | some x =>
          if k.mayBeFront s.q i then
            some { s with
              q := s.q.eraseIdx i, pc := upd s.pc t .idle, owner := none
              log := s.log ++ [.got t x] }
          else none
        | none => none
    | _ => none
  -- lines 99-107
  | .tryPop t i =>
    if (s.pc t).isIdle = false ∨ s.owner ≠ none then none
    else if s.q ≠ [] ∧ s.closed = false then
      match s.q[i]? with
      | some x =>
        if k.mayBeFront s.q i then
          some { s with q := s.q.eraseIdx i, log := s.log ++ [.got t x] }
        else none
      | none => none
    else some { s with log := s.log ++ [.gaveUp t] }
  -- lines 111-114: compare_exchange_strong(false → true)
  | .callClose t =>
    if (s.pc t).isIdle = false then none
    else if s.closed then some s
    else some { s with closed := true, pc := upd s.pc t .closing }
  -- line 115
  | .notifyAll t =>
    match s.pc t with
    | .closing => some (wakeAll { s with pc := upd s.pc t .idle })
    | _ => none
  -- line 109
  | .reOpen t =>
    if (s.pc t).isIdle = false then none else some { s with closed := false }
  -- lines 121-133. Simplification: the callback is an observation only; it does not call
  -- back into the queue (that would deadlock on the mutex).
  | .clear t =>
    if (s.pc t).isIdle = false ∨ s.owner ≠ none then none
    else some { s with q := [], log := s.log ++ s.q.map .cleared }

/-- No step after undefined behaviour. -/
def step {α : Type} (k : Kind α) (s : State α) (a : Act α) : Option (State α) :=
  if s.ub then none else body k s a

/-- Any schedule: a sequence of steps of any threads. -/
def run {α : Type} (k : Kind α) (s : State α) : List (Act α) → Option (State α)
  | [] => some s
  | a :: as => (step k s a).bind fun s' => run k s' as

end Maf.Q
