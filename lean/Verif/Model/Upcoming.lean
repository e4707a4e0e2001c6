/-
Model of `Upcoming<T>`: a result that is still to come, and chains of
processes attached to it with `then`.

Models /repo/include/maf/threading/Upcoming.h, lines 11-37 (`UpcomingBase`),
39-70 (`Upcoming<Resource>`) and 72-97 (`Upcoming<void>`).

Simplifications.
* Resources are natural numbers; a `void` resource is the number 0, and only
  `get` tells the two kinds apart (as in the code).
* A process is a function of its input: it answers a value, throws a
  `std::future_error`, or throws something else.  It does not itself touch the
  variables of the model (no re-entrant use of the same objects).
* `std::future` is the one of libstdc++: using a future without shared state
  throws `future_error(no_state)` (the standard leaves it undefined).
* The variables belong to one thread each; producers are other threads.  A
  chain has exactly one source, at its bottom, so `get` and `wait` can block
  only before the first process is called: each is one step, disabled while
  the source is unresolved.
-/

namespace Maf.Up

/-- What a shared state of a future ends up with: a value, a
`std::future_error`, or another exception. -/
inductive Res where
  | val (v : Nat)
  | futErr
  | err (e : Nat)
deriving DecidableEq, Repr

/-- The callable given to `then` (Upcoming.h:47, 79); `toVoid` says that it
returns `void`.  `tag` names it. -/
structure Proc where
  tag : Nat
  toVoid : Bool
  body : Nat → Res

/-- A `std::future` (Upcoming.h:15-17, `resourceSink_`): without shared state;
the future of promise `c`; a deferred task made by `then` (lines 50-54, 82-87)
that owns the previous sink; or a deferred task that has already been run by
`wait`. Futures can only be moved, so this is a tree. -/
inductive Fut where
  | none
  | promise (c : Nat)
  | deferred (src : Fut) (p : Proc)
  | ready (r : Res)

/-- `resourceSink_.valid()` (Upcoming.h:23). -/
def Fut.valid : Fut → Bool
  | .none => false
  | _ => true

/-- An `Upcoming` object; `isVoid`: it is an `Upcoming<void>`. -/
structure Var where
  fut : Fut
  isVoid : Bool

/-- A default-constructed (or emptied) `Upcoming` (Upcoming.h:20). -/
def Var.empty (b : Bool) : Var := ⟨.none, b⟩

/-- What the call `get()` gives its caller. -/
inductive Got where
  /-- `get` of a value kind returned `optional{v}` -/
  | value (v : Nat)
  /-- `get` of a value kind returned `nullopt` -/
  | nothing
  /-- `get` of the void kind returned -/
  | done
  /-- an exception left `get` -/
  | threw (r : Res)
deriving DecidableEq, Repr

/-- `std::future_status`, or the exception thrown by waiting on nothing. -/
inductive Status where
  | ready | timeout | deferred | threw
deriving DecidableEq, Repr

inductive Ev where
  /-- process `tag` was called with `v` -/
  | ran (tag v : Nat)
  | got (x : Nat) (g : Got)
  | polled (x : Nat) (t : Status)
  /-- `wait` returned -/
  | waited (x : Nat)
  /-- `wait` threw `future_error(no_state)` -/
  | waitThrew (x : Nat)
deriving DecidableEq, Repr

/-- Promises, the user's variables, and what has been observed. -/
structure St where
  /-- result of each promise, once resolved -/
  cells : Nat → Option Res
  /-- has `get_future` of the promise been called -/
  taken : Nat → Bool
  vars : List Var
  log : List Ev

/-- `n` variables, all empty. -/
def init (n : Nat) : St :=
  { cells := fun _ => .none, taken := fun _ => false,
    vars := List.replicate n (Var.empty false), log := [] }

/-- One process of a chain on the result of its predecessor: `process(sink.get())`
(Upcoming.h:53; 85-86 for void). The predecessor's exception passes through. -/
def Proc.apply (p : Proc) : Res → Res
  | .val v => p.body v
  | .futErr => .futErr
  | .err e => .err e

/-- The call that this makes. -/
def Proc.calls (p : Proc) : Res → List Ev
  | .val v => [.ran p.tag v]
  | .futErr => []
  | .err _ => []

/-- `std::future::get` on the tree: result, and the calls made; `none` means
that it blocks. Deferred tasks run here, on the caller (Upcoming.h:50-54, 82-87). -/
def Fut.eval (cells : Nat → Option Res) : Fut → Option (Res × List Ev)
  | .none => some (.futErr, [])
  | .promise c => (cells c).map fun r => (r, [])
  | .ready r => some (r, [])
  | .deferred src p =>
    (src.eval cells).map fun re => (p.apply re.1, re.2 ++ p.calls re.1)

/-- `Upcoming<Resource>::get` (Upcoming.h:63-69): `future_error` becomes
`nullopt`; `Upcoming<void>` has only `UpcomingBase::get` (line 26). -/
def report (isVoid : Bool) : Res → Got
  | .val v => if isVoid then .done else .value v
  | .futErr => if isVoid then .threw .futErr else .nothing
  | .err e => .threw (.err e)

/-- `then` (Upcoming.h:46-61, 79-94): the sink moves into a deferred task, or an
empty object is returned if there is no sink. -/
def Fut.andThen (f : Fut) (p : Proc) : Fut :=
  if f.valid then .deferred f p else .none

/-- `wait_for`/`wait_until` (Upcoming.h:28-36): a deferred task that has not
been run is reported as such. -/
def Fut.status (cells : Nat → Option Res) : Fut → Status
  | .none => .threw
  | .promise c => if (cells c).isSome then .ready else .timeout
  | .ready _ => .ready
  | .deferred _ _ => .deferred

/-- What `wait` leaves behind (Upcoming.h:24): a deferred task is run and its
result stored. -/
def Fut.settle (f : Fut) (r : Res) : Fut :=
  match f with
  | .deferred _ _ => .ready r
  | .none => .none
  | .promise c => .promise c
  | .ready r' => .ready r'

/-- What the user and the producers can do. -/
inductive Act where
  /-- `x = Upcoming{promise_c.get_future()}` (Upcoming.h:21) -/
  | fetch (x c : Nat) (isVoid : Bool)
  /-- promise `c` is given a value or an exception -/
  | fulfil (c : Nat) (r : Res)
  /-- promise `c` is destroyed -/
  | abandon (c : Nat)
  /-- `y = x.then(p)` -/
  | andThen (x : Nat) (p : Proc) (y : Nat)
  /-- `y = std::move(x)` -/
  | move (x y : Nat)
  /-- `x = {}`, or `x` goes out of scope -/
  | drop (x : Nat)
  | get (x : Nat)
  | wait (x : Nat)
  /-- `waitFor`, `waitUntil` -/
  | poll (x : Nat)

def St.addLog (s : St) (es : List Ev) : St := { s with log := s.log ++ es }

def St.setVar (s : St) (x : Nat) (v : Var) : St := { s with vars := s.vars.set x v }

/-- First resolution wins: a second `set_value`/`set_exception` throws at the
producer and changes nothing. -/
def St.resolve (s : St) (c : Nat) (r : Res) : St :=
  { s with cells := fun d => if d = c then (s.cells c).orElse (fun _ => some r) else s.cells d }

def St.take (s : St) (c : Nat) : St :=
  { s with taken := fun d => if d = c then true else s.taken d }

/-- `x = Upcoming{promise_c.get_future()}`: a second `get_future` throws, so
nothing is assigned. -/
def doFetch (s : St) (x c : Nat) (b : Bool) : St :=
  if s.taken c then s else (s.take c).setVar x ⟨.promise c, b⟩

def doThen (s : St) (x : Nat) (v : Var) (p : Proc) (y : Nat) : St :=
  (s.setVar x (Var.empty v.isVoid)).setVar y ⟨v.fut.andThen p, p.toVoid⟩

def doMove (s : St) (x : Nat) (v : Var) (y : Nat) : St :=
  (s.setVar x (Var.empty v.isVoid)).setVar y v

/-- `get()`: the calls, then the answer; the shared state is released, also when
an exception leaves. -/
def doGet (s : St) (x : Nat) (v : Var) (re : Res × List Ev) : St :=
  (s.setVar x (Var.empty v.isVoid)).addLog (re.2 ++ [.got x (report v.isVoid re.1)])

/-- `wait()` (Upcoming.h:24). -/
def doWait (s : St) (x : Nat) (v : Var) (re : Res × List Ev) : St :=
  if v.fut.valid then
    (s.setVar x ⟨v.fut.settle re.1, v.isVoid⟩).addLog (re.2 ++ [.waited x])
  else s.addLog [.waitThrew x]

def doPoll (s : St) (x : Nat) (v : Var) : St :=
  s.addLog [.polled x (v.fut.status s.cells)]

/-- One step; `none` where the caller blocks (or the variable does not exist). -/
def step (s : St) : Act → Option St
  | .fetch x c b => if x < s.vars.length then some (doFetch s x c b) else none
  | .fulfil c r => some (s.resolve c r)
  | .abandon c => some (s.resolve c .futErr)
  | .andThen x p y =>
    if y < s.vars.length then (s.vars[x]?).map fun v => doThen s x v p y else none
  | .move x y =>
    if y < s.vars.length then (s.vars[x]?).map fun v => doMove s x v y else none
  | .drop x => (s.vars[x]?).map fun v => s.setVar x (Var.empty v.isVoid)
  | .get x =>
    (s.vars[x]?).bind fun v => (v.fut.eval s.cells).map fun re => doGet s x v re
  | .wait x =>
    (s.vars[x]?).bind fun v => (v.fut.eval s.cells).map fun re => doWait s x v re
  | .poll x => (s.vars[x]?).map fun v => doPoll s x v

def runs (s : St) : List Act → Option St
  | [] => some s
  | a :: as => (step s a).bind fun s' => runs s' as

end Maf.Up
