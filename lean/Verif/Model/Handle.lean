/-
Typed requests.

Models include/maf/messaging/client-server/RequestT.h 17-124 (the handles given to typed request handlers), BasicStub.h
`registerRequestHandler`, on top of src/common/maf/messaging/client-server/Request.cpp (`reply`, `valid`, `invalidate`) and
ServiceProvider.cpp 68-81 (`respondToRequest`), 256-296 (`saveRequestInfo`, `getRequestInfo`, `invalidateAndRemoveAllRequests`),
316-326 (`onRequestAborted`). A handle is a variable of type `RequestT`; which variables there are, and when they are moved and
destroyed, is up to the user's program. Simplified: one call at a time (overlapping calls are in Model/Provider); every message is
sent; payloads are left out; the provider lives as long as its requests. `onAborted` is in Model/Provider.
-/
namespace Maf.Hdl

/-- operation and request id, chosen by the client -/
structure Key where
  op : Nat
  id : Nat
deriving DecidableEq

inductive Answer where
  /-- `respond` -/
  | output
  /-- `error` -/
  | error
  /-- the destructor's `ResponseIgnored` -/
  | ignored
deriving DecidableEq

/-- `ActionCallStatus` of `respond` and `update`: `Success`, `InvalidCall`, `FailedUnknown` -/
inductive Res where
  | success
  | invalid
  | failed
deriving DecidableEq

/-- What can be observed. Requests are numbered in the order of arrival. -/
inductive Ev where
  /-- a request of client `c` comes in -/
  | arrived (r : Nat) (c : Nat) (k : Key)
  /-- the executor does not take the handler's task -/
  | refused (r : Nat)
  /-- the handler is called with the request -/
  | started (r : Nat)
  /-- a final answer of request `r` is sent to client `c` -/
  | answered (r : Nat) (c : Nat) (k : Key) (a : Answer)
  /-- a partial answer of request `r` is sent to client `c` -/
  | updated (r : Nat) (c : Nat) (k : Key)
  /-- `respond`, `error` (`final`) or `update` on a handle of request `r` returns -/
  | result (r : Nat) (final : Bool) (b : Res)
  /-- the provider has ended request `r`: its client aborts it -/
  | aborted (r : Nat)
  /-- the provider has ended request `r`: it ends itself -/
  | ended (r : Nat)
  /-- a handle of request `r` is overwritten by a move assignment -/
  | overwritten (r : Nat)
deriving DecidableEq

structure State where
  /-- number of requests that came in -/
  n : Nat
  client : Nat → Nat
  key : Nat → Key
  /-- `_valid` of a request -/
  valid : Nat → Bool
  /-- `requestsMap_`: all requests the provider knows, in the order of arrival -/
  map : List Nat
  /-- tasks of the executor -/
  tasks : List Nat
  /-- the variables of type `RequestT`: `none` there is no such variable, `some none` its delegate is null -/
  var : Nat → Option (Option Nat)
  ub : Bool
  log : List Ev

def init : State := ⟨0, fun _ => 0, fun _ => ⟨0, 0⟩, fun _ => false, [], [], fun _ => none, false, []⟩

def upd {α : Type} (f : Nat → α) (i : Nat) (x : α) : Nat → α := fun j => if j = i then x else f j

/-- ServiceProvider.cpp 263-283: the first request of the operation with this id -/
def lookup (s : State) (k : Key) : Option Nat := s.map.find? fun r => s.key r == k

/-- ServiceProvider.cpp 256-261, 328-330 and BasicStub.h: the handler makes a task of it. `ok`: the executor takes it. -/
def arrive (s : State) (c : Nat) (k : Key) (ok : Bool) : State :=
  { s with
    n := s.n + 1
    client := upd s.client s.n c
    key := upd s.key s.n k
    valid := upd s.valid s.n true
    map := s.map ++ [s.n]
    tasks := if ok then s.tasks ++ [s.n] else s.tasks
    log := s.log ++ (.arrived s.n c k :: if ok then [] else [.refused s.n]) }

/-- the destructor's answer returns to nobody -/
def returns (r : Nat) (a : Answer) : List Ev := if a = .ignored then [] else [.result r true .success]

/-- Request.cpp 34-66, 82-92 and ServiceProvider.cpp 68-81: the final answer `a` of request `r`. The request that is
completed is the one found by its id. -/
def finish (s : State) (r : Nat) (a : Answer) : State :=
  match lookup s (s.key r) with
  | none => { s with ub := true }
  | some q => { s with valid := upd s.valid q false, map := s.map.erase q, log := s.log ++ (.answered r (s.client r) (s.key r) a :: returns r a) }

/-- RequestT.h 73-115: `respond` and `error`; the user's answer `a` -/
def respond (s : State) (v : Nat) (a : Answer) : Option State :=
  match s.var v with
  | none => none
  | some none => some { s with ub := true }
  | some (some r) =>
    if s.valid r then some (finish s r a)
    else some { s with log := s.log ++ [.result r true .invalid] }

/-- RequestT.h 105: `update`; the message is sent if the provider finds a request with this id -/
def update (s : State) (v : Nat) : Option State :=
  match s.var v with
  | none => none
  | some none => some { s with ub := true }
  | some (some r) =>
    if s.valid r = false then some { s with log := s.log ++ [.result r false .invalid] }
    else if (lookup s (s.key r)).isSome then some { s with log := s.log ++ [.updated r (s.client r) (s.key r), .result r false .success] }
    else some { s with log := s.log ++ [.result r false .failed] }

/-- RequestT.h 41-46: the destructor -/
def destroy (s : State) (v : Nat) : Option State :=
  match s.var v with
  | none => none
  | some none => some { s with var := upd s.var v none }
  | some (some r) =>
    if s.valid r then some { finish s r .ignored with var := upd s.var v none }
    else some { s with var := upd s.var v none }

/-- the delegate that is lost by an assignment to the variable -/
def lost : Option Nat → List Ev
  | none => []
  | some r => [.overwritten r]

/-- RequestT.h 39: `w = std::move(v)` -/
def assign (s : State) (v w : Nat) : Option State :=
  match s.var v, s.var w with
  | some d, some e => if v = w then some s else some { s with var := upd (upd s.var v (some none)) w (some d), log := s.log ++ lost e }
  | _, _ => none

/-- RequestT.h 38: a new variable `w` made from `std::move(v)` -/
def move (s : State) (v w : Nat) : Option State :=
  match s.var v, s.var w with
  | some d, none => some { s with var := upd (upd s.var v (some none)) w (some d) }
  | _, _ => none

/-- BasicStub.h `registerRequestHandler`: the task is executed, the handler's parameter is the new variable `v` -/
def start (s : State) (v : Nat) : Option State :=
  match s.tasks, s.var v with
  | r :: rest, none => some { s with tasks := rest, var := upd s.var v (some (some r)), log := s.log ++ [.started r] }
  | _, _ => none

/-- ServiceProvider.cpp 316-326 -/
def abort (s : State) (k : Key) : State :=
  match lookup s k with
  | none => s
  | some q => { s with valid := upd s.valid q false, map := s.map.erase q, log := s.log ++ [.aborted q] }

/-- ServiceProvider.cpp 285-296; the requests stay in the map -/
def deinit (s : State) : State :=
  { s with valid := fun r => s.valid r && !(s.map.contains r), log := s.log ++ s.map.map .ended }

inductive Act where
  | arrive (c : Nat) (k : Key) (ok : Bool)
  | start (v : Nat)
  | respond (v : Nat) (err : Bool)
  | update (v : Nat)
  | destroy (v : Nat)
  | assign (v w : Nat)
  | move (v w : Nat)
  /-- RequestT.h 37: a new variable without request -/
  | new (v : Nat)
  | abort (k : Key)
  | deinit

def body (s : State) : Act → Option State
  | .arrive c k ok => some (arrive s c k ok)
  | .start v => start s v
  | .respond v err => respond s v (if err then .error else .output)
  | .update v => update s v
  | .destroy v => destroy s v
  | .assign v w => assign s v w
  | .move v w => move s v w
  | .new v => if (s.var v).isNone then some { s with var := upd s.var v (some none) } else none
  | .abort k => some (abort s k)
  | .deinit => some (deinit s)

/-- No step after undefined behaviour. -/
def step (s : State) (a : Act) : Option State := if s.ub then none else body s a

def run (s : State) : List Act → Option State
  | [] => some s
  | a :: as => (step s a).bind fun s' => run s' as

end Maf.Hdl
