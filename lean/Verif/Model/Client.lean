import Verif.Model.Calls
/-
Clients: which services there are, the requesters, and the observers of a service's availability.

Models src/common/maf/messaging/client-server/ClientBase.cpp, the server monitoring of ipc/LocalIPCClient.cpp (106-143), and the
parts of ServiceRequester.cpp that deal with the availability of the service (120-147, 161, 244-290). What else a requester does is in Model/Requester.lean.

Every call is a program of atomic operations (Model/Calls.lean), and calls are interleaved arbitrarily. A call of an observer is one operation, when it begins; its
outcome is chosen by the environment: it returns, it throws `UnavailableException`, or it throws something else. Calls an observer makes are calls like others.

Simplifications. The maps are lists of pairs in the order of insertion (theirs is that of the service ids). Service ids are numbers; that they are not the invalid id is
part of the message. `getServiceRequester` locks both maps (82, 91); here the section is one operation, which is possible when both are free. A new requester that is told
its service's status (94) has no observers and nothing to drop. The list of observers is locked while they are told; those that throw are erased from it one by one; here, at the
end: nobody else sees the list before. `deinit` of a requester drops its requests, as the loss of the service does, but not the registrations.
-/
namespace Maf.Cli
open Maf.Calls

abbrev Sid := Nat
/-- A requester. -/
abbrev Rq := Nat
/-- An observer of a service's status. -/
abbrev Obs := Nat

/-- `Availability` -/
inductive Avail where
  | available | unavailable | unknown
deriving DecidableEq

/-- What the environment does: an observer returns, throws `UnavailableException`, or throws something else; a requester accepts a message or not (`ok` or not); a send is successful or not. -/
inductive Out where
  | ok | gone | throws
deriving DecidableEq

/-- An incoming message. `status`: a service status update with a valid service id (`unknown`: neither of the two operation ids). -/
inductive Msg where
  | status (sid : Sid) (st : Avail)
  | other (sid : Sid) (tag : Nat)
deriving DecidableEq

inductive Query where
  /-- `(*_serviceStatusMap.atomic())[sid] = st` -/
  | store (sid : Sid) (st : Avail)
  | clearMap
  | read (sid : Sid)
  | lockMap
  | unlockMap
  | getReq (sid : Sid)
  | hasReq (sid : Sid)
  | findReq (sid : Sid)
  /-- the lock of `_requestersMap` is kept -/
  | lockReq (sid : Sid)
  | lockReqs
  | unlockReqs
  | forgetReqs
  /-- the status of a requester -/
  | status (r : Rq)
  /-- the same, by `onServiceStatusChanged` -/
  | check (r : Rq)
  | setStatus (r : Rq) (st : Avail)
  /-- its requests and registrations are dropped -/
  | drop (r : Rq)
  | dropReqs (r : Rq)
  | addObs (r : Rq) (o : Obs)
  | removeObs (r : Rq) (o : Obs)
  | lockObs (r : Rq)
  | unlockObs (r : Rq) (os : List Obs)
  | tell (r : Rq) (o : Obs) (old new : Avail)
  /-- the same by `registerServiceStatusObserver`: from `Unknown` to `Available` -/
  | greet (r : Rq) (o : Obs)
  | deliver (r : Rq) (tag : Nat)
  /-- a message to the server: a registration for the statuses of all services, or the end of it -/
  | sendRegister
  | sendUnregister (sid : Sid)
  | server
  | setServer (st : Avail)
deriving DecidableEq

@[reducible] def Ans : Query → Type
  | .read _ => Option Avail
  | .lockMap => List Sid
  -- the requester; if it is new, its status
  | .getReq _ => Rq × Option Avail
  | .hasReq _ => Bool
  | .findReq _ => Option Rq
  | .lockReq _ => Option Rq
  | .lockReqs => List (Sid × Rq)
  | .status _ => Avail
  | .check _ => Avail
  | .addObs .. => Avail
  | .lockObs _ => List Obs
  | .tell .. => Out
  | .greet .. => Out
  | .deliver .. => Bool
  | .sendRegister => Bool
  | .sendUnregister _ => Bool
  | .server => Avail
  | _ => Unit

instance : ∀ q, DecidableEq (Ans q)
  | .read _ => inferInstanceAs (DecidableEq (Option Avail))
  | .lockMap => inferInstanceAs (DecidableEq (List Sid))
  | .getReq _ => inferInstanceAs (DecidableEq (Rq × Option Avail))
  | .hasReq _ => inferInstanceAs (DecidableEq Bool)
  | .findReq _ => inferInstanceAs (DecidableEq (Option Rq))
  | .lockReq _ => inferInstanceAs (DecidableEq (Option Rq))
  | .lockReqs => inferInstanceAs (DecidableEq (List (Sid × Rq)))
  | .status _ => inferInstanceAs (DecidableEq Avail)
  | .check _ => inferInstanceAs (DecidableEq Avail)
  | .addObs .. => inferInstanceAs (DecidableEq Avail)
  | .lockObs _ => inferInstanceAs (DecidableEq (List Obs))
  | .tell .. => inferInstanceAs (DecidableEq Out)
  | .greet .. => inferInstanceAs (DecidableEq Out)
  | .deliver .. => inferInstanceAs (DecidableEq Bool)
  | .sendRegister => inferInstanceAs (DecidableEq Bool)
  | .sendUnregister _ => inferInstanceAs (DecidableEq Bool)
  | .server => inferInstanceAs (DecidableEq Avail)
  | .store .. => inferInstanceAs (DecidableEq Unit)
  | .clearMap => inferInstanceAs (DecidableEq Unit)
  | .unlockMap => inferInstanceAs (DecidableEq Unit)
  | .unlockReqs => inferInstanceAs (DecidableEq Unit)
  | .forgetReqs => inferInstanceAs (DecidableEq Unit)
  | .setStatus .. => inferInstanceAs (DecidableEq Unit)
  | .drop _ => inferInstanceAs (DecidableEq Unit)
  | .dropReqs _ => inferInstanceAs (DecidableEq Unit)
  | .removeObs .. => inferInstanceAs (DecidableEq Unit)
  | .unlockObs .. => inferInstanceAs (DecidableEq Unit)
  | .setServer _ => inferInstanceAs (DecidableEq Unit)

/-- The shared state. -/
structure Sh where
  /-- `_serviceStatusMap` -/
  map : List (Sid × Avail)
  mapLock : Option Nat
  /-- `_requestersMap` -/
  reqs : List (Sid × Rq)
  reqLock : Option Nat
  nextRq : Rq
  /-- `serviceStatus_` of a requester -/
  status : Rq → Avail
  /-- `serviceStatusObservers_` -/
  obs : Rq → List Obs
  obsLock : Rq → Option Nat
  /-- `currentServerStatus_` -/
  server : Avail

def init : Sh :=
  { map := [], mapLock := none, reqs := [], reqLock := none, nextRq := 0, status := fun _ => .unavailable, obs := fun _ => [], obsLock := fun _ => none, server := .unavailable }

/-- `map.find(key)` -/
def get {β : Type} (m : List (Nat × β)) (k : Nat) : Option β := (m.find? (·.1 == k)).map (·.2)

/-- `map[key] = v` -/
def put {β : Type} (m : List (Nat × β)) (k : Nat) (v : β) : List (Nat × β) :=
  if (get m k).isSome then m.map fun x => if x.1 == k then (k, v) else x else m ++ [(k, v)]

/-- The operations. -/
def exec (s : Sh) (n : Nat) : (q : Query) → Out → Option (Ans q × Sh)
  -- ClientBase.cpp 30, 78
  | .store sid st, _ => if s.mapLock = none then some ((), { s with map := put s.map sid st }) else none
  -- 16
  | .clearMap, _ => if s.mapLock = none then some ((), { s with map := [] }) else none
  -- 105-108
  | .read sid, _ => if s.mapLock = none then some (get s.map sid, s) else none
  -- 127
  | .lockMap, _ => if s.mapLock = none then some (s.map.map (·.1), { s with mapLock := some n }) else none
  -- 133-134
  | .unlockMap, _ => some ((), { s with map := [], mapLock := none })
  -- 82-101
  | .getReq sid, _ =>
    if s.reqLock = none then
      match get s.reqs sid with
      | some r => some ((r, none), s)
      | none =>
        if s.mapLock = none then
          -- 92-96, ServiceRequester.cpp 244-257
          some ((s.nextRq, some ((get s.map sid).getD .unavailable)), { s with nextRq := s.nextRq + 1, reqs := s.reqs ++ [(sid, s.nextRq)], status := upd s.status s.nextRq ((get s.map sid).getD .unavailable) })
        else none
    else none
  -- 41
  | .hasReq sid, _ => if s.reqLock = none then some ((get s.reqs sid).isSome, s) else none
  -- 60-66
  | .findReq sid, _ => if s.reqLock = none then some (get s.reqs sid, s) else none
  -- 31-32
  | .lockReq sid, _ => if s.reqLock = none then some (get s.reqs sid, { s with reqLock := some n }) else none
  -- 17-18, 118-119
  | .lockReqs, _ => if s.reqLock = none then some (s.reqs, { s with reqLock := some n }) else none
  | .unlockReqs, _ => some ((), { s with reqLock := none })
  -- 123
  | .forgetReqs, _ => some ((), { s with reqs := [] })
  -- ServiceRequester.cpp 161
  | .status r, _ => some (s.status r, s)
  -- 248
  | .check r, _ => some (s.status r, s)
  -- 249, 251
  | .setStatus r st, _ => some ((), { s with status := upd s.status r st })
  -- 252-253
  | .drop _, _ => some ((), s)
  -- 169
  | .dropReqs _, _ => some ((), s)
  -- 128-130
  | .addObs r o, _ => if s.obsLock r = none ∧ r < s.nextRq then some (s.status r, { s with obs := upd s.obs r (s.obs r ++ [o]) }) else none
  -- 145
  | .removeObs r o, _ => if s.obsLock r = none ∧ r < s.nextRq then some ((), { s with obs := upd s.obs r ((s.obs r).filter (· != o)) }) else none
  -- 262
  | .lockObs r, _ => if s.obsLock r = none then some (s.obs r, { s with obsLock := upd s.obsLock r (some n) }) else none
  -- 271
  | .unlockObs r os, _ => some ((), { s with obs := upd s.obs r os, obsLock := upd s.obsLock r none })
  -- 266
  | .tell .., e => some (e, s)
  -- 136
  | .greet .., e => some (e, s)
  -- ClientBase.cpp 70
  | .deliver .., e => some (e == .ok, s)
  -- LocalIPCClient.cpp 112
  | .sendRegister, e => some (e == .ok, s)
  -- ClientBase.cpp 129
  | .sendUnregister _, e => some (e == .ok, s)
  -- LocalIPCClient.cpp 130
  | .server, _ => some (s.server, s)
  -- 117, 124
  | .setServer st, _ => some ((), { s with server := st })

inductive Res where
  | unit
  | bool (b : Bool)
  | avail (a : Avail)
  | req (r : Rq)
deriving DecidableEq

inductive Call where
  | getServiceRequester (sid : Sid)
  | hasServiceRequester (sid : Sid)
  | getServiceStatus (sid : Sid)
  | incoming (m : Msg)
  /-- `onServiceStatusChanged`: by an in-process server -/
  | serviceChanged (sid : Sid) (old new : Avail)
  /-- `LocalIPCClient::monitorServerStatus` finds that the server is available or not -/
  | monitor (st : Avail)
  | deinit
  /-- `ServiceRequester::serviceStatus` -/
  | serviceStatus (r : Rq)
  | registerObserver (r : Rq) (o : Obs)
  | unregisterObserver (r : Rq) (o : Obs)
deriving DecidableEq

abbrev P := Prog Query Ans

/-- One operation. -/
abbrev atom (q : Query) : P (Ans q) := ask q

/-- ServiceRequester.cpp 263-290: tells the observers in turn; returns those that stay. An exception other than `UnavailableException` leaves the function, and its callers are `noexcept`. -/
def tellAll (r : Rq) (old new : Avail) : List Obs → P (List Obs)
  | [] => pure []
  | o :: os => do
    match ← atom (.tell r o old new) with
    | .ok => do let ks ← tellAll r old new os; pure (o :: ks)
    | .gone => tellAll r old new os
    | .throws => .crash

/-- 259-291 -/
def forward (r : Rq) (old new : Avail) : P Unit := do
  let os ← atom (.lockObs r)
  let ks ← tellAll r old new os
  atom (.unlockObs r ks)

/-- 244-257 -/
def changeStatus (r : Rq) (old new : Avail) : P Unit := do
  let cur ← atom (.check r)
  if new = cur then pure ()
  else do
    atom (.setStatus r new)
    if new = .unavailable then do
      atom (.drop r)
      forward r old new
    else forward r old new

/-- 24-38 -/
def onServiceStatusChanged (sid : Sid) (old new : Avail) : P Unit := do
  atom (.store sid new)
  match ← atom (.lockReq sid) with
  | some r => do changeStatus r old new; atom .unlockReqs
  | none => atom .unlockReqs

/-- 18-20 -/
def changeAll (old new : Avail) : List (Sid × Rq) → P Unit
  | [] => pure ()
  | x :: xs => do changeStatus x.2 old new; changeAll old new xs

/-- 13-22 -/
def serverGone (old new : Avail) : P Unit := do
  atom .clearMap
  let rs ← atom .lockReqs
  changeAll old new rs
  atom .unlockReqs

/-- 44-75 -/
def onIncomingMessage : Msg → P Bool
  | .status sid st =>
    match st with
    | .available => do atom (.store sid .available); onServiceStatusChanged sid .unavailable .available; pure true
    | .unavailable => do atom (.store sid .unavailable); onServiceStatusChanged sid .available .unavailable; pure true
    | .unknown => pure true
  | .other sid tag => do
    match ← atom (.findReq sid) with
    | some r => atom (.deliver r tag)
    | none => pure false

/-- LocalIPCClient.cpp 106-126 -/
def onServerStatusChanged (old new : Avail) : P Unit :=
  if new = .available then do
    if ← atom .sendRegister then atom (.setServer new) else pure ()
  else do
    serverGone old new
    atom (.setServer new)

/-- LocalIPCClient.cpp 128-143, without the timer -/
def monitor (st : Avail) : P Unit := do
  let cur ← atom .server
  if cur = st then pure () else onServerStatusChanged cur st

/-- ClientBase.cpp 119-121 -/
def deinitReqs : List (Sid × Rq) → P Unit
  | [] => pure ()
  | x :: xs => do atom (.dropReqs x.2); deinitReqs xs

/-- 128-131 -/
def unregisterAll : List Sid → P Unit
  | [] => pure ()
  | x :: xs => do let _ ← atom (.sendUnregister x); unregisterAll xs

/-- 116-135 -/
def deinit : P Unit := do
  let rs ← atom .lockReqs
  deinitReqs rs
  atom .forgetReqs
  atom .unlockReqs
  let ss ← atom .lockMap
  unregisterAll ss
  atom .unlockMap

/-- ServiceRequester.cpp 120-141; an exception of the observer is the caller's -/
def registerObserver (r : Rq) (o : Obs) : P Unit := do
  let cur ← atom (.addObs r o)
  if cur = .available then do let _ ← atom (.greet r o); pure ()
  else pure ()

def prog : Call → P Res
  | .getServiceRequester sid => do let r ← atom (.getReq sid); pure (.req r.1)
  | .hasServiceRequester sid => do let b ← atom (.hasReq sid); pure (.bool b)
  -- 104-112
  | .getServiceStatus sid => do let o ← atom (.read sid); pure (.avail (o.getD .unavailable))
  | .incoming m => do let b ← onIncomingMessage m; pure (.bool b)
  | .serviceChanged sid old new => do onServiceStatusChanged sid old new; pure .unit
  | .monitor st => do monitor st; pure .unit
  | .deinit => do deinit; pure .unit
  | .serviceStatus r => do let a ← atom (.status r); pure (.avail a)
  | .registerObserver r o => do registerObserver r o; pure .unit
  | .unregisterObserver r o => do atom (.removeObs r o); pure .unit

@[reducible] def sys : Sys := { Call, Q := Query, A := Ans, R := Res, Sh, Env := Out, init, prog, exec }

abbrev Event := Ev Call Query Ans Res
abbrev St := State sys

end Maf.Cli
