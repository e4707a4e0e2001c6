import Verif.Model.Calls
/-
Service providers: the server's side of requests, registrations, properties and signals.

Models src/common/maf/messaging/client-server/ServiceProvider.cpp (all but `startServing` and `stopServing`, which are in
Model/Client.lean) and Request.cpp.

Every call of a provider, of a request, and every delivery of a message is a program (Model/Calls.lean) of atomic
operations: critical sections, sends, and calls of the user's functions. Calls are interleaved arbitrarily. A send and a call of a
user's function are one operation, when it begins; the program goes on some time after it has ended. Calls made from within
(by a user's function, or by an in-process transport that delivers at once) are calls like others. That they end
before the function does is not modelled, so the model has at least the behaviours of the program.

Simplifications. The map of registrations from addresses to sets of operation ids is a list of pairs, in the order of the registrations
(the map's order is that of the addresses); that `Address::operator<` is not an order is the subject of C44 and ignored here.
A map entry with a null property is the same as none: nothing tells them apart. The requests of all operations are in one
list; a search for an operation skips the others. `getRequestInfo` locks the mutex of each request it looks at (273) to read its id,
which never changes; this is left out. `regEntriesMap_->clear()` in 295 does not have the lock of the map; here it is atomic, too.
User's functions do not throw. Addresses, operation ids and request ids are numbers.
-/
namespace Maf.Prov
open Maf.Calls

abbrev Addr := Nat
abbrev OpId := Nat
/-- A request object. -/
abbrev Rid := Nat
/-- A function of the user's (not an empty one). -/
abbrev Fn := Nat

/-- A payload object: `ref` is its address, `content` what it holds (`none`: a null content). `ipc`: an `OutgoingPayloadT`, else an `itc::Payload`. -/
structure Obj where
  ref : Nat
  ipc : Bool
  content : Option Nat
deriving DecidableEq

/-- `a.equal(&b)`: itc/Payload.h 26-37, ipc/local/OutgoingPayload.h 32-41. All payloads of one property have the same type. -/
def Obj.equal (a b : Obj) : Bool :=
  if a.ipc then b.ipc && (match a.content, b.content with | some x, some y => x == y | _, _ => false)
  else !b.ipc && b.ref != a.ref && (match a.content, b.content with | some x, some y => x == y | _, _ => false)

inductive Payload where
  | null
  | obj (o : Obj)
  /-- `CSError` with `HandlerUnavailable` -/
  | error
deriving DecidableEq

def Payload.of : Option Obj → Payload
  | none => .null
  | some o => .obj o

inductive Code where
  | statusRegister | signalRegister | unregister | clientOff | request | partialUpdate | statusGet | abort | other
deriving DecidableEq

/-- `addr`: the source address. -/
structure Msg where
  code : Code
  addr : Addr
  op : OpId
  /-- none: `RequestIDInvalid` -/
  id : Option Nat
  payload : Payload
deriving DecidableEq

/-- `ActionCallStatus` -/
inductive Status where
  | success | invalidCall | receiverBusy | receiverUnavailable | noAction | failedUnknown
  /-- any other -/
  | other (k : Nat)
deriving DecidableEq

/-- A call of a user's function. -/
inductive Cb where
  | handler (h : Fn) (r : Rid)
  | abort (f : Fn) (r : Rid)
  | listener (f : Fn) (p : Option Obj)
deriving DecidableEq

/-- What `Request::reply` finds under the request's mutex. -/
inductive Check where
  | invalid
  /-- valid, but the provider is gone -/
  | gone
  /-- valid; the request's message -/
  | ok (m : Msg)
deriving DecidableEq

/-- The atomic operations. -/
inductive Query where
  | saveReg (a : Addr) (op : OpId)
  | dropReg (a : Addr) (op : OpId)
  | dropAddr (a : Addr)
  | clearRegs
  /-- the addresses that are registered for `op` -/
  | registered (op : OpId)
  | status (op : OpId)
  | setStatus (op : OpId) (p : Option Obj)
  | dropStatus (op : OpId)
  | clearStatus
  | handler (op : OpId)
  | addHandler (op : OpId) (h : Fn)
  | dropHandler (op : OpId)
  | newReq (m : Msg)
  | find (op : OpId) (id : Option Nat) (remove : Bool)
  | lockReqs
  | unlockReqs
  | check (r : Rid)
  | invalidate (r : Rid)
  | abortFn (r : Rid)
  | setAbort (r : Rid) (f : Fn)
  | freeReq (r : Rid)
  | valid (r : Rid)
  | lockListeners (op : OpId)
  | unlockListeners
  | listen (op : OpId) (f : Fn)
  | expire
  | send (a : Addr) (m : Msg)
  | run (cb : Cb)
deriving DecidableEq

@[reducible] def Ans : Query → Type
  | .registered _ => List Addr
  | .status _ => Option Obj
  -- is it changed?
  | .setStatus .. => Bool
  | .handler _ => Option Fn
  | .addHandler .. => Bool
  | .dropHandler _ => Bool
  | .newReq _ => Rid
  | .find .. => Option Rid
  | .lockReqs => List Rid
  | .check _ => Check
  | .invalidate _ => Bool
  | .abortFn _ => Option Fn
  -- stored? otherwise the request is invalid, and its mutex remains locked
  | .setAbort .. => Bool
  | .valid _ => Bool
  | .lockListeners _ => List Fn
  | .send .. => Status
  | _ => Unit

instance : ∀ q, DecidableEq (Ans q)
  | .registered _ => inferInstanceAs (DecidableEq (List Addr))
  | .status _ => inferInstanceAs (DecidableEq (Option Obj))
  | .setStatus .. => inferInstanceAs (DecidableEq (Bool))
  | .handler _ => inferInstanceAs (DecidableEq (Option Fn))
  | .addHandler .. => inferInstanceAs (DecidableEq (Bool))
  | .dropHandler _ => inferInstanceAs (DecidableEq (Bool))
  | .newReq _ => inferInstanceAs (DecidableEq (Rid))
  | .find .. => inferInstanceAs (DecidableEq (Option Rid))
  | .lockReqs => inferInstanceAs (DecidableEq (List Rid))
  | .check _ => inferInstanceAs (DecidableEq (Check))
  | .invalidate _ => inferInstanceAs (DecidableEq (Bool))
  | .abortFn _ => inferInstanceAs (DecidableEq (Option Fn))
  | .setAbort .. => inferInstanceAs (DecidableEq (Bool))
  | .valid _ => inferInstanceAs (DecidableEq (Bool))
  | .lockListeners _ => inferInstanceAs (DecidableEq (List Fn))
  | .send .. => inferInstanceAs (DecidableEq (Status))
  | .saveReg .. => inferInstanceAs (DecidableEq (Unit))
  | .dropReg .. => inferInstanceAs (DecidableEq (Unit))
  | .dropAddr _ => inferInstanceAs (DecidableEq (Unit))
  | .clearRegs => inferInstanceAs (DecidableEq (Unit))
  | .dropStatus _ => inferInstanceAs (DecidableEq (Unit))
  | .clearStatus => inferInstanceAs (DecidableEq (Unit))
  | .unlockReqs => inferInstanceAs (DecidableEq (Unit))
  | .freeReq _ => inferInstanceAs (DecidableEq (Unit))
  | .unlockListeners => inferInstanceAs (DecidableEq (Unit))
  | .listen .. => inferInstanceAs (DecidableEq (Unit))
  | .expire => inferInstanceAs (DecidableEq (Unit))
  | .run _ => inferInstanceAs (DecidableEq (Unit))

/-- A request object (Request.h). -/
structure Req where
  msg : Msg
  valid : Bool
  abort : Option Fn

/-- The shared state. -/
structure Sh where
  /-- `regEntriesMap_` -/
  regs : List (Addr × OpId)
  /-- `propertyMap_` -/
  props : OpId → Option Obj
  /-- `requestHandlerMap_` -/
  handlers : OpId → Option Fn
  /-- `serverSideListenersMap_` -/
  listeners : OpId → List Fn
  /-- `requestsMap_` -/
  pend : List Rid
  req : Rid → Req
  nextR : Rid
  /-- who has the lock of `requestsMap_` -/
  reqLock : Option Nat
  /-- who has the lock of `serverSideListenersMap_` -/
  lisLock : Option Nat
  /-- who has the mutex of a request -/
  mtx : Rid → Option Nat
  /-- the weak pointers to the provider are not expired -/
  alive : Bool

def init : Sh :=
  { regs := [], props := fun _ => none, handlers := fun _ => none, listeners := fun _ => [], pend := [], req := fun _ => ⟨⟨.other, 0, 0, none, .null⟩, false, none⟩, nextR := 0
    reqLock := none, lisLock := none, mtx := fun _ => none, alive := true }

/-- The entries of the map that are searched: those for `op`, and of these the first with the id (267-279). -/
def lookup (s : Sh) (op : OpId) (id : Option Nat) : Option Rid := s.pend.find? fun r => (s.req r).msg.op == op && (s.req r).msg.id == id

/-- `!currentProperty || !currentProperty->equal(newProperty.get())` (89) -/
def changed : Option Obj → Option Obj → Bool
  | some a, some b => !a.equal b
  | _, _ => true

/-- The operations. -/
def exec (s : Sh) (n : Nat) : (q : Query) → Status → Option (Ans q × Sh)
  -- 301
  | .saveReg a op, _ => some ((), { s with regs := if (a, op) ∈ s.regs then s.regs else s.regs ++ [(a, op)] })
  -- 305
  | .dropReg a op, _ => some ((), { s with regs := s.regs.filter (· != (a, op)) })
  -- 313, 341
  | .dropAddr a, _ => some ((), { s with regs := s.regs.filter (·.1 != a) })
  -- 295, 309
  | .clearRegs, _ => some ((), { s with regs := [] })
  -- 142-148
  | .registered op, _ => some ((s.regs.filter (·.2 == op)).map (·.1), s)
  -- 195-203
  | .status op, _ => some (s.props op, s)
  -- 87-92
  | .setStatus op p, _ =>
    let b := changed (s.props op) p
    some (b, if b then { s with props := upd s.props op p } else s)
  -- 106
  | .dropStatus op, _ => some ((), { s with props := upd s.props op none })
  -- 212
  | .clearStatus, _ => some ((), { s with props := fun _ => none })
  -- 387-392
  | .handler op, _ => some (s.handlers op, s)
  -- 347-349
  | .addHandler op h, _ => match s.handlers op with
    | none => some (true, { s with handlers := upd s.handlers op (some h) })
    | some _ => some (false, s)
  -- 358
  | .dropHandler op, _ => some ((s.handlers op).isSome, { s with handlers := upd s.handlers op none })
  -- 258-260, Request.cpp 10-12
  | .newReq m, _ => if s.reqLock = none then some (s.nextR, { s with nextR := s.nextR + 1, req := upd s.req s.nextR ⟨m, true, none⟩, pend := s.pend ++ [s.nextR] }) else none
  -- 263-283
  | .find op id remove, _ =>
    if s.reqLock = none then
      let o := lookup s op id
      some (o, match o with
        | some r => if remove then { s with pend := s.pend.erase r } else s
        | none => s)
    else none
  -- 286-288
  | .lockReqs, _ => if s.reqLock = none then some (s.pend, { s with reqLock := some n }) else none
  | .unlockReqs, _ => some ((), { s with reqLock := none })
  -- Request.cpp 43-55
  | .check r, _ => if s.mtx r = none ∧ r < s.nextR then some (if !(s.req r).valid then .invalid else if s.alive then .ok (s.req r).msg else .gone, s) else none
  -- Request.cpp 82-91
  | .invalidate r, _ => if s.mtx r = none then some ((s.req r).valid, { s with req := upd s.req r { s.req r with valid := false } }) else none
  -- Request.cpp 14-17
  | .abortFn r, _ => if s.mtx r = none then some ((s.req r).abort, s) else none
  -- Request.cpp 74-79
  | .setAbort r f, _ =>
    if s.mtx r = none ∧ r < s.nextR then
      if (s.req r).valid then some (true, { s with req := upd s.req r { s.req r with abort := some f } })
      else some (false, { s with mtx := upd s.mtx r (some n) })
    else none
  | .freeReq r, _ => some ((), { s with mtx := upd s.mtx r none })
  -- Request.cpp 29-32
  | .valid r, _ => if s.mtx r = none ∧ r < s.nextR then some ((s.req r).valid, s) else none
  -- 128-131
  | .lockListeners op, _ => if s.lisLock = none then some (s.listeners op, { s with lisLock := some n }) else none
  | .unlockListeners, _ => some ((), { s with lisLock := none })
  -- 363-364
  | .listen op f, _ => if s.lisLock = none then some ((), { s with listeners := upd s.listeners op (s.listeners op ++ [f]) }) else none
  | .expire, _ => some ((), { s with alive := false })
  -- 231-238
  | .send _ _, st => some (st, s)
  | .run _, _ => some ((), s)

/-- What a call returns. -/
inductive Res where
  | unit
  | bool (b : Bool)
  | status (st : Status)
  | payload (p : Option Obj)
deriving DecidableEq

inductive Call where
  /-- `onIncomingMessage` -/
  | incoming (m : Msg)
  /-- `Request::respond`, `Request::update` -/
  | respond (r : Rid) (p : Payload)
  | update (r : Rid) (p : Payload)
  | isValid (r : Rid)
  | onAborted (r : Rid) (f : Fn)
  | setStatus (op : OpId) (p : Option Obj)
  | removeProperty (op : OpId) (notify : Bool)
  | broadcastSignal (op : OpId) (p : Option Obj)
  | getStatus (op : OpId)
  /-- none: an empty function -/
  | registerHandler (op : OpId) (h : Option Fn)
  | unregisterHandler (op : OpId)
  /-- `registerNotification` -/
  | listen (op : OpId) (f : Fn)
  | deinit
  /-- the destructor -/
  | destroy
deriving DecidableEq

abbrev P := Prog Query Ans

/-- One operation. -/
abbrev atom (q : Query) : P (Ans q) := ask q

/-- 240-243 -/
def sendBack (m : Msg) : P Status := atom (.send m.addr m)

/-- 367-372 -/
def updateLatestStatus (m : Msg) : P Unit := do
  match ← atom (.status m.op) with
  | some o => do let _ ← sendBack { m with payload := .obj o }; pure ()
  | none => pure ()

/-- 374-383 -/
def onStatusGetRequest (m : Msg) : P Unit := do
  let o ← atom (.status m.op)
  let _ ← sendBack { m with payload := .of o }
  pure ()

/-- 328-338 -/
def onActionRequest (m : Msg) : P Unit := do
  match ← atom (.handler m.op) with
  | some h => do
    let r ← atom (.newReq m)
    atom (.run (.handler h r))
  | none => do let _ ← sendBack { m with payload := .error }; pure ()

/-- 321-324, 289-292 -/
def abortRequest (r : Rid) : P Unit := do
  let _ ← atom (.invalidate r)
  match ← atom (.abortFn r) with
  | some f => atom (.run (.abort f r))
  | none => pure ()

/-- 316-326 -/
def onRequestAborted (m : Msg) : P Unit := do
  match ← atom (.find m.op m.id true) with
  | some r => abortRequest r
  | none => pure ()

/-- 21-57 -/
def onIncomingMessage (m : Msg) : P Res :=
  match m.code with
  | .statusRegister => do atom (.saveReg m.addr m.op); updateLatestStatus m; pure (.bool true)
  | .signalRegister => do atom (.saveReg m.addr m.op); pure (.bool true)
  | .unregister => do atom (.dropReg m.addr m.op); pure (.bool true)
  | .clientOff => do atom (.dropAddr m.addr); pure (.bool true)
  | .request => do onActionRequest m; pure (.bool true)
  | .statusGet => do onStatusGetRequest m; pure (.bool true)
  | .abort => do onRequestAborted m; pure (.bool true)
  | _ => pure (.bool false)

/-- 68-81 -/
def respondToRequest (m : Msg) : P Status :=
  if m.code = .partialUpdate then do
    match ← atom (.find m.op m.id false) with
    | some _ => sendBack m
    | none => pure .failedUnknown
  else do
    match ← atom (.find m.op m.id true) with
    | some r => do let _ ← atom (.invalidate r); sendBack m
    -- `request->invalidate()` with a null pointer (74)
    | none => .crash

/-- Request.cpp 42-66 -/
def reply (r : Rid) (p : Payload) (code : Code) : P Status := do
  match ← atom (.check r) with
  | .invalid => pure .invalidCall
  | .gone => pure .receiverUnavailable
  | .ok m => respondToRequest { m with payload := p, code := code }

/-- Request.cpp 73-80; the callback is called with the mutex locked -/
def onAborted (r : Rid) (f : Fn) : P Unit := do
  if ← atom (.setAbort r f) then pure ()
  else do
    atom (.run (.abort f r))
    atom (.freeReq r)

/-- the loop of `notify`: the listeners in turn -/
def notifyAll (p : Option Obj) : List Fn → P Unit
  | [] => pure ()
  | f :: fs => do atom (.run (.listener f p)); notifyAll p fs

/-- 126-133 -/
def broadcastServerSide (op : OpId) (p : Option Obj) : P Unit := do
  let fs ← atom (.lockListeners op)
  notifyAll p fs
  atom .unlockListeners

/-- `trySendToDestinations` (157-179): returns those that are busy -/
def trySend (m : Msg) : List Addr → P (List Addr)
  | [] => pure []
  | a :: as => do
    match ← atom (.send a m) with
    | .success => trySend m as
    | .receiverBusy => do let bs ← trySend m as; pure (a :: bs)
    | _ => do atom (.dropAddr a); trySend m as

/-- 135-193 -/
def broadcastToClients (op : OpId) (code : Code) (p : Option Obj) : P Status := do
  let as ← atom (.registered op)
  if as = [] then pure .success
  else do
    -- the message's source address is not set
    let m : Msg := ⟨code, 0, op, none, .of p⟩
    let bs ← trySend m as
    let bs ← if bs = [] then pure [] else trySend m bs
    pure (if bs.length ≠ as.length then .receiverUnavailable else .success)

/-- 119-124 -/
def broadcast (op : OpId) (code : Code) (p : Option Obj) : P Status := do
  broadcastServerSide op p
  broadcastToClients op code p

/-- 83-102 -/
def setStatus (op : OpId) (p : Option Obj) : P Status := do
  if ← atom (.setStatus op p) then broadcast op .statusRegister p else pure .noAction

/-- 104-112 -/
def removeProperty (op : OpId) (notify : Bool) : P Status := do
  atom (.dropStatus op)
  if notify then broadcast op .statusRegister none else pure .success

/-- 287-294 -/
def abortAll : List Rid → P Unit
  | [] => pure ()
  | r :: rs => do abortRequest r; abortAll rs

/-- 209-213, 285-296, 308-310; the requests stay in the map -/
def deinit : P Unit := do
  atom .clearRegs
  let rs ← atom .lockReqs
  abortAll rs
  atom .clearRegs
  atom .unlockReqs
  atom .clearStatus

/-- 344-355 -/
def registerHandler (op : OpId) : Option Fn → P Bool
  | some h => atom (.addHandler op h)
  | none => pure false

def prog : Call → P Res
  | .incoming m => onIncomingMessage m
  | .respond r p => do let st ← reply r p .request; pure (.status st)
  | .update r p => do let st ← reply r p .partialUpdate; pure (.status st)
  | .isValid r => do let b ← atom (.valid r); pure (.bool b)
  | .onAborted r f => do onAborted r f; pure .unit
  | .setStatus op p => do let st ← setStatus op p; pure (.status st)
  | .removeProperty op b => do let st ← removeProperty op b; pure (.status st)
  | .broadcastSignal op p => do let st ← broadcast op .signalRegister p; pure (.status st)
  | .getStatus op => do let o ← atom (.status op); pure (.payload o)
  | .registerHandler op h => do let b ← registerHandler op h; pure (.bool b)
  | .unregisterHandler op => do let b ← atom (.dropHandler op); pure (.bool b)
  | .listen op f => do atom (.listen op f); pure .unit
  | .deinit => do deinit; pure .unit
  -- 64: the weak pointers have expired when the destructor runs
  | .destroy => do atom .expire; deinit; pure .unit

@[reducible] def sys : Sys := { Call, Q := Query, A := Ans, R := Res, Sh, Env := Status, init, prog, exec }

abbrev Event := Ev Call Query Ans Res
abbrev St := State sys

end Maf.Prov
