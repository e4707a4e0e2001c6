/-
Service requesters: the client's side of requests, registrations, cached properties and synchronous
requests.

Models src/common/maf/messaging/client-server/ServiceRequester.cpp (all functions but
`registerServiceStatusObserver`, `unregisterServiceStatusObserver` and
`forwardServiceStatusToObservers`, which are in Model/Client.lean) and RegID.h.

Every call of the interface (and every delivery of an incoming message, and every callback of
the client about the availability) is an activity with a program counter of its own; the
activities interleave arbitrarily. A thread that is in a user's callback, or in the transport, may
start further calls (with the in-process transport a response may be delivered before the send
returns); here these are activities like others. That a call started in a callback ends
before the callback does is not modelled, so the model has at least the behaviours of the program.
Each critical section is one step, and so is each read of the atomic availability.

Simplifications. Payloads are values; `clone` yields the same value. Allocating an id and storing the entry
(506-508, 523-530) is one step; ids are unbounded (Model/IDManager.lean has the widths). A map entry with an empty list is
the same as no map entry: the lists in the registration map are never empty (`emplace_back` follows `[]`,
550-552 erases empty ones), and nothing depends on empty ones in the request map. Callbacks of `getStatus` are not
empty functions; callbacks do not throw. `onServiceStatusChanged` is only called with the client's lock on its requesters
held (ClientBase.cpp 16, 31, 81): `changing`.
-/
namespace Maf.Req

/-- A call. -/
abbrev Cid := Nat
/-- An operation id; 0 is `OpIDInvalid`, the empty string. -/
abbrev Op := Nat
abbrev Id := Nat
/-- A callback of the user's (a non-empty function). -/
abbrev Fn := Nat
abbrev Val := Nat

inductive Avail where
  | unavailable | available | unknown
deriving DecidableEq

/-- `ActionCallStatus`, those that are told apart here. -/
inductive Status where
  | success | invalidParam | serviceUnavailable | timeout | actionBroken
  /-- any other failure of the transport -/
  | failed (k : Nat)
deriving DecidableEq

inductive Code where
  | statusRegister | signalRegister | unregister | statusGet | request | partialUpdate | abort | other
deriving DecidableEq

structure Msg where
  code : Code
  op : Op
  /-- none: `RequestIDInvalid` -/
  id : Option Id
  payload : Option Val
deriving DecidableEq

/-- The callback stored with a request: the user's (it may be an empty function) or the one that sets the
promise of a synchronous request. -/
inductive Target where
  | user (f : Option Fn)
  | sync
deriving DecidableEq

inductive Call where
  /-- `sendRequestAsync` -/
  | request (op : Op) (p : Option Val) (f : Option Fn)
  /-- `sendRequest`; `timed`: with a timeout that is not zero -/
  | requestSync (op : Op) (p : Option Val) (timed : Bool)
  /-- `getStatus` -/
  | getSync (op : Op) (timed : Bool)
  /-- `getStatus` with a callback -/
  | getAsync (op : Op) (f : Fn)
  /-- `registerStatus`, `registerSignal` -/
  | register (signal : Bool) (op : Op) (f : Option Fn)
  /-- `unregister`; none: an invalid id -/
  | unregister (op : Op) (id : Option Id)
  | unregisterAll (op : Op)
  | abort (op : Op) (id : Option Id)
  /-- `onIncomingMessage`; `mine`: the message is for this service -/
  | incoming (m : Msg) (mine : Bool)
  /-- `onServiceStatusChanged` with this service's id -/
  | status (a : Avail)
  | deinit
deriving DecidableEq

/-- What a call returns: registration id, payload, and the status (none: not assigned). -/
structure Res where
  reg : Option (Op × Id)
  payload : Option Val
  status : Option Status
deriving DecidableEq

inductive Ev where
  | called (n : Cid) (c : Call)
  /-- the availability is read -/
  | checked (n : Cid) (b : Bool)
  /-- the request is pending from now on -/
  | stored (n : Cid) (op : Op) (id : Id) (tg : Target)
  /-- the callback is registered from now on; `first`: it counts as the first for the operation -/
  | registered (n : Cid) (op : Op) (id : Id) (f : Fn) (first : Bool)
  /-- a message is given to the transport -/
  | sent (n : Cid) (m : Msg)
  /-- and this is what the transport returns -/
  | sentBack (n : Cid) (st : Status)
  /-- the request is removed because it could not be sent -/
  | dropped (n : Cid) (op : Op) (id : Id)
  /-- the registration is removed, if it is there, and this many are left for the operation -/
  | unregistered (n : Cid) (op : Op) (id : Id) (left : Nat)
  /-- all registrations for the operation are removed -/
  | erased (n : Cid) (op : Op)
  /-- a request is looked for and, if it is there, removed, to be aborted -/
  | looked (n : Cid) (op : Op) (id : Id) (found : Bool)
  /-- a response is matched to a request; a final one removes it -/
  | taken (n : Cid) (m : Msg) (tg : Option Target)
  /-- the callbacks registered for an operation are collected -/
  | collected (n : Cid) (op : Op) (fs : List Fn)
  /-- a callback is called -/
  | ran (n : Cid) (f : Fn) (p : Option Val)
  | subscribed (n : Cid) (op : Op) (b : Bool)
  | readCache (n : Cid) (op : Op) (o : Option Val)
  | cached (n : Cid) (op : Op) (p : Option Val)
  | uncached (n : Cid) (op : Op)
  /-- the promise of a synchronous request is set -/
  | promised (n : Cid) (id : Id) (p : Option Val)
  /-- the promise was set already: an exception leaves the call -/
  | threw (n : Cid) (id : Id)
  /-- the waiting call gets the promised payload -/
  | got (n : Cid) (id : Id) (p : Option Val)
  /-- the waiting call is told that the promise is gone -/
  | broken (n : Cid) (id : Id)
  /-- the waiting call has waited for its timeout -/
  | expired (n : Cid) (id : Id)
  | statusStored (n : Cid) (a : Avail)
  | reqsCleared (n : Cid)
  | regsCleared (n : Cid)
  | returned (n : Cid) (r : Res)
deriving DecidableEq

/-- How a request waits for its response. -/
inductive How where
  | async
  /-- `getStatus` with a callback: what becomes of the send is not told (409) -/
  | get
  | sync (timed : Bool)
deriving DecidableEq

/-- What follows a send. -/
inductive Kont where
  | request (op : Op) (id : Id) (h : How)
  | register (op : Op) (id : Id)
  | unregister
  | unregisterAll (op : Op)
  | abort
  | abortSync
deriving DecidableEq

/-- What is done with the value of the cache. -/
inductive Use where
  | ret (st : Status)
  | late (op : Op) (id : Id) (f : Fn)
  | give (f : Fn) (st : Status)
deriving DecidableEq

/-- Where a call is. -/
inductive Pc where
  | idle
  | done
  | start (c : Call)
  /-- `storeRegEntry` for a request comes next (506) -/
  | store (code : Code) (op : Op) (p : Option Val) (tg : Target) (h : How)
  /-- `sendMessageToServer` comes next -/
  | send (m : Msg) (k : Kont)
  /-- in the transport -/
  | sending (k : Kont)
  /-- the send has failed: `removeRegEntry` comes next (512), then `st` is returned -/
  | fail (op : Op) (id : Id) (st : Status)
  /-- the same for a registration (303) -/
  | regFail (op : Op) (id : Id) (st : Status)
  /-- waiting for the future (211, 213) -/
  | waiting (op : Op) (id : Id) (timed : Bool)
  /-- `abortRequest`: the search (90-105) comes next -/
  | abortFind (op : Op) (id : Id) (k : Kont)
  /-- `storeRegEntry` for a registration comes next (295) -/
  | regStore (code : Code) (op : Op) (f : Fn)
  /-- `getCachedProperty` comes next -/
  | readCache (op : Op) (u : Use)
  /-- `removeRegEntry` of `unregister` comes next (349) -/
  | unregRemove (op : Op) (id : Id)
  /-- `removeCachedProperty` comes next; `check`: of `unregister` (353), else of `unregisterAll` (375) -/
  | uncache (op : Op) (check : Bool)
  /-- the check in 354 comes next -/
  | unregCheck (op : Op)
  /-- 373 comes next -/
  | eraseAll (op : Op)
  /-- `subscribingProperty` comes next (387, 406) -/
  | subQ (op : Op) (f : Option Fn) (timed : Bool)
  /-- the second check in `getStatus` comes next (391) -/
  | recheck (op : Op) (timed : Bool)
  /-- `onRegistersUpdated`: collecting comes next (417-427) -/
  | regUpd (m : Msg)
  /-- calling the callbacks (429-438); `any`: some were collected -/
  | runCbs (m : Msg) (any : Bool) (fs : List Fn)
  /-- in a callback of `runCbs` -/
  | inCbs (m : Msg) (any : Bool) (fs : List Fn)
  /-- `cachePropertyStatus` comes next (40) -/
  | cacheIt (op : Op) (p : Option Val)
  /-- `onRequestResult`: the search comes next (444-477) -/
  | reqRes (m : Msg)
  /-- about to call one callback, then return -/
  | runOne (f : Fn) (p : Option Val) (r : Res)
  /-- in that callback -/
  | inOne (r : Res)
  /-- about to set the promise (202) -/
  | fulfil (id : Id) (p : Option Val)
  /-- `clearAllRequests` comes next; `more`: then `clearAllRegisterEntries` (252-253), else `deinit` is done -/
  | clearReqs (more : Bool)
  | clearRegs
deriving DecidableEq

structure State where
  status : Avail
  /-- `requestEntriesMap_` -/
  reqs : Op → List (Id × Target)
  /-- `registerEntriesMap_` -/
  regs : Op → List (Id × Fn)
  /-- `propertiesCache_`; the stored payload may be null -/
  cache : Op → Option (Option Val)
  nextId : Id
  /-- the promise of the synchronous request with this id, once set -/
  promise : Id → Option (Option Val)
  /-- calls that have a copy of the callback that sets the promise (the entry of the request has one, too) -/
  holders : Id → List Cid
  /-- who is in `onServiceStatusChanged` -/
  changing : Option Cid
  pc : Cid → Pc
  nextC : Cid
  /-- something undefined has happened -/
  ub : Bool
  log : List Ev

/-- ServiceRequester.h 149 -/
def init : State :=
  { status := .unavailable, reqs := fun _ => [], regs := fun _ => [], cache := fun _ => none, nextId := 0, promise := fun _ => none
    holders := fun _ => [], changing := none, pc := fun _ => .idle, nextC := 0, ub := false, log := [] }

def upd {β : Type} (f : Nat → β) (i : Nat) (v : β) : Nat → β := fun j => if j = i then v else f j

def go (s : State) (n : Cid) (pc : Pc) (es : List Ev) : State := { s with pc := upd s.pc n pc, log := s.log ++ es }

/-- The call returns. -/
def ret (s : State) (n : Cid) (es : List Ev) (r : Res) : State := go s n .done (es ++ [.returned n r])

def eraseId {α : Type} (id : Id) (l : List (Id × α)) : List (Id × α) := l.eraseP (·.1 == id)

/-- The first step of a call. -/
def begin_ (s : State) (n : Cid) : Call → Option State
  -- 70-79
  | .request op p f =>
    if s.status = .available then some (go s n (.store .request op p (.user f) .async) [.checked n true])
    else some (ret s n [.checked n false] ⟨none, none, some .serviceUnavailable⟩)
  -- 149-158
  | .requestSync op p timed =>
    if s.status = .available then some (go s n (.store .request op p .sync (.sync timed)) [.checked n true])
    else some (ret s n [.checked n false] ⟨none, none, some .serviceUnavailable⟩)
  -- 384-387
  | .getSync op timed =>
    if s.status = .available then some (go s n (.subQ op none timed) [.checked n true])
    else some (go s n (.readCache op (.ret .serviceUnavailable)) [.checked n false])
  -- 401-406
  | .getAsync op f =>
    if s.status = .available then some (go s n (.subQ op (some f) false) [.checked n true])
    else some (go s n (.readCache op (.give f .serviceUnavailable)) [.checked n false])
  -- 325-333, 335-343, 290-291
  | .register signal op f =>
    if s.status = .available then
      match f with
      | none => some (ret s n [.checked n true] ⟨none, none, some .invalidParam⟩)
      | some f => some (go s n (.regStore (if signal then .signalRegister else .statusRegister) op f) [.checked n true])
    else some (ret s n [.checked n false] ⟨none, none, some .serviceUnavailable⟩)
  -- 345-348, 360-363
  | .unregister op id =>
    match id with
    | none => some (ret s n [] ⟨none, none, some .invalidParam⟩)
    | some id =>
      if op = 0 then some (ret s n [] ⟨none, none, some .invalidParam⟩)
      else some (go s n (.unregRemove op id) [])
  -- 370-372
  | .unregisterAll op =>
    if s.status = .available then some (go s n (.eraseAll op) [.checked n true])
    else some (ret s n [.checked n false] ⟨none, none, some .serviceUnavailable⟩)
  -- 83-86
  | .abort op id =>
    match id with
    | none => some (ret s n [] ⟨none, none, some .invalidParam⟩)
    | some id =>
      if op = 0 then some (ret s n [] ⟨none, none, some .invalidParam⟩)
      else some (go s n (.abortFind op id .abort) [])
  -- 33-58
  | .incoming m mine =>
    if mine then
      match m.code with
      | .signalRegister | .statusRegister => some (go s n (.regUpd m) [])
      | .partialUpdate | .request | .statusGet => some (go s n (.reqRes m) [])
      | _ => some (ret s n [] ⟨none, none, none⟩)
    else some (ret s n [] ⟨none, none, none⟩)
  -- 248-251; the comparison and the store have the client's lock
  | .status a =>
    if s.changing ≠ none then none
    else if a = s.status then some (ret s n [] ⟨none, none, none⟩)
    else if a = .unavailable then some { go s n (.clearReqs true) [.statusStored n a] with status := a, changing := some n }
    else some { ret s n [.statusStored n a] ⟨none, none, none⟩ with status := a }
  -- 166-170
  | .deinit => some (go s n (.clearReqs false) [])

/-- Is the promise of request `id` gone: no entry has its callback, and no call? -/
def gone (s : State) (op : Op) (id : Id) : Bool := !(s.reqs op).any (·.1 == id) && s.holders id == []

/-- The step of a call from `pc`. -/
def stepPc (s : State) (n : Cid) : Pc → Option State
  | .idle => none
  | .done => none
  | .start c => begin_ s n c
  -- 176-184, 503-509, 521-533
  | .store code op p tg h =>
    some { go s n (.send ⟨code, op, some s.nextId, p⟩ (.request op s.nextId h)) [.stored n op s.nextId tg] with
      nextId := s.nextId + 1, reqs := upd s.reqs op (s.reqs op ++ [(s.nextId, tg)]) }
  -- 492-499
  | .send m k => some (go s n (.sending k) [.sent n m])
  | .sending _ => none
  -- 511-514, 535-559
  | .fail op id st => some { ret s n [.dropped n op id] ⟨none, none, some st⟩ with reqs := upd s.reqs op (eraseId id (s.reqs op)) }
  -- 302-305
  | .regFail op id st =>
    let l := eraseId id (s.regs op)
    some { ret s n [.unregistered n op id l.length] ⟨none, none, some st⟩ with regs := upd s.regs op l }
  -- 209-217, 226-230, 241
  | .waiting op id _ =>
    match s.promise id with
    | some p => some (ret s n [.got n id p] ⟨none, p, some .success⟩)
    | none => if gone s op id then some (ret s n [.broken n id] ⟨none, none, some .actionBroken⟩) else none
  -- 88-118, 221-223
  | .abortFind op id k =>
    let found := (s.reqs op).any (·.1 == id)
    let s' := { s with reqs := upd s.reqs op (eraseId id (s.reqs op)) }
    if found then some (go s' n (.send ⟨.abort, op, some id, none⟩ k) [.looked n op id true])
    else some (ret s' n [.looked n op id false] ⟨none, none, if k = .abortSync then some .timeout else none⟩)
  -- 293-308, 521-533
  | .regStore code op f =>
    let s' := { s with nextId := s.nextId + 1, regs := upd s.regs op (s.regs op ++ [(s.nextId, f)]) }
    let e := Ev.registered n op s.nextId f
    if (s.regs op).length + 1 = 1 then some (go s' n (.send ⟨code, op, some s.nextId, none⟩ (.register op s.nextId)) [e true])
    else if code = .statusRegister then some (go s' n (.readCache op (.late op s.nextId f)) [e false])
    else some (ret s' n [e false] ⟨some (op, s.nextId), none, none⟩)
  -- 561-569; 386, 389, 404, 407, 308-312
  | .readCache op u =>
    match s.cache op with
    -- `itProp->second->clone()` with a null pointer
    | some none => some { s with ub := true }
    | c =>
      let o := c.join
      let e := Ev.readCache n op o
      match u with
      | .ret st => some (ret s n [e] ⟨none, o, some st⟩)
      | .give f st => some (go s n (.runOne f o ⟨none, none, some st⟩) [e])
      | .late op id f =>
        match o with
        | some v => some (go s n (.runOne f (some v) ⟨some (op, id), none, some .success⟩) [e])
        | none => some (ret s n [e] ⟨some (op, id), none, some .success⟩)
  -- 349-350, 535-559
  | .unregRemove op id =>
    let l := eraseId id (s.regs op)
    let s' := { s with regs := upd s.regs op l }
    let e := Ev.unregistered n op id l.length
    if l.length = 0 then some (go s' n (.uncache op true) [e]) else some (ret s' n [e] ⟨none, none, some .success⟩)
  -- 353, 375, 576-578
  | .uncache op check =>
    let s' := { s with cache := upd s.cache op none }
    if check then some (go s' n (.unregCheck op) [.uncached n op])
    else some (ret s' n [.uncached n op] ⟨none, none, some .success⟩)
  -- 354-358
  | .unregCheck op =>
    if s.status = .available then some (go s n (.send ⟨.unregister, op, none, none⟩ .unregister) [.checked n true])
    else some (ret s n [.checked n false] ⟨none, none, some .serviceUnavailable⟩)
  -- 373-374
  | .eraseAll op => some { go s n (.send ⟨.unregister, op, none, none⟩ (.unregisterAll op)) [.erased n op] with regs := upd s.regs op [] }
  -- 387-389, 406-411, 585-588
  | .subQ op f timed =>
    if s.regs op ≠ [] then
      match f with
      | none => some (go s n (.readCache op (.ret .success)) [.subscribed n op true])
      | some f => some (go s n (.readCache op (.give f .success)) [.subscribed n op true])
    else
      match f with
      | none => some (go s n (.recheck op timed) [.subscribed n op false])
      | some f => some (go s n (.store .statusGet op none (.user (some f)) .get) [.subscribed n op false])
  -- 391-395
  | .recheck op timed =>
    if s.status = .available then some (go s n (.store .statusGet op none .sync (.sync timed)) [.checked n true])
    else some (ret s n [.checked n false] ⟨none, none, some .serviceUnavailable⟩)
  -- 416-427
  | .regUpd m =>
    let fs := (s.regs m.op).map (·.2)
    some (go s n (.runCbs m (!fs.isEmpty) fs) [.collected n m.op fs])
  -- 429-439, 38-42
  | .runCbs m any fs =>
    match fs with
    | f :: fs => some (go s n (.inCbs m any fs) [.ran n f m.payload])
    | [] =>
      if any && m.code == .statusRegister then some (go s n (.cacheIt m.op m.payload) [])
      else some (ret s n [] ⟨none, none, none⟩)
  | .inCbs .. => none
  -- 571-574
  | .cacheIt op p => some { ret s n [.cached n op p] ⟨none, none, none⟩ with cache := upd s.cache op (some p) }
  -- 442-482
  | .reqRes m =>
    match (s.reqs m.op).find? (fun x => some x.1 == m.id) with
    | none => some (ret s n [.taken n m none] ⟨none, none, none⟩)
    | some (id, tg) =>
      let s' := if m.code = .partialUpdate then s else { s with reqs := upd s.reqs m.op (eraseId id (s.reqs m.op)) }
      let e := Ev.taken n m (some tg)
      match tg with
      | .user none => some (ret s' n [e] ⟨none, none, none⟩)
      | .user (some f) => some (go s' n (.runOne f m.payload ⟨none, none, none⟩) [e])
      | .sync => some { go s' n (.fulfil id m.payload) [e] with holders := upd s.holders id (n :: s.holders id) }
  | .runOne f p r => some (go s n (.inOne r) [.ran n f p])
  | .inOne _ => none
  -- 200-203
  | .fulfil id p =>
    let s' := { s with holders := upd s.holders id ((s.holders id).erase n) }
    match s.promise id with
    | none => some { ret s' n [.promised n id p] ⟨none, none, none⟩ with promise := upd s.promise id (some p) }
    | some _ => some (go s' n .done [.threw n id])
  -- 252, 169, 484-486
  | .clearReqs more =>
    let s' := { s with reqs := fun _ => [] }
    if more then some (go s' n .clearRegs [.reqsCleared n]) else some (ret s' n [.reqsCleared n] ⟨none, none, none⟩)
  -- 253, 488-490
  | .clearRegs => some { ret s n [.regsCleared n] ⟨none, none, none⟩ with regs := fun _ => [], changing := none }

/-- The transport, or a callback, returns. -/
def backPc (s : State) (n : Cid) (st : Status) : Pc → Option State
  | .sending k =>
    let e := Ev.sentBack n st
    match k with
    -- 510-519, 208, 241, 409-412
    | .request op id h =>
      if st = .success then
        match h with
        | .async => some (ret s n [e] ⟨some (op, id), none, some st⟩)
        | .get => some (ret s n [e] ⟨none, none, some .success⟩)
        | .sync timed => if op = 0 then some (ret s n [e] ⟨none, none, some st⟩) else some (go s n (.waiting op id timed) [e])
      else some (go s n (.fail op id (if h = .get then .success else st)) [e])
    -- 301-307
    | .register op id =>
      if st = .success then some (ret s n [e] ⟨some (op, id), none, some st⟩)
      else some (go s n (.regFail op id st) [e])
    -- 357
    | .unregister => some (ret s n [e] ⟨none, none, some .success⟩)
    -- 374
    | .unregisterAll op => some (go s n (.uncache op false) [e])
    -- 110-117
    | .abort => some (ret s n [e] ⟨none, none, some st⟩)
    -- 221-223
    | .abortSync => some (ret s n [e] ⟨none, none, some .timeout⟩)
  | .inCbs m any fs => some (go s n (.runCbs m any fs) [])
  | .inOne r => some (ret s n [] r)
  | _ => none

inductive Act where
  | call (c : Call)
  | step (n : Cid)
  | back (n : Cid) (st : Status)
  /-- `wait_for` gives up (213) -/
  | expire (n : Cid)
deriving DecidableEq

def step (s : State) (a : Act) : Option State :=
  if s.ub then none
  else match a with
  | .call c => some { go s s.nextC (.start c) [.called s.nextC c] with nextC := s.nextC + 1 }
  | .step n => stepPc s n (s.pc n)
  | .back n st => backPc s n st (s.pc n)
  | .expire n =>
    match s.pc n with
    | .waiting op id true =>
      if s.promise id = none ∧ gone s op id = false then some (go s n (.abortFind op id .abortSync) [.expired n id]) else none
    | _ => none

def run (s : State) : List Act → Option State
  | [] => some s
  | a :: as => (step s a).bind fun s' => run s' as

end Maf.Req
