/-
Requests from end to end: any number of clients, one service, messages on their way.

Puts together what src/common/maf/messaging/client-server/ServiceRequester.cpp (table of pending requests, its ids), ServiceProvider.cpp and
Request.cpp (table of requests, handles) do with requests, answers and aborts. Each function is one step here; their interleavings are
in `Model/Requester`, `Model/Provider` and `Model/Handle`. Between a client and the server messages arrive in the order they were sent
(C75; in one process a message arrives at once). Not modelled here: connections that break, the end of the service, synchronous requests.
-/
namespace Maf.E2E

/-- What an answer contains: what the service gave, or the error made by the library. -/
inductive Ans where
  | value (y : Nat)
  | noHandler
deriving DecidableEq

/-- client to server: `OpCode::Request`, `OpCode::Abort` -/
inductive Up where
  | req (op id x : Nat)
  | abort (op id : Nat)
deriving DecidableEq

/-- server to client: `OpCode::Request` (final) or `PartialRequestUpdate` -/
structure Down where
  op : Nat
  id : Nat
  a : Ans
  fin : Bool
deriving DecidableEq

/-- Requester of one client (ServiceRequester.h `idMgr_`, `requestEntriesMap_`), the messages on their way from and to it. -/
structure Client where
  next : Nat
  entries : List (Nat × Nat)
  up : List Up
  down : List Down

/-- Request.h: a request the handler got. -/
structure Handle where
  client : Nat
  op : Nat
  id : Nat
  x : Nat
deriving DecidableEq

inductive Ev where
  | sent (c op id x : Nat)
  | aborted (c op id : Nat)
  | handled (h c op id x : Nat)
  | refused (c op id x : Nat)
  | responded (h y : Nat) (ok : Bool)
  | updated (h y : Nat) (ok : Bool)
  /-- the abort callback of request `h` is called -/
  | told (h : Nat)
  | called (c op id : Nat) (a : Ans) (fin : Bool)
deriving DecidableEq

structure State where
  clients : Nat → Client
  /-- all requests handlers got -/
  handles : List Handle
  /-- ServiceProvider.h `requestsMap_`: those that are open, in order. A request is valid as long as it is there: it is invalidated
  when it is removed (ServiceProvider.cpp 68-81, 316-326). -/
  open_ : List Nat
  handlers : List Nat
  log : List Ev

def State.init : State := ⟨fun _ => ⟨0, [], [], []⟩, [], [], [], []⟩

def upd (f : Nat → Client) (c : Nat) (v : Client) : Nat → Client := fun k => if k = c then v else f k

/-- ServiceRequester.cpp 70-79, 501-533 -/
def send (s : State) (c op x : Nat) : State :=
  { s with
    clients := upd s.clients c
      { s.clients c with
        next := (s.clients c).next + 1, entries := (s.clients c).entries ++ [(op, (s.clients c).next)],
        up := (s.clients c).up ++ [.req op (s.clients c).next x] },
    log := s.log ++ [.sent c op (s.clients c).next x] }

/-- ServiceRequester.cpp 81-118 -/
def abort (s : State) (c op id : Nat) : State :=
  if (op, id) ∈ (s.clients c).entries then
    { s with
      clients := upd s.clients c
        { s.clients c with entries := (s.clients c).entries.erase (op, id), up := (s.clients c).up ++ [.abort op id] },
      log := s.log ++ [.aborted c op id] }
  else s

/-- The request has this operation and id (ServiceProvider.cpp 266, 272). -/
def named (op id : Nat) (g : Handle) : Bool := g.op == op && g.id == id

/-- ServiceProvider.cpp 263-283: the first open request with this operation and id -/
def find (s : State) (op id : Nat) : Option Nat := s.open_.find? fun h => (s.handles[h]?).any (named op id)

def sendDown (s : State) (c : Nat) (m : Down) : State :=
  { s with clients := upd s.clients c { s.clients c with down := (s.clients c).down ++ [m] } }

/-- ServiceProvider.cpp 328-340 -/
def onRequest (s : State) (c op id x : Nat) : State :=
  if op ∈ s.handlers then
    { s with
      handles := s.handles ++ [⟨c, op, id, x⟩], open_ := s.open_ ++ [s.handles.length],
      log := s.log ++ [.handled s.handles.length c op id x] }
  else sendDown { s with log := s.log ++ [.refused c op id x] } c ⟨op, id, .noHandler, true⟩

/-- ServiceProvider.cpp 316-326 -/
def onAbort (s : State) (op id : Nat) : State :=
  match find s op id with
  | none => s
  | some h => { s with open_ := s.open_.erase h, log := s.log ++ [.told h] }

/-- A message of client `c` arrives: ServiceProvider.cpp 21-57. -/
def serverGets (s : State) (c : Nat) (m : Up) (rest : List Up) : State :=
  match m with
  | .req op id x => onRequest { s with clients := upd s.clients c { s.clients c with up := rest } } c op id x
  | .abort op id => onAbort { s with clients := upd s.clients c { s.clients c with up := rest } } op id

/-- Request.cpp 34-66, ServiceProvider.cpp 68-81. `none`: a null pointer is dereferenced. -/
def respond (s : State) (h y : Nat) (g : Handle) : Option State :=
  if h ∈ s.open_ then
    (find s g.op g.id).map fun k =>
      sendDown { s with open_ := s.open_.erase k, log := s.log ++ [.responded h y true] } g.client ⟨g.op, g.id, .value y, true⟩
  else some { s with log := s.log ++ [.responded h y false] }

/-- Request.cpp 38-66, ServiceProvider.cpp 68-81 -/
def update (s : State) (h y : Nat) (g : Handle) : State :=
  if h ∈ s.open_ ∧ (find s g.op g.id).isSome then
    sendDown { s with log := s.log ++ [.updated h y true] } g.client ⟨g.op, g.id, .value y, false⟩
  else { s with log := s.log ++ [.updated h y false] }

/-- A message arrives at client `c`: ServiceRequester.cpp 442-482. -/
def clientGets (s : State) (c : Nat) (m : Down) (rest : List Down) : State :=
  if (m.op, m.id) ∈ (s.clients c).entries then
    { s with
      clients := upd s.clients c
        { s.clients c with
          entries := if m.fin then (s.clients c).entries.erase (m.op, m.id) else (s.clients c).entries, down := rest },
      log := s.log ++ [.called c m.op m.id m.a m.fin] }
  else { s with clients := upd s.clients c { s.clients c with down := rest } }

inductive Act where
  | send (c op x : Nat)
  | abort (c op id : Nat)
  /-- the oldest message of client `c` arrives at the server -/
  | serverGets (c : Nat)
  /-- the oldest message for client `c` arrives there -/
  | clientGets (c : Nat)
  | respond (h y : Nat)
  | update (h y : Nat)
  | registerHandler (op : Nat)
  | unregisterHandler (op : Nat)

def step (s : State) : Act → Option State
  | .send c op x => some (send s c op x)
  | .abort c op id => some (abort s c op id)
  | .serverGets c =>
    match (s.clients c).up with
    | [] => none
    | m :: rest => some (serverGets s c m rest)
  | .clientGets c =>
    match (s.clients c).down with
    | [] => none
    | m :: rest => some (clientGets s c m rest)
  | .respond h y => (s.handles[h]?).bind fun g => respond s h y g
  | .update h y => (s.handles[h]?).map fun g => update s h y g
  | .registerHandler op => some { s with handlers := op :: s.handlers }
  | .unregisterHandler op => some { s with handlers := s.handlers.filter (· != op) }

end Maf.E2E
