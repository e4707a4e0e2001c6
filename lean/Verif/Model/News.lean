/-
Statuses and signals from end to end: any number of clients, one service, messages on their way.

Puts together what src/common/maf/messaging/client-server/ServiceRequester.cpp (tables of registrations and of cached values) and
ServiceProvider.cpp (values of the properties, table of registered clients) do with registrations, values and signals. Each function is one
step here (their interleavings are in `Model/Requester` and `Model/Provider`), except that a client's delivery of a status is two: it calls
the callbacks, and stores the value afterwards; in between it (a callback, another thread) may do anything but take the next message.
Between a client and the server messages arrive in the order they were sent (C75). An operation is either a status or a signal, as its
type is. Not modelled here: connections that break, the end of the service, `removeProperty` that notifies, null values.
-/
namespace Maf.News

inductive Op where
  | status (n : Nat)
  | signal (n : Nat)
deriving DecidableEq

/-- A value and the number of the `setStatus` or `broadcastSignal` that made it (a ghost: the program has only the value). -/
structure Val where
  ver : Nat
  v : Nat
deriving DecidableEq

/-- client to server: `StatusRegister` or `SignalRegister`, `Unregister`, `StatusGet` -/
inductive Up where
  | reg (op : Op)
  | unreg (op : Op)
  | get (op : Op) (id : Nat)
deriving DecidableEq

/-- server to client: `StatusRegister` or `SignalRegister`, `StatusGet` -/
inductive Down where
  | news (op : Op) (x : Val)
  | got (op : Op) (id : Nat) (x : Option Val)
deriving DecidableEq

/-- Requester of one client (ServiceRequester.h `idMgr_`, `registerEntriesMap_`, `requestEntriesMap_`, `propertiesCache_`), the value its
delivery will store, the messages on their way from and to it. -/
structure Client where
  next : Nat
  regs : List (Op × Nat)
  asks : List (Op × Nat)
  cache : Op → Option Val
  storing : Option (Op × Val)
  up : List Up
  down : List Down

inductive Ev where
  /-- `setStatus` changes the value, `broadcastSignal` is called -/
  | made (op : Op) (x : Val)
  /-- `setStatus` with the value it has -/
  | unchanged (op : Op) (v : Nat)
  | removed (op : Op)
  | registered (c : Nat) (op : Op) (k : Nat)
  | unregistered (c : Nat) (op : Op) (k : Nat)
  /-- callback `k` of client `c` is called -/
  | told (c : Nat) (op : Op) (k : Nat) (x : Val)
  /-- `getStatus` asks the server, when `t` values have been made so far -/
  | asked (c : Nat) (op : Op) (id t : Nat)
  /-- the callback of `getStatus` is called; `none`: with a null pointer -/
  | answer (c : Nat) (op : Op) (id : Nat) (x : Option Val)
  /-- the callback of `getStatus` is called at once with the cached value -/
  | cached (c : Nat) (op : Op) (x : Option Val)
deriving DecidableEq

structure State where
  clients : Nat → Client
  /-- ServiceProvider.h `propertyMap_` -/
  props : Op → Option Val
  /-- ServiceProvider.h `regEntriesMap_` -/
  regs : List (Nat × Op)
  /-- number of values made -/
  clock : Nat
  log : List Ev

def State.init : State := ⟨fun _ => ⟨0, [], [], fun _ => none, none, [], []⟩, fun _ => none, [], 0, []⟩

def upd (f : Nat → Client) (c : Nat) (v : Client) : Nat → Client := fun k => if k = c then v else f k

def put (f : Op → Option Val) (op : Op) (x : Option Val) : Op → Option Val := fun o => if o = op then x else f o

/-- ServiceProvider.cpp 140-165: all clients registered for the operation -/
def broadcast (s : State) (op : Op) (x : Val) : Nat → Client := fun c =>
  if (c, op) ∈ s.regs then { s.clients c with down := (s.clients c).down ++ [.news op x] } else s.clients c

/-- The property has this value (ServiceProvider.cpp 88-92). -/
def same (s : State) (op : Op) (v : Nat) : Bool := (s.props op).any fun x => x.v == v

/-- ServiceProvider.cpp 83-103 -/
def setStatus (s : State) (n v : Nat) : State :=
  if same s (.status n) v then { s with log := s.log ++ [.unchanged (.status n) v] }
  else
    { s with
      clients := broadcast s (.status n) ⟨s.clock, v⟩, props := put s.props (.status n) (some ⟨s.clock, v⟩), clock := s.clock + 1,
      log := s.log ++ [.made (.status n) ⟨s.clock, v⟩] }

/-- ServiceProvider.cpp 105-112, without notification -/
def removeProperty (s : State) (n : Nat) : State :=
  { s with props := put s.props (.status n) none, log := s.log ++ [.removed (.status n)] }

/-- ServiceProvider.cpp 114-117 -/
def signal (s : State) (n v : Nat) : State :=
  { s with
    clients := broadcast s (.signal n) ⟨s.clock, v⟩, clock := s.clock + 1, log := s.log ++ [.made (.signal n) ⟨s.clock, v⟩] }

/-- The callbacks of an operation, in order. -/
def callbacks (cl : Client) (op : Op) : List Nat := (cl.regs.filter fun r => r.1 == op).map (·.2)

/-- A second callback of a status is called with the cached value if there is one (ServiceRequester.cpp 308-311). -/
def greet (cl : Client) (c : Nat) (op : Op) (k : Nat) : List Ev :=
  match op with
  | .signal _ => []
  | .status _ => ((cl.cache op).map fun x => Ev.told c op k x).toList

/-- ServiceRequester.cpp 287-315, 521-533 -/
def register (s : State) (c : Nat) (op : Op) : State :=
  if callbacks (s.clients c) op = [] then
    { s with
      clients := upd s.clients c
        { s.clients c with
          next := (s.clients c).next + 1, regs := (s.clients c).regs ++ [(op, (s.clients c).next)], up := (s.clients c).up ++ [.reg op] },
      log := s.log ++ [.registered c op (s.clients c).next] }
  else
    { s with
      clients := upd s.clients c
        { s.clients c with next := (s.clients c).next + 1, regs := (s.clients c).regs ++ [(op, (s.clients c).next)] },
      log := s.log ++ .registered c op (s.clients c).next :: greet (s.clients c) c op (s.clients c).next }

/-- What is recorded of an `unregister`: nothing if it was not registered. -/
def unregEv (cl : Client) (c : Nat) (op : Op) (k : Nat) : List Ev := if (op, k) ∈ cl.regs then [.unregistered c op k] else []

/-- ServiceRequester.cpp 345-366, 535-558; `k` may be no longer registered. -/
def unregister (s : State) (c : Nat) (op : Op) (k : Nat) : State :=
  if callbacks { s.clients c with regs := (s.clients c).regs.erase (op, k) } op = [] then
    { s with
      clients := upd s.clients c
        { s.clients c with
          regs := (s.clients c).regs.erase (op, k), cache := put (s.clients c).cache op none, up := (s.clients c).up ++ [.unreg op] },
      log := s.log ++ unregEv (s.clients c) c op k }
  else
    { s with
      clients := upd s.clients c { s.clients c with regs := (s.clients c).regs.erase (op, k) },
      log := s.log ++ unregEv (s.clients c) c op k }

/-- ServiceRequester.cpp 368-379 -/
def unregisterAll (s : State) (c : Nat) (op : Op) : State :=
  { s with
    clients := upd s.clients c
      { s.clients c with
        regs := (s.clients c).regs.filter (fun r => r.1 != op), cache := put (s.clients c).cache op none,
        up := (s.clients c).up ++ [.unreg op] },
    log := s.log ++ (callbacks (s.clients c) op).map fun k => .unregistered c op k }

/-- ServiceRequester.cpp 399-413 -/
def getStatus (s : State) (c n : Nat) : State :=
  if callbacks (s.clients c) (.status n) = [] then
    { s with
      clients := upd s.clients c
        { s.clients c with
          next := (s.clients c).next + 1, asks := (s.clients c).asks ++ [(.status n, (s.clients c).next)],
          up := (s.clients c).up ++ [.get (.status n) (s.clients c).next] },
      log := s.log ++ [.asked c (.status n) (s.clients c).next s.clock] }
  else { s with log := s.log ++ [.cached c (.status n) ((s.clients c).cache (.status n))] }

/-- What the server sends to a client that registers: the value of the property if it has one (ServiceProvider.cpp 240-250, 367-372).
Nothing for signals. -/
def latest (s : State) (op : Op) : List Down :=
  match op with
  | .signal _ => []
  | .status _ => ((s.props op).map fun x => Down.news op x).toList

/-- A message of client `c` arrives: ServiceProvider.cpp 21-57, 240-254, 298-307, 367-383. -/
def serverGets (s : State) (c : Nat) (m : Up) (rest : List Up) : State :=
  match m with
  | .reg op =>
    { s with
      clients := upd s.clients c { s.clients c with up := rest, down := (s.clients c).down ++ latest s op },
      regs := if (c, op) ∈ s.regs then s.regs else (c, op) :: s.regs }
  | .unreg op =>
    { s with clients := upd s.clients c { s.clients c with up := rest }, regs := s.regs.filter fun r => r != (c, op) }
  | .get op id =>
    { s with clients := upd s.clients c { s.clients c with up := rest, down := (s.clients c).down ++ [.got op id (s.props op)] } }

/-- What a delivery stores afterwards: a status that was told to somebody (ServiceRequester.cpp 38-42). -/
def toStore (cl : Client) (op : Op) (x : Val) : Option (Op × Val) :=
  match op with
  | .signal _ => none
  | .status _ => if callbacks cl op = [] then none else some (op, x)

/-- A message arrives at client `c`: ServiceRequester.cpp 25-58, 415-440, 442-482. -/
def clientGets (s : State) (c : Nat) (m : Down) (rest : List Down) : State :=
  match m with
  | .news op x =>
    { s with
      clients := upd s.clients c { s.clients c with down := rest, storing := toStore (s.clients c) op x },
      log := s.log ++ (callbacks (s.clients c) op).map fun k => .told c op k x }
  | .got op id x =>
    if (op, id) ∈ (s.clients c).asks then
      { s with
        clients := upd s.clients c { s.clients c with down := rest, asks := (s.clients c).asks.erase (op, id) },
        log := s.log ++ [.answer c op id x] }
    else { s with clients := upd s.clients c { s.clients c with down := rest } }

/-- The delivery stores the value: ServiceRequester.cpp 572-575. -/
def store (s : State) (c : Nat) (op : Op) (x : Val) : State :=
  { s with clients := upd s.clients c { s.clients c with cache := put (s.clients c).cache op (some x), storing := none } }

inductive Act where
  | setStatus (n v : Nat)
  | removeProperty (n : Nat)
  | signal (n v : Nat)
  | register (c : Nat) (op : Op)
  | unregister (c : Nat) (op : Op) (k : Nat)
  | unregisterAll (c : Nat) (op : Op)
  | getStatus (c n : Nat)
  /-- the oldest message of client `c` arrives at the server -/
  | serverGets (c : Nat)
  /-- the oldest message for client `c` arrives there, unless it is still delivering one -/
  | clientGets (c : Nat)
  | store (c : Nat)

def step (s : State) : Act → Option State
  | .setStatus n v => some (setStatus s n v)
  | .removeProperty n => some (removeProperty s n)
  | .signal n v => some (signal s n v)
  | .register c op => some (register s c op)
  | .unregister c op k => some (unregister s c op k)
  | .unregisterAll c op => some (unregisterAll s c op)
  | .getStatus c n => some (getStatus s c n)
  | .serverGets c =>
    match (s.clients c).up with
    | [] => none
    | m :: rest => some (serverGets s c m rest)
  | .clientGets c =>
    match (s.clients c).storing, (s.clients c).down with
    | none, m :: rest => some (clientGets s c m rest)
    | _, _ => none
  | .store c =>
    match (s.clients c).storing with
    | none => none
    | some (op, x) => some (store s c op x)

end Maf.News
