/-
The listening thread of a local IPC server or client, and how it is stopped.

Models src/platforms/unix/maf/messaging/client-server/ipc/LocalIPCBufferReceiverImpl.cpp 51-199 (`start`, `stop`,
`running`, `waitAndProcessConnections`, `changeCurrentStateAndInterruptIfStop`) of a receiver whose `init` succeeded,
with `LocalIPCServer::start`/`stop` (LocalIPCServer.cpp 34-46) and `LocalIPCClient::start`/`stop`
(LocalIPCClient.cpp 74-86) for any number of peers and any number of threads that stop it. Every access to the atomic
`state_`, every system call and every callback is one step. System calls are modelled by their specification:
`connect` waits while the queue of connections that nobody has accepted is full (a queue made by `listen(fd, 5)` takes
six), `select` returns at once if a socket is readable and after a second if none is, `accept` takes the oldest
connection. Simplified: what a peer writes arrives as a whole (how it is reassembled from parts is Model/Framing);
the callback returns; no descriptor is 0 or beyond the size of an `fd_set`; `start` is called once.
-/
namespace Maf.Listen

/-- what is sent: a payload -/
abbrev Msg := List UInt8

/-- LocalIPCBufferReceiverImpl.h 30-36 `State`; `Uninitialized` is before `init` -/
inductive RState where
  | initialized | running | waiting | stopped
deriving DecidableEq

/-- What the receiver finds on a connection. -/
inductive Data where
  /-- the peer has not written yet -/
  | nothing
  /-- the peer closed the connection without writing: it died, or it only looked (LocalIPCBufferSenderImpl.cpp 12-24) -/
  | hungUp
  | msg (m : Msg)
deriving DecidableEq

/-- Where the listening thread is. -/
inductive Pc where
  /-- no thread -/
  | off
  /-- about to look at the state, line 53 -/
  | check
  /-- about to set the state to running, line 54 -/
  | begin
  /-- lines 106-128; about to change the state to waiting, line 130 -/
  | top
  /-- line 133 -/
  | select
  /-- `select` has returned these connections, and whether the listening socket is readable; about to change the state
  to running, line 135 -/
  | woke (ready : List Nat) (master : Bool)
  /-- line 144 -/
  | accept (ready : List Nat) (master : Bool)
  /-- lines 162-184, about to look at slot `i` -/
  | slot (i : Nat) (ready : List Nat)
  /-- the thread has ended -/
  | ended
deriving DecidableEq

/-- Where a call of `LocalIPCServer::stop` or `LocalIPCClient::stop` is. -/
inductive SPc where
  | none
  /-- LocalIPCServer.cpp 40, only servers -/
  | ask
  /-- line 68 -/
  | running
  /-- line 69 -/
  | load
  /-- line 70; the state was read -/
  | store (cur : RState)
  /-- line 73 -/
  | wake
  /-- `join` -/
  | join
  | done
deriving DecidableEq

/-- What can be observed. -/
inductive Ev where
  /-- a peer's `connect` returns: connection `c` -/
  | connected (c : Nat)
  /-- a peer has written `m` on `c`: its `send` returns Success -/
  | wrote (c : Nat) (m : Msg)
  | hungUp (c : Nat)
  /-- `accept` has returned `c`, and it has a slot -/
  | accepted (c : Nat)
  /-- `accept` has returned `c`, but all slots are taken -/
  | leaked (c : Nat)
  /-- the callback is called with `m`, read from `c`; `c` is closed -/
  | delivered (c : Nat) (m : Msg)
  /-- `c` is closed without a callback -/
  | closed (c : Nat)
  | started
  /-- the listening thread ends -/
  | ended
  /-- `stop` is called; it returns -/
  | stopCalled (n : Nat)
  | stopReturned (n : Nat)
deriving DecidableEq

structure State where
  st : RState
  pc : Pc
  /-- connections nobody has accepted, oldest first -/
  backlog : List Nat
  /-- line 101 `fdClientSocks` -/
  slot : Nat → Option Nat
  data : Nat → Data
  /-- number of connections ever made -/
  conns : Nat
  spc : Nat → SPc
  stops : Nat
  log : List Ev

def init : State := ⟨.initialized, .off, [], fun _ => none, fun _ => .nothing, 0, fun _ => .none, 0, []⟩

def upd {β : Type} (f : Nat → β) (i : Nat) (v : β) : Nat → β := fun j => if j = i then v else f j

/-- SocketShared.h 19 `MAXCLIENTS` -/
def maxClients : Nat := 30

/-- line 35 `listen(fdMySock_, 5)`: a connection more than that waits to be accepted -/
def maxPending : Nat := 6

def full (s : State) : Bool := s.backlog.length ≥ maxPending

/-- line 82-90 `running` -/
def isRunning : RState → Bool
  | .running | .waiting => true
  | _ => false

def readable : Data → Bool
  | .nothing => false
  | _ => true

/-- lines 113-122: the sockets in `readfds`, of which `select` returns the readable ones -/
def readySet (s : State) : List Nat := ((List.range maxClients).filterMap s.slot).filter fun c => readable (s.data c)

/-- lines 153-159: the first empty position -/
def freeSlot (s : State) : Option Nat := (List.range maxClients).find? fun i => (s.slot i).isNone

/-- a new connection -/
def newConn (s : State) : State :=
  { s with conns := s.conns + 1, backlog := s.backlog ++ [s.conns], log := s.log ++ [.connected s.conns] }

/-- the peer of `c` closes it without having written -/
def hang (s : State) (c : Nat) : State := { s with data := upd s.data c .hungUp, log := s.log ++ [.hungUp c] }

/-- line 190-197 `throw StoppedInterruption`, caught in line 59 -/
def endThread (s : State) : State := { s with pc := .ended, log := s.log ++ [.ended] }

/-- lines 144-160: the result of `accept`, if the listening socket is readable -/
def takeConn (s : State) (ready : List Nat) : State :=
  match s.backlog, freeSlot s with
  | [], _ => { s with pc := .slot 0 ready }
  | c :: cs, some i => { s with backlog := cs, slot := upd s.slot i (some c), pc := .slot 0 ready, log := s.log ++ [.accepted c] }
  | c :: cs, none => { s with backlog := cs, pc := .slot 0 ready, log := s.log ++ [.leaked c] }

/-- lines 165-183: what is read from `c` -/
def readEv (s : State) (c : Nat) : Ev :=
  match s.data c with
  | .msg m => .delivered c m
  | _ => .closed c

/-- lines 163-183: slot `i` -/
def readSlot (s : State) (i : Nat) (ready : List Nat) : State :=
  match s.slot i with
  | none => { s with pc := .slot (i + 1) ready }
  | some c =>
    if c ∈ ready then { s with slot := upd s.slot i none, pc := .slot (i + 1) ready, log := s.log ++ [readEv s c] }
    else { s with pc := .slot (i + 1) ready }

/-- line 135, if the state is not stopped -/
def toRunning (s : State) : State := if s.st = .waiting then { s with st := .running } else s

/-- The next step of the listening thread. -/
def stepLoop (s : State) : Option State :=
  match s.pc with
  | .off => none
  | .check => if s.st = .initialized then some { s with pc := .begin } else some (endThread s)
  | .begin => some { s with st := .running, pc := .top }
  | .top =>
    if s.st = .running then some { s with st := .waiting, pc := .select }
    else if s.st = .stopped then some (endThread s)
    else some { s with pc := .select }
  | .select => some { s with pc := .woke (readySet s) !s.backlog.isEmpty }
  | .woke ready master =>
    if s.st = .stopped then some (endThread s)
    else if ready.isEmpty && !master then some { toRunning s with pc := .top }
    else some { toRunning s with pc := .accept ready master }
  | .accept ready master => if master then some (takeConn s ready) else some { s with pc := .slot 0 ready }
  | .slot i ready => if i < maxClients then some (readSlot s i ready) else some { s with pc := .top }
  | .ended => none

def setStop (s : State) (n : Nat) (p : SPc) : State := { s with spc := upd s.spc n p }

/-- The next step of call `n` of `stop`; `none`: it waits. -/
def stepStop (s : State) (n : Nat) : Option State :=
  match s.spc n with
  | .none => none
  | .ask => if isRunning s.st then some (setStop s n .running) else some (setStop s n .join)
  | .running => if isRunning s.st then some (setStop s n .load) else some (setStop s n .join)
  | .load => some (setStop s n (.store s.st))
  | .store cur => some (setStop { s with st := .stopped } n (if cur = .waiting then .wake else .join))
  | .wake => if full s then none else some (setStop (hang (newConn s) s.conns) n .join)
  | .join => if s.pc = .off ∨ s.pc = .ended then some { setStop s n .done with log := s.log ++ [.stopReturned n] } else none
  | .done => none

inductive Act where
  /-- a peer connects -/
  | connect
  | write (c : Nat) (m : Msg)
  | hangUp (c : Nat)
  /-- LocalIPCServer.cpp 34-37, LocalIPCClient.cpp 75: the listening thread is created -/
  | start
  /-- the listening thread makes a step -/
  | go
  /-- `accept` fails, e.g. for want of descriptors: line 147 -/
  | acceptFails
  /-- someone calls `stop` of the server, or of the client -/
  | stop (server : Bool)
  | goStop (n : Nat)

def step (s : State) : Act → Option State
  | .connect => if full s then none else some (newConn s)
  | .write c m => if c < s.conns ∧ s.data c = .nothing then some { s with data := upd s.data c (.msg m), log := s.log ++ [.wrote c m] } else none
  | .hangUp c => if c < s.conns ∧ s.data c = .nothing then some (hang s c) else none
  | .start => if s.pc = .off then some { s with pc := .check, log := s.log ++ [.started] } else none
  | .go => stepLoop s
  | .acceptFails =>
    match s.pc with
    | .accept _ true => some (endThread s)
    | _ => none
  | .stop server => some { setStop s s.stops (if server then .ask else .running) with stops := s.stops + 1, log := s.log ++ [.stopCalled s.stops] }
  | .goStop n => stepStop s n

def run (s : State) : List Act → Option State
  | [] => some s
  | a :: as => (step s a).bind fun s' => run s' as

end Maf.Listen
