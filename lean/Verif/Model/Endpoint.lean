import Verif.Model.Address
/-
Addresses as sockets: who receives what is sent to an address.

Models, for any number of processes, src/platforms/unix/maf/messaging/client-server/ipc/SocketShared.h 54-94
(`isValidSocketPath`, `createUnixAbstractSocketAddr`, `connectToSocket`), LocalIPCBufferReceiverImpl.cpp 21-49 (`init`),
LocalIPCBufferSenderImpl.cpp 28-43 (`send`, `checkReceiverStatus`: which socket they use), LocalIPCClient.cpp 58-72
(`init`) and LocalIPCServer.cpp 26-32 (`init`). The kernel is modelled by its specification: a socket name has at most
one owner; it is free again when the socket is closed, which (the code never closes a listening socket) is when the
process exits. Not modelled: failures of `socket`, `setsockopt` and `listen`; the bytes of `sockaddr_un` are values
below 256; the invalid address (no name, no port) is not given. A name is the list of its bytes, as in Model/Address.
-/
namespace Maf.Ends

open Maf.Addr (Address)

/-- `sizeof(sockaddr_un::sun_path)` -/
def pathSize : Nat := 108

/-- SocketShared.h 54-56 -/
def validPath (p : List Nat) : Bool := decide (p.length < pathSize)

/-- What `strncpy` copies: up to the first zero. -/
def cstr (p : List Nat) : List Nat := p.takeWhile (· ≠ 0)

/-- SocketShared.h 62-68: `sun_path`; `none`: `strncpy` writes past its end. -/
def sockName (p : List Nat) : Option (List Nat) :=
  if p.length + 1 ≤ pathSize then some (0 :: (cstr p ++ List.replicate (pathSize - 1 - (cstr p).length) 0)) else none

/-- `std::to_string` -/
def decimal (n : Nat) : List Nat := if n < 10 then [48 + n] else decimal (n / 10) ++ [48 + n % 10]
termination_by n

/-- LocalIPCClient.cpp 60-62: the client's own address -/
def clientAddr (server : Address) (pid : Nat) : Address := ⟨server.name ++ decimal pid, server.port⟩

/-- What can be observed. -/
inductive Ev where
  /-- `init` of receiver `i` of process `pid` with address `a` returns `ok`; it belongs to a client of the server at `of`,
  or to a server -/
  | inited (i : Nat) (pid : Nat) (a : Address) (of : Option Address) (ok : Bool)
  | exited (pid : Nat)
  /-- `stop` of receiver `i` (LocalIPCBufferReceiverImpl.cpp 67-76) -/
  | stopped (i : Nat)
  /-- something sent to `a` reaches receiver `i`, or nobody -/
  | sent (a : Address) (i : Option Nat)
  /-- a client looks whether there is a receiver at `a` -/
  | looked (a : Address) (there : Bool)
  /-- undefined behaviour -/
  | crashed
deriving DecidableEq

structure State where
  /-- live sockets: name, receiver, process -/
  bound : List (List Nat × Nat × Nat)
  /-- clients whose `init` succeeded, with the address of their server -/
  clients : List Address
  next : Nat
  log : List Ev

def init : State := ⟨[], [], 0, []⟩

/-- the owner of a socket name -/
def owner (s : State) (n : List Nat) : Option Nat := (s.bound.find? fun b => b.1 == n).map fun b => b.2.1

/-- LocalIPCBufferReceiverImpl.cpp 21-49 -/
def initRcv (s : State) (pid : Nat) (a : Address) (of : Option Address) : State :=
  match validPath a.name, sockName a.name with
  | false, _ => { s with next := s.next + 1, log := s.log ++ [.inited s.next pid a of false] }
  | true, none => { s with log := s.log ++ [.crashed] }
  | true, some n =>
    if (owner s n).isSome then { s with next := s.next + 1, log := s.log ++ [.inited s.next pid a of false] }
    else { s with bound := s.bound ++ [(n, s.next, pid)], next := s.next + 1, log := s.log ++ [.inited s.next pid a of true] }

/-- whether the last `init` succeeded -/
def lastOk (s : State) : Bool :=
  match s.log.getLast? with
  | some (.inited _ _ _ _ ok) => ok
  | _ => false

/-- LocalIPCClient.cpp 58-72 -/
def initClient (s : State) (pid : Nat) (server : Address) : State :=
  if lastOk (initRcv s pid (clientAddr server pid) (some server)) then { initRcv s pid (clientAddr server pid) (some server) with clients := (initRcv s pid (clientAddr server pid) (some server)).clients ++ [server] }
  else initRcv s pid (clientAddr server pid) (some server)

/-- LocalIPCBufferSenderImpl.cpp 28-31, SocketShared.h 74-94 -/
def send (s : State) (a : Address) : State :=
  match validPath a.name, sockName a.name with
  | false, _ => { s with log := s.log ++ [.sent a none] }
  | true, none => { s with log := s.log ++ [.crashed] }
  | true, some n => { s with log := s.log ++ [.sent a (owner s n)] }

/-- LocalIPCBufferSenderImpl.cpp 33-43: the length is not checked -/
def look (s : State) (a : Address) : State :=
  match sockName a.name with
  | none => { s with log := s.log ++ [.crashed] }
  | some n => { s with log := s.log ++ [.looked a (owner s n).isSome] }

inductive Act where
  /-- a server of this process is made -/
  | server (pid : Nat) (a : Address)
  /-- a client of this process is made, for the server at `a` -/
  | client (pid : Nat) (a : Address)
  /-- a process exits -/
  | exit (pid : Nat)
  /-- a receiver is stopped: its socket stays open -/
  | stop (i : Nat)
  | send (a : Address)
  /-- a client whose `init` succeeded monitors its server, LocalIPCClient.cpp 124-141 -/
  | look (a : Address)

def step (s : State) : Act → Option State
  | .server pid a => some (initRcv s pid a none)
  | .client pid a => some (initClient s pid a)
  | .exit pid => some { s with bound := s.bound.filter fun b => b.2.2 != pid, log := s.log ++ [.exited pid] }
  | .stop i => some { s with log := s.log ++ [.stopped i] }
  | .send a => some (send s a)
  | .look a => if a ∈ s.clients then some (look s a) else none

def run (s : State) : List Act → Option State
  | [] => some s
  | a :: as => (step s a).bind fun s' => run s' as

end Maf.Ends
