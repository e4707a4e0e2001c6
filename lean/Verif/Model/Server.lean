import Verif.Model.Client
/-
Servers: the service providers, and who is told when a service becomes available or unavailable.

Models src/common/maf/messaging/client-server/ServerBase.cpp, the service status part of ipc/LocalIPCServer.cpp (66-139, 158-181), and `startServing`, `stopServing` and `availability` of
ServiceProvider.cpp (205, 215-229). What else a provider does is in Model/Provider.lean.

Every call is a program of atomic operations (Model/Calls.lean), and calls are interleaved arbitrarily. A message given to the transport is one operation; its outcome is chosen by the environment.

Simplifications. The maps and the set of addresses are lists in the order of insertion (theirs is that of the keys). Service ids and addresses are numbers. The addresses are locked while a change is
told; those that cannot be reached are erased one by one; here, at the end: nobody else sees the set before. What a provider does with a message is one operation here. The server exists as long as its
providers are used (`server_.lock()` succeeds); `start` and `stop` of the receiver are not modelled.
-/
namespace Maf.Srv
open Maf.Calls

abbrev Sid := Nat
/-- A service provider. -/
abbrev Pr := Nat
/-- The address of a client. -/
abbrev Addr := Nat

/-- `ActionCallStatus`, as far as it is looked at: the client is reached, it cannot be reached (`ReceiverUnavailable`, `FailedUnknown`), or something else is wrong, e.g. it is busy. A provider handles a message
(`ok`) or not. -/
inductive Out where
  | ok | lost | failed
deriving DecidableEq

/-- An incoming message. -/
inductive Msg where
  /-- `RegisterServiceStatus` -/
  | register (a : Addr)
  /-- `UnregisterServiceStatus` for one service, or, with the invalid id (`none`), for all -/
  | unregister (a : Addr) (sid : Option Sid)
  /-- any other -/
  | other (sid : Sid) (tag : Nat)
deriving DecidableEq

inductive Query where
  | getProv (sid : Sid)
  | hasProv (sid : Sid)
  /-- the same by `onServiceStatusChanged` -/
  | checkProv (sid : Sid)
  | findProv (sid : Sid)
  /-- `std::move(*providers_.atomic())` -/
  | takeProvs
  | lockProvs
  | unlockProvs
  | avail (p : Pr)
  /-- the same when a client registers -/
  | readAvail (p : Pr)
  | setAvail (p : Pr) (b : Bool)
  | deliver (p : Pr) (m : Msg)
  | deinitProv (p : Pr)
  | addAddr (a : Addr)
  | dropAddr (a : Addr)
  | lockAddrs
  /-- those in the list are kept -/
  | unlockAddrs (as : List Addr)
  /-- a message to a client: a change of the service's status -/
  | tell (a : Addr) (sid : Sid) (b : Bool)
  /-- the same when the client registers: the service is available -/
  | greet (a : Addr) (sid : Sid)
deriving DecidableEq

@[reducible] def Ans : Query → Type
  -- the provider; whether it is new
  | .getProv _ => Pr × Bool
  | .hasProv _ => Bool
  | .checkProv _ => Bool
  | .findProv _ => Option Pr
  | .takeProvs => List (Sid × Pr)
  | .lockProvs => List (Sid × Pr)
  | .avail _ => Bool
  | .readAvail _ => Bool
  -- the provider's service id
  | .setAvail .. => Sid
  | .deliver .. => Bool
  | .lockAddrs => List Addr
  | .tell .. => Out
  | .greet .. => Out
  | _ => Unit

instance : ∀ q, DecidableEq (Ans q)
  | .getProv _ => inferInstanceAs (DecidableEq (Pr × Bool))
  | .hasProv _ => inferInstanceAs (DecidableEq Bool)
  | .checkProv _ => inferInstanceAs (DecidableEq Bool)
  | .findProv _ => inferInstanceAs (DecidableEq (Option Pr))
  | .takeProvs => inferInstanceAs (DecidableEq (List (Sid × Pr)))
  | .lockProvs => inferInstanceAs (DecidableEq (List (Sid × Pr)))
  | .avail _ => inferInstanceAs (DecidableEq Bool)
  | .readAvail _ => inferInstanceAs (DecidableEq Bool)
  | .setAvail .. => inferInstanceAs (DecidableEq Sid)
  | .deliver .. => inferInstanceAs (DecidableEq Bool)
  | .lockAddrs => inferInstanceAs (DecidableEq (List Addr))
  | .tell .. => inferInstanceAs (DecidableEq Out)
  | .greet .. => inferInstanceAs (DecidableEq Out)
  | .unlockProvs => inferInstanceAs (DecidableEq Unit)
  | .deinitProv _ => inferInstanceAs (DecidableEq Unit)
  | .addAddr _ => inferInstanceAs (DecidableEq Unit)
  | .dropAddr _ => inferInstanceAs (DecidableEq Unit)
  | .unlockAddrs _ => inferInstanceAs (DecidableEq Unit)

/-- The shared state. -/
structure Sh where
  /-- `providers_` -/
  provs : List (Sid × Pr)
  provLock : Option Nat
  nextPr : Pr
  /-- `sid_` of a provider -/
  sidOf : Pr → Sid
  /-- `availability_` of a provider is `Available` -/
  avail : Pr → Bool
  /-- `registedClAddrs_` -/
  addrs : List Addr
  addrLock : Option Nat

def init : Sh := { provs := [], provLock := none, nextPr := 0, sidOf := fun _ => 0, avail := fun _ => false, addrs := [], addrLock := none }

/-- The operations. -/
def exec (s : Sh) (n : Nat) : (q : Query) → Out → Option (Ans q × Sh)
  -- ServerBase.cpp 11-18
  | .getProv sid, _ =>
    if s.provLock = none then
      match Cli.get s.provs sid with
      | some p => some ((p, false), s)
      | none => some ((s.nextPr, true), { s with nextPr := s.nextPr + 1, provs := s.provs ++ [(sid, s.nextPr)], sidOf := upd s.sidOf s.nextPr sid })
    else none
  -- 20-22
  | .hasProv sid, _ => if s.provLock = none then some ((Cli.get s.provs sid).isSome, s) else none
  -- 51
  | .checkProv sid, _ => if s.provLock = none then some ((Cli.get s.provs sid).isSome, s) else none
  -- 25-26
  | .findProv sid, _ => if s.provLock = none then some (Cli.get s.provs sid, s) else none
  -- 37
  | .takeProvs, _ => if s.provLock = none then some (s.provs, { s with provs := [] }) else none
  -- LocalIPCServer.cpp 108-109, 127-128
  | .lockProvs, _ => if s.provLock = none then some (s.provs, { s with provLock := some n }) else none
  | .unlockProvs, _ => some ((), { s with provLock := none })
  -- ServiceProvider.cpp 205
  | .avail p, _ => some (s.avail p, s)
  -- LocalIPCServer.cpp 110
  | .readAvail p, _ => some (s.avail p, s)
  -- ServiceProvider.cpp 216, 224
  | .setAvail p b, _ => if p < s.nextPr then some (s.sidOf p, { s with avail := upd s.avail p b }) else none
  -- 21-57
  | .deliver .., e => some (e == .ok, s)
  -- 209-213
  | .deinitProv _, _ => some ((), s)
  -- LocalIPCServer.cpp 106
  | .addAddr a, _ => if s.addrLock = none then some ((), { s with addrs := if a ∈ s.addrs then s.addrs else s.addrs ++ [a] }) else none
  -- 126
  | .dropAddr a, _ => if s.addrLock = none then some ((), { s with addrs := s.addrs.filter (· != a) }) else none
  -- 76
  | .lockAddrs, _ => if s.addrLock = none then some (s.addrs, { s with addrLock := some n }) else none
  | .unlockAddrs as, _ => some ((), { s with addrs := as, addrLock := none })
  -- 79
  | .tell .., e => some (e, s)
  -- 168
  | .greet .., e => some (e, s)

inductive Res where
  | unit
  | bool (b : Bool)
  | prov (p : Pr)
deriving DecidableEq

inductive Call where
  | getServiceProvider (sid : Sid)
  | hasServiceProvider (sid : Sid)
  | incoming (m : Msg)
  | deinit
  /-- of a provider -/
  | startServing (p : Pr)
  | stopServing (p : Pr)
  | availability (p : Pr)
deriving DecidableEq

abbrev P := Prog Query Ans

/-- One operation. -/
abbrev atom (q : Query) : P (Ans q) := ask q

/-- LocalIPCServer.cpp 77-93: tells the clients in turn; returns those that are kept. -/
def tellAll (sid : Sid) (b : Bool) : List Addr → P (List Addr)
  | [] => pure []
  | a :: as => do
    match ← atom (.tell a sid b) with
    | .ok => do let ks ← tellAll sid b as; pure (a :: ks)
    | .failed => do let ks ← tellAll sid b as; pure (a :: ks)
    | .lost => tellAll sid b as

/-- LocalIPCServer.cpp 66-98; the statuses are different -/
def notifyAll (sid : Sid) (b : Bool) : P Unit := do
  let as ← atom .lockAddrs
  let ks ← tellAll sid b as
  atom (.unlockAddrs ks)

/-- ServerBase.cpp 47-55; the statuses are different -/
def onServiceStatusChanged (sid : Sid) (b : Bool) : P Unit := do
  if ← atom (.checkProv sid) then notifyAll sid b else pure ()

/-- ServiceProvider.cpp 215-229: `b`: `startServing`, otherwise `stopServing` -/
def serve (p : Pr) (b : Bool) : P Unit := do
  let sid ← atom (.setAvail p b)
  onServiceStatusChanged sid b

/-- ServerBase.cpp 39-41 -/
def stopAll : List (Sid × Pr) → P Unit
  | [] => pure ()
  | x :: xs => do serve x.2 false; stopAll xs

/-- 42-44 -/
def deinitAll : List (Sid × Pr) → P Unit
  | [] => pure ()
  | x :: xs => do atom (.deinitProv x.2); deinitAll xs

/-- 36-45 -/
def deinit : P Unit := do
  let ps ← atom .takeProvs
  stopAll ps
  deinitAll ps

/-- LocalIPCServer.cpp 109-115, 158-181 -/
def greetAll (a : Addr) : List (Sid × Pr) → P Unit
  | [] => pure ()
  | x :: xs => do
    if ← atom (.readAvail x.2) then do let _ ← atom (.greet a x.1); greetAll a xs
    else greetAll a xs

/-- LocalIPCServer.cpp 128-131: the message's service id is that of the provider -/
def forwardAll (a : Addr) : List (Sid × Pr) → P Unit
  | [] => pure ()
  | x :: xs => do let _ ← atom (.deliver x.2 (.unregister a (some x.1))); forwardAll a xs

/-- ServerBase.cpp 24-32 -/
def dispatch (sid : Sid) (m : Msg) : P Bool := do
  match ← atom (.findProv sid) with
  | some p => atom (.deliver p m)
  | none => pure false

/-- LocalIPCServer.cpp 100-139 -/
def onIncomingMessage : Msg → P Bool
  | .register a => do
    atom (.addAddr a)
    let ps ← atom .lockProvs
    greetAll a ps
    atom .unlockProvs
    pure true
  | .unregister a none => do
    atom (.dropAddr a)
    let ps ← atom .lockProvs
    forwardAll a ps
    atom .unlockProvs
    pure true
  | .unregister a (some sid) => dispatch sid (.unregister a (some sid))
  | .other sid tag => dispatch sid (.other sid tag)

def prog : Call → P Res
  | .getServiceProvider sid => do let p ← atom (.getProv sid); pure (.prov p.1)
  | .hasServiceProvider sid => do let b ← atom (.hasProv sid); pure (.bool b)
  | .incoming m => do let b ← onIncomingMessage m; pure (.bool b)
  | .deinit => do deinit; pure .unit
  | .startServing p => do serve p true; pure .unit
  | .stopServing p => do serve p false; pure .unit
  | .availability p => do let b ← atom (.avail p); pure (.bool b)

@[reducible] def sys : Sys := { Call, Q := Query, A := Ans, R := Res, Sh, Env := Out, init, prog, exec }

abbrev Event := Ev Call Query Ans Res
abbrev St := State sys

end Maf.Srv
