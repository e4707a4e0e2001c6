/-
Status objects that are shared between the user's program, the provider and its clients.

Models include/maf/messaging/client-server/BasicStub.h 121-185 (`setStatus`, `getStatus`, `cloneStatus`), BasicProxy.h 222-240,
ipc/local/OutgoingPayload.h 22-57, itc/Payload.h 13-50 (`content`, `equal`, `clone`: the pointer is kept, not the value), and
src/common/maf/messaging/client-server/ServiceProvider.cpp 83-103 (`setStatus`). One property and one registered client; calls
one at a time; all messages arrive (Model/Provider, Model/Requester). Values are numbers. Over ipc a status is written to the
message when it is broadcast; in the same process the client's callback is given the pointer.
-/
namespace Maf.Shared

/-- What the client's executor still has to call the callback with. -/
inductive Item where
  /-- a value read from a message; `none` null -/
  | val (v : Option Nat)
  /-- an object of the same process; `none` null -/
  | ref (p : Option Nat)
deriving DecidableEq

inductive Ev where
  /-- object `o` is made with value `v` -/
  | made (o v : Nat)
  /-- somebody who has a pointer to object `o` changes its value -/
  | wrote (o v : Nat)
  /-- `setStatus(p)`; `v` the value at this moment; `b`: the status is stored and sent, else `NoAction` -/
  | set (p : Option Nat) (v : Option Nat) (b : Bool)
  /-- `getStatus()` -/
  | got (v : Option Nat)
  /-- `cloneStatus()`: the new object `o` -/
  | cloned (o v : Nat)
  /-- the client's callback is called -/
  | called (v : Option Nat)
deriving DecidableEq

structure State where
  /-- both ends in one process -/
  itc : Bool
  heap : Nat → Nat
  next : Nat
  status : Option Nat
  pend : List Item
  log : List Ev

def init (itc : Bool) : State := ⟨itc, fun _ => 0, 0, none, [], []⟩

/-- the value behind a pointer -/
def value (s : State) (p : Option Nat) : Option Nat := p.map s.heap

/-- OutgoingPayload.h 32-41, Payload.h 26-37: null is never equal -/
def equal (s : State) : Option Nat → Option Nat → Bool
  | some o, some o' => s.heap o == s.heap o'
  | _, _ => false

/-- ServiceProvider.cpp 83-103 with BasicStub.h 121-127 -/
def setStatus (s : State) (p : Option Nat) : State :=
  if equal s s.status p then { s with log := s.log ++ [.set p (value s p) false] }
  else { s with
    status := p
    pend := s.pend ++ [if s.itc then .ref p else .val (value s p)]
    log := s.log ++ [.set p (value s p) true] }

/-- a new object -/
def alloc (s : State) (v : Nat) (e : Ev) : State :=
  { s with heap := fun o => if o = s.next then v else s.heap o, next := s.next + 1, log := s.log ++ [e] }

/-- BasicProxy.h 226-240: the executor calls the callback with what the payload holds now -/
def read (s : State) : Item → Option Nat
  | .val v => v
  | .ref p => value s p

inductive Act where
  | make (v : Nat)
  /-- `*p = v` -/
  | write (o v : Nat)
  | setStatus (p : Option Nat)
  | getStatus
  | cloneStatus
  | call

def step (s : State) : Act → Option State
  | .make v => some (alloc s v (.made s.next v))
  | .write o v => if o < s.next then some { s with heap := fun o' => if o' = o then v else s.heap o', log := s.log ++ [.wrote o v] } else none
  | .setStatus p => if p.all (· < s.next) then some (setStatus s p) else none
  | .getStatus => some { s with log := s.log ++ [.got (value s s.status)] }
  | .cloneStatus => some (alloc s ((value s s.status).getD 0) (.cloned s.next ((value s s.status).getD 0)))
  | .call =>
    match s.pend with
    | [] => none
    | i :: is => some { s with pend := is, log := s.log ++ [.called (read s i)] }

def run (s : State) : List Act → Option State
  | [] => some s
  | a :: as => (step s a).bind fun s' => run s' as

end Maf.Shared
