import Verif.Model.Address
/-
The factories of clients and servers.

Models src/common/maf/messaging/client-server/ClientFactory.cpp 15-72, ServerFactory.cpp 15-76 (`getClient`,
`getServer`, `close`; both are the same code but for line 63 `serverMap_->clear()`), include/maf/utils/containers/Map2D.h
14-25 (`find`), CSMgmt.cpp 14-66 and itc/Client.cpp, itc/Server.cpp (`makeClient`, `makeServer`, `init`). A factory holds
its lock from the beginning to the end of every call, hence a call is one step; what it does is logged in order. The maps
keyed by `Address` are the search trees of Model/Address; the map keyed by the connection type (a string, ordered
properly) is a function. Kernel: within a process a name that was given to a local receiver is refused until the process
exits (LocalIPCClient.cpp 58-72, LocalIPCServer.cpp 26-32; Model/Endpoint); whether it is granted otherwise is the
environment's choice. Simplified: `start`, `stop` and `deinit` return (whether they do is C76).
-/
namespace Maf.Fac

open Maf.Addr (Address Tree)

/-- ConnectionType: itc/ConnectionType.h, ipc/local/ConnectionType.h, anything else -/
inductive CType where
  | itc
  | local
  | other (n : Nat)
deriving DecidableEq

/-- What can be observed; clients (or servers) are numbered: 0 is the instance of type itc. -/
inductive Ev where
  /-- `init` with this address returns `ok` -/
  | inited (i : Nat) (a : Address) (ok : Bool)
  | started (i : Nat)
  /-- `getClient`/`getServer` returns; `none`: null -/
  | got (t : CType) (a : Address) (i : Option Nat)
  /-- `close` begins -/
  | closing
  | stopped (i : Nat)
  | deinited (i : Nat)
  /-- `close` returns -/
  | closed
deriving DecidableEq

structure State where
  tree : CType → Tree Address
  /-- the value of a key -/
  val : CType → Address → Option Nat
  /-- the next local instance -/
  next : Nat
  /-- names given to local receivers of this process -/
  owned : List (List Nat)
  log : List Ev

def init : State := ⟨fun _ => .leaf, fun _ _ => none, 1, [], []⟩

/-- Map2D.h 14-25 -/
def find (s : State) (t : CType) (a : Address) : Option Nat := ((s.tree t).find Address.lt a).bind (s.val t)

/-- lines 41 and 43: `emplace` (no effect if the key is there), `start` -/
def store (s : State) (t : CType) (a : Address) (i : Nat) (tr : Tree Address) : State :=
  { s with
    tree := fun u => if u = t then tr else s.tree u
    val := fun u b => if u = t ∧ b = a then (s.val t a).or (some i) else s.val u b
    log := s.log ++ [.inited i a true, .started i, .got t a (some i)] }

/-- ClientFactory.cpp 35-51, ServerFactory.cpp 34-54. `ok`: what the kernel answers; `tr`: the tree after rebalancing. -/
def get (s : State) (t : CType) (a : Address) (ok : Bool) (tr : Tree Address) : Option State :=
  match find s t a, t with
  | some i, _ => some { s with log := s.log ++ [.got t a (some i)] }
  | none, .other _ => some { s with log := s.log ++ [.got t a none] }
  | none, .itc => if tr.keys = ((s.tree t).insert Address.lt a none).keys then some (store s t a 0 tr) else none
  | none, .local =>
    if ok then
      if a.name ∉ s.owned ∧ tr.keys = ((s.tree t).insert Address.lt a none).keys then
        some { store s t a s.next tr with next := s.next + 1, owned := a.name :: s.owned }
      else none
    else some { s with next := s.next + 1, log := s.log ++ [.inited s.next a false, .got t a none] }

/-- the instances of a type, in the order of iteration -/
def insts (s : State) (t : CType) : List Nat := (s.tree t).keys.filterMap (s.val t)

/-- ClientFactory.cpp 54-61, ServerFactory.cpp 58-65: one type -/
def closeType (s : State) (t : CType) : List Ev := (insts s t).map .stopped ++ (insts s t).map .deinited

/-- ClientFactory.cpp 52-62 (`clears = false`), ServerFactory.cpp 56-67 (`clears = true`) -/
def close (clears : Bool) (s : State) : State :=
  { s with
    tree := if clears then fun _ => .leaf else s.tree
    val := if clears then fun _ _ => none else s.val
    log := s.log ++ (.closing :: (closeType s .itc ++ closeType s .local) ++ [.closed]) }

inductive Act where
  | get (t : CType) (a : Address) (ok : Bool) (tr : Tree Address)
  | close

def step (clears : Bool) (s : State) : Act → Option State
  | .get t a ok tr => get s t a ok tr
  | .close => some (close clears s)

def run (clears : Bool) (s : State) : List Act → Option State
  | [] => some s
  | a :: as => (step clears s a).bind fun s' => run clears s' as

end Maf.Fac
