/-
Addresses, registration ids and ordered sets keyed by them.

Models src/common/maf/messaging/client-server/Address.cpp 10-20 (`==`, `<`),
include/maf/messaging/client-server/RegID.h 52-60 (`==`, `<`), and the lookup and insertion of the
search tree behind `std::set<Address>` (LocalIPCServer.h 38) and `std::map<Address, ..>` (ServiceProvider.h 29).

A name is a list of byte values; `std::string`'s `<` is the lexicographic order. OpID is a
`std::string`-like name as well (CSTypes.h).
-/
namespace Maf.Addr

/-- `std::string::operator<` -/
def nameLt : List Nat → List Nat → Bool
  | _, [] => false
  | [], _ :: _ => true
  | a :: as, b :: bs => decide (a < b) || (decide (a = b) && nameLt as bs)

/-- include/maf/messaging/client-server/Address.h: a name and a port. -/
structure Address where
  name : List Nat
  port : Nat
deriving DecidableEq

/-- Address.cpp 10-12 -/
def Address.eq (a b : Address) : Bool := a.name == b.name && a.port == b.port

/-- Address.cpp 18-20 -/
def Address.lt (a b : Address) : Bool := nameLt a.name b.name || decide (a.port < b.port)

/-- RegID.h 11-50 -/
structure RegID where
  requestID : Nat
  opID : List Nat
deriving DecidableEq

/-- RegID.h 52-54 -/
def RegID.eq (a b : RegID) : Bool := a.requestID == b.requestID && a.opID == b.opID

/-- RegID.h 58-60 -/
def RegID.lt (a b : RegID) : Bool := decide (a.requestID < b.requestID) && nameLt a.opID b.opID

/-! ### The tree of `std::set` -/

inductive Tree (K : Type) where
  | leaf
  | node (l : Tree K) (x : K) (r : Tree K)

def Tree.keys {K : Type} : Tree K → List K
  | .leaf => []
  | .node l x r => l.keys ++ x :: r.keys

/-- The descent of `lower_bound` (libstdc++ `_M_lower_bound`, libc++ `__lower_bound`): `y` is the best candidate so far. -/
def Tree.lower {K : Type} (lt : K → K → Bool) (k : K) : Tree K → Option K → Option K
  | .leaf, y => y
  | .node l x r, y => if lt x k then r.lower lt k y else l.lower lt k (some x)

/-- `find`: the lower bound, unless `k` is smaller. -/
def Tree.find {K : Type} (lt : K → K → Bool) (t : Tree K) (k : K) : Option K :=
  match t.lower lt k none with
  | none => none
  | some x => if lt k x then none else some x

/-- `insert` (`_M_get_insert_unique_pos`), before rebalancing: `p` is the predecessor of the place reached. -/
def Tree.insert {K : Type} (lt : K → K → Bool) (k : K) : Tree K → Option K → Tree K
  | .leaf, none => .node .leaf k .leaf
  | .leaf, some p => if lt p k then .node .leaf k .leaf else .leaf
  | .node l x r, p => if lt k x then .node (l.insert lt k p) x r else .node l x (r.insert lt k (some x))

inductive Op (K : Type) where
  /-- insert; `t` is the tree after rebalancing: any tree with the same sequence of keys -/
  | insert (k : K) (t : Tree K)
  /-- erase what `find` finds; `t`: after rebalancing -/
  | erase (k : K) (t : Tree K)

/-- One operation on the set. -/
def apply {K : Type} [DecidableEq K] (lt : K → K → Bool) (s : Tree K) : Op K → Option (Tree K)
  | .insert k t => if t.keys = (s.insert lt k none).keys then some t else none
  | .erase k t =>
    match s.find lt k with
    | none => some s
    | some x => if t.keys = s.keys.erase x then some t else none

def applyAll {K : Type} [DecidableEq K] (lt : K → K → Bool) (s : Tree K) : List (Op K) → Option (Tree K)
  | [] => some s
  | o :: os => (apply lt s o).bind fun s' => applyAll lt s' os

end Maf.Addr
