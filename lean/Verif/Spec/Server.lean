import Verif.Model.Server
/-
Specification of servers in terms of histories only.
-/
namespace Maf.Srv
open Maf.Calls

def provStep (sid : Sid) (acc : Option Pr) : Event → Option Pr
  | .did _ (.getProv s) (p, true) => if s = sid then some p else acc
  | .did _ .takeProvs _ => none
  | _ => acc

/-- The provider of service `sid`. -/
def provIn (l : List Event) (sid : Sid) : Option Pr := l.foldl (provStep sid) none

def provLockStep (acc : Option Nat) : Event → Option Nat
  | .did n .lockProvs _ => some n
  | .did _ .unlockProvs _ => none
  | _ => acc

/-- Who keeps the providers locked. -/
def provLockIn (l : List Event) : Option Nat := l.foldl provLockStep none

/-- The provider `p` exists, for service `sid`. -/
def Made (l : List Event) (p : Pr) (sid : Sid) : Prop := ∃ n, .did n (.getProv sid) (p, true) ∈ l

def availStep (p : Pr) (acc : Bool) : Event → Bool
  | .did _ (.setAvail p' b) _ => if p' = p then b else acc
  | _ => acc

/-- Whether provider `p` serves. -/
def availIn (l : List Event) (p : Pr) : Bool := l.foldl (availStep p) false

def addrStep (acc : List Addr) : Event → List Addr
  | .did _ (.addAddr a) _ => if a ∈ acc then acc else acc ++ [a]
  | .did _ (.dropAddr a) _ => acc.filter (· != a)
  | .did _ (.unlockAddrs as) _ => as
  | _ => acc

/-- The registered clients. -/
def addrsIn (l : List Event) : List Addr := l.foldl addrStep []

def addrLockStep (acc : Option Nat) : Event → Option Nat
  | .did n .lockAddrs _ => some n
  | .did _ (.unlockAddrs _) _ => none
  | _ => acc

/-- Who keeps the registered clients locked. -/
def addrLockIn (l : List Event) : Option Nat := l.foldl addrLockStep none

/-- The rules for an event after history `l`. -/
def EvOk (l : List Event) : Event → Prop
  | .did _ (.getProv sid) (p, false) => provIn l sid = some p ∧ provLockIn l = none
  | .did _ (.getProv sid) (p, true) => provIn l sid = none ∧ (∀ s, ¬Made l p s) ∧ provLockIn l = none
  | .did _ (.hasProv sid) b => (b = true ↔ provIn l sid ≠ none) ∧ provLockIn l = none
  | .did _ (.checkProv sid) b => (b = true ↔ provIn l sid ≠ none) ∧ provLockIn l = none
  | .did _ (.findProv sid) o => o = provIn l sid ∧ provLockIn l = none
  | .did _ .takeProvs ps => (∀ sid p, (sid, p) ∈ ps ↔ provIn l sid = some p) ∧ (ps.map (·.1)).Nodup ∧ provLockIn l = none
  | .did _ .lockProvs ps => (∀ sid p, (sid, p) ∈ ps ↔ provIn l sid = some p) ∧ (ps.map (·.1)).Nodup ∧ provLockIn l = none
  | .did _ (.avail p) b => b = availIn l p
  | .did _ (.readAvail p) b => b = availIn l p
  | .did _ (.setAvail p _) sid => Made l p sid
  | .did _ (.addAddr _) _ => addrLockIn l = none
  | .did _ (.dropAddr _) _ => addrLockIn l = none
  | .did _ .lockAddrs as => as = addrsIn l ∧ addrLockIn l = none
  | _ => True

/-- A message to client `a` that service `sid` is available or not. -/
def News (a : Addr) (sid : Sid) (b : Bool) : Event → Prop
  | .did _ (.tell a' sid' b') _ => a' = a ∧ sid' = sid ∧ b' = b
  | .did _ (.greet a' sid') _ => a' = a ∧ sid' = sid ∧ b = true
  | _ => False

def newsStep (a : Addr) (sid : Sid) (acc : Option Bool) : Event → Option Bool
  | .did _ (.tell a' sid' b) _ => if a' = a ∧ sid' = sid then some b else acc
  | .did _ (.greet a' sid') _ => if a' = a ∧ sid' = sid then some true else acc
  | .did _ (.addAddr a') _ => if a' = a then none else acc
  | _ => acc

/-- What client `a` was last told of service `sid` since it registered. -/
def newsIn (l : List Event) (a : Addr) (sid : Sid) : Option Bool := l.foldl (newsStep a sid) none

/-- The messages about changes that call `n` sends, one after the other. -/
def toldBy (n : Nat) (l : List Event) : List (Addr × Sid × Bool) := l.filterMap fun
  | .did k (.tell a sid b) _ => if k = n then some (a, sid, b) else none
  | _ => none

end Maf.Srv
