import Verif.Model.Provider
/-
Specification of service providers in terms of histories only: who is registered, which value a property has, which
requests are pending and valid, … after a history, and the rule each operation obeys.
-/
namespace Maf.Prov
open Maf.Calls

def regsStep (acc : List (Addr × OpId)) : Event → List (Addr × OpId)
  | .did _ (.saveReg a op) _ => if (a, op) ∈ acc then acc else acc ++ [(a, op)]
  | .did _ (.dropReg a op) _ => acc.filter (· != (a, op))
  | .did _ (.dropAddr a) _ => acc.filter (·.1 != a)
  | .did _ .clearRegs _ => []
  | _ => acc

/-- Who is registered for what. -/
def regsIn (l : List Event) : List (Addr × OpId) := l.foldl regsStep []

/-- The clients registered for `op`. -/
def clientsIn (l : List Event) (op : OpId) : List Addr := ((regsIn l).filter (·.2 == op)).map (·.1)

def statusStep (op : OpId) (acc : Option Obj) : Event → Option Obj
  | .did _ (.setStatus o p) true => if o = op then p else acc
  | .did _ (.dropStatus o) _ => if o = op then none else acc
  | .did _ .clearStatus _ => none
  | _ => acc

/-- The value of property `op`: the one set last, if it was not removed since. -/
def statusIn (l : List Event) (op : OpId) : Option Obj := l.foldl (statusStep op) none

def handlerStep (op : OpId) (acc : Option Fn) : Event → Option Fn
  | .did _ (.addHandler o h) true => if o = op then some h else acc
  | .did _ (.dropHandler o) _ => if o = op then none else acc
  | _ => acc

def handlerIn (l : List Event) (op : OpId) : Option Fn := l.foldl (handlerStep op) none

def listenStep (op : OpId) (acc : List Fn) : Event → List Fn
  | .did _ (.listen o f) _ => if o = op then acc ++ [f] else acc
  | _ => acc

/-- The provider-side listeners of `op`. -/
def listenersIn (l : List Event) (op : OpId) : List Fn := l.foldl (listenStep op) []

def pendStep (acc : List Rid) : Event → List Rid
  | .did _ (.newReq _) r => acc ++ [r]
  | .did _ (.find _ _ true) (some r) => acc.filter (· != r)
  | _ => acc

/-- The requests that are neither answered nor aborted, in the order of their arrival. -/
def pendIn (l : List Event) : List Rid := l.foldl pendStep []

def msgStep (r : Rid) (acc : Option Msg) : Event → Option Msg
  | .did _ (.newReq m) r' => if r' = r then some m else acc
  | _ => acc

/-- The message of request `r`. -/
def msgIn (l : List Event) (r : Rid) : Option Msg := l.foldl (msgStep r) none

def validStep (r : Rid) (acc : Bool) : Event → Bool
  | .did _ (.newReq _) r' => if r' = r then true else acc
  | .did _ (.invalidate r') _ => if r' = r then false else acc
  | _ => acc

/-- Is request `r` valid? -/
def validIn (l : List Event) (r : Rid) : Bool := l.foldl (validStep r) false

def abortStep (r : Rid) (acc : Option Fn) : Event → Option Fn
  | .did _ (.newReq _) r' => if r' = r then none else acc
  | .did _ (.setAbort r' f) true => if r' = r then some f else acc
  | _ => acc

/-- The abort callback of `r`. -/
def abortIn (l : List Event) (r : Rid) : Option Fn := l.foldl (abortStep r) none

def reqLockStep (acc : Option Nat) : Event → Option Nat
  | .did n .lockReqs _ => some n
  | .did _ .unlockReqs _ => none
  | _ => acc

/-- Who keeps all requests locked (to abort them). -/
def reqLockIn (l : List Event) : Option Nat := l.foldl reqLockStep none

def lisLockStep (acc : Option Nat) : Event → Option Nat
  | .did n (.lockListeners _) _ => some n
  | .did _ .unlockListeners _ => none
  | _ => acc

/-- Who keeps the listeners locked (to notify them). -/
def lisLockIn (l : List Event) : Option Nat := l.foldl lisLockStep none

def mtxStep (r : Rid) (acc : Option Nat) : Event → Option Nat
  | .did n (.setAbort r' _) false => if r' = r then some n else acc
  | .did _ (.freeReq r') _ => if r' = r then none else acc
  | _ => acc

/-- Who keeps request `r` locked (to call its abort callback). -/
def mtxIn (l : List Event) (r : Rid) : Option Nat := l.foldl (mtxStep r) none

/-- Has `r` this operation and id? -/
def hasId (l : List Event) (op : OpId) (id : Option Nat) (r : Rid) : Bool :=
  match msgIn l r with
  | some m => m.op == op && m.id == id
  | none => false

/-- The rules for an event after history `l`. -/
def EvOk (l : List Event) : Event → Prop
  | .did _ (.registered op) as => as = clientsIn l op
  | .did _ (.status op) o => o = statusIn l op
  -- a property changes unless it has a value that is equal to the new one
  | .did _ (.setStatus op p) b => b = true ↔ ∀ x y, statusIn l op = some x → p = some y → x.equal y = false
  | .did _ (.handler op) o => o = handlerIn l op
  -- the first handler is kept
  | .did _ (.addHandler op _) b => b = true ↔ handlerIn l op = none
  | .did _ (.dropHandler op) b => b = true ↔ handlerIn l op ≠ none
  | .did _ (.newReq _) r => msgIn l r = none ∧ reqLockIn l = none
  -- the first pending request with this operation and id
  | .did _ (.find op id _) o => o = (pendIn l).find? (hasId l op id) ∧ reqLockIn l = none
  | .did _ .lockReqs rs => rs = pendIn l ∧ reqLockIn l = none
  | .did _ (.check r) c => mtxIn l r = none ∧ match c with
    | .invalid => validIn l r = false
    | .gone => validIn l r = true ∧ ∃ n, .did n .expire () ∈ l
    | .ok m => validIn l r = true ∧ msgIn l r = some m
  | .did _ (.invalidate r) b => b = validIn l r ∧ mtxIn l r = none
  | .did _ (.abortFn r) o => o = abortIn l r ∧ mtxIn l r = none
  | .did _ (.setAbort r _) b => b = validIn l r ∧ mtxIn l r = none ∧ msgIn l r ≠ none
  | .did _ (.valid r) b => b = validIn l r ∧ mtxIn l r = none
  | .did _ (.lockListeners op) fs => fs = listenersIn l op ∧ lisLockIn l = none
  | .did _ (.listen _ _) _ => lisLockIn l = none
  | _ => True

/-- `a` happens before `b`. -/
def Before (a b : Event) (log : List Event) : Prop := ∃ l m r, log = l ++ a :: m ++ b :: r

/-- No two requests have the same operation and the same id. -/
def Distinct (log : List Event) : Prop := ∀ n m r n' m' r', .did n (.newReq m) r ∈ log → .did n' (.newReq m') r' ∈ log → m.op = m'.op → m.id = m'.id → r = r'

/-- Call `n` replies to request `r` with `p` (finally or partially, as `code` says). -/
def Replies (log : List Event) (n : Nat) (r : Rid) (p : Payload) (code : Code) : Prop :=
  (.called n (.respond r p) ∈ log ∧ code = .request) ∨ (.called n (.update r p) ∈ log ∧ code = .partialUpdate)

/-- Calls `n` and `k` do not overlap: one returns before the other is made. -/
def Serial (log : List Event) (n k : Nat) : Prop := (∃ x c, Before (.returned n x) (.called k c) log) ∨ ∃ x c, Before (.returned k x) (.called n c) log

end Maf.Prov
