import Verif.Model.Client
/-
Specification of clients in terms of histories only.
-/
namespace Maf.Cli
open Maf.Calls

def mapStep (sid : Sid) (acc : Option Avail) : Event → Option Avail
  | .did _ (.store s st) _ => if s = sid then some st else acc
  | .did _ .clearMap _ => none
  | .did _ .unlockMap _ => none
  | _ => acc

/-- What the client was last told of service `sid`. -/
def mapIn (l : List Event) (sid : Sid) : Option Avail := l.foldl (mapStep sid) none

def mapLockStep (acc : Option Nat) : Event → Option Nat
  | .did n .lockMap _ => some n
  | .did _ .unlockMap _ => none
  | _ => acc

/-- Who keeps the statuses locked. -/
def mapLockIn (l : List Event) : Option Nat := l.foldl mapLockStep none

def reqStep (sid : Sid) (acc : Option Rq) : Event → Option Rq
  | .did _ (.getReq s) (r, some _) => if s = sid then some r else acc
  | .did _ .forgetReqs _ => none
  | _ => acc

/-- The requester for service `sid`. -/
def reqIn (l : List Event) (sid : Sid) : Option Rq := l.foldl (reqStep sid) none

def reqLockStep (acc : Option Nat) : Event → Option Nat
  | .did n (.lockReq _) _ => some n
  | .did n .lockReqs _ => some n
  | .did _ .unlockReqs _ => none
  | _ => acc

/-- Who keeps the requesters locked. -/
def reqLockIn (l : List Event) : Option Nat := l.foldl reqLockStep none

def statusStep (r : Rq) (acc : Avail) : Event → Avail
  | .did _ (.getReq _) (r', some st) => if r' = r then st else acc
  | .did _ (.setStatus r' st) _ => if r' = r then st else acc
  | _ => acc

/-- The status of its service that requester `r` has. -/
def statusIn (l : List Event) (r : Rq) : Avail := l.foldl (statusStep r) .unavailable

def obsStep (r : Rq) (acc : List Obs) : Event → List Obs
  | .did _ (.addObs r' o) _ => if r' = r then acc ++ [o] else acc
  | .did _ (.removeObs r' o) _ => if r' = r then acc.filter (· != o) else acc
  | .did _ (.unlockObs r' os) _ => if r' = r then os else acc
  | _ => acc

/-- The observers of requester `r`. -/
def obsIn (l : List Event) (r : Rq) : List Obs := l.foldl (obsStep r) []

def obsLockStep (r : Rq) (acc : Option Nat) : Event → Option Nat
  | .did n (.lockObs r') _ => if r' = r then some n else acc
  | .did _ (.unlockObs r' _) _ => if r' = r then none else acc
  | _ => acc

/-- Who keeps the observers of `r` locked. -/
def obsLockIn (l : List Event) (r : Rq) : Option Nat := l.foldl (obsLockStep r) none

/-- The requester `r` exists, for service `sid`. -/
def Made (l : List Event) (r : Rq) (sid : Sid) : Prop := ∃ n st, .did n (.getReq sid) (r, some st) ∈ l

def serverStep (acc : Avail) : Event → Avail
  | .did _ (.setServer st) _ => st
  | _ => acc

def serverIn (l : List Event) : Avail := l.foldl serverStep .unavailable

/-- The rules for an event after history `l`. -/
def EvOk (l : List Event) : Event → Prop
  | .did _ (.store _ _) _ => mapLockIn l = none
  | .did _ .clearMap _ => mapLockIn l = none
  | .did _ (.read sid) o => o = mapIn l sid ∧ mapLockIn l = none
  | .did _ .lockMap ss => (∀ sid, sid ∈ ss ↔ mapIn l sid ≠ none) ∧ ss.Nodup ∧ mapLockIn l = none
  | .did _ (.getReq sid) (r, none) => reqIn l sid = some r ∧ reqLockIn l = none
  -- a new one has the status the client knows
  | .did _ (.getReq sid) (r, some st) => reqIn l sid = none ∧ (∀ s, ¬Made l r s) ∧ st = (mapIn l sid).getD .unavailable ∧ reqLockIn l = none
  | .did _ (.hasReq sid) b => (b = true ↔ reqIn l sid ≠ none) ∧ reqLockIn l = none
  | .did _ (.findReq sid) o => o = reqIn l sid ∧ reqLockIn l = none
  | .did _ (.lockReq sid) o => o = reqIn l sid ∧ reqLockIn l = none
  | .did _ .lockReqs rs => (∀ sid r, (sid, r) ∈ rs ↔ reqIn l sid = some r) ∧ (rs.map (·.1)).Nodup ∧ reqLockIn l = none
  | .did _ (.status r) a => a = statusIn l r
  | .did _ (.check r) a => a = statusIn l r
  | .did _ (.addObs r _) a => a = statusIn l r ∧ obsLockIn l r = none ∧ ∃ sid, Made l r sid
  | .did _ (.removeObs r _) _ => obsLockIn l r = none
  | .did _ (.lockObs r) os => os = obsIn l r ∧ obsLockIn l r = none
  | .did _ .server a => a = serverIn l
  | _ => True

/-- What observer `o` of requester `r` was told, one after the other, by the status changes in a history. -/
def toldIn (r : Rq) (o : Obs) (l : List Event) : List Avail := l.filterMap fun
  | .did _ (.tell r' o' _ new) _ => if r' = r ∧ o' = o then some new else none
  | _ => none

/-- The changes of the status of requester `r`. -/
def changesIn (r : Rq) (l : List Event) : List Avail := l.filterMap fun
  | .did _ (.setStatus r' st) _ => if r' = r then some st else none
  | _ => none

/-- Each is different from the one before, the first from `a`. -/
def Alternate (a : Avail) : List Avail → Prop
  | [] => True
  | x :: xs => x ≠ a ∧ Alternate x xs

end Maf.Cli
