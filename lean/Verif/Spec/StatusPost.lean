import Verif.Model.StatusPost
import Verif.Spec.Processor
/-
Specification of observers that post the status of a service.
-/
namespace Maf.Sso
open Maf.Proc (Tid)
open Maf.Watch (Avail)

/-- What happened to the processor. -/
def procOf (l : List Ev) : List Proc.Ev := l.filterMap fun | .proc e => some e | _ => none

/-- Event `e` is notification `n`, made by thread `t`. -/
def IsNote (e : Ev) (n : Nat) (t : Tid) : Prop :=
  match e with
  | .told k _ _ _ u => k = n ∧ u = t
  | .greeted k _ u => k = n ∧ u = t
  | _ => False

/-- The number of a notification. -/
def noteNo : Ev → Option Nat
  | .told n _ _ _ _ => some n
  | .greeted n _ _ => some n
  | _ => none

/-- The numbers of the notifications, in order. -/
def notes (l : List Ev) : List Nat := l.filterMap noteNo

/-- Of those that tell changes. -/
def changeNo : Ev → Option Nat
  | .told n _ _ _ _ => some n
  | _ => none

def changes (l : List Ev) : List Nat := l.filterMap changeNo

/-- The notification in a piece of work. -/
def noOf : Proc.Work → Option Nat
  | .msg m => if m.ty = statusTy then some m.val else none
  | .exec _ => none

/-- The notifications that have entered the queue, in order. -/
def queued (l : List Ev) : List Nat := (Proc.entries (procOf l)).filterMap noOf

/-- The notifications that thread `t` has begun to dispatch, in order. -/
def dispatched (t : Tid) (l : List Ev) : List Nat := (Proc.ranBy t (procOf l)).filterMap noOf

/-- Who is in the list. -/
def listStep (acc : List Nat) : Ev → List Nat
  | .registered o _ => acc ++ [o]
  | .unregistered o => acc.filter (· ≠ o)
  | _ => acc

def listedIn (l : List Ev) : List Nat := l.foldl listStep []

/-- Who is told what. -/
def toldIn (l : List Ev) : List (Nat × Avail × Avail) := l.filterMap fun | .told _ o x y _ => some (o, x, y) | _ => none

def statusStep (acc : Avail) : Ev → Avail
  | .changed _ y => y
  | _ => acc

/-- The requester's status after this history. -/
def statusOf (l : List Ev) : Avail := l.foldl statusStep .unknown

/-- The changes. -/
def changedIn (l : List Ev) : List (Avail × Avail) := l.filterMap fun | .changed x y => some (x, y) | _ => none

/-- The changes that have been, or are being, told. -/
def lockedIn (l : List Ev) : List (Avail × Avail) := l.filterMap fun | .locked x y _ => some (x, y) | _ => none

/-- The registrations that saw the service available. -/
def happy (l : List Ev) : List Nat := l.filterMap fun | .registered o .available => some o | _ => none

/-- The registrations that have told the status. -/
def greetedIn (l : List Ev) : List Nat := l.filterMap fun | .greeted _ o _ => some o | _ => none

end Maf.Sso
