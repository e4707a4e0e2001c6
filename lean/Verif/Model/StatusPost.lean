import Verif.Model.Processor
import Verif.Model.StatusCallback
/-
Observers that post the status of a service to a processor.

Models include/maf/messaging/client-server/AsyncServiceStatusObserver.h (whole file) with the requester's part, ServiceRequester.cpp 120-147 (`registerServiceStatusObserver`,
`unregisterServiceStatusObserver`) and 244-285 (`onServiceStatusChanged`, `forwardServiceStatusToObservers`), on top of the model of a processor (Model/Processor.lean): every step of the processor is a
step of that model. One requester, one processor, any number of its observers, any number of threads. The requester's mutex (that of `serviceStatusObservers_`) is held from `lock` to the end of the loop.

Each notification has a number, which exists only in the model: the message that is posted carries the number instead of identifier and status.
Simplified: the status is compared and stored in one step, as in Model/StatusCallback; users do not post messages of type `ServiceStatusMsg` themselves, nor call the observer; observers of other
kinds are in Model/StatusCallback; while a thread tells a change it makes no other calls. `gone`: from then on the weak pointer cannot be locked; whoever still uses the processor goes on (more than the code can do).
-/
namespace Maf.Sso
open Maf.Proc (Tid)
open Maf.Watch (Avail)

inductive Ev where
  /-- `registerServiceStatusObserver(o)` has put `o` into the list, and seen status `a` -/
  | registered (o : Nat) (a : Avail)
  | unregistered (o : Nat)
  /-- the requester's status has changed -/
  | changed (x y : Avail)
  /-- the list, as it was then, is locked to tell this change; and unlocked -/
  | locked (x y : Avail) (l : List Nat)
  | unlocked
  /-- notification `n`: thread `t` tells a change to `o` -/
  | told (n o : Nat) (x y : Avail) (t : Tid)
  /-- notification `n`: a registration tells `o` that the service is available -/
  | greeted (n o : Nat) (t : Tid)
  /-- the processor is gone: notification `n` is not posted -/
  | lost (n : Nat)
  /-- the last shared pointer to the processor is given up -/
  | gone
  /-- of the processor -/
  | proc (e : Proc.Ev)
deriving DecidableEq

/-- The list is locked by thread `by_`, which has to tell `todo`. -/
structure Walk where
  old : Avail
  new : Avail
  by_ : Tid
  todo : List Nat
deriving DecidableEq

structure State where
  status : Avail
  /-- `serviceStatusObservers_` -/
  listed : List Nat
  walk : Option Walk
  /-- changes not yet told -/
  waiting : List (Avail × Avail)
  /-- registrations that have still to tell the status -/
  greets : List Nat
  /-- `_wpcomp.lock()` is not null -/
  alive : Bool
  /-- number of notifications -/
  next : Nat
  p : Proc.State
  log : List Ev

def init : State := ⟨.unknown, [], none, [], [], true, 0, Proc.init, []⟩

/-- `MessageID` of `ServiceStatusMsg` -/
def statusTy : Proc.Ty := 0

def State.note (s : State) (e : Ev) : State := { s with log := s.log ++ [e] }

/-- The processor makes a step. -/
def onProc (s : State) (a : Proc.Act) : Option State :=
  (Proc.step s.p a).map fun p' => { s with p := p', log := s.log ++ (p'.log.drop s.p.log.length).map .proc }

/-- AsyncServiceStatusObserver.h 46-52, by thread `t`: the call of `post` begins -/
def post (s : State) (t : Tid) : Option State :=
  if s.alive then (onProc s (.callPost t ⟨statusTy, s.next⟩)).map fun s' => { s' with next := s'.next + 1 }
  else some { s.note (.lost s.next) with next := s.next + 1 }

/-- The steps of a `post` that has begun. -/
def inner : Proc.Act → Bool
  | .lockMap _ | .postCheck _ | .asyncCheck _ | .pushCheck _ | .insert _ => true
  | _ => false

def own : Proc.Act → Bool
  | .callPost _ m => m.ty != statusTy
  | _ => true

/-- Does `t` tell a change? -/
def walks (s : State) (t : Tid) : Bool :=
  match s.walk with
  | some w => w.by_ == t
  | none => false

inductive Act where
  /-- ServiceRequester.cpp 125-132 -/
  | register (o : Nat)
  /-- 134-140, by thread `t` -/
  | greet (o : Nat) (t : Tid)
  /-- 143-147 -/
  | unregister (o : Nat)
  /-- 244-254: a change reaches the requester -/
  | change (x y : Avail)
  /-- 262: the i-th change that waits locks the list -/
  | lock (i : Nat) (t : Tid)
  /-- one round of the loop 263-284, or its end -/
  | tell
  | drop
  /-- the processor makes a step -/
  | proc (a : Proc.Act)

def change (s : State) (x y : Avail) : State :=
  if y = s.status then s
  else { s.note (.changed x y) with status := y, waiting := s.waiting ++ [(x, y)] }

def lock (s : State) (i : Nat) (t : Tid) : Option State :=
  match s.walk, s.waiting[i]? with
  | none, some (x, y) =>
    if Proc.canCall s.p t then
      some { s.note (.locked x y s.listed) with walk := some ⟨x, y, t, s.listed⟩, waiting := s.waiting.eraseIdx i }
    else none
  | _, _ => none

def tellNext (s : State) (w : Walk) : Option State :=
  match w.todo with
  | [] => some { s.note .unlocked with walk := none }
  | o :: rest => post { s.note (.told s.next o w.old w.new w.by_) with walk := some { w with todo := rest } } w.by_

def tell (s : State) : Option State :=
  match s.walk with
  | none => none
  | some w => if Proc.canCall s.p w.by_ then tellNext s w else none

def step (s : State) (a : Act) : Option State :=
  if s.p.ub then none else
  match a with
  | .register o =>
    if s.walk = none then
      some { s.note (.registered o s.status) with listed := s.listed ++ [o], greets := if s.status = .available then s.greets ++ [o] else s.greets }
    else none
  | .greet o t =>
    if o ∈ s.greets ∧ walks s t = false ∧ Proc.canCall s.p t = true then
      post { s.note (.greeted s.next o t) with greets := s.greets.erase o } t
    else none
  | .unregister o => if s.walk = none then some { s.note (.unregistered o) with listed := s.listed.filter (· ≠ o) } else none
  | .change x y => some (change s x y)
  | .lock i t => lock s i t
  | .tell => tell s
  | .drop => some { s.note .gone with alive := false }
  | .proc a => if own a = true ∧ (inner a = true ∨ walks s a.tid = false) then onProc s a else none

def run (s : State) : List Act → Option State
  | [] => some s
  | a :: as => (step s a).bind fun s' => run s' as

end Maf.Sso
