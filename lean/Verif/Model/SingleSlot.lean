/-
Signals that take one connection at a time (`SCSignal`).

Models include/maf/utils/SignalSlots.h: `SingleSlotKeeper` (37-83), with `Connection` (175-275), `ScopedConnection` (277-299) and `BasicSignal_` (302-327, 465-493, 521-527).

As in Model/Signal.lean, the keeper is locked during an emission, so that whatever happens to the signal then is done by the function being called: one state machine, the actions in the
order in which they happen. The n-th call of `connect` makes function n and returns connection n; a connection that is moved is still the same connection.
Not modelled: exceptions, empty functions (`assert(s)`, 325), connection-aware functions (Model/Signal.lean has them), `connect(SlotPtrType)` with the same pointer twice.
-/
namespace Maf.One

abbrev Id := Nat

/-- `Connection::ctor_` (line 272). -/
inductive Link where
  /-- a `weak_ptr` to the function -/
  | weak
  /-- the `shared_ptr`: disconnected, can be reconnected -/
  | shared
  /-- `{}` -/
  | empty
deriving DecidableEq

/-- What happens, in order. -/
inductive Ev (A : Type) where
  | added (n : Id)
  /-- `connect` while another function is connected -/
  | refused (n : Id)
  | removed (n : Id)
  | called (n : Id) (a : A)
  | returned (n : Id)
  /-- an emission while nothing is connected -/
  | skipped (a : A)
deriving DecidableEq

structure State (A : Type) where
  /-- `mySlot()` -/
  slot : Option Id
  next : Id
  conn : Id → Link
  /-- `notifying_`: the function being called -/
  running : Option Id
  alive : Bool
  ub : Bool
  log : List (Ev A)

def init (A : Type) : State A := { slot := none, next := 0, conn := fun _ => .empty, running := none, alive := true, ub := false, log := [] }

def set (f : Id → Link) (n : Id) (x : Link) : Id → Link := fun m => if m = n then x else f m

/-- The last `shared_ptr` to function `n` goes away: undefined behaviour if it is being called. -/
def freed {A : Type} (s : State A) (n : Id) : State A := { s with ub := s.ub || s.running == some n }

/-- `Connection::connected` (211-221), `has` (73). -/
def connected {A : Type} (s : State A) (n : Id) : Bool := s.conn n == .weak && s.alive && s.slot == some n

/-- `Connection::disconnect` (194-209), `remove` (52-58). The function, if it still exists, is in the signal. -/
def disconnect {A : Type} (s : State A) (n : Id) : State A × Bool :=
  if s.conn n = .weak then
    if s.alive then
      if s.slot = some n then ({ s with slot := none, conn := set s.conn n .shared, log := s.log ++ [.removed n] }, true)
      else (s, false)
    else ({ s with conn := set s.conn n .empty }, false)
  else (s, false)

/-- `Connection::reconnect` (223-238), `addUnique`, `add` (42-50). -/
def reconnect {A : Type} (s : State A) (n : Id) : State A × Bool :=
  if s.conn n = .shared ∧ s.alive then
    match s.slot with
    | none => ({ s with slot := some n, conn := set s.conn n .weak, log := s.log ++ [.added n] }, true)
    -- 232: `ctor_ = {}`
    | some _ => (freed { s with conn := set s.conn n .empty } n, false)
  else (s, false)

/-- A `Connection` is destroyed. -/
def dropConn {A : Type} (s : State A) (n : Id) : State A :=
  if s.conn n = .shared then freed { s with conn := set s.conn n .empty } n else { s with conn := set s.conn n .empty }

/-- `clear` (68-72). -/
def clear {A : Type} (s : State A) : State A :=
  match s.slot with
  | none => s
  | some n => freed { s with slot := none, log := s.log ++ [.removed n] } n

inductive Act (A : Type) where
  /-- `signal.connect(function)` (324-327, 521-527) -/
  | connect
  | disconnect (n : Id)
  | reconnect (n : Id)
  /-- `~Connection` -/
  | drop (n : Id)
  /-- `~ScopedConnection` (289, 292-296) -/
  | scopeEnd (n : Id)
  /-- `signal.disconnect()` (467) -/
  | clear
  /-- `signal(args)` (320-322, 60-67) -/
  | emit (a : A)
  /-- the function being called returns -/
  | ret
  /-- `~BasicSignal_` (318) -/
  | destroy
deriving DecidableEq

def body {A : Type} (s : State A) : Act A → Option (State A)
  | .connect =>
    if s.alive then
      match s.slot with
      | none => some { s with slot := some s.next, next := s.next + 1, conn := set s.conn s.next .weak, log := s.log ++ [.added s.next] }
      | some _ => some { s with next := s.next + 1, log := s.log ++ [.refused s.next] }
    else none
  | .disconnect n => some (disconnect s n).1
  | .reconnect n => some (reconnect s n).1
  | .drop n => some (dropConn s n)
  | .scopeEnd n => some (dropConn (if connected s n then (disconnect s n).1 else s) n)
  | .clear => if s.alive then some (clear s) else none
  | .emit a =>
    if s.alive then
      match s.slot with
      | none => some { s with log := s.log ++ [.skipped a] }
      | some n =>
        -- 62
        if s.running.isSome then some { s with ub := true }
        else some { s with running := some n, log := s.log ++ [.called n a] }
    else none
  | .ret =>
    match s.running with
    | some n => some { s with running := none, log := s.log ++ [.returned n] }
    | none => none
  | .destroy => if s.alive then some { clear s with alive := false } else none

/-- No step after undefined behaviour. -/
def step {A : Type} (s : State A) (a : Act A) : Option (State A) := if s.ub then none else body s a

def run {A : Type} (s : State A) : List (Act A) → Option (State A)
  | [] => some s
  | a :: as => (step s a).bind fun s' => run s' as

end Maf.One
