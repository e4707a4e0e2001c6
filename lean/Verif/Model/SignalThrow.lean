/-
A signal whose slots throw, and whose slots are connected by pointer.

Models include/maf/utils/SignalSlots.h: `MultiSlotKeeper` (86-154: `add`, `addUnique`, `notify`, `remove`, `valid`, `clear`, `has`, `size`) and the calls of `BasicSignal_`
(320-322, 383-386, 465-471) and `Connection` (194-239, through `MyKeeper_`, 477-493) that end in them. A slot pointer may be connected more than once (383).
The mutex of the keeper is released by an exception (include/maf/threading/AtomicObject.h, `AtomicRefBase_`), so calls of several threads come one after the other in some order.
Simplified: slots do not use the signal (Model/Signal.lean: slots that do, and do not throw); which calls of slots throw is open.
-/
namespace Maf.Exn

abbrev SlotId := Nat

inductive Op where
  /-- `signal.connect(slotPtr)` (383-386): `add` (94-97) -/
  | connect (s : SlotId)
  /-- `signal.disconnect(slotPtr)` (465), `Connection::disconnect` (194-209): `remove` (124-137) -/
  | disconnect (s : SlotId)
  /-- `Connection::reconnect` (223-239): `addUnique` (99-105) -/
  | reconnect (s : SlotId)
  /-- `Connection::connected` (211-221): `has` (143-145) -/
  | has (s : SlotId)
  /-- `signal.disconnect()` (467): `clear` (141) -/
  | clear
  /-- `signal(args)` (320-322): `notify` (107-122); the `k`th slot called throws if `throws k` -/
  | emit (throws : Nat → Bool)
  /-- `signal.connectionCount()` (471): `size` (147) -/
  | count
  /-- `signal.connected()` (469): `valid` (139) -/
  | connected

/-- What the caller sees. -/
inductive Out where
  | done
  | bool (b : Bool)
  | num (n : Nat)
  /-- the slots called in order; did the last one throw? -/
  | calls (l : List SlotId) (threw : Bool)
  /-- a failed `assert` -/
  | aborted
deriving DecidableEq

structure State where
  /-- `slots_`; `none`: a null pointer -/
  slots : List (Option SlotId)
  /-- `notifying_` -/
  notifying : Bool
deriving DecidableEq

def start : State := { slots := [], notifying := false }

/-- 143-145 -/
def hasSlot (s : State) (x : SlotId) : Bool := s.slots.any fun e => e == some x

/-- 131-132: the first such pointer is reset -/
def resetFirst (x : SlotId) : List (Option SlotId) → List (Option SlotId)
  | [] => []
  | e :: es => if e = some x then none :: es else e :: resetFirst x es

/-- 124-137 -/
def remove (s : State) (x : SlotId) : State × Bool :=
  if hasSlot s x then
    if s.notifying then ({ s with slots := resetFirst x s.slots }, true)
    else ({ s with slots := s.slots.erase (some x) }, true)
  else (s, false)

/-- 112-119: the slots called, what is left of the list, and whether the loop was left by an exception; `k` slots have been called. -/
def loop (throws : Nat → Bool) (k : Nat) : List (Option SlotId) → List SlotId × List (Option SlotId) × Bool
  | [] => ([], [], false)
  | none :: es => loop throws k es
  | some x :: es =>
    if throws k then ([x], some x :: es, true)
    else
      let r := loop throws (k + 1) es
      (x :: r.1, some x :: r.2.1, r.2.2)

/-- 107-122; `checked`: asserts are compiled in -/
def notify (checked : Bool) (s : State) (throws : Nat → Bool) : State × Out :=
  if s.slots = [] then (s, .calls [] false)
  else if checked && s.notifying then (s, .aborted)
  else
    let r := loop throws 0 s.slots
    -- 120: not reached by an exception
    ({ slots := r.2.1, notifying := r.2.2 }, .calls r.1 r.2.2)

def step (checked : Bool) (s : State) : Op → State × Out
  | .connect x => ({ s with slots := s.slots ++ [some x] }, .bool true)
  | .disconnect x => ((remove s x).1, .bool (remove s x).2)
  | .reconnect x => if hasSlot s x then (s, .bool false) else ({ s with slots := s.slots ++ [some x] }, .bool true)
  | .has x => (s, .bool (hasSlot s x))
  | .clear => ({ s with slots := [] }, .done)
  | .emit throws => notify checked s throws
  | .count => (s, .num s.slots.length)
  | .connected => (s, .bool (!s.slots.isEmpty))

/-- A history: what each call gives. A failed `assert` ends the program. -/
def run (checked : Bool) (s : State) : List Op → List Out
  | [] => []
  | op :: ops =>
    match step checked s op with
    | (_, .aborted) => [.aborted]
    | (s', o) => o :: run checked s' ops

end Maf.Exn
