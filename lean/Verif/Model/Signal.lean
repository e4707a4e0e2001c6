/-
Signals and slots.

Models include/maf/utils/SignalSlots.h: `MultiSlotKeeper` (86-154), `Connection` (175-275),
`ScopedConnection` (277-299), `BasicSignal_` (302-534).

A signal's keeper is locked by a recursive mutex during an emission (`keeper()->notify`), so
while an emission runs everything else that happens to the signal is done by the slot being
called: the model is one state machine whose actions are the calls, in the order in which
they happen; calls made by a slot come between its `call` and its `ret`. Which calls a slot
makes is arbitrary.

Each insertion into the list of slots gets a ticket (a number that only grows); tickets
exist only in the model, to tell insertions apart.
A slot stays referenced by the entry of `slots_` (its `shared_ptr`) while connected, and by
the handle that disconnected it afterwards.
Not modelled: exceptions thrown by slots, the templates that only adapt argument types,
`connect(SlotPtrType)` with the same slot pointer twice (every `connect` makes a new slot),
`SingleSlotKeeper` (Model/SingleSlot.lean).
-/
namespace Maf.Sig

abbrev SlotId := Nat

/-- An element of `slots_`: `slot = none` is a null pointer (disconnected during an
emission, lines 130-134). -/
structure Entry where
  ticket : Nat
  slot : Option SlotId
deriving DecidableEq

/-- `Connection::ctor_` (line 272). -/
inductive Handle where
  /-- `weak_ptr` to the slot -/
  | weak (s : SlotId)
  /-- `shared_ptr` to the slot: disconnected, can be reconnected -/
  | shared (s : SlotId)
  /-- `{}` -/
  | empty
deriving DecidableEq

/-- What happens, in order. -/
inductive Ev (A : Type) where
  | added (ticket : Nat) (s : SlotId)
  | removed (ticket : Nat) (s : SlotId)
  | emitted (a : A)
  | called (ticket : Nat) (s : SlotId) (a : A)
  | returned (ticket : Nat)
  | emissionDone
deriving DecidableEq

/-- An emission in progress: the arguments, the position of the iterator, and the slot being
called. -/
structure Emission (A : Type) where
  arg : A
  idx : Nat
  running : Option Entry
deriving DecidableEq

structure State (A : Type) where
  /-- `slots_` -/
  slots : List Entry
  /-- next ticket -/
  next : Nat
  /-- next slot (a new `shared_ptr` for every function connected) -/
  nextSlot : SlotId
  /-- `notifying_` -/
  emission : Option (Emission A)
  /-- the `Connection` objects -/
  handles : List Handle
  /-- connection-aware slots and the index of the handle each of them owns (334-350) -/
  aware : List (SlotId × Nat)
  /-- connection-aware slots whose `ConnectionPtr` the user keeps a copy of -/
  kept : List SlotId
  /-- the signal exists -/
  alive : Bool
  ub : Bool
  log : List (Ev A)

def init (A : Type) : State A :=
  { slots := [], next := 0, nextSlot := 0, emission := none, handles := [], aware := [], kept := []
    alive := true, ub := false, log := [] }

/-- `add` (94-97). -/
def add {A : Type} (s : State A) (sl : SlotId) : State A :=
  { s with
    slots := s.slots ++ [⟨s.next, some sl⟩], next := s.next + 1
    log := s.log ++ [.added s.next sl] }

/-- `has` (143-145). -/
def has {A : Type} (s : State A) (sl : SlotId) : Bool := s.slots.any fun e => e.slot == some sl

/-- `addUnique` (99-105). -/
def addUnique {A : Type} (s : State A) (sl : SlotId) : State A × Bool :=
  if has s sl then (s, false) else (add s sl, true)

/-- `find` (126, 131): the first element pointing to the slot. -/
def find {A : Type} (s : State A) (sl : SlotId) : Option Nat := s.slots.findIdx? fun e => e.slot == some sl

/-- `remove` (124-137). -/
def remove {A : Type} (s : State A) (sl : SlotId) : State A × Bool :=
  match find s sl with
  | none => (s, false)
  | some i =>
    match s.slots[i]? with
    | none => (s, false)
    | some e =>
      if s.emission.isNone then
        ({ s with slots := s.slots.eraseIdx i, log := s.log ++ [.removed e.ticket sl] }, true)
      else
        ({ s with slots := s.slots.set i { e with slot := none }, log := s.log ++ [.removed e.ticket sl] }, true)

/-- `Connection::disconnect` (194-209). -/
def disconnect {A : Type} (s : State A) (h : Nat) : State A × Bool :=
  match s.handles[h]? with
  | some (.weak sl) =>
    if s.alive then
      match remove s sl with
      | (s1, true) => ({ s1 with handles := s1.handles.set h (.shared sl) }, true)
      | (s1, false) => (s1, false)
    else ({ s with handles := s.handles.set h .empty }, false)
  | _ => (s, false)

/-- `Connection::connected` (211-221). -/
def connected {A : Type} (s : State A) (h : Nat) : Bool :=
  match s.handles[h]? with
  | some (.weak sl) => s.alive && has s sl
  | _ => false

/-- `Connection::reconnect` (223-239). -/
def reconnect {A : Type} (s : State A) (h : Nat) : State A × Bool :=
  match s.handles[h]? with
  | some (.shared sl) =>
    if s.alive then
      match addUnique s sl with
      | (s1, true) => ({ s1 with handles := s1.handles.set h (.weak sl) }, true)
      | (s1, false) => ({ s1 with handles := s1.handles.set h .empty }, false)
    else (s, false)
  | _ => (s, false)

/-- Is this slot being called now? -/
def isRunning {A : Type} (s : State A) (sl : SlotId) : Bool :=
  match s.emission with
  | some ⟨_, _, some e⟩ => e.slot == some sl
  | _ => false

/-- A `Connection` object is destroyed (line 177). If it is the owner of a slot (which has
been disconnected), the slot is destroyed with it: undefined behaviour if that slot is being
called. -/
def dropHandle {A : Type} (s : State A) (h : Nat) : State A :=
  match s.handles[h]? with
  | some (.shared sl) => { s with handles := s.handles.set h .empty, ub := isRunning s sl }
  | _ => { s with handles := s.handles.set h .empty }

inductive Act (A : Type) where
  /-- `signal.connect(function)`: a new slot and a new handle (324-327, 521-527) -/
  | connect
  /-- `signal.connect(connection-aware function)` (334-350): the handle given to the slot is
  the second of the two new ones -/
  | connectAware
  /-- the user copies the `ConnectionPtr` passed to the running slot -/
  | keep
  | disconnect (h : Nat)
  | reconnect (h : Nat)
  /-- a `Connection` object is destroyed -/
  | drop (h : Nat)
  /-- `~ScopedConnection` (289, 292-296): disconnects if connected, then the `Connection`
  inside is destroyed -/
  | scopeEnd (h : Nat)
  /-- `signal.disconnect()` (467) -/
  | clear
  /-- `signal(args)` (320-322, 107-110) -/
  | emit (a : A)
  /-- one iteration of the loop (112-119) -/
  | iter
  /-- the slot being called returns -/
  | ret
  /-- `~BasicSignal_` (318) -/
  | destroy
deriving DecidableEq

/-- What a connection-aware slot does when the user's function has returned (339-347): it
drops the slot pointer which its handle holds if the function has disconnected. If this was
the last one, the slot is destroyed, and with it the handle that is being assigned to
(unless the user keeps the handle): undefined behaviour. -/
def awareReturn {A : Type} (s : State A) (sl : SlotId) : State A :=
  match s.aware.lookup sl with
  | none => s
  | some h =>
    if s.handles[h]? = some (.shared sl) then
      if has s sl || s.kept.contains sl then { s with handles := s.handles.set h .empty }
      else { s with ub := true }
    else s

/-- During an emission only the slot being called can do anything. -/
def free {A : Type} (s : State A) : Bool :=
  match s.emission with
  | none => true
  | some e => e.running.isSome

def body {A : Type} (s : State A) : Act A → Option (State A)
  | .connect =>
    if s.alive && free s then
      some { add s s.nextSlot with nextSlot := s.nextSlot + 1, handles := s.handles ++ [.weak s.nextSlot] }
    else none
  | .connectAware =>
    if s.alive && free s then
      some { add s s.nextSlot with
        nextSlot := s.nextSlot + 1, handles := s.handles ++ [.weak s.nextSlot, .weak s.nextSlot]
        aware := s.aware ++ [(s.nextSlot, s.handles.length + 1)] }
    else none
  | .keep =>
    match s.emission with
    | some ⟨_, _, some e⟩ => some { s with kept := s.kept ++ e.slot.toList }
    | _ => none
  | .disconnect h => if free s then some (disconnect s h).1 else none
  | .reconnect h => if free s then some (reconnect s h).1 else none
  | .drop h => if free s && s.aware.all (fun p => p.2 != h) then some (dropHandle s h) else none
  | .scopeEnd h =>
    if free s && s.aware.all (fun p => p.2 != h) then
      some (dropHandle (if connected s h then (disconnect s h).1 else s) h)
    else none
  | .clear =>
    if s.alive && free s then
      if s.emission.isSome then some { s with ub := true }
      else some { s with
        slots := []
        log := s.log ++ s.slots.filterMap fun e => e.slot.map fun sl => .removed e.ticket sl }
    else none
  | .emit a =>
    if s.alive && free s then
      if s.slots = [] then some s
      else if s.emission.isSome then some { s with ub := true }
      else some { s with emission := some ⟨a, 0, none⟩, log := s.log ++ [.emitted a] }
    else none
  | .iter =>
    match s.emission with
    | some ⟨a, i, none⟩ =>
      match s.slots[i]? with
      | none => some { s with emission := none, log := s.log ++ [.emissionDone] }
      | some ⟨_, none⟩ => some { s with slots := s.slots.eraseIdx i }
      | some ⟨t, some sl⟩ =>
        some { s with emission := some ⟨a, i, some ⟨t, some sl⟩⟩, log := s.log ++ [.called t sl a] }
    | _ => none
  | .ret =>
    match s.emission with
    | some ⟨a, i, some ⟨t, some sl⟩⟩ =>
      some { awareReturn s sl with emission := some ⟨a, i + 1, none⟩, log := s.log ++ [.returned t] }
    | _ => none
  | .destroy =>
    if s.alive && free s then
      if s.emission.isSome then some { s with ub := true }
      else some { s with
        slots := [], alive := false
        log := s.log ++ s.slots.filterMap fun e => e.slot.map fun sl => .removed e.ticket sl }
    else none

/-- No step after undefined behaviour. -/
def step {A : Type} (s : State A) (a : Act A) : Option (State A) := if s.ub then none else body s a

def run {A : Type} (s : State A) : List (Act A) → Option (State A)
  | [] => some s
  | a :: as => (step s a).bind fun s' => run s' as

end Maf.Sig
