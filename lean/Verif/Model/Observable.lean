import Verif.Model.Signal
/-
Observables.

Models include/maf/utils/Observable.h: `StateBasedSlotKeeper` (9-70), `ObservableBasic_`
(104-236), `BasicObservable_` (238-347), `SingleStateObservableBasic_` (349-387).

An observable is a signal (Verif.Model.Signal) together with a state, which is a tuple of
sub-states; the model's tuple is a list. A single-state observable is a list of length one.
As for signals, the keeper's recursive mutex makes the calls atomic with respect to each
other: what happens during an emission, or while a `mutable_()` reference exists, is done by
the thread which emits or holds the reference. `connect` takes the mutex twice (145-147), so
it is two actions, `connect` and `notifyOne`.

Simplifications: `silentSet` is not called from within a slot (a slot called later in that
emission would see the silently set value, since references to the state are passed); indices
of `set<i...>` are in range. Connection-aware slots are left out (see Verif.Model.Signal).
-/
namespace Maf.Obs
open Maf

structure State (X : Type) where
  sig : Sig.State (List X)
  /-- `state_` -/
  val : List X
  /-- the old states kept by the `mutable_()` references in existence, innermost first -/
  refs : List (List X)
  /-- slots connected by `connect`, but not yet called by it -/
  pending : List Sig.SlotId
  /-- what was received, by which slot, in order -/
  rcv : List (Sig.SlotId × List X)

/-- A new observable (134, 261-263). -/
def init {X : Type} (v : List X) : State X :=
  { sig := Sig.init (List X), val := v, refs := [], pending := [], rcv := [] }

inductive Act (X : Type) where
  | set (vs : List X)
  | setAt (ivs : List (Nat × X))
  | silentSet (vs : List X)
  /-- `mutable_()`: the reference is created -/
  | refOpen
  /-- the state is assigned to through a reference -/
  | refWrite (vs : List X)
  /-- the innermost reference is destroyed -/
  | refClose
  /-- first half of `connect` -/
  | connect
  /-- second half of `connect` -/
  | notifyOne (sl : Sig.SlotId)
  /-- `silentlyConnect`. Also `connect` with an argument whose type is exactly the slot type
  `std::function<void(const T&)>` or a `shared_ptr` to it: overload resolution prefers the
  inherited non-template `connect` (brought in by line 115), which does not notify. -/
  | silentlyConnect
  /-- operations of the signal -/
  | sig (a : Sig.Act (List X))

/-- The signal operations available on an observable (`notify` and `operator()` are hidden,
lines 107-108). -/
def allowed {X : Type} : Sig.Act (List X) → Bool
  | .disconnect _ | .reconnect _ | .drop _ | .scopeEnd _ | .clear | .iter | .ret | .destroy => true
  | _ => false

/-- Can the observable be used now: it exists and the caller has the mutex. -/
def usable {X : Type} (s : State X) : Bool := s.sig.alive && Sig.free s.sig && !s.sig.ub

/-- `set<idx...>` (41-48): the new tuple. -/
def assign {X : Type} (val : List X) : List (Nat × X) → List X
  | [] => val
  | (i, x) :: ivs => assign (val.set i x) ivs

/-- `set<idx...>` (42-44): does any of the named sub-states differ? -/
def differs {X : Type} [DecidableEq X] (val : List X) (ivs : List (Nat × X)) : Bool :=
  ivs.any fun p => decide (val[p.1]? ≠ some p.2)

/-- Assign and notify (45-46, 53-54). -/
def change {X : Type} (s : State X) (v : List X) : Option (State X) :=
  (Sig.step s.sig (.emit v)).map fun sig' => { s with sig := sig', val := v }

/-- The slot being called, and its argument. -/
def justCalled {X : Type} (sig : Sig.State (List X)) : List (Sig.SlotId × List X) :=
  match sig.emission with
  | some ⟨a, _, some ⟨_, some sl⟩⟩ => [(sl, a)]
  | _ => []

def step {X : Type} [DecidableEq X] (s : State X) : Act X → Option (State X)
  /- `set` (50-56) -/
  | .set vs =>
    if usable s then
      if vs ≠ s.val then change s vs else some s
    else none
  /- `set<idx...>` (40-48) -/
  | .setAt ivs =>
    if usable s then
      if differs s.val ivs then change s (assign s.val ivs) else some s
    else none
  /- `silentSet` (58-63) -/
  | .silentSet vs =>
    if usable s && s.sig.emission.isNone then some { s with val := vs } else none
  /- `SubStateRefBase_` (169-171), `StateRef` (306-308) -/
  | .refOpen => if usable s then some { s with refs := s.val :: s.refs } else none
  | .refWrite vs => if usable s && !s.refs.isEmpty then some { s with val := vs } else none
  /- `~SubStateRefBase_` (173-177), `~StateRef` (310-314) -/
  | .refClose =>
    if usable s then
      match s.refs with
      | [] => none
      | old :: rest => if old ≠ s.val then change { s with refs := rest } s.val else some { s with refs := rest }
    else none
  /- `connect_` (143-149): `Base_::connect` -/
  | .connect =>
    (Sig.step s.sig .connect).map fun sig' =>
      { s with sig := sig', pending := s.pending ++ [s.sig.nextSlot] }
  /- `connect_` (146-147): `notifyOne` (23-27) -/
  | .notifyOne sl =>
    if usable s && s.pending.contains sl then
      some { s with
        pending := s.pending.filter (· != sl)
        rcv := s.rcv ++ (if Sig.has s.sig sl then [(sl, s.val)] else []) }
    else none
  /- `silentlyConnect_` (151-154) -/
  | .silentlyConnect => (Sig.step s.sig .connect).map fun sig' => { s with sig := sig' }
  | .sig a =>
    if allowed a then
      (Sig.step s.sig a).map fun sig' =>
        { s with sig := sig', rcv := s.rcv ++ (match a with | .iter => justCalled sig' | _ => []) }
    else none

def run {X : Type} [DecidableEq X] (s : State X) : List (Act X) → Option (State X)
  | [] => some s
  | a :: as => (step s a).bind fun s' => run s' as

end Maf.Obs
