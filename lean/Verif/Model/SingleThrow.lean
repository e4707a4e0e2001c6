import Verif.Model.SignalThrow

/-
A signal with one connection at a time (`SCSignal`) whose slot throws.

Models include/maf/utils/SignalSlots.h: `SingleSlotKeeper` (37-86) and the calls of `BasicSignal_` (320-322, 383-386, 465-471) and `Connection` (194-239) that end in them.
Simplified as Model/SignalThrow.lean: the slot does not use the signal. Slots are functions that are not empty (`connect` asserts this).
-/
namespace Maf.Exn

structure One where
  /-- `slots_.front()` -/
  slot : Option SlotId
  /-- `notifying_` -/
  notifying : Bool

/-- 60-67 -/
def One.notify (checked : Bool) (s : One) (throws : Nat → Bool) : One × Out :=
  match s.slot with
  | none => (s, .calls [] false)
  | some x =>
    if checked && s.notifying then (s, .aborted)
    -- 65: not reached by an exception
    else ({ s with notifying := throws 0 }, .calls [x] (throws 0))

def One.step (checked : Bool) (s : One) : Op → One × Out
  -- 42-48 `add`; a connection that is not made is an empty one (`saveSlot`, 521-527)
  | .connect x => if s.slot = none then ({ s with slot := some x }, .bool true) else (s, .bool false)
  -- 52-58 `remove`
  | .disconnect x => if s.slot = some x then ({ s with slot := none }, .bool true) else (s, .bool false)
  -- 50 `addUnique`
  | .reconnect x => if s.slot = none then ({ s with slot := some x }, .bool true) else (s, .bool false)
  -- 75 `has`
  | .has x => (s, .bool (s.slot == some x))
  -- 70-74 `clear`
  | .clear => ({ s with slot := none }, .done)
  | .emit throws => s.notify checked throws
  -- 76 `size`
  | .count => (s, .num (if s.slot = none then 0 else 1))
  -- 69 `valid`
  | .connected => (s, .bool s.slot.isSome)

def One.run (checked : Bool) (s : One) : List Op → List Out
  | [] => []
  | op :: ops =>
    match s.step checked op with
    | (_, .aborted) => [.aborted]
    | (s', o) => o :: s'.run checked ops

end Maf.Exn
