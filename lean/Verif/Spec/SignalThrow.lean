import Verif.Model.SignalThrow

/-!
# What a signal should do when slots throw

The signal is the list of its slots, oldest connection first.
-/
namespace Maf.Exn

/-- Calling the slots of `l` one after the other, until one throws. -/
def ideal (l : List SlotId) : Op → List SlotId × Out
  | .connect x => (l ++ [x], .bool true)
  | .disconnect x => (l.erase x, .bool (l.contains x))
  | .reconnect x => (if x ∈ l then l else l ++ [x], .bool (!l.contains x))
  | .has x => (l, .bool (l.contains x))
  | .clear => ([], .done)
  | .emit throws =>
    (l, .calls (l.take ((List.range l.length).findIdx throws + 1)) ((List.range l.length).any throws))
  | .count => (l, .num l.length)
  | .connected => (l, .bool (!l.isEmpty))

def idealRun (l : List SlotId) : List Op → List Out
  | [] => []
  | op :: ops => (ideal l op).2 :: idealRun (ideal l op).1 ops

/-- The slots after a history. -/
def slotsAfter (l : List SlotId) : List Op → List SlotId
  | [] => l
  | op :: ops => slotsAfter (ideal l op).1 ops

def Op.asksCount : Op → Bool
  | .count | .connected => true
  | _ => false

def Op.isEmit : Op → Bool
  | .emit _ => true
  | _ => false

/-- The result of an emission that an exception ended. -/
def Out.threw : Out → Bool
  | .calls _ t => t
  | _ => false

end Maf.Exn
