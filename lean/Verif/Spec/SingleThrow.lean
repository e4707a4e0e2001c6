import Verif.Model.SingleThrow
import Verif.Spec.SignalThrow

/-!
# What a single-connection signal should do when its slot throws

The signal is a list of at most one slot.  Connecting while there is one fails.  Everything else is as for other signals.
-/
namespace Maf.Exn

def idealOne (l : List SlotId) : Op → List SlotId × Out
  | .connect x => if l = [] then ([x], .bool true) else (l, .bool false)
  | .reconnect x => if l = [] then ([x], .bool true) else (l, .bool false)
  | op => ideal l op

def idealOneRun (l : List SlotId) : List Op → List Out
  | [] => []
  | op :: ops => (idealOne l op).2 :: idealOneRun (idealOne l op).1 ops

def slotAfter (l : List SlotId) : List Op → List SlotId
  | [] => l
  | op :: ops => slotAfter (idealOne l op).1 ops

end Maf.Exn
