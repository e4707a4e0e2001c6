import Verif.Model.MsgThrow

/-!
# What messages should do when handlers throw

For each type of message there is the list of its handlers, oldest first.
-/
namespace Maf.MExn
open Maf.Exn (SlotId Out)

def ideal (l : Ty → List SlotId) : Op → (Ty → List SlotId) × Out
  | .connect m x => (fun j => if j = m then l m ++ [x] else l j, .bool true)
  | .cut m x => (fun j => if j = m then (l m).erase x else l j, .bool ((l m).contains x))
  | .disconnect m => (fun j => if j = m then [] else l j, .done)
  | .post m => (l, .bool (!(l m).isEmpty))
  | .dispatch m throws =>
    (l, .calls ((l m).take ((List.range (l m).length).findIdx throws + 1)) ((List.range (l m).length).any throws))

def idealRun (l : Ty → List SlotId) : List Op → List Out
  | [] => []
  | op :: ops => (ideal l op).2 :: idealRun (ideal l op).1 ops

def Op.isPost : Op → Bool
  | .post _ => true
  | _ => false

/-- The type of message a call is about. -/
def Op.ty : Op → Ty
  | .connect m _ | .cut m _ | .disconnect m | .post m | .dispatch m _ => m

end Maf.MExn
