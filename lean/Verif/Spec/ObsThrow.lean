import Verif.Model.ObsThrow

/-!
# What an observable should do when observers throw

The observable is its value and the list of its observers, oldest first.
-/
namespace Maf.OExn
open Maf.Exn (SlotId)

/-- Telling the observers one after the other, until one throws. -/
def idealTell {X : Type} (l : List SlotId) (v : X) (throws : Nat → Bool) : Out X :=
  .told ((l.take ((List.range l.length).findIdx throws + 1)).map fun x => (x, v)) ((List.range l.length).any throws)

/-- The value is stored; everybody is told if it is another one; a `connect` that throws has connected nothing; exceptions go to the caller. -/
def ideal {X : Type} [DecidableEq X] (s : X × List SlotId) : Op X → (X × List SlotId) × Out X
  | .set v throws | .edit v throws => if v = s.1 then (s, .told [] false) else ((v, s.2), idealTell s.2 v throws)
  | .silentSet v => ((v, s.2), .done)
  | .connect x fails => ((s.1, if fails then s.2 else s.2 ++ [x]), .told [(x, s.1)] fails)
  | .silentlyConnect x => ((s.1, s.2 ++ [x]), .bool true)
  | .disconnect x => ((s.1, s.2.erase x), .bool (s.2.contains x))
  | .get => (s, .value s.1)

def idealRun {X : Type} [DecidableEq X] (s : X × List SlotId) : List (Op X) → List (Out X)
  | [] => []
  | op :: ops => (ideal s op).2 :: idealRun (ideal s op).1 ops

def idealAfter {X : Type} [DecidableEq X] (s : X × List SlotId) : List (Op X) → X × List SlotId
  | [] => s
  | op :: ops => idealAfter (ideal s op).1 ops

/-- In this history no observer throws when it is connected, or when a reference is let go. (When values are set, they may.) -/
def Tame {X : Type} [DecidableEq X] (s : X × List SlotId) (ops : List (Op X)) : Prop :=
  (∀ x, Op.connect x true ∉ ops) ∧
  ∀ (i : Nat) v t l, ops[i]? = some (Op.edit v t) → (idealRun s ops)[i]? ≠ some (Out.told l true)

end Maf.OExn
