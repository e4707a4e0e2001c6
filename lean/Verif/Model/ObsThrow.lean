import Verif.Model.SignalThrow

/-
Observables whose observers throw.

Models include/maf/utils/Observable.h: `StateBasedSlotKeeper` (9-70: `set`, `silentSet`, `notifyOne`, `notifyState`), `connect_`, `silentlyConnect_` (142-154) and the destructors of
`mutable_()` references (173-177, 310-314) over the keeper of Model/SignalThrow.lean.
An exception leaves `set` after the value has been stored (53-54), leaves `connect` after the slot has been added (144-146; the `Connection` that is lost has no effect: `~Connection` does
nothing, SignalSlots.h:177), and cannot leave the destructor of a reference: destructors are noexcept, the program ends.
Simplified: one value (sub-states: Model/Observable.lean); observers do not use the observable; a reference is made, written to and destroyed in one step (the keeper is locked meanwhile).
-/
namespace Maf.OExn
open Maf.Exn (SlotId)

structure State (X : Type) where
  /-- `state_` -/
  val : X
  kp : Exn.State

def start {X : Type} (v : X) : State X := { val := v, kp := Exn.start }

inductive Op (X : Type) where
  /-- `set` (50-56); `throws k`: the `k`th observer called throws -/
  | set (v : X) (throws : Nat → Bool)
  /-- `silentSet` (58-63) -/
  | silentSet (v : X)
  /-- `*o.mutable_() = v;` -/
  | edit (v : X) (throws : Nat → Bool)
  /-- `connect` with a function; `fails`: it throws when called the first time -/
  | connect (x : SlotId) (fails : Bool)
  /-- `silentlyConnect` -/
  | silentlyConnect (x : SlotId)
  /-- `Connection::disconnect` -/
  | disconnect (x : SlotId)
  /-- `get()` -/
  | get

inductive Out (X : Type) where
  /-- observers called and what with, in order; did the last one throw? -/
  | told (l : List (SlotId × X)) (threw : Bool)
  | bool (b : Bool)
  | value (v : X)
  | done
  /-- a failed `assert` -/
  | aborted
  /-- `std::terminate` -/
  | terminated
deriving DecidableEq

/-- 53-54, 174-175: the value is stored, then the observers are told. -/
def tell {X : Type} (checked : Bool) (s : State X) (v : X) (throws : Nat → Bool) : State X × Out X :=
  match Exn.notify checked s.kp throws with
  | (kp, .calls l t) => ({ val := v, kp := kp }, .told (l.map fun x => (x, v)) t)
  | (kp, _) => ({ val := v, kp := kp }, .aborted)

def step {X : Type} [DecidableEq X] (checked : Bool) (s : State X) : Op X → State X × Out X
  | .set v throws => if v = s.val then (s, .told [] false) else tell checked s v throws
  | .silentSet v => ({ s with val := v }, .done)
  | .edit v throws =>
    if v = s.val then (s, .told [] false)
    else
      match tell checked s v throws with
      | (s', .told _ true) => (s', .terminated)
      | r => r
  | .connect x fails =>
    -- 144; 145-146
    ({ s with kp := (Exn.step checked s.kp (.connect x)).1 }, .told [(x, s.val)] fails)
  | .silentlyConnect x => ({ s with kp := (Exn.step checked s.kp (.connect x)).1 }, .bool true)
  | .disconnect x => ({ s with kp := (Exn.remove s.kp x).1 }, .bool (Exn.remove s.kp x).2)
  | .get => (s, .value s.val)

/-- A history: what each call gives. -/
def run {X : Type} [DecidableEq X] (checked : Bool) (s : State X) : List (Op X) → List (Out X)
  | [] => []
  | op :: ops =>
    match step checked s op with
    | (_, .aborted) => [.aborted]
    | (_, .terminated) => [.terminated]
    | (s', o) => o :: run checked s' ops

end Maf.OExn
