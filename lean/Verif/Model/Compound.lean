/-
Compound observables.

Models include/maf/utils/Observable.h: `BasicCompoundObservable_` (430-513) on top of
`StateBasedSlotKeeper::set<idx...>` (39-47) and `connect_` (143-149); with an executor, also
`combineSlotWithExecutor` (SignalSlots.h 497-515).

Sources are changed by any number of threads. A change of a source holds that source's mutex
from the assignment to the end of its emission; the compound's slot is called by the emission
and takes the compound's mutex for the time of one `set<idx>` (assignment and notification of
the compound's observers). An emission that starts while the compound's slot is connected
calls it (C23), and the slot cannot be connected while the emission holds the mutex.

Simplifications: the compound's observers do not set its sources (that would start a second
emission within the first, see C57); the compound is not destroyed; its slots stay connected.
-/
namespace Maf.Compound

inductive Phase where
  | idle
  /-- the new value is assigned, the compound's slot has not been called yet -/
  | emitting
  /-- the compound's slot has been called -/
  | called
deriving DecidableEq

inductive Link where
  | none
  /-- slot added, `notifyOne` not done yet -/
  | added
  | synced
deriving DecidableEq

structure State (X : Type) where
  /-- the sources' states -/
  src : List X
  /-- the compound's `state_` -/
  comp : List X
  phase : List Phase
  link : List Link
  /-- with an executor: what is posted and not yet executed -/
  posted : List (Nat × X)
  /-- what the compound's observers are called with, in order -/
  told : List (List X)

/-- Sources in any state, the compound default-initialised (443-458). -/
def init {X : Type} (src comp : List X) : State X :=
  { src := src, comp := comp, phase := src.map fun _ => .idle, link := src.map fun _ => .none, posted := [], told := [] }

inductive Act (X : Type) where
  /-- a thread sets source `i` -/
  | set (i : Nat) (x : X)
  /-- ... `silentSet` -/
  | silentSet (i : Nat) (x : X)
  /-- the emission of source `i` calls the compound's slot -/
  | deliver (i : Nat)
  /-- the emission of source `i` ends -/
  | finish (i : Nat)
  /-- the constructor adds the slot to source `i` -/
  | connect (i : Nat)
  /-- the constructor's `connect` calls the slot with the current state -/
  | notifyOne (i : Nat)
  /-- the executor runs the `k`-th posted call -/
  | exec (k : Nat)
deriving DecidableEq

/-- The compound's `set<i>` (39-47). -/
def compSet {X : Type} [DecidableEq X] (s : State X) (i : Nat) (x : X) : State X :=
  if s.comp[i]? ≠ some x then { s with comp := s.comp.set i x, told := s.told ++ [s.comp.set i x] } else s

/-- The slot (465-468, 480-483): calls `set<i>`, directly or by the executor (SignalSlots.h 509-513). -/
def slot {X : Type} [DecidableEq X] (async : Bool) (s : State X) (i : Nat) (x : X) : State X :=
  if async then { s with posted := s.posted ++ [(i, x)] } else compSet s i x

def step {X : Type} [DecidableEq X] (async : Bool) (s : State X) : Act X → Option (State X)
  /- the source's `set` (39-55) -/
  | .set i x =>
    if s.phase[i]? = some .idle ∧ i < s.src.length then
      if s.src[i]? ≠ some x then some { s with src := s.src.set i x, phase := s.phase.set i .emitting }
      else some s
    else none
  | .silentSet i x =>
    if s.phase[i]? = some .idle ∧ i < s.src.length then some { s with src := s.src.set i x } else none
  | .deliver i =>
    match s.src[i]? with
    | some x =>
      if s.phase[i]? = some .emitting ∧ s.link[i]? ≠ some .none then
        some { slot async s i x with phase := s.phase.set i .called }
      else none
    | none => none
  | .finish i =>
    if s.phase[i]? = some .called ∨ (s.phase[i]? = some .emitting ∧ s.link[i]? = some .none) then
      some { s with phase := s.phase.set i .idle }
    else none
  /- `o0.connect(...)` (464, 479): with an executor `set<i>(o0.get())` first (478; made one
  step with the connect, its value is overwritten by the call which `connect` posts) -/
  | .connect i =>
    match s.src[i]? with
    | some x =>
      if s.phase[i]? = some .idle ∧ s.link[i]? = some .none then
        some { (if async then compSet s i x else s) with link := s.link.set i .added }
      else none
    | none => none
  | .notifyOne i =>
    match s.src[i]? with
    | some x =>
      if s.phase[i]? = some .idle ∧ s.link[i]? = some .added then
        some { slot async s i x with link := s.link.set i .synced }
      else none
    | none => none
  | .exec k =>
    match s.posted[k]? with
    | some (i, x) => some { compSet s i x with posted := s.posted.eraseIdx k }
    | none => none

def run {X : Type} [DecidableEq X] (async : Bool) (s : State X) : List (Act X) → Option (State X)
  | [] => some s
  | a :: as => (step async s a).bind fun s' => run async s' as

end Maf.Compound
