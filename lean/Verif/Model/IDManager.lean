/-
Id managers.

Models include/maf/utils/IDManager.h 42-61 (`IDManager::allocateNewID`, `isValidID`) for an id type of
`bits` bits, called by any number of threads. (The variant under `RECLAIMABLE_ID_MANAGER`, lines 3-25, has no
implementation in the repository.)
-/
namespace Maf.Ids

abbrev Tid := Nat

inductive Ev where
  | called (t : Tid)
  /-- `allocateNewID` has got the id it returns -/
  | allocated (t : Tid) (id : Nat)
deriving DecidableEq

structure State where
  /-- `idCounter_` -/
  counter : Nat
  /-- in the loop, 49-52 -/
  looping : Tid → Bool
  log : List Ev

/-- line 46 -/
def init : State := { counter := 0, looping := fun _ => false, log := [] }

/-- line 45: `static_cast<IDType>(-1)` -/
def invalid (bits : Nat) : Nat := 2 ^ bits - 1

inductive Act where
  | call (t : Tid)
  /-- `fetch_add` and the test, 51-52: after the `fetch_add` that gets a valid id the call only returns it -/
  | fetch (t : Tid)
deriving DecidableEq

def step (bits : Nat) (s : State) : Act → Option State
  | .call t => if s.looping t then none else some { s with looping := fun u => if u = t then true else s.looping u, log := s.log ++ [.called t] }
  | .fetch t =>
    if s.looping t then
      let id := s.counter
      let s := { s with counter := (s.counter + 1) % 2 ^ bits }
      if id = invalid bits then some s
      else some { s with looping := fun u => if u = t then false else s.looping u, log := s.log ++ [.allocated t id] }
    else none

def run (bits : Nat) (s : State) : List Act → Option State
  | [] => some s
  | a :: as => (step bits s a).bind fun s' => run bits s' as

end Maf.Ids
