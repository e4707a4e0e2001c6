import Verif.Model.ThreadPool

/-!
# The objects handed to a pool (`include/maf/threading/Runnable.h`)

Tasks are pointers to `Runnable` objects (`StableThreadPool.cpp`, `DynamicCountThreadPool.cpp`), or pairs of a pointer
and a priority (`PriorityThreadPool.cpp:8-28`).  The pool's log (Model/ThreadPool) says which function is called on
which task; here is what these functions do with the object.  The flag is taken as it is when the object is given to
the pool and does not change afterwards.
-/

namespace Maf
namespace Life
open Maf.Pool (PEv)

variable {α : Type}

/-- `Runnable.h:8-16, 30-34`: what the objects' `_autoDeleted` holds.  The member has no initialiser and there is no
constructor: `none` until `setAutoDeleted` is called. -/
abbrev Flags := Nat → Option Bool

/-- `Runnable.h:18-22, 24-28`, `run` and `stop`: nothing for a null pointer, otherwise a virtual call on the object.
`dead` are the objects deleted so far; the result `none` is undefined behaviour. -/
def touch (dead : List Nat) : Option Nat → Option (List Nat)
  | none => some dead
  | some p => if p ∈ dead then none else some dead

/-- `Runnable.h:30-34`, `done`: nothing for a null pointer; the object's flag is read, and the object deleted if it is
set.  Reading a flag that was never set is undefined behaviour. -/
def finish (flag : Flags) (dead : List Nat) : Option Nat → Option (List Nat)
  | none => some dead
  | some p =>
    if p ∈ dead then none
    else
      match flag p with
      | none => none
      | some true => some (p :: dead)
      | some false => some dead

/-- One event of the pool, `ptr` being the pointer in a task.  Taking a task out of the queue copies the pointer. -/
def event (ptr : α → Option Nat) (flag : Flags) (dead : List Nat) : PEv α → Option (List Nat)
  | .took _ _ => some dead
  | .ran _ x => touch dead (ptr x)
  | .stopped x => touch dead (ptr x)
  | .doneRun _ x => finish flag dead (ptr x)
  | .doneQueued x => finish flag dead (ptr x)

/-- All events: the objects deleted, the last one first. -/
def replay (ptr : α → Option Nat) (flag : Flags) (dead : List Nat) : List (PEv α) → Option (List Nat)
  | [] => some dead
  | e :: es =>
    match event ptr flag dead e with
    | none => none
    | some d => replay ptr flag d es

end Life
end Maf
