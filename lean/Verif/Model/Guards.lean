/-
Scope guards and time measurements, and `tuple_diff`.

Models include/maf/utils/CallOnExit.h, include/maf/utils/TimeMeasurement.h (`TimeMeasurement`) and
include/maf/utils/cppextension/TupleDiff.h.
-/
namespace Maf.Guard

/-- An object (a variable). -/
abbrev Obj := Nat
/-- A callback given to a constructor; each construction is given a new one. -/
abbrev Fn := Nat

def upd {β : Type} (f : Nat → β) (i : Nat) (v : β) : Nat → β := fun j => if j = i then v else f j

/-! ### CallOnExit

The class declares a destructor, so it has no implicit moves; its constructor template takes anything, so
initialisation from a non-const `CallOnExit` does not compile. What compiles, besides construction and
destruction: copying a const one, and assignment (a memberwise copy). -/

inductive ExitEv where
  | made (o : Obj) (f : Fn)
  | copied (o o' : Obj)
  | assigned (o o' : Obj)
  | gone (o : Obj)
  /-- the callback is called -/
  | called (f : Fn)
deriving DecidableEq

structure ExitState where
  /-- live objects, with their `f_` (`none`: not live) -/
  obj : Obj → Option Fn
  fresh : Fn
  log : List ExitEv

def exitInit : ExitState := { obj := fun _ => none, fresh := 0, log := [] }

inductive ExitAct where
  /-- CallOnExit.h 11 -/
  | make (o : Obj)
  /-- the implicit copy constructor, from `const CallOnExit` -/
  | copy (o o' : Obj)
  /-- the implicit assignment: `o = o'` -/
  | assign (o o' : Obj)
  /-- CallOnExit.h 13-17 -/
  | destroy (o : Obj)
deriving DecidableEq

def exitStep (s : ExitState) : ExitAct → Option ExitState
  | .make o => if (s.obj o).isSome then none else some { obj := upd s.obj o (some s.fresh), fresh := s.fresh + 1, log := s.log ++ [.made o s.fresh] }
  | .copy o o' => if (s.obj o).isSome ∨ s.obj o' = none then none else some { s with obj := upd s.obj o (s.obj o'), log := s.log ++ [.copied o o'] }
  | .assign o o' => if s.obj o = none ∨ s.obj o' = none then none else some { s with obj := upd s.obj o (s.obj o'), log := s.log ++ [.assigned o o'] }
  | .destroy o =>
    match s.obj o with
    | none => none
    | some f => some { s with obj := upd s.obj o none, log := s.log ++ [.called f, .gone o] }

def exitRun (s : ExitState) : List ExitAct → Option ExitState
  | [] => some s
  | a :: as => (exitStep s a).bind fun s' => exitRun s' as

/-! ### TimeMeasurement

`std::function`s that were moved from are taken to be empty, as they are in the implementations. -/

inductive TimeEv where
  | made (o : Obj) (f : Fn)
  /-- the callback is called -/
  | reported (f : Fn)
  /-- dropped by `abort` -/
  | aborted (f : Fn)
  /-- dropped by a move assignment -/
  | overwritten (f : Fn)
  | gone (o : Obj)
deriving DecidableEq

structure TimeState where
  /-- live objects (`none`: not live), with their `_onReportCallback` -/
  obj : Obj → Option (Option Fn)
  /-- callbacks in progress: the object and whether it is being destroyed -/
  stack : List (Obj × Bool)
  fresh : Fn
  log : List TimeEv

def timeInit : TimeState := { obj := fun _ => none, stack := [], fresh := 0, log := [] }

inductive TimeAct where
  /-- 34-35 -/
  | make (o : Obj)
  /-- 33 -/
  | makeEmpty (o : Obj)
  /-- 36 -/
  | moveInit (o o' : Obj)
  /-- 37: `o = std::move(o')` -/
  | moveAssign (o o' : Obj)
  /-- 43-50 -/
  | stop (o : Obj)
  /-- 52-55 -/
  | abort (o : Obj)
  /-- 41 -/
  | destroy (o : Obj)
  /-- the callback returns (47) -/
  | ret
deriving DecidableEq

def timeStep (s : TimeState) : TimeAct → Option TimeState
  | .make o => if s.obj o ≠ none then none else some { s with obj := upd s.obj o (some (some s.fresh)), fresh := s.fresh + 1, log := s.log ++ [.made o s.fresh] }
  | .makeEmpty o => if s.obj o ≠ none then none else some { s with obj := upd s.obj o (some none) }
  | .moveInit o o' =>
    match s.obj o, s.obj o' with
    | none, some c => some { s with obj := upd (upd s.obj o' (some none)) o (some c) }
    | _, _ => none
  | .moveAssign o o' =>
    match s.obj o, s.obj o' with
    | some c, some c' =>
      if o = o' then some s
      else some { s with obj := upd (upd s.obj o' (some none)) o (some c'), log := s.log ++ (c.map TimeEv.overwritten).toList }
    | _, _ => none
  | .stop o =>
    match s.obj o with
    | none => none
    | some none => some s
    | some (some f) => some { s with stack := (o, false) :: s.stack, log := s.log ++ [.reported f] }
  | .abort o =>
    match s.obj o with
    | none => none
    | some c => some { s with obj := upd s.obj o (some none), log := s.log ++ (c.map TimeEv.aborted).toList }
  | .destroy o =>
    match s.obj o with
    | none => none
    | some none => some { s with obj := upd s.obj o none, log := s.log ++ [.gone o] }
    | some (some f) => some { s with stack := (o, true) :: s.stack, log := s.log ++ [.reported f] }
  | .ret =>
    match s.stack with
    | [] => none
    | (o, b) :: fs =>
      -- an object destroyed by its own callback: undefined, no further behaviour is modelled
      if s.obj o = none then none
      else if b then some { s with stack := fs, obj := upd s.obj o none, log := s.log ++ [.gone o] }
      else some { s with stack := fs, obj := upd s.obj o (some none) }

def timeRun (s : TimeState) : List TimeAct → Option TimeState
  | [] => some s
  | a :: as => (timeStep s a).bind fun s' => timeRun s' as

/-! ### tuple_diff -/

/-- 31-42, with 9-19: for every index in order, compare and set the bit. A tuple is a function from the index to
an element of that index' type; `ne` is the comparison (`diff<>`: the type's `!=`). The bits are those set so far. -/
def tupleDiff {n : Nat} {α : Fin n → Type} (ne : (i : Fin n) → α i → α i → Bool) (a b : (i : Fin n) → α i) : Fin n → Bool :=
  (List.finRange n).foldl (fun bits i => if ne i (a i) (b i) then fun j => if j = i then true else bits j else bits) fun _ => false

end Maf.Guard
