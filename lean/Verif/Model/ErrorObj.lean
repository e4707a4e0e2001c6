/-!
# Error objects (`include/maf/messaging/client-server/CSError.h`, `src/common/…/CSError.cpp`)

An error owns its data through a plain pointer (`CSError.h:46`).  The class declares a destructor but no copy
operations, so the compiler's copy the pointer.  Objects and data cells are numbered in order of creation.
Not modelled: `dump` (Model/Dumper).
-/

namespace Maf
namespace Err

/-- `CSErrorDataPrv`, `CSError.cpp:9-12`; codes and texts as numbers and lists. -/
structure Data where
  desc : List Nat
  code : Nat
deriving DecidableEq

/-- `cells`: the data on the heap, `none` once deleted; `objs`: the pointer of each object, `none` once destroyed. -/
structure State where
  cells : List (Option Data)
  objs : List (Option Nat)

def init : State := ⟨[], []⟩

inductive Op where
  /-- `CSError(desc, code)`, `CSError.cpp:14-15` -/
  | make (d : Data)
  /-- `clone()`, `CSError.cpp:28-30` -/
  | clone (i : Nat)
  /-- `CSError b = a` (compiler generated) -/
  | copy (i : Nat)
  /-- `a = b` (compiler generated) -/
  | assign (i j : Nat)
  /-- `setDescription`, `CSError.cpp:36-38` -/
  | setDesc (i : Nat) (t : List Nat)
  /-- `setCode`, `CSError.cpp:42` -/
  | setCode (i c : Nat)
  /-- `description()` and `code()`, `CSError.cpp:32-34, 40` -/
  | get (i : Nat)
  /-- `a.equal(&b)`, `CSError.cpp:19-26` -/
  | equal (i j : Nat)
  /-- the destructor, `CSError.cpp:17` -/
  | destroy (i : Nat)

inductive Res where
  | unit
  | data (d : Data)
  | bool (b : Bool)
deriving DecidableEq

/-- The pointer of a living object. -/
def ptr (s : State) (i : Nat) : Option Nat := (s.objs[i]?).join

/-- What it points to, unless that was deleted. -/
def deref (s : State) (i : Nat) : Option Data :=
  match ptr s i with
  | some p => (s.cells[p]?).join
  | none => none

/-- A new object with data of its own. -/
def alloc (s : State) (d : Data) : State := ⟨s.cells ++ [some d], s.objs ++ [some s.cells.length]⟩

/-- The data of object `i` is replaced. -/
def store (s : State) (i : Nat) (d : Data) : State :=
  match ptr s i with
  | some p => { s with cells := s.cells.set p (some d) }
  | none => s

/-- One call.  `none`: undefined behaviour (an object is used that is gone, data is used or deleted that was deleted). -/
def step (s : State) : Op → Option (State × Res)
  | .make d => some (alloc s d, .unit)
  | .clone i => (deref s i).map fun d => (alloc s d, .unit)
  | .copy i => (ptr s i).map fun p => (⟨s.cells, s.objs ++ [some p]⟩, .unit)
  | .assign i j =>
    match ptr s i, ptr s j with
    | some _, some q => some ({ s with objs := s.objs.set i (some q) }, .unit)
    | _, _ => none
  | .setDesc i t => (deref s i).map fun d => (store s i { d with desc := t }, .unit)
  | .setCode i c => (deref s i).map fun d => (store s i { d with code := c }, .unit)
  | .get i => (deref s i).map fun d => (s, .data d)
  | .equal i j =>
    match deref s i, deref s j with
    | some a, some b => some (s, .bool (decide (b.code = a.code) && decide (b.desc = a.desc)))
    | _, _ => none
  | .destroy i =>
    match ptr s i, deref s i with
    | some p, some _ => some (⟨s.cells.set p none, s.objs.set i none⟩, .unit)
    | _, _ => none

/-- A program and the results of its calls. -/
def run (s : State) : List Op → Option (State × List Res)
  | [] => some (s, [])
  | op :: ops =>
    match step s op with
    | none => none
    | some (s', r) => (run s' ops).map fun (t, l) => (t, r :: l)

end Err
end Maf
