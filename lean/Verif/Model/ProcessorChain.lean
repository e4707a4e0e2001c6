/-
Chains of processors.

Models include/maf/utils/ProcessorChain.h for inputs and outputs other than void (the specialisations for a void input, and `then` after a void
output, do not compile when they are used: 45-54, 118-121). Values of all types are one type here; functions are numbers, `ap` says what they return. A
`std::function` that was moved from is empty (libstdc++).
-/
namespace Maf.Chain

variable {V : Type}

/-- What the function of a chain object is: 129 the identity, 76-83 a closure over the function it was made from. -/
inductive Cb where
  | ident
  | next (prev : Option Cb) (f : Nat)

/-- What a call leads to. -/
inductive Out (V : Type) where
  /-- this value; these functions were called, in this order -/
  | val (v : V) (called : List Nat)
  /-- `std::bad_function_call` -/
  | throws

/-- 76-83: `nextCb(cb(move(in)))`; an empty `cb` throws -/
def Cb.run (ap : Nat → V → V) : Cb → V → Out V
  | .ident, x => .val x []
  | .next none _, _ => .throws
  | .next (some p) f, x =>
    match p.run ap x with
    | .val v fs => .val (ap f v) (fs ++ [f])
    | .throws => .throws

/-- 17-25: an empty object gives a default value -/
def call (ap : Nat → V → V) (dflt : V) : Option Cb → V → Out V
  | some c, x => c.run ap x
  | none, _ => .val dflt []

/-- 29 -/
def connected (c : Option Cb) : Bool := c.isNone

/-- 31, 27 -/
def valid (c : Option Cb) : Bool := !connected c

/-- What a program does with chain objects, numbered as they are made. -/
inductive Act where
  /-- `ProcessorChain<V>{}` (129) -/
  | new
  /-- the (implicit) copy -/
  | copy (i : Nat)
  /-- 73-84 -/
  | then (i : Nat) (f : Nat)

abbrev State := List (Option Cb)

def step (s : State) : Act → Option State
  | .new => some (s ++ [some .ident])
  | .copy i => (s[i]?).map fun c => s ++ [c]
  | .then i f => (s[i]?).map fun c => (s.set i none) ++ [some (.next c f)]

def run : State → List Act → Option State
  | s, [] => some s
  | s, a :: as =>
    match step s a with
    | some s' => run s' as
    | none => none

end Maf.Chain
