/-
Model of generated objects.

Models /repo/include/maf/utils/serialization/Internal/SerializableObjectImpl.mc.h 6-18 (`==`, `!=`, `<`), 36-50 (constructors, `set_all`), 52-66 (parameters and their
default values), 80-104 (`set_`, `get_`), 107-120 (member variables), and Tuplizable.h 11-14 (`as_tuple`, `cas_tuple`: the members of the class itself);
members of the base class (`OBJECT_EX`) are modelled apart.

Members have values of one type `α` with an `<`; `none` is a scalar that has no value yet (indeterminate).
-/

namespace Maf.Obj

/-- a generated class: for each own member the value it is declared with, if any; the same for the base class -/
structure Class (α : Type) where
  base : List (Option α)
  own : List (Option α)

/-- an object -/
structure Obj (α : Type) where
  base : List (Option α)
  own : List (Option α)
deriving DecidableEq

/-- `name() = default`: members declared without a value have none -/
def default (c : Class α) : Obj α := ⟨c.base, c.own⟩

/-- `name(args...)` with `set_all`: a missing argument is the declared value, or `{}` -/
def make (zero : α) (c : Class α) (args : List α) : Obj α :=
  ⟨c.base, args.map some ++ (c.own.drop args.length).map fun d => some (d.getD zero)⟩

/-- `get_name()` -/
def get (o : Obj α) (i : Nat) : Option (Option α) := o.own[i]?

/-- `set_name(v)` -/
def set (o : Obj α) (i : Nat) (v : α) : Obj α := { o with own := o.own.set i (some v) }

/-- `std::tuple` `==` -/
def tupleEq [DecidableEq α] : List (Option α) → List (Option α) → Bool
  | [], [] => true
  | a :: as, b :: bs => a = b && tupleEq as bs
  | _, _ => false

/-- `std::tuple` `<` -/
def tupleLt (lt : Option α → Option α → Bool) : List (Option α) → List (Option α) → Bool
  | a :: as, b :: bs => lt a b || (!lt b a && tupleLt lt as bs)
  | _, _ => false

/-- `operator==` -/
def eq [DecidableEq α] (a b : Obj α) : Bool := tupleEq a.own b.own

/-- `operator!=` -/
def ne [DecidableEq α] (a b : Obj α) : Bool := !eq a b

/-- `operator<` -/
def lt (l : Option α → Option α → Bool) (a b : Obj α) : Bool := tupleLt l a.own b.own

/-- what is sent of an object, and what the receiver's object is after it was read into it -/
def sent (a : Obj α) : List (Option α) := a.own
def received (into : Obj α) (m : List (Option α)) : Obj α := { into with own := m }

end Maf.Obj
