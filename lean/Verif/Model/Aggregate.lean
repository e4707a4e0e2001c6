/-!
# Taking aggregates apart (`utils/cppextension/Aggregate.h`, `AggregateCompare.h`)

`tuple_view`, `for_each_field` and the comparison operators work on any aggregate: they find out how many members it
has by trying `T{any, any, …}` with 100 placeholders, 99, 98, … and bind that many names.

A value is written with its structure.  `leaf` is everything that is not an aggregate (numbers, strings, vectors,
pointers, …), compared with its own `==` and `<`.  Whether the templates compile is part of the model: `none` is "this
program does not compile".

Not modelled: base classes, bit fields, reference members, unions, `std::array` of length 0 (its layout is the
library's business).
-/

namespace Maf
namespace Agg

mutual
/-- Values.  `agg`: an aggregate class with its members in order.  `stdarr`: a `std::array` with its elements.
`carr`: a member that is a C array, at address `addr`, with its elements. -/
inductive Val (L : Type) where
  | leaf (x : L)
  | agg (ms : Vals L)
  | stdarr (es : Vals L)
  | carr (addr : Nat) (es : Vals L)
/-- Members or elements, in order. -/
inductive Vals (L : Type) where
  | nil
  | cons (v : Val L) (vs : Vals L)
end

variable {L : Type}

/-- The members as a list. -/
def Vals.toList : Vals L → List (Val L)
  | .nil => []
  | .cons v vs => v :: vs.toList

mutual
/-- How many placeholders a member takes up in `T{any, any, …}` (`TypeTraits.h:208-243`): a placeholder converts to
anything but a C array, so a member takes one, and a C array, whose braces are elided, takes what its elements take. -/
def args : Val L → Nat
  | .leaf _ => 1
  | .agg _ => 1
  | .stdarr _ => 1
  | .carr _ es => argsAll es
/-- The same for a list of members. -/
def argsAll : Vals L → Nat
  | .nil => 0
  | .cons v vs => args v + argsAll vs
end

/-- The largest number of placeholders with which the aggregate can be brace-constructed.  A `std::array` has one
member, the C array of its elements. -/
def cap : Val L → Nat
  | .leaf _ => 0
  | .agg ms => argsAll ms
  | .stdarr es => argsAll es
  | .carr _ es => argsAll es

/-- `TypeTraits.h:219-243`, `is_n_args_braces_constructible<T, n>()`: the members left out are value-initialised. -/
def constructible (v : Val L) (n : Nat) : Bool := decide (n ≤ cap v)

/-- The parts a structured binding `auto& [a1, …] = s` of this value has: the members; for a `std::array` (tuple
protocol) the elements. -/
def parts : Val L → Vals L
  | .leaf _ => .nil
  | .agg ms => ms
  | .stdarr es => es
  | .carr _ es => es

/-- `Aggregate.h:122-133` `_TupleViewMaker<n>::view` and the chain of `if constexpr` in
`AggregateCompare.h:24-223`: the number of names tried first is `n`, then one less, down to none. -/
def pick (v : Val L) : Nat → Nat
  | 0 => 0
  | n + 1 => if constructible v (n + 1) then n + 1 else pick v n

/-- `Aggregate.h:12-18` (the hundred rows 20-119) and `:134-139`: with `k` names the binding compiles when the value
has exactly `k` parts and the result holds them in order; with none the view is empty. -/
def bind (v : Val L) (k : Nat) : Option (Vals L) :=
  if k = 0 then some .nil
  else if (parts v).toList.length = k then some (parts v) else none

/-- `Aggregate.h:141-145`, `tuple_view`. -/
def tupleView (v : Val L) : Option (Vals L) := bind v (pick v 100)

/-- `Aggregate.h:147-152` `for_each_field` with `TupleManip.h:13-26`: `f` is called on every element of the view, from
the first to the last; `σ` is whatever `f` changes. -/
def forEachField {σ : Type} (f : σ → Val L → σ) (s : σ) (v : Val L) : Option σ :=
  (tupleView v).map fun ms => ms.toList.foldl f s

/-- What ends up in the flattened tuple: a leaf, or — for a C array, which `std::decay_t` turns into a pointer, so it
does not count as an aggregate — a reference to the array, compared as a pointer. -/
inductive Leaf (L : Type) where
  | val (x : L)
  | ptr (addr : Nat)

mutual
/-- `AggregateCompare.h:10-13` (leaves: a tuple of one) and `:15-225` (aggregates: the number of names is found as in
`tuple_view`, each of them is flattened and the results are concatenated). -/
def flat : Val L → Option (List (Leaf L))
  | .leaf x => some [.val x]
  | .carr a _ => some [.ptr a]
  | .agg ms =>
    if pick (.agg ms) 100 = 0 then some []
    else if ms.toList.length = pick (.agg ms) 100 then flatAll ms else none
  | .stdarr es =>
    if pick (.stdarr es) 100 = 0 then some []
    else if es.toList.length = pick (.stdarr es) 100 then flatAll es else none
/-- `std::tuple_cat(flaten(a1), flaten(a2), …)`. -/
def flatAll : Vals L → Option (List (Leaf L))
  | .nil => some []
  | .cons v vs =>
    match flat v with
    | none => none
    | some l => (flatAll vs).map (l ++ ·)
end

/-- `==` of two elements of the flattened tuples; pointers by address. -/
def leafEq (eq : L → L → Bool) : Leaf L → Leaf L → Bool
  | .val x, .val y => eq x y
  | .ptr a, .ptr b => decide (a = b)
  | _, _ => false

/-- `<` of two elements of the flattened tuples; pointers by address. -/
def leafLt (lt : L → L → Bool) : Leaf L → Leaf L → Bool
  | .val x, .val y => lt x y
  | .ptr a, .ptr b => decide (a < b)
  | _, _ => false

/-- `std::tuple`'s `operator==`. -/
def tupEq (eq : L → L → Bool) : List (Leaf L) → List (Leaf L) → Bool
  | x :: xs, y :: ys => leafEq eq x y && tupEq eq xs ys
  | [], [] => true
  | _, _ => false

/-- `std::tuple`'s `operator<` (C++17): the first element decides unless neither is less. -/
def tupLt (lt : L → L → Bool) : List (Leaf L) → List (Leaf L) → Bool
  | x :: xs, y :: ys => leafLt lt x y || (!leafLt lt y x && tupLt lt xs ys)
  | _, _ => false

/-- `AggregateCompare.h:232-247`: the operators, each through the tuple operator of the same name (of which `!=` is
the negation of `==`, and `>`, `>=`, `<=` are written with `<`). -/
inductive Op where
  | eq | ne | lt | gt | ge | le
  deriving DecidableEq

/-- `AggregateCompare.h:232-238`. -/
def compare (eq lt : L → L → Bool) (o : Op) (a b : Val L) : Option Bool :=
  match flat a, flat b with
  | some x, some y =>
    some (match o with
      | .eq => tupEq eq x y
      | .ne => !tupEq eq x y
      | .lt => tupLt lt x y
      | .gt => tupLt lt y x
      | .ge => !tupLt lt x y
      | .le => !tupLt lt y x)
  | _, _ => none

end Agg
end Maf
