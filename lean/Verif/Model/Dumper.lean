/-
Model of the text of values.

Models /repo/include/maf/utils/serialization/Dumper.h 25-50 (`nextLevel`, `writeIndent`, `keyValueSeparator`), 52-185 (`DumperSFINAE`, `Packager`),
187-190, 232-302 (`_dumpString`, `_dump`, `dump`, `toString`), VariantDump.h 7-18, and
/repo/include/maf/utils/serialization/Internal/SerializableObjectImpl.mc.h 19-23, 136-164 (the `dump` of generated objects).

Not modelled: floating point numbers, wide strings, JSON values, pointers to abstract classes, `dumpstream`. A container is the list of its elements in the order of
iteration. Members of generated objects with a default value of their own are taken to have the default value of their type (this matters for null pointers only).
-/

namespace Maf.Dump

mutual
/-- types that have a text -/
inductive Ty where
  | bool
  /-- integers of more than 8 bits -/
  | int
  /-- `char`, `int8_t`, `uint8_t`: the character that has this code -/
  | byte
  /-- an enumeration -/
  | enum
  | str
  /-- `std::vector<bool>` -/
  | bits
  /-- other vectors, lists, sets, arrays -/
  | list (t : Ty)
  | map (k v : Ty)
  | pair (a b : Ty)
  /-- pointers and smart pointers -/
  | ptr (t : Ty)
  | variant (a b : Ty)
  /-- `std::tuple`, aggregates, classes with `cas_tuple` (the names are not used) -/
  | tuple (fs : Flds)
  /-- generated objects: first member, other members -/
  | obj (n : List Char) (t : Ty) (fs : Flds)
/-- members -/
inductive Flds where
  | nil
  | cons (n : List Char) (t : Ty) (fs : Flds)
end

mutual
/-- the values of a type -/
def Val : Ty → Type
  | .bool => Bool
  | .int => Int
  | .byte => Char
  | .enum => Int
  | .str => List Char
  | .bits => List Bool
  | .list t => List (Val t)
  | .map k v => List (Val k × Val v)
  | .pair a b => Val a × Val b
  | .ptr t => Option (Val t)
  | .variant a b => Val a ⊕ Val b
  | .tuple fs => Vals fs
  | .obj _ t fs => Val t × Vals fs
def Vals : Flds → Type
  | .nil => Unit
  | .cons _ t fs => Val t × Vals fs
end

mutual
/-- `T()` -/
def dflt : (t : Ty) → Val t
  | .bool => false
  | .int => (0 : Int)
  | .byte => Char.ofNat 0
  | .enum => (0 : Int)
  | .str => ([] : List Char)
  | .bits => ([] : List Bool)
  | .list t => ([] : List (Val t))
  | .map k v => ([] : List (Val k × Val v))
  | .pair a b => (dflt a, dflt b)
  | .ptr t => (none : Option (Val t))
  | .variant a b => (.inl (dflt a) : Val a ⊕ Val b)
  | .tuple fs => dflts fs
  | .obj _ t fs => (dflt t, dflts fs)
def dflts : (fs : Flds) → Vals fs
  | .nil => ()
  | .cons _ t fs => (dflt t, dflts fs)
end

/-- Dumper.h 27-33 -/
def next (l : Int) : Int := if l < 0 then l else l + 1

/-- Dumper.h 35-47, without the new line -/
def ind (l : Int) : List Char := if l < 0 then [] else List.replicate (2 * l.toNat) ' '

/-- Dumper.h 35-47, with the new line -/
def nl (l : Int) : List Char := if l < 0 then [] else '\n' :: List.replicate (2 * l.toNat) ' '

/-- Dumper.h 49-53 -/
def sep (l : Int) : List Char := if l < 0 then [':'] else [':', ' ']

/-- one decimal digit -/
def digit (n : Nat) : Char := Char.ofNat (48 + n)

/-- what a stream writes for a number without sign -/
def decimal (n : Nat) : List Char :=
  if n < 10 then [digit n] else decimal (n / 10) ++ [digit (n % 10)]

/-- what a stream writes for an integer -/
def number (i : Int) : List Char := if i < 0 then '-' :: decimal i.natAbs else decimal i.natAbs

/-- `out[out.find_last_of(',')] = ' '`; there is always one, as an object has a member -/
def blankLast (s : List Char) : List Char :=
  match s.reverse.dropWhile (· != ',') with
  | _ :: b => b.reverse ++ [' '] ++ (s.reverse.takeWhile (· != ',')).reverse
  | [] => s

/-- Dumper.h 163-183: elements between the first and the last bracket, given their texts -/
def box (l : Int) (o c : Char) : List (List Char) → List Char
  | [] => o :: (nl l ++ [c])
  | d :: ds => o :: (nl (next l) ++ d ++ (ds.flatMap fun e => ',' :: (nl (next l) ++ e)) ++ nl l ++ [c])

/-- what is written for an element of a `std::vector<bool>`: `typeid(T).name()` of the reference -/
def unsupported : List Char := "unsupported type St14_Bit_reference".toList

mutual
/-- `dump(os, val, l)` -/
def dump : (t : Ty) → Int → Val t → List Char
  | .bool, _, b => if (show Bool from b) then "true".toList else "false".toList
  | .int, _, i => number i
  | .byte, _, c => [(show Char from c)]
  | .enum, _, i => decimal ((show Int from i) % 4294967296).toNat
  | .str, _, s => (show List Char from s)
  | .bits, l, bs => box l '[' ']' ((show List Bool from bs).map fun _ => unsupported)
  | .list t, l, vs => box l '[' ']' ((show List (Val t) from vs).map fun v => dump t (next l) v)
  | .map k v, l, ps => box l '{' '}' ((show List (Val k × Val v) from ps).map fun p => dump k (next l) p.1 ++ sep (next l) ++ dump v (next l) p.2)
  | .pair a b, l, p => dump a l p.1 ++ sep l ++ dump b l p.2
  | .ptr t, l, p => match (show Option (Val t) from p) with
    | some v => dump t l v
    | none => dump t l (dflt t)
  | .variant a b, l, x => match (show Val a ⊕ Val b from x) with
    | .inl v => dump a l v
    | .inr v => dump b l v
  | .tuple fs, l, vs => '[' :: (elems fs (next l) vs ++ nl l ++ [']'])
  | .obj n t fs, l, vs =>
    blankLast (ind l ++ ['{'] ++ (nl (next l) ++ n ++ sep (next l) ++ dump t (next l) vs.1 ++ [',']) ++ members fs (next l) vs.2 ++ nl l ++ ['}'])
/-- Dumper.h 276-282 -/
def elems : (fs : Flds) → Int → Vals fs → List Char
  | .nil, _, _ => []
  | .cons _ t .nil, l, vs => nl l ++ dump t l vs.1
  | .cons _ t (.cons n u fs), l, vs => nl l ++ dump t l vs.1 ++ [','] ++ elems (.cons n u fs) l vs.2
/-- SerializableObjectImpl.mc.h 155-163 for each member -/
def members : (fs : Flds) → Int → Vals fs → List Char
  | .nil, _, _ => []
  | .cons n t fs, l, vs => nl l ++ n ++ sep l ++ dump t l vs.1 ++ [','] ++ members fs l vs.2
end

end Maf.Dump
