/-
Model of loading generated objects from JSON.

Models /repo/include/maf/utils/serialization/Internal/SerializableObjectImpl.mc.h 36-44 (constructors), 107-120 (member variables), 186-217 (`load_from_json`,
`load_from_json_str`) and /repo/include/maf/utils/serialization/3rdparty/Json11Trait.h 49-152 (`J11TraitImpl`, `JsonTrait<json11::Json>`).

Simplified: a JSON number is an integer; a JSON object is a list of its members, found by name; a member declared with a default value has the default value zero;
floating point members and members of type `json11::Json` are not modelled; json11 itself is modelled by what its accessors answer (the parser is a parameter).
-/

namespace Maf.Json

/-- JSON values, as json11 has them -/
inductive Json where
  | null
  | bool (b : Bool)
  | num (z : Int)
  | str (s : List Char)
  | arr (xs : List Json)
  | obj (ms : List (List Char × Json))

/-- the first member of this name -/
def find (n : List Char) : List (List Char × Json) → Json
  | [] => .null
  | (m, x) :: ms => if m = n then x else find n ms

/-- `j[key]`: null if `j` is no object or has no such member -/
def Json.at (j : Json) (n : List Char) : Json :=
  match j with
  | .obj ms => find n ms
  | _ => .null

/-- `array_items()`: empty if `j` is no array -/
def Json.items : Json → List Json
  | .arr xs => xs
  | _ => []

/-- `object_items()`: empty if `j` is no object -/
def Json.fields : Json → List (List Char × Json)
  | .obj ms => ms
  | _ => []

inductive IntKind where
  | i16 | u16 | i32 | u32 | i64 | u64
deriving DecidableEq, Repr

def IntKind.lo : IntKind → Int
  | .i16 => -32768
  | .i32 => -2147483648
  | .i64 => -9223372036854775808
  | _ => 0

def IntKind.hi : IntKind → Int
  | .i16 => 32767
  | .u16 => 65535
  | .i32 => 2147483647
  | .u32 => 4294967295
  | .i64 => 9223372036854775807
  | .u64 => 18446744073709551615

/-- Json11Trait.h 118-123: `int_value` is used, and not `number_value` -/
def IntKind.narrow : IntKind → Bool
  | .i64 => false
  | .u64 => false
  | _ => true

/-- `static_cast` of an `int` -/
def IntKind.cast (k : IntKind) (z : Int) : Int := (z - k.lo) % (k.hi - k.lo + 1) + k.lo

/-- a scalar member: a value, or none yet (indeterminate) -/
inductive Cell (α : Type) where
  | val (a : α)
  | indeterminate
deriving DecidableEq, Repr

mutual
/-- types of members -/
inductive Ty where
  | bool
  | int (k : IntKind)
  | str
  | vec (t : Ty)
  | map (t : Ty)
  | obj (fs : Flds)
/-- members: name, type, whether it is declared with a default value -/
inductive Flds where
  | nil
  | cons (n : List Char) (t : Ty) (i : Bool) (fs : Flds)
end

mutual
def Val : Ty → Type
  | .bool => Cell Bool
  | .int _ => Cell Int
  | .str => List Char
  | .vec t => List (Val t)
  | .map t => List (List Char × Val t)
  | .obj fs => Vals fs
def Vals : Flds → Type
  | .nil => Unit
  | .cons _ t _ fs => Val t × Vals fs
end

mutual
/-- `Type t;` (`i = false`), or a member with a default value -/
def fresh : (t : Ty) → (i : Bool) → Val t
  | .bool, i => if i then Cell.val false else Cell.indeterminate
  | .int _, i => if i then Cell.val (0 : Int) else Cell.indeterminate
  | .str, _ => ([] : List Char)
  | .vec t, _ => ([] : List (Val t))
  | .map t, _ => ([] : List (List Char × Val t))
  | .obj fs, _ => freshes fs
def freshes : (fs : Flds) → Vals fs
  | .nil => ()
  | .cons _ t i fs => (fresh t i, freshes fs)
end

/-- Json11Trait.h: `exist` -/
def exist : Ty → Json → Bool
  | .bool, .bool _ => true
  | .int _, .num _ => true
  | .str, .str _ => true
  | .vec _, .arr _ => true
  | .map _, .obj _ => true
  | .obj _, .obj _ => true
  | _, _ => false

/-- `static_cast<type>(j.bool_value())` -/
def getBool : Json → Bool
  | .bool b => b
  | _ => false

/-- `static_cast<type>(j.int_value())`, `static_cast<type>(j.number_value())`; `none` is undefined behaviour: a number beyond the type that is converted to -/
def getInt (k : IntKind) : Json → Option Int
  | .num z =>
    if k.narrow then
      if -2147483648 ≤ z ∧ z ≤ 2147483647 then some (k.cast z) else none
    else
      if k.lo ≤ z ∧ z ≤ k.hi then some z else none
  | _ => some 0

/-- `string_value()` -/
def getStr : Json → List Char
  | .str s => s
  | _ => []

/-- one after the other; `none` if one is -/
def each {α β : Type} (f : α → Option β) : List α → Option (List β)
  | [] => some []
  | x :: xs => match f x, each f xs with
    | some y, some ys => some (y :: ys)
    | _, _ => none

mutual
/-- Json11Trait.h: `get`; `none` is undefined behaviour -/
def get : (t : Ty) → Json → Option (Val t)
  | .bool, j => some (Cell.val (getBool j))
  | .int k, j => (getInt k j).map Cell.val
  | .str, j => some (getStr j)
  | .vec t, j => each (fun x => get t x) j.items
  | .map t, j => each (fun p => (get t p.2).map fun v => (p.1, v)) j.fields
  | .obj fs, j => load fs j (freshes fs)
/-- `load_from_json`: what an object is afterwards -/
def load : (fs : Flds) → Json → Vals fs → Option (Vals fs)
  | .nil, _, _ => some ()
  | .cons n t _ fs, j, vs =>
    match (if exist t (j.at n) then get t (j.at n) else some vs.1), load fs j vs.2 with
    | some v, some ws => some (v, ws)
    | _, _ => none
end

/-- `load_from_json_str`; `parse` answers `none` for a text that is no JSON, and json11 null -/
def loadStr (parse : List Char → Option Json) (fs : Flds) (s : List Char) (vs : Vals fs) : Option (Vals fs) :=
  load fs ((parse s).getD .null) vs

end Maf.Json
