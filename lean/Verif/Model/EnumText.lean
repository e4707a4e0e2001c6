/-
Enumerations that can be written to a stream.

Models include/maf/utils/StringifyableEnum.h 48-64 (`MC_MAF_STRINGIFYABLE_ENUM`) with include/maf/utils/cppextension/Macros.h 572-615 (`mc_maf_for_each`: up to 125 arguments, in order;
checked on the text by a script), and C++'s rules for the values of enumerators: an initialiser, or one more than the one before, or 0; a value the underlying type cannot hold does not compile.
-/
namespace Maf.Enm

/-- An argument of the macro: an enumerator, possibly with an initialiser (a literal). -/
structure Enumerator where
  name : String
  init : Option Int
deriving DecidableEq

/-- The underlying type. -/
structure Base where
  min : Int
  max : Int
  zero : min ≤ 0 ∧ 0 ≤ max

/-- `char` where it is signed -/
def charType : Base := ⟨-128, 127, by decide⟩

/-- C++: the values; `k` is what the next enumerator gets if it has no initialiser. -/
def values (k : Int) : List Enumerator → List Int
  | [] => []
  | e :: es => e.init.getD k :: values (e.init.getD k + 1) es

/-- C++: the value of the enumerator `__` after the others. -/
def after (k : Int) : List Enumerator → Int
  | [] => k
  | e :: es => after (e.init.getD k + 1) es

/-- 48: `#arg` -/
def text (e : Enumerator) : String :=
  match e.init with
  | none => e.name
  | some i => e.name ++ " = " ++ toString i

/-- 53-54: `StrArr` -/
def strArr (es : List Enumerator) : List String := es.map text ++ ["_"]

def fits (b : Base) (v : Int) : Prop := b.min ≤ v ∧ v ≤ b.max

instance (b : Base) (v : Int) : Decidable (fits b v) := inferInstanceAs (Decidable (_ ∧ _))

/-- Does the declaration compile? `mc_maf_for_each` takes 1 to 125 arguments; the values must fit; 59-64. -/
def compiles (b : Base) (es : List Enumerator) : Prop :=
  1 ≤ es.length ∧ es.length ≤ 125 ∧ (∀ v ∈ values 0 es, fits b v) ∧ fits b (after 0 es) ∧ after 0 es = ((strArr es).length - 1 : Nat)

instance (b : Base) (es : List Enumerator) : Decidable (compiles b es) := inferInstanceAs (Decidable (_ ∧ _))

/-- 55-58: what is written for an object with value `v`; `none`: undefined behaviour, the array is left (a negative value becomes a huge index). -/
def write (es : List Enumerator) (v : Int) : Option String := if 0 ≤ v then (strArr es)[v.toNat]? else none

end Maf.Enm
