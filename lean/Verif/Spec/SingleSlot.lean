import Verif.Model.SingleSlot
/-
Specification of signals with one connection, in terms of the history of events only.
-/
namespace Maf.One
variable {A : Type}

def whoStep (w : Option Id) : Ev A → Option Id
  | .added n => some n
  | .removed _ => none
  | _ => w

/-- The function that is connected after a history. -/
def who (l : List (Ev A)) : Option Id := l.foldl whoStep none

def busyStep (b : Option Id) : Ev A → Option Id
  | .called n _ => some n
  | .returned _ => none
  | _ => b

/-- The function that is being called after a history. -/
def busy (l : List (Ev A)) : Option Id := l.foldl busyStep none

/-- What has to be true of the history when an event happens: a function is connected only while none is, and refused only while one is; the connected function is removed; an emission calls
the connected function, and does nothing only while none is connected; calls do not overlap. -/
def EvOk (l : List (Ev A)) : Ev A → Prop
  | .added _ => who l = none
  | .refused n => (∃ m, who l = some m) ∧ Ev.added n ∉ l
  | .removed n => who l = some n
  | .called n _ => who l = some n ∧ busy l = none
  | .returned n => busy l = some n
  | .skipped _ => who l = none

end Maf.One
