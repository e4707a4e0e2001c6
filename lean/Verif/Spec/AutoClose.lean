import Verif.Model.AutoClose
/-
Specification of descriptors that close themselves, in terms of the history only.
-/
namespace Maf.Fd

/-- The socket has been opened by `w`, and nobody has closed it. -/
def IsOpen (w : Who) (k : Sock) (l : List Ev) : Prop := Ev.opened w k ∈ l ∧ ∀ w', Ev.closed w' k ∉ l

/-- Each closes only what it has opened itself, and what is open. -/
def EvOk (l : List Ev) : Ev → Prop
  | .opened _ k => ∀ w, Ev.opened w k ∉ l
  | .closed w k => IsOpen w k l
  | .missed => False

/-- No handle is constructed from another one, or what is in its place is by chance no descriptor. -/
def polite : Act → Bool
  | .construct _ _ g => g.isNone
  | _ => true

end Maf.Fd
