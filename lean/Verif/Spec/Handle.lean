import Verif.Model.Handle
/-
Specification for C80: typed requests.
-/
namespace Maf.Hdl

/-- The log of some run. -/
def Log (l : List Ev) : Prop := ∃ as s, run init as = some s ∧ s.log = l

/-- Request `r` has its final answer. -/
def Answered (l : List Ev) (r : Nat) : Prop := ∃ c k a, .answered r c k a ∈ l

/-- Request `r` is over. -/
def Over (l : List Ev) (r : Nat) : Prop := Answered l r ∨ .aborted r ∈ l ∨ .ended r ∈ l

/-- No request comes in while another one with the same operation and id is open. -/
def Separate (l : List Ev) : Prop := ∀ x y r c k r' c', l = x ++ .arrived r c k :: y → .arrived r' c' k ∈ x → Answered x r' ∨ .aborted r' ∈ x

end Maf.Hdl
