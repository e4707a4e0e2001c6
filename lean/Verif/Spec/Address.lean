import Verif.Model.Address
/-
Specification of orders and of sets.
-/
namespace Maf.Addr

/-- `lt` is a strict weak ordering on the elements that satisfy `S`, and equivalence in that order is equality. -/
structure GoodOrder {K : Type} (S : K → Prop) (lt : K → K → Bool) : Prop where
  irrefl : ∀ a, S a → lt a a = false
  trans : ∀ a b c, S a → S b → S c → lt a b = true → lt b c = true → lt a c = true
  compat : ∀ a b, S a → S b → lt a b = false → lt b a = false → a = b

def Op.key {K : Type} : Op K → K
  | .insert k _ => k
  | .erase k _ => k

/-- What is in the set, told from the history: inserted, and not erased since. -/
def inSet {K : Type} [DecidableEq K] (k : K) (b : Bool) : Op K → Bool
  | .insert k' _ => if k' = k then true else b
  | .erase k' _ => if k' = k then false else b

/-- Two addresses one of which has the smaller name and the other one the smaller port. -/
def Conflict (a b : Address) : Prop := nameLt a.name b.name = true ∧ b.port < a.port

end Maf.Addr
