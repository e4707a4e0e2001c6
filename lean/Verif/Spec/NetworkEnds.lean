import Verif.Spec.Network
/-
When emissions in a network of signals should come to an end.
-/
namespace Maf.Net

/-- Signals are connected to higher signals only: no circles. -/
def Upwards (rank : SigId → Nat) (l : List Ev) : Prop := ∀ g sl h, Is l g sl (.forward h) → rank g < rank h

/-- Functions that are called by emissions or executors do not use signals themselves: none of them is in the middle of a call. -/
def Leaves (s : State) : Prop := ∀ t, ∀ f ∈ (s.stk t).tail, f.isUser = false

/-- The threads `T` emit signals, or run functions; the other threads do nothing, and nobody waits to do anything else. -/
def OnlyEmit (T : List Tid) (s : State) : Prop := (∀ t, t ∉ T → s.stk t = []) ∧ ∀ t g w, Frame.wants g w ∈ s.stk t → ∃ a, w = .emit a

/-- One of the threads `T` goes on: with the emission, or by returning from a function. -/
def GoesOn (T : List Tid) (a : Act) : Prop := ∃ t ∈ T, a = .enter t ∨ a = .iter t ∨ a = .ret t

end Maf.Net
