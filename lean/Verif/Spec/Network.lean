import Verif.Spec.Signal
import Verif.Model.Network
/-
Specification of networks of signals, in terms of the history of events only.
-/
namespace Maf.Net

/-- What happened to signal `g`. -/
def sigLog (g : SigId) (l : List Ev) : List (Sig.Ev Nat) :=
  l.filterMap fun
    | .sig _ g' e => if g' = g then some e else none
    | _ => none

/-- The function with number `sl` of signal `g` was connected in this way. -/
def Is (l : List Ev) (g : SigId) (sl : SlotId) (k : Kind) : Prop := ∃ t, Ev.connected t g sl k ∈ l

/-- The last event is that thread `t`'s emission of signal `g` calls slot `sl` with `a`. -/
def JustCalled (l : List Ev) (t : Tid) (g : SigId) (sl : SlotId) (a : Nat) : Prop := ∃ l0 tk, l = l0 ++ [.sig t g (.called tk sl a)]

def ranOf (g : SigId) (sl : SlotId) (a : Nat) : Ev → Bool
  | .ran _ g' sl' a' => g' == g && sl' == sl && a' == a
  | _ => false

def postedOf (g : SigId) (sl : SlotId) (a : Nat) : Ev → Bool
  | .posted _ g' sl' a' => g' == g && sl' == sl && a' == a
  | _ => false

/-- Thread `t` has emitted signal `h` with `a` from the beginning to the end; or the signal had no slots. -/
def Emitted (t : Tid) (h : SigId) (a : Nat) (l : List Ev) : Prop :=
  .skipped t h a ∈ l ∨ ∃ p q, l = p ++ .sig t h (.emitted a) :: q ∧ .sig t h .emissionDone ∈ q

/-- What has to be true of the history `l` when event `e` happens. -/
def EvOk (l : List Ev) : Ev → Prop
  | .ran t g sl a =>
    (Is l g sl .plain ∧ JustCalled l t g sl a) ∨ (∃ o, Is l g sl (.tracked o) ∧ .objGone o ∉ l ∧ JustCalled l t g sl a) ∨
      ((Is l g sl .queued ∨ ∃ o, Is l g sl (.trackedQueued o)) ∧ l.countP (ranOf g sl a) < l.countP (postedOf g sl a))
  | .posted t g sl a => JustCalled l t g sl a ∧ (Is l g sl .queued ∨ ∃ o, Is l g sl (.trackedQueued o) ∧ .objGone o ∉ l)
  | .forward t g sl h a => Is l g sl (.forward h) ∧ JustCalled l t g sl a ∧ ∀ t', .destroyed t' h ∉ l
  | .forwarded t g sl h a => ∃ l1 l2, l = l1 ++ .forward t g sl h a :: l2 ∧ Emitted t h a l2
  | .returned t g sl a => l.count (.returned t g sl a) < l.count (.ran t g sl a)
  | .objGone o => .objGone o ∉ l ∧ ∀ g sl, Is l g sl (.tracked o) → ∀ t a, l.count (.ran t g sl a) = l.count (.returned t g sl a)
  | .connected _ g sl _ => ∀ k', ¬ Is l g sl k'
  | .skipped _ g _ => Sig.connections (sigLog g l) = []
  | _ => True

/-- What follows (`m`) the call of a slot that was connected as `k`, after the history `l`. -/
def Follows (ub : Bool) (l m : List Ev) (t : Tid) (g : SigId) (sl : SlotId) (a : Nat) : Kind → Prop
  | .plain => m.head? = some (.ran t g sl a)
  | .queued => m.head? = some (.posted t g sl a)
  | .tracked o => m.head? = some (.ran t g sl a) ∨ (.objGone o ∈ l ∧ ub = true)
  | .trackedQueued o => m.head? = some (.posted t g sl a) ∨ (.objGone o ∈ l ∧ ub = true)
  | .forward h => m.head? = some (.forward t g sl h a) ∨ ((∃ t', .destroyed t' h ∈ l) ∧ ub = true)

end Maf.Net
