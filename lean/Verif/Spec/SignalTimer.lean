import Verif.Model.SignalTimer
import Verif.Spec.Signal
import Verif.Spec.Timer
/-
Specification of timers with a signal: what a history tells about one of them.
-/
namespace Maf.Stm
open Maf.Tmr (Tm)

/-- What happened to the timers. -/
def tmOf (l : List Ev) : List Tmr.Ev := l.filterMap fun | .tm e => some e | _ => none

/-- What happened to the signal of `i`. -/
def sgOf (i : Tm) (l : List Ev) : List (Sig.Ev Nat) := l.filterMap fun | .sg j e => if j = i then some e else none | _ => none

def isFired (i : Tm) : Ev → Bool
  | .tm (.fired j _ _ _) => j == i
  | _ => false

/-- How often `i` has expired. -/
def expiries (i : Tm) (l : List Ev) : Nat := l.countP (isFired i)

/-- `start` or `restart` of `i` -/
def Starts (i : Tm) : Ev → Prop
  | .tm (.started j _ _) => j = i
  | .tm (.restarted j _) => j = i
  | _ => False

/-- No emission of the signal of `i` is under way. -/
def Quiet (i : Tm) (l : List Ev) : Prop := Sig.current (sgOf i l) = none

end Maf.Stm
