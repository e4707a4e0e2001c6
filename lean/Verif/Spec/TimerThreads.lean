import Verif.Model.TimerThreads
/-
Timers that stay on one thread, and what a thread alone would see.
-/
namespace Maf.Xtm
open Maf.Tmr (Tm Op)

def timerOf : Op → Tm
  | .start i _ => i
  | .stop i => i
  | .restart i => i
  | .setCyclic i _ => i

/-- Calls on a timer are made on its own thread only. -/
def Confined (own : Tm → Tid) (as : List Act) : Prop :=
  ∀ a ∈ as, (∀ p o r, a = .on p (.op o r) → own (timerOf o) = p) ∧ ∀ i, a ≠ .outside i

/-- What happens on thread `p`. -/
def actsOf (p : Tid) : List Act → List Tmr.Act
  | [] => []
  | .tick t :: as => .tick t :: actsOf p as
  | .on q a :: as => if q = p then a :: actsOf p as else actsOf p as
  | .outside _ :: as => actsOf p as

/-- A timer that is not running although its deadline has passed. -/
def Dead (s : State) (i : Tm) : Prop := (s.data i).running = false ∧ (s.data i).deadline ≤ s.now

/-- Executions of which every state, from the first to the last, has a property. -/
inductive RunIn (P : State → Prop) : State → List Act → State → Prop where
  | nil {s : State} : P s → RunIn P s [] s
  | cons {s s1 s' : State} {a : Act} {as : List Act} : P s → step s a = some s1 → RunIn P s1 as s' → RunIn P s (a :: as) s'

end Maf.Xtm
