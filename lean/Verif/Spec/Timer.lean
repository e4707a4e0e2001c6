import Verif.Model.Timer
/-
Specification of timers, in terms of the log of events only.
-/
namespace Maf.Tmr

def runStep (i : Tm) (b : Bool) : Ev → Bool
  | .started j _ _ => if j = i then true else b
  | .restarted j _ => if j = i then true else b
  | .stopped j => if j = i then false else b
  | .fired j _ _ c => if j = i then c else b
  | _ => b

/-- Is timer `i` running: started, and since then neither stopped nor fired for good. -/
def runningIn (l : List Ev) (i : Tm) : Bool := l.foldl (runStep i) false

/-- The last `start` or `restart` of timer `i`: when, and the duration. -/
def lastStep (i : Tm) (o : Nat × Nat) : Ev → Nat × Nat
  | .started j t d => if j = i then (t, d) else o
  | .restarted j t => if j = i then (t, o.2) else o
  | _ => o

def lastIn (l : List Ev) (i : Tm) : Nat × Nat := l.foldl (lastStep i) (0, 0)

/-- How often timer `i` has fired since its last `start` or `restart`. -/
def firesStep (i : Tm) (n : Nat) : Ev → Nat
  | .started j _ _ => if j = i then 0 else n
  | .restarted j _ => if j = i then 0 else n
  | .fired j _ _ _ => if j = i then n + 1 else n
  | _ => n

def firesIn (l : List Ev) (i : Tm) : Nat := l.foldl (firesStep i) 0

/-- The next deadline of timer `i`: start + (fires so far + 1) * duration. -/
def dueIn (l : List Ev) (i : Tm) : Nat := (lastIn l i).1 + (firesIn l i + 1) * (lastIn l i).2

/-- The rules for every history. -/
def EvOk (l : List Ev) : Ev → Prop
  | .fired i t dl _ => runningIn l i = true ∧ (lastIn l i).1 + (lastIn l i).2 ≤ dl ∧ dl ≤ t
  | _ => True

/-- Histories in which `restart` is called for running timers only, and no job that operates on
timers lasts past the deadline the processor was waiting for. -/
structure Calm (l : List Ev) : Prop where
  restart : ∀ l1 i t l2, l = l1 ++ .restarted i t :: l2 → runningIn l1 i = true
  jobs : ∀ i, Ev.overran i ∉ l

/-- The rules for calm histories. -/
def CalmOk (l : List Ev) : Ev → Prop
  -- the one with the earliest deadline, without drift
  | .fired i _ dl _ => dl = dueIn l i ∧ ∀ j, runningIn l j = true → dl ≤ dueIn l j
  | .picked i => runningIn l i = true ∧ ∀ j, runningIn l j = true → dueIn l i ≤ dueIn l j
  | _ => True

end Maf.Tmr
