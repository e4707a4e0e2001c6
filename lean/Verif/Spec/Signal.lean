import Verif.Model.Signal
/-
Specification of signals, in terms of the log of events only.
-/
namespace Maf.Sig
variable {A : Type}

/-- One event's effect on who is connected. -/
def liveStep (acc : List (Nat × SlotId)) : Ev A → List (Nat × SlotId)
  | .added t s => acc ++ [(t, s)]
  | .removed t _ => acc.filter fun p => p.1 != t
  | _ => acc

/-- The connections in force after a history, in connection order. -/
def connections (l : List (Ev A)) : List (Nat × SlotId) := l.foldl liveStep []

/-- One event's effect on the emission in progress: its argument, and the calls it has made
so far (which connection, which argument). -/
def curStep (acc : Option (A × List (Nat × A))) : Ev A → Option (A × List (Nat × A))
  | .emitted a => some (a, [])
  | .called t _ a => acc.map fun p => (p.1, p.2 ++ [(t, a)])
  | .emissionDone => none
  | _ => acc

/-- The emission in progress after a history. -/
def current (l : List (Ev A)) : Option (A × List (Nat × A)) := l.foldl curStep none

/-- The rules, for event `e` after history `l`:
a slot is called only while it is connected, by an emission in progress, with that emission's
argument, and not twice; when an emission is over, it has called its slots in connection
order, each once, all with its argument, and every slot connected then has been called;
what is removed is the one connection of that slot; a new connection's ticket is later than
those of all connections in force, and its slot is not connected yet; emissions do not
overlap. -/
def EventOk (l : List (Ev A)) : Ev A → Prop
  | .called t s a => (t, s) ∈ connections l ∧ (∀ s', (t, s') ∈ connections l → s' = s) ∧ ∃ cs, current l = some (a, cs) ∧ ∀ b, (t, b) ∉ cs
  | .emissionDone => ∃ a cs, current l = some (a, cs) ∧
      (cs.map Prod.fst).Pairwise (· < ·) ∧ (∀ c ∈ cs, c.2 = a) ∧
      ∀ t s, (t, s) ∈ connections l → (t, a) ∈ cs
  | .emitted _ => current l = none
  | .added t s => ∀ t' s', (t', s') ∈ connections l → t' < t ∧ s' ≠ s
  | .removed t s => (t, s) ∈ connections l ∧ ∀ t', (t', s) ∈ connections l → t' = t
  | _ => True

/-- The calls in a piece of history: connection, slot, argument. -/
def callsIn (l : List (Ev A)) : List (Nat × SlotId × A) :=
  l.filterMap fun | .called t s a => some (t, s, a) | _ => none

/-- `l` is a piece of one emission. -/
def WithinEmission (l : List (Ev A)) : Prop := ∀ e ∈ l, (∀ a, e ≠ .emitted a) ∧ e ≠ .emissionDone

end Maf.Sig
