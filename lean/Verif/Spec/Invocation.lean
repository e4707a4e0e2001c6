import Verif.Model.Invocation
/-
Specification of waiting for a signal, in terms of the history of events only.
-/
namespace Maf.Fut
variable {A : Type}

/-- What has become of the slot. -/
inductive Fate (A : Type) where
  | never
  | open
  | fired (a : A)
  | cancelled
  | cleared
deriving DecidableEq

def fateStep (f : Fate A) : Ev A → Fate A
  | .connected => .open
  | .fired a => .fired a
  | .cancelled => .cancelled
  | .cleared => .cleared
  | _ => f

def fate (l : List (Ev A)) : Fate A := l.foldl fateStep .never

def nowStep (n : Option A) : Ev A → Option A
  | .emitted a => some a
  | .ended => none
  | _ => n

/-- The argument of the emission in progress. -/
def now (l : List (Ev A)) : Option A := l.foldl nowStep none

/-- The future has been used up. -/
def Used (l : List (Ev A)) : Prop := (∃ a, Ev.returned a ∈ l) ∨ Ev.failed ∈ l

/-- What has to be true of the history when an event happens. -/
def EvOk (l : List (Ev A)) : Ev A → Prop
  | .connected => fate l = .never
  | .valid => fate l = .open ∧ Ev.valid ∉ l ∧ Ev.invalid ∉ l
  | .invalid => (∃ a, fate l = .fired a) ∨ fate l = .cleared
  | .emitted _ => now l = none
  | .fired a => fate l = .open ∧ now l = some a
  | .ended => fate l ≠ .open ∧ now l ≠ none
  | .cancelled => fate l = .open ∧ Ev.valid ∈ l
  | .cleared => fate l = .open
  | .returned a => fate l = .fired a ∧ Ev.valid ∈ l ∧ ¬ Used l
  | .failed => fate l = .cleared ∧ Ev.valid ∈ l ∧ ¬ Used l
  | .timedOut => Ev.valid ∈ l ∧ ¬ Used l
  | .refused => Ev.valid ∈ l ∧ Used l

end Maf.Fut
