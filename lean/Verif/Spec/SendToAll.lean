import Verif.Model.SendToAll
/-
Specification of sending to all, in terms of the history of events only.
-/
namespace Maf.Bcast

/-- The processors that have had their turn in broadcast `b`, in order. -/
def asked (b : Nat) (l : List Ev) : List Pid :=
  l.filterMap fun
    | .skipped b' q | .refused b' q | .made b' q _ => if b' = b then some q else none
    | _ => none

/-- The tasks of broadcast `b`, in order. -/
def tasksOf (b : Nat) (l : List Ev) : List Nat :=
  l.filterMap fun
    | .made b' _ k => if b' = b then some k else none
    | _ => none

def sendingStep (x : Option (Tid × Nat)) : Ev → Option (Tid × Nat)
  | .opened t b _ _ => some (t, b)
  | .sent .. => none
  | _ => x

/-- The broadcast in progress, and its thread. -/
def sending (l : List Ev) : Option (Tid × Nat) := l.foldl sendingStep none

def joinedStep (js : List Pid) : Ev → List Pid
  | .joined p => js ++ [p]
  | .left p => js.filter (· != p)
  | _ => js

/-- Who has joined. -/
def members (l : List Ev) : List Pid := l.foldl joinedStep []

/-- What has to be true of the history when an event happens. -/
def EvOk (l : List Ev) : Ev → Prop
  -- one broadcast at a time; to those who have joined, in the order of their identifiers
  | .opened _ b _ js => sending l = none ∧ (∀ q, q ∈ js ↔ q ∈ members l) ∧ js.Pairwise (· < ·) ∧ ∀ t m js', Ev.opened t b m js' ∉ l
  -- nobody joins or leaves meanwhile
  | .joined p => sending l = none ∧ p ∉ members l
  | .left p => sending l = none ∧ p ∈ members l
  | .skipped b _ | .refused b _ => ∃ t, sending l = some (t, b)
  | .made b _ k => (∃ t, sending l = some (t, b)) ∧ ∀ b' q', Ev.made b' q' k ∉ l
  -- everybody has been asked, once, in order
  | .sent t b v => sending l = some (t, b) ∧ (∃ m, Ev.opened t b m (asked b l) ∈ l) ∧ (v = true ↔ tasksOf b l ≠ [])
  -- a handler is called at most once, with the message
  | .began _ k q m => (∃ b t' js, Ev.made b q k ∈ l ∧ Ev.opened t' b m js ∈ l) ∧ (∀ t' q' m', Ev.began t' k q' m' ∉ l) ∧ Ev.dropped k ∉ l
  | .ended t k _ => (∃ q m, Ev.began t k q m ∈ l) ∧ ∀ t' ok', Ev.ended t' k ok' ∉ l
  | .dropped k => (∃ b q, Ev.made b q k ∈ l) ∧ (∀ t' q' m', Ev.began t' k q' m' ∉ l) ∧ Ev.dropped k ∉ l
  -- everybody who got the message has handled it
  | .got _ b true => (∃ t', Ev.sent t' b true ∈ l) ∧ ∀ k ∈ tasksOf b l, ∃ t', Ev.ended t' k true ∈ l
  -- somebody has failed; those before have handled it
  | .got _ b false => (∃ t', Ev.sent t' b true ∈ l) ∧ ∃ xs k ys, tasksOf b l = xs ++ k :: ys ∧ (∀ x ∈ xs, ∃ t', Ev.ended t' x true ∈ l) ∧ ((∃ t', Ev.ended t' k false ∈ l) ∨ Ev.dropped k ∈ l)

end Maf.Bcast
