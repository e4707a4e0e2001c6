import Verif.Model.ThisProcessor
import Verif.Lemmas.Hist
/-
What code on a processor's thread should see, in terms of the history.
-/
namespace Maf.Tl

/-- The loops the thread is in, innermost first. -/
def openStep (l : List (Lid × Pid)) : Ev → List (Lid × Pid)
  | .entered n p _ => (n, p) :: l
  | .initFailed _ => l.tail
  | .left _ => l.tail
  | _ => l

def openIn (log : List Ev) : List (Lid × Pid) := log.foldl openStep []

/-- The processor of the outermost loop. -/
def outer (log : List Ev) : Option Pid := (openIn log).getLast?.map Prod.snd

/-- `threadInit` has thrown. -/
def InitFails (log : List Ev) : Prop := ∃ n, .initFailed n ∈ log

/-- The rules for event `e` after history `l`. -/
def EvOk (l : List Ev) : Ev → Prop
  | .entered n _ _ => ∀ p k, .entered n p k ∉ l
  | .initDone n => .initDone n ∉ l ∧ ∃ p, .entered n p .run ∈ l
  | .initFailed n => .initDone n ∉ l ∧ ∃ p, .entered n p .run ∈ l
  -- functions are called between `threadInit` and `threadDeinit`, by a loop that has not let go, and see the outermost processor
  | .called n _ v => (∃ p k, .entered n p k ∈ l ∧ (k = .run → .initDone n ∈ l) ∧ (n, p) ∈ openIn l) ∧ (∀ w, .deinit n w ∉ l) ∧ (¬ InitFails l → v = outer l)
  -- so do the destructors of what functions own, as long as the loop has not let go; `run` destroys them before
  | .dropped n _ v => (¬ InitFails l → v = outer l ∧ (.left n ∉ l → v ≠ none)) ∧ ∀ p, .entered n p .run ∈ l → .left n ∉ l
  -- `threadDeinit` is called once, after `threadInit`
  | .deinit n v => .initDone n ∈ l ∧ (∀ w, .deinit n w ∉ l) ∧ (¬ InitFails l → v = outer l)
  -- a loop ends once, `run` after `threadDeinit`
  | .left n => .left n ∉ l ∧ ∃ p k, .entered n p k ∈ l ∧ (k = .run → ∃ v, .deinit n v ∈ l)

end Maf.Tl
