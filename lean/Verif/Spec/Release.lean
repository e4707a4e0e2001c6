import Verif.Model.Release
/-
What is said about the life of a function that is handed to a processor, in terms of the history only.
-/
namespace Maf.Drop

/-- The rules for event `e` after history `l`. -/
def EvOk (l : List Ev) : Ev → Prop
  -- functions are told apart
  | .made _ x => ∀ t, .made t x ∉ l
  | .entered x => ∃ t, .made t x ∈ l
  -- a function is called once, after it was queued, and not after it was destroyed
  | .began _ x => .entered x ∈ l ∧ ∀ t, .began t x ∉ l ∧ .dropped t x ∉ l
  | .done t x => .began t x ∈ l ∧ .done t x ∉ l
  -- it is destroyed once, and not while it runs
  | .dropped _ x => (∃ t, .made t x ∈ l) ∧ ∀ t, .dropped t x ∉ l ∧ (.began t x ∈ l → .done t x ∈ l)
  | _ => True

/-- About to lock the mutex of the queue. -/
def Frame.wants : Frame → Bool
  | .loop .. | .push2 _ | .size | .clear => true
  | _ => false

/-- A thread that has locked the mutex and is about to lock it again. -/
def Stuck (s : State) (t : Tid) : Prop := s.lock = some t ∧ ∃ f rest, s.stk t = f :: rest ∧ f.wants = true

/-- A destructor that runs with the mutex locked makes no call that would lock it again: nothing but `reuse`, and, once the processor
is stopped, `executeAsync` (refused) and `stop` (nothing to do). -/
def Polite (s : State) : Act → Prop
  | .call t c => s.lock = some t → c = .reuse ∨ (s.closed = true ∧ (c = .async ∨ c = .stop))
  | _ => True

/-- Executions in which every action is polite. -/
inductive PoliteRun : State → Prop where
  | init : PoliteRun init
  | step {s s' : State} {a : Act} : PoliteRun s → Polite s a → step s a = some s' → PoliteRun s'

/-- In a run loop, with nothing to do. -/
def WaitsForWork (s : State) (t : Tid) : Prop := (∃ k p rest, s.stk t = .loop k p :: rest) ∧ s.lock = none ∧ s.closed = false ∧ s.q = []

end Maf.Drop
