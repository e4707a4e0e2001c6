/-
Programs of atomic operations, and systems of calls that run them concurrently.

Used by Model/Provider.lean and Model/Client.lean. Every call of the interface is a program: a tree whose nodes are
atomic operations (a critical section, a message given to the transport, a callback that is called), with one branch
for each answer. Written with `do`, the program of a call reads like the C++ function it models. The calls of a
system are interleaved arbitrarily.
-/
namespace Maf.Calls

/-- `Q`: the atomic operations; `A q`: the answers of `q`; `R`: what the program returns. -/
inductive Prog (Q : Type) (A : Q → Type) (R : Type) : Type where
  | ret (r : R)
  /-- undefined behaviour, e.g. a null pointer is dereferenced -/
  | crash
  | ask (q : Q) (k : A q → Prog Q A R)

variable {Q : Type} {A : Q → Type} {R T : Type}

def Prog.bind : Prog Q A R → (R → Prog Q A T) → Prog Q A T
  | .ret r, f => f r
  | .crash, _ => .crash
  | .ask q k, f => .ask q fun a => (k a).bind f

instance : Monad (Prog Q A) where
  pure := .ret
  bind := .bind

/-- One atomic operation. -/
def ask (q : Q) : Prog Q A (A q) := .ask q .ret

/-- A system. `exec s n q e`: call `n` does `q` in the shared state `s`; `none` if it is blocked. The environment chooses `e`. -/
structure Sys where
  Call : Type
  Q : Type
  A : Q → Type
  R : Type
  Sh : Type
  Env : Type
  init : Sh
  prog : Call → Prog Q A R
  exec : Sh → Nat → (q : Q) → Env → Option (A q × Sh)

/-- What happens. -/
inductive Ev (Call Q : Type) (A : Q → Type) (R : Type) where
  | called (n : Nat) (c : Call)
  /-- call `n` does `q`, with answer `a` -/
  | did (n : Nat) (q : Q) (a : A q)
  | returned (n : Nat) (r : R)
  | crashed (n : Nat)

instance [DecidableEq C] [DecidableEq Q] [∀ q, DecidableEq (A q)] [DecidableEq R] : DecidableEq (Ev C Q A R)
  | .called n c, .called m d => if h : n = m ∧ c = d then isTrue (by rw [h.1, h.2]) else isFalse fun e => h (by cases e; exact ⟨rfl, rfl⟩)
  | .did n q a, .did m r b =>
    if h : n = m then
      if h' : q = r then
        if h'' : h' ▸ a = b then isTrue (by subst h h' h''; rfl) else isFalse fun e => h'' (by cases e; rfl)
      else isFalse fun e => h' (by cases e; rfl)
    else isFalse fun e => h (by cases e; rfl)
  | .returned n c, .returned m d => if h : n = m ∧ c = d then isTrue (by rw [h.1, h.2]) else isFalse fun e => h (by cases e; exact ⟨rfl, rfl⟩)
  | .crashed n, .crashed m => if h : n = m then isTrue (by rw [h]) else isFalse fun e => h (by cases e; rfl)
  | .called .., .did .. | .called .., .returned .. | .called .., .crashed .. | .did .., .called .. | .did .., .returned .. | .did .., .crashed .. => isFalse fun e => by cases e
  | .returned .., .called .. | .returned .., .did .. | .returned .., .crashed .. | .crashed .., .called .. | .crashed .., .did .. | .crashed .., .returned .. => isFalse fun e => by cases e

def Ev.cid {C : Type} : Ev C Q A R → Nat
  | .called n _ | .did n _ _ | .returned n _ | .crashed n => n

/-- Where a call is: not started, about to do `p`, done. -/
inductive Pc (Q : Type) (A : Q → Type) (R : Type) where
  | idle
  | at (p : Prog Q A R)
  | done

abbrev Sys.Event (S : Sys) : Type := Ev S.Call S.Q S.A S.R

structure State (S : Sys) where
  sh : S.Sh
  pc : Nat → Pc S.Q S.A S.R
  next : Nat
  /-- something undefined has happened: nothing is known any more -/
  ub : Bool
  log : List S.Event

variable (S : Sys)

def init : State S := ⟨S.init, fun _ => .idle, 0, false, []⟩

inductive Act where
  /-- someone calls -/
  | call (c : S.Call)
  /-- call `n` goes on -/
  | step (n : Nat) (e : S.Env)

variable {S}

def upd {β : Type} (f : Nat → β) (i : Nat) (v : β) : Nat → β := fun j => if j = i then v else f j

def step (s : State S) : Act S → Option (State S)
  | .call c => if s.ub then none else some { s with pc := upd s.pc s.next (.at (S.prog c)), next := s.next + 1, log := s.log ++ [.called s.next c] }
  | .step n e =>
    if s.ub then none
    else match s.pc n with
    | .idle => none
    | .done => none
    | .at (.ret r) => some { s with pc := upd s.pc n .done, log := s.log ++ [.returned n r] }
    | .at .crash => some { s with pc := upd s.pc n .done, ub := true, log := s.log ++ [.crashed n] }
    | .at (.ask q k) =>
      match S.exec s.sh n q e with
      | none => none
      | some (a, sh) => some { s with sh := sh, pc := upd s.pc n (.at (k a)), log := s.log ++ [.did n q a] }

def run (s : State S) : List (Act S) → Option (State S)
  | [] => some s
  | a :: as => (step s a).bind fun s' => run s' as

end Maf.Calls
