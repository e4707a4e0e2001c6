/-
Descriptors that close themselves.

Models src/platforms/unix/maf/messaging/client-server/ipc/SocketShared.h 21-50 (`AutoCloseFD`), in a process whose other code (the receivers, the user's files and sockets) opens and closes descriptors at any
time. `socket` may return any number that is not in use, so numbers are used again; what a number stands for is a socket, which is never used again. A handle is a variable of type `AutoCloseFD<FD>`; which
there are, and when they are moved and destroyed, is up to the program: `connectToSocket` (74-94), `connectable` and `send` (LocalIPCBufferSenderImpl.cpp 12-24, 44-46) do `create`, `wrap` of a temporary,
`assign`, `destroy` of the temporary, perhaps `reset`, perhaps `construct` for the result (unless the compiler elides it, which it may), and `destroy`.
Simplified: an operation on a handle is one step, as only one thread uses a handle; `close` always closes. The other code closes only what it has opened.
-/
namespace Maf.Fd

/-- A descriptor number. -/
abbrev Fd := Nat
abbrev Sock := Nat
abbrev Var := Nat

inductive Who where
  /-- a handle -/
  | handle
  | other
deriving DecidableEq

inductive Ev where
  /-- opened, for a handle or by others -/
  | opened (w : Who) (k : Sock)
  /-- closed, by a handle or by others -/
  | closed (w : Who) (k : Sock)
  /-- `close` of a number that is not in use -/
  | missed
deriving DecidableEq

structure State where
  /-- the kernel's table -/
  tbl : Fd → Option Sock
  next : Sock
  /-- the handles: none: there is no such variable; `some none`: `INVALID_FD` -/
  val : Var → Option (Option Fd)
  /-- the numbers the other code has open -/
  others : Fd → Bool
  log : List Ev

def init : State := { tbl := fun _ => none, next := 0, val := fun _ => none, others := fun _ => false, log := [] }

def upd {β : Type} (f : Nat → β) (i : Nat) (v : β) : Nat → β := fun j => if j = i then v else f j

/-- `close(n)` in a handle (45) -/
def close (s : State) (n : Fd) : State :=
  match s.tbl n with
  | some k => { s with tbl := upd s.tbl n none, log := s.log ++ [.closed .handle k] }
  | none => { s with log := s.log ++ [.missed] }

/-- 43-48 `closeFD`, with the member's value -/
def closeFD (s : State) : Option Fd → State
  | some n => close s n
  | none => s

inductive Act where
  /-- 27, without an argument -/
  | create (x : Var)
  /-- 27, with the result of `socket()`; none: it fails -/
  | wrap (x : Var) (r : Option Fd)
  /-- 28: `x` is constructed from `y`; its member has no initial value: `g` is what is there -/
  | construct (x y : Var) (g : Option Fd)
  /-- 29-32: `x = std::move(y)` -/
  | assign (x y : Var)
  /-- 34 -/
  | reset (x : Var)
  /-- 33 -/
  | destroy (x : Var)
  | otherOpens (n : Fd)
  | otherCloses (n : Fd)
deriving DecidableEq

/-- 38-42 `takefrom`: the member of `x`, whose value is `old`, takes that of `y` -/
def takeFrom (s : State) (x y : Var) (old : Option Fd) : State :=
  let s1 := closeFD { s with val := upd s.val x (some old) } old
  -- 46
  let s2 := { s1 with val := upd s1.val x (some none) }
  let v := (s2.val y).getD none
  { s2 with val := upd (upd s2.val x (some v)) y (some none) }

def step (s : State) : Act → Option State
  | .create x => if s.val x = none then some { s with val := upd s.val x (some none) } else none
  | .wrap x none => if s.val x = none then some { s with val := upd s.val x (some none) } else none
  | .wrap x (some n) =>
    if s.val x = none ∧ s.tbl n = none then
      some { s with tbl := upd s.tbl n (some s.next), next := s.next + 1, val := upd s.val x (some (some n)), log := s.log ++ [.opened .handle s.next] }
    else none
  | .construct x y g => if s.val x = none ∧ s.val y ≠ none ∧ x ≠ y then some (takeFrom s x y g) else none
  | .assign x y =>
    match s.val x with
    | some old => if s.val y ≠ none then some (takeFrom s x y old) else none
    | none => none
  | .reset x =>
    match s.val x with
    | some old => some (let s' := closeFD s old; { s' with val := upd s'.val x (some none) })
    | none => none
  | .destroy x =>
    match s.val x with
    | some old => some (let s' := closeFD s old; { s' with val := upd s'.val x none })
    | none => none
  | .otherOpens n =>
    if s.tbl n = none then some { s with tbl := upd s.tbl n (some s.next), next := s.next + 1, others := upd s.others n true, log := s.log ++ [.opened .other s.next] } else none
  | .otherCloses n =>
    match s.tbl n with
    | some k => if s.others n then some { s with tbl := upd s.tbl n none, others := upd s.others n false, log := s.log ++ [.closed .other k] } else none
    | none => none

def run (s : State) : List Act → Option State
  | [] => some s
  | a :: as => (step s a).bind fun s' => run s' as

end Maf.Fd
