/-
Model of sessions on a protected object.

Models /repo/include/maf/threading/AtomicObject.h, lines 12-34 (`AtomicRefBase_`:
the lock is taken by the constructor, handed on by the move constructor and
given back by the destructor), 36-46 and 66-76 (access through a session),
92-122 (`operator->`, `operator*`, `atomic`, `operator=`);
/repo/include/maf/threading/Lockable.h, lines 11-22 (`AtomicRef`), 42-44, 46-47
and 51-58 (`atomic`, `operator=`);
/repo/include/maf/threading/MutexRef.h, lines 8-33 (several objects may share
one mutex).

Simplifications.
* The protected data are natural numbers, read and written as a whole; a
  session on a smart pointer (lines 53-64) is a session on what it points to.
* `operator=` is a session that writes once: open, write, destroy.
* Sessions stay in the thread that made them. Using a session that was moved
  from (null pointer) is not a step. Assigning to a session is undefined
  behaviour (`operator=` at lines 22-25 returns nothing) and not modelled.
* `Lockable::operator->`/`*` and `lockee()` bypass the lock: not modelled here
  (`lock`/`unlock` of a `Lockable` count as opening and destroying a session).
-/

namespace Maf.Atom

/-- Which mutex protects an object (its own, or a shared one through
`MutexReference`), and which mutexes are recursive. -/
structure Conf where
  mtx : Nat → Nat
  recur : Nat → Bool

inductive Ev where
  | opened (t o : Nat)
  | closed (t o : Nat)
  | read (t o v : Nat)
  | wrote (t o v : Nat)
deriving DecidableEq, Repr

structure St where
  data : Nat → Nat
  /-- who has the mutex, and how often -/
  own : Nat → Option (Nat × Nat)
  /-- sessions ever made: thread and object, nothing if moved from or destroyed -/
  sess : List (Option (Nat × Nat))
  log : List Ev

def init (d : Nat → Nat) : St := { data := d, own := fun _ => none, sess := [], log := [] }

/-- `std::mutex::lock`, `std::recursive_mutex::lock`: `none` means that the
thread waits (for ever, if it waits for itself). -/
def lock (c : Conf) (m t : Nat) : Option (Nat × Nat) → Option (Nat × Nat)
  | none => some (t, 1)
  | some (t', d) => if t = t' ∧ c.recur m = true then some (t', d + 1) else none

def unlock : Option (Nat × Nat) → Option (Nat × Nat)
  | none => none
  | some (t, d) => if d ≤ 1 then none else some (t, d - 1)

def upd {α : Type} (f : Nat → α) (i : Nat) (a : α) : Nat → α := fun j => if j = i then a else f j

inductive Act where
  /-- `obj.atomic()`, `obj->`, `*obj` by thread `t` (AtomicObject.h:105-113; 16) -/
  | opn (t o : Nat)
  /-- a session is made from another one (AtomicObject.h:18-20) -/
  | move (k : Nat)
  /-- a session is destroyed (AtomicObject.h:27-31) -/
  | destroy (k : Nat)
  /-- the data are read, or written, through session `k` -/
  | read (k : Nat)
  | write (k v : Nat)

def doOpen (s : St) (t o : Nat) (own : Nat → Option (Nat × Nat)) : St :=
  { s with own := own, sess := s.sess ++ [some (t, o)], log := s.log ++ [.opened t o] }

def doMove (s : St) (k : Nat) (x : Option (Nat × Nat)) : St :=
  { s with sess := s.sess.set k none ++ [x] }

def doDestroy (c : Conf) (s : St) (k : Nat) : Option (Nat × Nat) → St
  | none => s
  | some (t, o) =>
    { s with own := upd s.own (c.mtx o) (unlock (s.own (c.mtx o))), sess := s.sess.set k none,
             log := s.log ++ [.closed t o] }

def doRead (s : St) (t o : Nat) : St := { s with log := s.log ++ [.read t o (s.data o)] }

def doWrite (s : St) (t o v : Nat) : St :=
  { s with data := upd s.data o v, log := s.log ++ [.wrote t o v] }

/-- One step; `none` if it has to wait, or does not apply. -/
def step (c : Conf) (s : St) : Act → Option St
  | .opn t o => (lock c (c.mtx o) t (s.own (c.mtx o))).map fun w => doOpen s t o (upd s.own (c.mtx o) (some w))
  | .move k => (s.sess[k]?).map fun x => doMove s k x
  | .destroy k => (s.sess[k]?).map fun x => doDestroy c s k x
  | .read k => (s.sess[k]?).join.map fun x => doRead s x.1 x.2
  | .write k v => (s.sess[k]?).join.map fun x => doWrite s x.1 x.2 v

def runs (c : Conf) (s : St) : List Act → Option St
  | [] => some s
  | a :: as => (step c s a).bind fun s' => runs c s' as

end Maf.Atom
