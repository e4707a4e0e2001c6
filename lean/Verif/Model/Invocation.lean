/-
Waiting for a signal: `waitableConnect` and `FutureInvocation`.

Models include/maf/utils/SignalSlots.h: `waitableConnect` (670-695), `FutureInvocation` (604-668), with the connection-aware slot it connects (334-350), `Connection` (175-275) and the
multi-slot keeper of a thread-safe signal (86-154), as far as that one slot is concerned. Whatever else is connected to the signal may do any of these actions when it is called.

The keeper's mutex is recursive and held during an emission. `Connection::connected` and `disconnect` (194-221) hold a temporary `shared_ptr` to the slot (`held`) while they wait for it.
A slot that disconnects itself is owned by its own connection, so that `conPtr->clear()` (346) destroys the lambda that is running: `ub`. The model notes that and goes on as if the destroyed
lambda then returned, so that the theorems hold in either case.
Not modelled: more than one `FutureInvocation` of the signal, moving it, functions that throw, emissions nested in an emission of the same signal (Model/Signal.lean), signals without a mutex,
destroying or clearing the signal during an emission.
-/
namespace Maf.Fut

abbrev Thread := Nat

/-- `waitableConnect` and its result. -/
inductive Client where
  | none
  /-- between `sig.connect` (680) and the result of `connection.connected()` (687) -/
  | saved (t : Thread)
  /-- the `FutureInvocation` exists and was returned by 688-689 -/
  | valid
  /-- returned by 692, or destroyed -/
  | over
deriving DecidableEq

/-- Who owns the slot. -/
inductive Place where
  | nowhere
  | inSignal
  /-- the slot's own connection: it has disconnected itself -/
  | firing
  /-- `signalConnection_`, after `cancel` -/
  | taken
  /-- nobody, but for `held` -/
  | gone
deriving DecidableEq

/-- The shared state of promise and future. -/
inductive Cell (A : Type) where
  | pending
  | value (a : A)
  | broken
deriving DecidableEq

inductive Op where
  | check
  | cancel
  | destroy
deriving DecidableEq

/-- How far the emitting thread is in the slot: not in it, after 684, after 685. -/
inductive Phase where
  | walk
  | disconnected
  | set
deriving DecidableEq

structure Em (A : Type) where
  thread : Thread
  arg : A
  phase : Phase
deriving DecidableEq

inductive Ev (A : Type) where
  | connected
  | valid
  | invalid
  | emitted (a : A)
  | fired (a : A)
  | ended
  /-- `cancel` has disconnected the slot -/
  | cancelled
  /-- the signal has dropped the slot -/
  | cleared
  /-- `wait` has called the function with the argument and returns true -/
  | returned (a : A)
  /-- `wait` returns false because of a `future_error` -/
  | failed
  /-- `waitFor` returns false because time is over -/
  | timedOut
  /-- `wait` returns false because `impl_` is not valid -/
  | refused
deriving DecidableEq

structure State (A : Type) where
  client : Client
  place : Place
  /-- the connection's operation in progress -/
  op : Option (Thread × Op)
  /-- ... holds a `shared_ptr` to the slot -/
  held : Bool
  cell : Cell A
  /-- `impl_.valid()` -/
  fut : Bool
  /-- the emission in progress -/
  em : Option (Em A)
  /-- the signal exists -/
  alive : Bool
  /-- the thread in `wait` or, if true, in `waitFor` or `waitUtil` -/
  waiting : Option (Thread × Bool)
  ub : Bool
  log : List (Ev A)

def init (A : Type) : State A :=
  { client := .none, place := .nowhere, op := none, held := false, cell := .pending, fut := false, em := none, alive := true, waiting := none, ub := false, log := [] }

/-- The thread is in `wait`, `connected`, `disconnect` or `waitableConnect`. -/
def busy {A : Type} (s : State A) (t : Thread) : Bool := s.waiting.any (fun w => w.1 == t) || s.op.any (fun o => o.1 == t) || s.client == .saved t

/-- The thread is in the slot. -/
def inSlot {A : Type} (s : State A) (t : Thread) : Bool := s.em.any fun e => e.thread == t && e.phase != .walk

def idle {A : Type} (s : State A) (t : Thread) : Bool := !busy s t && !inSlot s t

/-- The thread can lock the keeper. -/
def canLock {A : Type} (s : State A) (t : Thread) : Bool := s.em.all fun e => e.thread == t

/-- `~promise`: `broken_promise` if no value has been set. -/
def broken {A : Type} : Cell A → Cell A
  | .pending => .broken
  | c => c

/-- The operation of the connection ends: its temporary `shared_ptr` goes away, with the slot if that was the last one. -/
def release {A : Type} (s : State A) : State A := { s with op := none, held := false, cell := if s.held ∧ s.place = .gone then broken s.cell else s.cell }

/-- `hub->disconnect(s)` (198), for the `FutureInvocation`'s connection. -/
def disconnect {A : Type} (s : State A) : State A :=
  if s.held ∧ s.alive ∧ s.place = .inSignal then { s with place := .taken, log := s.log ++ [.cancelled] } else s

/-- The signal drops the slot: `clear` (141), `~MultiSlotKeeper`. -/
def dropSlot {A : Type} (s : State A) : State A :=
  if s.place = .inSignal then { s with place := .gone, cell := if s.held then s.cell else broken s.cell, log := s.log ++ [.cleared] } else s

inductive Act (A : Type) where
  /-- `waitableConnect` up to 686, by thread `t` -/
  | connect (t : Thread)
  /-- 687: `connected()` locks the weak pointer -/
  | check
  /-- `cancel()` -/
  | cancel (t : Thread)
  /-- `~FutureInvocation` -/
  | destroy (t : Thread)
  /-- the connection's operation gets the mutex, or need not, and ends -/
  | endOp
  | emit (t : Thread) (a : A)
  /-- the emission gets to the slot, which disconnects itself (684) -/
  | reach
  /-- 685 -/
  | setValue
  /-- 345-347 -/
  | finish
  | endEmission
  /-- `signal.disconnect()` (467) -/
  | clear (t : Thread)
  | destroySignal (t : Thread)
  /-- `wait()` or, if true, `waitFor`, `waitUtil` -/
  | wait (t : Thread) (limited : Bool)
  /-- the future is ready -/
  | wake
  | timeout
deriving DecidableEq

/-- End of the operation of thread `t`. -/
def ending {A : Type} (s : State A) : Op → State A
  -- 687-692
  | .check =>
    if s.held ∧ s.alive ∧ s.place = .inSignal then release { s with client := .valid, fut := true, log := s.log ++ [.valid] }
    else release { s with client := .over, log := s.log ++ [.invalid] }
  | .cancel => release (disconnect s)
  -- 622: `cancel`, then the members are destroyed
  | .destroy =>
    let s1 := release (disconnect s)
    { s1 with client := .over, fut := false, place := if s1.place = .taken then .gone else s1.place }

def step {A : Type} (s : State A) : Act A → Option (State A)
  | .connect t =>
    if s.client = .none ∧ s.alive ∧ idle s t ∧ canLock s t then some { s with client := .saved t, place := .inSignal, log := s.log ++ [.connected] } else none
  | .check =>
    match s.client with
    | .saved t => if s.op = none then some { s with op := some (t, .check), held := s.place = .inSignal || s.place = .firing } else none
    | _ => none
  | .cancel t => if s.client = .valid ∧ s.op = none ∧ idle s t then some { s with op := some (t, .cancel), held := s.place = .inSignal || s.place = .firing } else none
  | .destroy t =>
    if s.client = .valid ∧ s.op = none ∧ s.waiting = none ∧ idle s t then some { s with op := some (t, .destroy), held := s.place = .inSignal || s.place = .firing } else none
  | .endOp =>
    match s.op with
    | some (t, o) => if (s.held && s.alive) = false ∨ canLock s t then some (ending s o) else none
    | none => none
  | .emit t a => if s.alive ∧ s.em = none ∧ idle s t then some { s with em := some ⟨t, a, .walk⟩, log := s.log ++ [.emitted a] } else none
  | .reach =>
    match s.em with
    | some ⟨t, a, .walk⟩ =>
      if s.place = .inSignal ∧ busy s t = false then some { s with em := some ⟨t, a, .disconnected⟩, place := .firing, log := s.log ++ [.fired a] } else none
    | _ => none
  | .setValue =>
    match s.em with
    | some ⟨t, a, .disconnected⟩ => some { s with em := some ⟨t, a, .set⟩, cell := .value a }
    | _ => none
  | .finish =>
    match s.em with
    | some ⟨t, a, .set⟩ => some { s with em := some ⟨t, a, .walk⟩, place := .gone, ub := s.ub || !s.held }
    | _ => none
  | .endEmission =>
    match s.em with
    | some ⟨t, _, .walk⟩ => if s.place ≠ .inSignal ∧ busy s t = false then some { s with em := none, log := s.log ++ [.ended] } else none
    | _ => none
  | .clear t => if s.alive ∧ s.em = none ∧ idle s t then some (dropSlot s) else none
  | .destroySignal t => if s.alive ∧ s.em = none ∧ idle s t then some { dropSlot s with alive := false } else none
  | .wait t lim =>
    if s.client = .valid ∧ s.waiting = none ∧ s.op.all (fun o => o.2 != .destroy) ∧ idle s t then
      if s.fut then some { s with waiting := some (t, lim) } else some { s with log := s.log ++ [.refused] }
    else none
  | .wake =>
    if s.waiting = none then none
    else
      match s.cell with
      | .value a => some { s with waiting := none, fut := false, log := s.log ++ [.returned a] }
      | .broken => some { s with waiting := none, fut := false, log := s.log ++ [.failed] }
      | .pending => none
  | .timeout =>
    match s.waiting, s.cell with
    | some (_, true), .pending => some { s with waiting := none, log := s.log ++ [.timedOut] }
    | _, _ => none

def run {A : Type} (s : State A) : List (Act A) → Option (State A)
  | [] => some s
  | a :: as => (step s a).bind fun s' => run s' as

end Maf.Fut
