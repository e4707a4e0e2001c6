/-
Typed callbacks: from a message that comes in to the user's function on the user's executor.

Models include/maf/messaging/client-server/BasicProxy.h 196-240 (`createResponseMsgHandlerCallback`, `createUpdateMsgHandlerCallback`),
330-392 (`registerStatus`, `registerSignal`), BasicStub.h 205-231 (`registerRequestHandler`), and of
src/common/maf/messaging/client-server the places where the stored functions are called: ServiceRequester.cpp 287-315
(`registerNotification`), 415-440 (`onRegistersUpdated`), 442-482 (`onRequestResult`), ServiceProvider.cpp 328-340, 344-355, 385-393
(`onActionRequest`, `registerRequestHandler`, `getRequestHandlerCallback`). The lambdas made by proxy and stub move the user's
function out when they are called, so each of them can be called only once: function objects are values here that are used up by a
call. Simplified: one call at a time; payloads are numbers; the executor executes its tasks in order (Model/Processor).
-/
namespace Maf.Clo

/-- A lambda of proxy or stub: the user's function it holds, `none` after it was moved out -/
structure Fn where
  inner : Option Nat
deriving DecidableEq

/-- the lambda's `operator()`: the task holds the user's function; what remains of the lambda -/
def invoke (f : Fn) : Fn × Option Nat := (⟨none⟩, f.inner)

inductive Kind where
  /-- registered for a status or a signal -/
  | note (op : Nat)
  /-- the callback of a request that was sent -/
  | req
  /-- handler of requests that come in -/
  | handler (op : Nat)
deriving DecidableEq

structure Entry where
  id : Nat
  kind : Kind
  fn : Fn
deriving DecidableEq

/-- a task of the executor: the entry it comes from, the user's function, what it is called with -/
structure Task where
  id : Nat
  cb : Option Nat
  p : Nat
deriving DecidableEq

inductive Ev where
  /-- entry `id` with the user's function `cb` is there from now on -/
  | added (id : Nat) (k : Kind) (cb : Nat)
  /-- entry `id` is gone: unregistered, or the final answer of the request came in -/
  | removed (id : Nat)
  /-- a status or signal, an update or answer, a request comes in for these entries -/
  | arrived (k : Kind) (id : Option Nat) (p : Nat)
  /-- the executor takes a task -/
  | submitted (id p : Nat)
  /-- the executor does not take it; nobody is told -/
  | lost (id p : Nat)
  /-- the user's function is called -/
  | called (id : Nat) (cb : Nat) (p : Nat)
  /-- an empty function is called: `std::bad_function_call` -/
  | crash (id : Nat)
  /-- the executor stops taking tasks -/
  | closed
deriving DecidableEq

structure State where
  entries : List Entry
  next : Nat
  tasks : List Task
  /-- the executor takes tasks -/
  open_ : Bool
  log : List Ev

def init : State := ⟨[], 0, [], true, []⟩

/-- A task is given to the executor. -/
def submit (s : State) (t : Task) : State :=
  if s.open_ then { s with tasks := s.tasks ++ [t], log := s.log ++ [.submitted t.id t.p] }
  else { s with log := s.log ++ [.lost t.id t.p] }

/-- The function objects `es` are called one after the other with payload `p`. -/
def fire (s : State) (p : Nat) : List Entry → State
  | [] => s
  | e :: es => fire (submit s ⟨e.id, (invoke e.fn).2, p⟩) p es

/-- The entries a message is for. `id`: the request id of an update or answer. -/
def matching (k : Kind) (id : Option Nat) (e : Entry) : Bool := e.kind == k && id.all (· == e.id)

/-- ServiceRequester.cpp 415-440, 442-482, ServiceProvider.cpp 328-330, 385-393: the functions are copied, the copies are called. -/
def arrive (s : State) (k : Kind) (id : Option Nat) (p : Nat) : State :=
  fire { s with log := s.log ++ [.arrived k id p] } p (s.entries.filter (matching k id))

def remove (s : State) (id : Nat) : State :=
  if s.entries.any (·.id == id) then { s with entries := s.entries.filter (·.id != id), log := s.log ++ [.removed id] } else s

/-- an entry is stored -/
def store (s : State) (k : Kind) (cb : Nat) : State :=
  { s with entries := s.entries ++ [⟨s.next, k, ⟨some cb⟩⟩], next := s.next + 1, log := s.log ++ [.added s.next k cb] }

inductive Act where
  /-- `registerStatus`, `registerSignal` with function `cb`; `cached`: the value known from an earlier registration, for which the
  given function object is called at once (a copy of it was stored) -/
  | register (op cb : Nat) (cached : Option Nat)
  | unregister (id : Nat)
  | notify (op p : Nat)
  /-- `sendRequestAsync` -/
  | request (cb : Nat)
  | result (id p : Nat) (final : Bool)
  /-- `registerRequestHandler`: `try_emplace` -/
  | handle (op cb : Nat)
  /-- a request comes in -/
  | incoming (op p : Nat)
  /-- the executor executes a task -/
  | exec
  | close

/-- BasicProxy.h 330-365 with ServiceRequester.cpp 287-315 -/
def register (s : State) (op cb : Nat) : Option Nat → State
  | none => store s (.note op) cb
  | some p => arrive (store s (.note op) cb) (.note op) (some s.next) p

/-- ServiceRequester.cpp 442-482 -/
def result (s : State) (id p : Nat) (final : Bool) : State :=
  if final && s.entries.any (matching .req (some id)) then remove (arrive s .req (some id) p) id else arrive s .req (some id) p

/-- ServiceProvider.cpp 344-355 -/
def handle (s : State) (op cb : Nat) : State :=
  if s.entries.any (·.kind == .handler op) then s else store s (.handler op) cb

/-- The executor's next task. -/
def exec (s : State) : Option State :=
  match s.tasks with
  | [] => none
  | t :: ts =>
    match t.cb with
    | some cb => some { s with tasks := ts, log := s.log ++ [.called t.id cb t.p] }
    | none => some { s with tasks := ts, log := s.log ++ [.crash t.id] }

def step (s : State) : Act → Option State
  | .register op cb cached => some (register s op cb cached)
  | .unregister id => some (remove s id)
  | .notify op p => some (arrive s (.note op) none p)
  | .request cb => some (store s .req cb)
  | .result id p final => some (result s id p final)
  | .handle op cb => some (handle s op cb)
  | .incoming op p => some (arrive s (.handler op) none p)
  | .exec => exec s
  | .close => some { s with open_ := false, log := s.log ++ [.closed] }

def run (s : State) : List Act → Option State
  | [] => some s
  | a :: as => (step s a).bind fun s' => run s' as

end Maf.Clo
