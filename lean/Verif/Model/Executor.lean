/-
Model of a processor's executors, of the direct executor, and of the functions
made by `will...OnThis`.

Models /repo/src/common/maf/messaging/Processor.cpp, lines 38-81 (`AsyncExecutor`,
`DefaultExecutor`, `WaitableExecutor`), 136 and 208-210 (tasks are invoked
unguarded), 255-264 (`stop`, `reuse`), 299-329 (`executeAsync`, `execute`,
`waitableExecute`), 331-341 (executors of a processor), 343-365
(`willExecuteOnThis`, `willAsyncExecuteOnThis`, `willBlockingExecuteOnThis`);
/repo/src/common/maf/utils/DirectExecutor.cpp, lines 7-20;
/repo/include/maf/utils/ExecutorIF.h, lines 9-14 (`execute` is `noexcept`).

Simplifications.
* Putting a task into a processor's queue is one step (the window between the
  test and the push is in Model/Processor and Model/Waitable, C19 and C88), and
  a running task is one step; a callback either returns or throws a
  `std::exception` (`Conf.throws`), and does nothing else.
* A call is made on a thread whose current processor is `on` (if any).
* `waitableExecute` compares ids where `execute` compares objects; here both
  compare the processor.
* Allocation does not fail.
-/

namespace Maf.Exe

/-- How the function is handed over. -/
inductive Kind where
  | async | dflt | wait
deriving DecidableEq, Repr

/-- Which functions throw. -/
structure Conf where
  throws : Nat → Bool

/-- What came of a call: `execute` returned true or false; a `will...` function
returned, or threw. -/
inductive Ret where
  | yes | no | done | threw
deriving DecidableEq, Repr

inductive Ev where
  /-- call `n` hands over function `f` to processor `p` -/
  | asked (n : Nat) (k : Kind) (p f : Nat)
  /-- call `n` hands over an empty function: a `will...` function called again -/
  | askedEmpty (n : Nat) (k : Kind) (p : Nat)
  /-- call `n` gives function `f` to the direct executor -/
  | direct (n f : Nat)
  /-- function `f` of call `n` is run by a thread whose processor is `on` -/
  | ran (n f : Nat) (on : Option Nat)
  | returned (n : Nat) (r : Ret)
  /-- call `n` calls `will...` function `w` -/
  | called (n w : Nat)
  /-- an exception left the loop that runs processor `p` -/
  | left (p : Nat)
  | stopped (p : Nat)
  | reused (p : Nat)
  /-- the last owner let the processor go -/
  | gone (p : Nat)
  /-- an exception met `noexcept` -/
  | terminated
deriving DecidableEq, Repr

/-- An `Execution` in the queue: `fn = none` is an empty `std::function`;
`guarded`: wrapped into a `packaged_task`, which catches. -/
structure Task where
  call : Nat
  fn : Option Nat
  guarded : Bool
deriving DecidableEq, Repr

/-- A function made by `will...OnThis`: the captured `exec` is moved out by the
first call that finds the processor. -/
structure Will where
  kind : Kind
  proc : Nat
  exec : Option Nat
deriving DecidableEq, Repr

structure St where
  alive : Nat → Bool
  closed : Nat → Bool
  queue : Nat → List Task
  wills : List Will
  /-- calls that wait for their task, with the processor and what they return -/
  waits : List (Nat × Nat × Ret)
  next : Nat
  dead : Bool
  log : List Ev

def init : St :=
  { alive := fun _ => true, closed := fun _ => false, queue := fun _ => [], wills := [], waits := [],
    next := 0, dead := false, log := [] }

def upd {α : Type} (f : Nat → α) (i : Nat) (a : α) : Nat → α := fun j => if j = i then a else f j

def St.note (s : St) (es : List Ev) : St := { s with log := s.log ++ es }

def St.push (s : St) (p : Nat) (t : Task) : St := { s with queue := upd s.queue p (s.queue p ++ [t]) }

/-- Does calling it throw? An empty `std::function` throws `bad_function_call`. -/
def bad (c : Conf) : Option Nat → Bool
  | none => true
  | some f => c.throws f

def ranEv (n : Nat) (on : Option Nat) : Option Nat → List Ev
  | none => []
  | some f => [.ran n f on]

def askEv (n : Nat) (k : Kind) (p : Nat) : Option Nat → Ev
  | none => .askedEmpty n k p
  | some f => .asked n k p f

/-- What handing over came to. -/
inductive Out where
  /-- dropped: the processor is stopped -/
  | dropped
  | queued
  /-- run at once, and returned -/
  | ranNow
  /-- run at once, and threw -/
  | threwNow
deriving DecidableEq, Repr

/-- `executeAsync`, `execute`, `waitableExecute` (Processor.cpp:299-329): what
happens ... -/
def outcome (c : Conf) (s : St) (k : Kind) (p : Nat) (on : Option Nat) (fn : Option Nat) : Out :=
  if s.closed p then .dropped
  else if k = .async then .queued
  else if on = some p then
    if k = .dflt ∧ bad c fn = true then .threwNow else .ranNow
  else .queued

/-- ... and its effect. -/
def handOver (c : Conf) (s : St) (k : Kind) (p : Nat) (on : Option Nat) (fn : Option Nat) : St :=
  match outcome c s k p on fn with
  | .dropped => s
  | .queued => s.push p ⟨s.next, fn, k == .wait⟩
  | .ranNow => s.note (ranEv s.next on fn)
  | .threwNow => s.note (ranEv s.next on fn)

/-- The call is over. -/
def St.ret (s : St) (n : Nat) (r : Ret) : St := s.note [.returned n r]

def St.await (s : St) (n p : Nat) (r : Ret) : St := { s with waits := s.waits ++ [(n, p, r)] }

def St.kill (s : St) : St := { s.note [.terminated] with dead := true }

/-- What `execute` of an executor of kind `k` does after handing over
(Processor.cpp:42-48, 56-62, 69-80). -/
def finishExec (s : St) (k : Kind) (p n : Nat) : Out → St
  | .dropped => s.ret n (if k = .wait then .no else .yes)
  | .queued => if k = .wait then s.await n p .yes else s.ret n .yes
  | .ranNow => s.ret n .yes
  | .threwNow => s.kill

/-- What a `will...` function does after handing over (Processor.cpp:344-365). -/
def finishWill (s : St) (k : Kind) (p n : Nat) : Out → St
  | .dropped => s.ret n (if k = .wait then .threw else .done)
  | .queued => if k = .wait then s.await n p .done else s.ret n .done
  | .ranNow => s.ret n .done
  | .threwNow => s.ret n .threw

def St.tick (s : St) : St := { s with next := s.next + 1 }

/-- `executor->execute(f)` for an executor of processor `p`. -/
def execute (c : Conf) (s : St) (k : Kind) (p : Nat) (on : Option Nat) (f : Nat) : St :=
  if s.alive p then
    (finishExec (handOver c (s.note [.asked s.next k p f]) k p on (some f)) k p s.next
      (outcome c s k p on (some f))).tick
  else ((s.note [.asked s.next k p f]).ret s.next .no).tick

/-- `directExecutor()->execute(f)` (DirectExecutor.cpp:9-20). -/
def executeDirect (c : Conf) (s : St) (on : Option Nat) (f : Nat) : St :=
  (s.note [.direct s.next f, .ran s.next f on, .returned s.next (if c.throws f then .no else .yes)]).tick

def empty (w : Will) : Will := { w with exec := none }

/-- A `will...` function is called. -/
def callWill (c : Conf) (s : St) (i : Nat) (w : Will) (on : Option Nat) : St :=
  if s.alive w.proc then
    (finishWill (handOver c { s.note [.called s.next i, askEv s.next w.kind w.proc w.exec] with
        wills := s.wills.set i (empty w) } w.kind w.proc on w.exec) w.kind w.proc s.next
      (outcome c s w.kind w.proc on w.exec)).tick
  else ((s.note [.called s.next i]).ret s.next .done).tick

/-- A thread that runs processor `p` invokes the next task (Processor.cpp:136,
208-210). -/
def runTask (c : Conf) (s : St) (p : Nat) (t : Task) (rest : List Task) : St :=
  { s.note (ranEv t.call (some p) t.fn ++ (if bad c t.fn && !t.guarded then [.left p] else [])) with
    queue := upd s.queue p rest }

/-- `stop` (Processor.cpp:255-260): closed, queue cleared. -/
def doStop (s : St) (p : Nat) : St :=
  if s.closed p then s
  else { s.note [.stopped p] with closed := upd s.closed p true, queue := upd s.queue p [] }

inductive Act where
  | exec (k : Kind) (p : Nat) (on : Option Nat) (f : Nat)
  | direct (on : Option Nat) (f : Nat)
  /-- `p.will...OnThis(f)` -/
  | will (k : Kind) (p f : Nat)
  /-- the function object is copied -/
  | copy (i : Nat)
  | call (i : Nat) (on : Option Nat)
  | run (p : Nat)
  /-- call `n` need wait no longer: its task was run or destroyed -/
  | resume (n : Nat)
  | stop (p : Nat)
  | reuse (p : Nat)
  /-- the last owner of the processor lets it go (a waiting call is an owner) -/
  | gone (p : Nat)

def doResume (s : St) (w : Nat × Nat × Ret) : Option St :=
  if (s.queue w.2.1).any (fun t => t.call == w.1) then none
  else some ({ s with waits := s.waits.filter fun x => x.1 != w.1 }.ret w.1 w.2.2)

def live (c : Conf) (s : St) : Act → Option St
  | .exec k p on f => some (execute c s k p on f)
  | .direct on f => some (executeDirect c s on f)
  | .will k p f => some { s with wills := s.wills ++ [⟨k, p, some f⟩] }
  | .copy i => (s.wills[i]?).map fun w => { s with wills := s.wills ++ [w] }
  | .call i on => (s.wills[i]?).map fun w => callWill c s i w on
  | .run p =>
    if s.closed p then none
    else match s.queue p with
      | [] => none
      | t :: rest => some (runTask c s p t rest)
  | .resume n => (s.waits.find? fun w => w.1 == n).bind fun w => doResume s w
  | .stop p => some (doStop s p)
  | .reuse p => some { s.note [.reused p] with closed := upd s.closed p false }
  | .gone p =>
    if s.waits.any fun w => w.2.1 == p then none
    else some { s.note [.gone p] with alive := upd s.alive p false, queue := upd s.queue p [] }

def step (c : Conf) (s : St) (a : Act) : Option St := if s.dead then none else live c s a

def runs (c : Conf) (s : St) : List Act → Option St
  | [] => some s
  | a :: as => (step c s a).bind fun s' => runs c s' as

end Maf.Exe
