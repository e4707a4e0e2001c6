/-
Sending a message to all processors and waiting for it to be handled.

Models src/common/maf/messaging/Router.cpp `sendToAll` (42-61), `askThenSend` (100-106), and from Processor.cpp `waitablePost` (273-293), `connected` (295-297), `processMessage` (99-112), as far
as it runs a task; `get` of the signal (include/maf/threading/Upcoming.h 26). Routing.cpp only forwards. The other functions of the router (Model/Router.lean) lock its mutex, which is not recursive;
here they may change the set of joined processors and do nothing else. The set is ordered by the processors' identifiers (Router.h 22-32: `std::set`), which are numbers here.

Any number of threads; user code runs in a thread when its stack is empty or the handler of a task is on top. `home t` is the processor whose loop thread `t` runs (`this_processor::id()`, 284).
A processor is seen through its interface: is it stopped, has its handler map an entry for the message type, and a handler in it. The tasks in the queue are taken out in any order (the order is
the subject of Model/Processor.lean); a task in the queue of a stopped processor may be destroyed (`clear`, or `push` on a closed queue), which breaks its promise.
`std::packaged_task` by its specification: exceptions of the handler are kept for `get`. `std::async(launch::deferred)`: the function runs in the thread that calls `get`.
Not modelled: allocation failures, `get` called twice on the same signal (undefined), `wait` without `get`, moving the signal.
-/
namespace Maf.Bcast

abbrev Tid := Nat
abbrev Pid := Nat
abbrev Msg := Nat

inductive H where
  | absent
  | hollow
  | live
deriving DecidableEq

/-- The state of a task. -/
inductive St where
  | queued
  | running (t : Tid)
  | done
  | threw
  | broken
deriving DecidableEq

structure Task where
  bc : Nat
  proc : Pid
  msg : Msg
  st : St
deriving DecidableEq

/-- What a thread wants the router for. -/
inductive Want where
  | send (m : Msg)
  | join (p : Pid)
  | leave (p : Pid)
  | look
deriving DecidableEq

inductive Frame where
  /-- about to lock the router's mutex -/
  | wants (w : Want)
  /-- the loop of broadcast `b` (45-49): the processors left, the signals collected -/
  | sending (b : Nat) (m : Msg) (rest : List Pid) (ks : List Nat)
  /-- `q` is connected (102), about to call its `waitablePost` (103) -/
  | posting (b : Nat) (m : Msg) (q : Pid) (rest : List Pid) (ks : List Nat)
  /-- the task's function runs: taken from the queue, or called by `waitablePost` (287) -/
  | run (k : Nat)
  /-- in `get` of the signal of broadcast `b`: the signals left (54-56) -/
  | get (b : Nat) (ks : List Nat)
deriving DecidableEq

inductive Ev where
  /-- the loop of broadcast `b` begins: these have joined -/
  | opened (t : Tid) (b : Nat) (m : Msg) (js : List Pid)
  /-- not connected -/
  | skipped (b : Nat) (q : Pid)
  /-- `waitablePost` returns an invalid signal -/
  | refused (b : Nat) (q : Pid)
  /-- `waitablePost` makes task `k` -/
  | made (b : Nat) (q : Pid) (k : Nat)
  /-- `sendToAll` returns; is the signal valid? -/
  | sent (t : Tid) (b : Nat) (valid : Bool)
  /-- the handler of `q` is called with the message -/
  | began (t : Tid) (k : Nat) (q : Pid) (m : Msg)
  /-- it returns, or (false) throws -/
  | ended (t : Tid) (k : Nat) (ok : Bool)
  | dropped (k : Nat)
  /-- `get` returns, or (false) throws -/
  | got (t : Tid) (b : Nat) (ok : Bool)
  | joined (p : Pid)
  | left (p : Pid)
deriving DecidableEq

structure State where
  stopped : Pid → Bool
  has : Pid → Msg → H
  joined : List Pid
  /-- who has the router's mutex -/
  owner : Option Tid
  tasks : Nat → Option Task
  nextT : Nat
  nextB : Nat
  /-- the signals of the broadcasts that have returned and whose `get` has not been called -/
  sigs : Nat → Option (List Nat)
  stk : Tid → List Frame
  log : List Ev

def init : State :=
  { stopped := fun _ => false, has := fun _ _ => .absent, joined := [], owner := none, tasks := fun _ => none, nextT := 0, nextB := 0, sigs := fun _ => none, stk := fun _ => [], log := [] }

def upd {β : Type} (f : Nat → β) (i : Nat) (v : β) : Nat → β := fun j => if j = i then v else f j

/-- User code runs on top of this stack. -/
def user : List Frame → Bool
  | [] => true
  | .run _ :: _ => true
  | _ => false

inductive Act where
  /-- `sendToAll(m)`, or another function of the router, is called -/
  | use (t : Tid) (w : Want)
  | lock (t : Tid)
  /-- one turn of the loop, or its end -/
  | ask (t : Tid)
  | post (t : Tid)
  /-- the loop of the processor takes task `k` out of its queue -/
  | take (t : Tid) (k : Nat)
  /-- the handler returns or throws -/
  | finish (t : Tid) (ok : Bool)
  | drop (k : Nat)
  /-- `get` is called -/
  | get (t : Tid) (b : Nat)
  /-- one signal's turn in `get` -/
  | next (t : Tid)
  | setStopped (p : Pid) (b : Bool)
  | setHandlers (p : Pid) (m : Msg) (h : H)
deriving DecidableEq

/-- `std::set::insert` of a new element. -/
def insertP (p : Pid) : List Pid → List Pid
  | [] => [p]
  | q :: qs => if p < q then p :: q :: qs else q :: insertP p qs

/-- The router's mutex has been locked. -/
def locked (s : State) (t : Tid) (rest : List Frame) : Want → State
  -- 44-46
  | .send m => { s with owner := some t, nextB := s.nextB + 1, stk := upd s.stk t (.sending s.nextB m s.joined [] :: rest), log := s.log ++ [.opened t s.nextB m s.joined] }
  | .join p => if p ∈ s.joined then { s with stk := upd s.stk t rest } else { s with joined := insertP p s.joined, stk := upd s.stk t rest, log := s.log ++ [.joined p] }
  | .leave p => if p ∈ s.joined then { s with joined := s.joined.filter (· != p), stk := upd s.stk t rest, log := s.log ++ [.left p] } else { s with stk := upd s.stk t rest }
  | .look => { s with stk := upd s.stk t rest }

/-- A processor accepts a message (275, 277). -/
def accepts (s : State) (q : Pid) (m : Msg) : Bool := !s.stopped q && s.has q m == .live

def setSt (s : State) (k : Nat) (x : St) : Nat → Option Task := upd s.tasks k ((s.tasks k).map fun a => { a with st := x })

def step (home : Tid → Option Pid) (s : State) : Act → Option State
  | .use t w => if user (s.stk t) then some { s with stk := upd s.stk t (.wants w :: s.stk t) } else none
  | .lock t =>
    match s.stk t with
    | .wants w :: rest => if s.owner = none then some (locked s t rest w) else none
    | _ => none
  -- 45-46, 102; 51-60
  | .ask t =>
    match s.stk t with
    | .sending b m (q :: qs) ks :: rest =>
      if s.has q m = .absent then some { s with stk := upd s.stk t (.sending b m qs ks :: rest), log := s.log ++ [.skipped b q] }
      else some { s with stk := upd s.stk t (.posting b m q qs ks :: rest) }
    | .sending b _ [] ks :: rest =>
      some { s with
        owner := none, stk := upd s.stk t rest, log := s.log ++ [.sent t b (!ks.isEmpty)]
        sigs := upd s.sigs b (if ks.isEmpty then none else some ks) }
    | _ => none
  -- 103, Processor.cpp 275-292
  | .post t =>
    match s.stk t with
    | .posting b m q qs ks :: rest =>
      if accepts s q m then
        if home t = some q then
          some { s with
            tasks := upd s.tasks s.nextT (some ⟨b, q, m, .running t⟩), nextT := s.nextT + 1
            stk := upd s.stk t (.run s.nextT :: .sending b m qs (ks ++ [s.nextT]) :: rest), log := s.log ++ [.made b q s.nextT, .began t s.nextT q m] }
        else
          some { s with
            tasks := upd s.tasks s.nextT (some ⟨b, q, m, .queued⟩), nextT := s.nextT + 1
            stk := upd s.stk t (.sending b m qs (ks ++ [s.nextT]) :: rest), log := s.log ++ [.made b q s.nextT] }
      else some { s with stk := upd s.stk t (.sending b m qs ks :: rest), log := s.log ++ [.refused b q] }
    | _ => none
  -- Processor.cpp 207-209
  | .take t k =>
    if user (s.stk t) then
      match s.tasks k with
      | some ⟨_, q, m, .queued⟩ =>
        if home t = some q then some { s with tasks := setSt s k (.running t), stk := upd s.stk t (.run k :: s.stk t), log := s.log ++ [.began t k q m] } else none
      | _ => none
    else none
  | .finish t ok =>
    match s.stk t with
    | .run k :: rest => some { s with tasks := setSt s k (if ok then .done else .threw), stk := upd s.stk t rest, log := s.log ++ [.ended t k ok] }
    | _ => none
  | .drop k =>
    match s.tasks k with
    | some ⟨_, q, _, .queued⟩ => if s.stopped q then some { s with tasks := setSt s k .broken, log := s.log ++ [.dropped k] } else none
    | _ => none
  -- 52-54
  | .get t b =>
    if user (s.stk t) then
      match s.sigs b with
      | some ks => some { s with sigs := upd s.sigs b none, stk := upd s.stk t (.get b ks :: s.stk t) }
      | none => none
    else none
  -- 54-56
  | .next t =>
    match s.stk t with
    | .get b (k :: ks) :: rest =>
      match (s.tasks k).map Task.st with
      | some .done => some { s with stk := upd s.stk t (.get b ks :: rest) }
      | some .threw | some .broken => some { s with stk := upd s.stk t rest, log := s.log ++ [.got t b false] }
      | _ => none
    | .get b [] :: rest => some { s with stk := upd s.stk t rest, log := s.log ++ [.got t b true] }
    | _ => none
  | .setStopped p b => some { s with stopped := upd s.stopped p b }
  | .setHandlers p m h => some { s with has := upd s.has p (upd (s.has p) m h) }

def run (home : Tid → Option Pid) (s : State) : List Act → Option State
  | [] => some s
  | a :: as => (step home s a).bind fun s' => run home s' as

end Maf.Bcast
