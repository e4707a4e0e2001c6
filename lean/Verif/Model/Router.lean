/-
Routing between processors.

Models src/common/maf/messaging/Router.cpp (all functions but `send` and `sendToAll` (the latter: Model/SendToAll.lean)), Router.h
(`ProcessorCompare`), Routing.cpp, and from Processor.cpp: `create` (163-184),
`generateAnonymousID`, `isAnonymous`, `leaveRoutingIfNotAnonymous` (143-158), `stop` (249-254),
`reuse` (256).

Any number of threads. The router's mutex is not recursive; a loop over the joined processors
keeps it for the whole loop, and each `connected` and each `post` in the loop is a step of its
own, so handlers come and go and processors are stopped in between.

A processor is seen through its interface here (its own model is Model/Processor.lean): is it
stopped, and for each message type, has its handler map an entry (`connected`), and a handler
in it. `post` on a processor is one step whose result is what Processor.cpp 260-271 returns
in that state; `post` of a processor that is stopped in the middle of the call is the subject of
Model/Processor.lean.

Simplifications. The set of joined processors is a list in joining order (the real one is
ordered by id; the order of the deliveries is not claimed). Ids are `anon n` or `name n`
instead of strings; `create` with a non-empty id that looks anonymous is excluded, as the
assertion in line 166 demands. The counter of anonymous ids is an `int`: 32 bits.
-/
namespace Maf.Route

abbrev Tid := Nat
/-- A processor object. -/
abbrev Pid := Nat
abbrev Ty := Nat

inductive Id where
  | anon (n : Nat)
  | name (n : Nat)
deriving DecidableEq

/-- A message: the user's, or a `ProcessorStatusUpdateMsg` (Routing.h 11-17). -/
inductive Msg where
  | user (ty : Nat) (val : Nat)
  | status (p : Pid) (reachable : Bool)
deriving DecidableEq

def Msg.ty : Msg → Ty
  | .user ty _ => ty + 1
  | .status _ _ => 0

/-- What a processor has for a message type: no entry in the handler map, an entry without a
handler, a handler. -/
inductive H where
  | absent
  | hollow
  | live
deriving DecidableEq

/-- What follows a loop over the joined processors. -/
inductive Kont where
  | done
  /-- `removeProcessor`, called by `stop` of `p` -/
  | leaving (p : Pid)
  /-- `addProcessor`, called by `create` -/
  | joining (p : Pid)
deriving DecidableEq

/-- Where a thread is. -/
inductive Pc where
  | idle
  /-- `create`: `findProcessor` comes next (175) -/
  | creating (p : Pid)
  /-- `create`: nobody found, `addProcessor` comes next (178) -/
  | toAdd (p : Pid)
  /-- `informNewProcessorAboutJoinedOnes`, the loop (Router.cpp 122-125) -/
  | informing (p : Pid) (rest : List Pid)
  /-- a loop, about to ask a processor whether it is `connected` (94, 116, 37) -/
  | sweep (m : Msg) (rest : List Pid) (acc : Bool) (k : Kont)
  /-- it is, about to post to it (95) -/
  | sweepPost (m : Msg) (q : Pid) (rest : List Pid) (acc : Bool) (k : Kont)
  /-- `stop`: not stopped, about to close and clear (251) -/
  | stop1 (p : Pid)
  /-- `stop`: about to leave the routing (252) -/
  | stop2 (p : Pid)
  /-- `removeProcessor`: erased (85), about to tell the others (86) -/
  | left (p : Pid)
  /-- `routing::post`: about to look for the processor (19) -/
  | routing (id : Id) (m : Msg)
  /-- `routing::post`: about to post (20) -/
  | routed (id : Id) (m : Msg) (p : Pid)
deriving DecidableEq

inductive Ev where
  /-- `create` has made the object -/
  | made (t : Tid) (p : Pid) (id : Id)
  /-- `findProcessor`, and the search of the set by `removeProcessor` when it finds nothing -/
  | lookup (t : Tid) (id : Id) (o : Option Pid)
  /-- `create` returns -/
  | created (t : Tid) (p : Pid) (ok : Bool)
  | joined (t : Tid) (p : Pid)
  /-- `addProcessor` found the id in the set -/
  | refused (t : Tid) (p : Pid)
  /-- `stop` of `p` has erased `q` from the set -/
  | erased (t : Tid) (p : Pid) (q : Pid)
  /-- `stop` returns; `did`: it was not stopped already -/
  | stopped (t : Tid) (p : Pid) (did : Bool)
  | closed (t : Tid) (p : Pid)
  | reopened (p : Pid)
  | handlers (p : Pid) (ty : Ty) (h : H)
  /-- the new processor `p` is told about `q` -/
  | informed (t : Tid) (p q : Pid)
  | sweepBegin (t : Tid) (m : Msg)
  /-- one processor's turn: none: not connected; some b: posted to it, with this result -/
  | visit (t : Tid) (q : Pid) (m : Msg) (o : Option Bool)
  | sweepEnd (t : Tid) (m : Msg) (b : Bool)
  /-- posted to a processor by `routing::post` -/
  | handed (t : Tid) (p : Pid) (m : Msg) (b : Bool)
  /-- `routing::post` returns -/
  | result (t : Tid) (id : Id) (m : Msg) (b : Bool)
deriving DecidableEq

structure State where
  idOf : Pid → Id
  closed : Pid → Bool
  has : Pid → Ty → H
  /-- the user has it: `create` has returned it, or `findProcessor` can return it -/
  known : Pid → Bool
  nextP : Pid
  /-- `counter` in `generateAnonymousID`, as 32 bits -/
  counter : Nat
  joined : List Pid
  owner : Option Tid
  pc : Tid → Pc
  log : List Ev

def init : State :=
  { idOf := fun _ => .anon 0, closed := fun _ => false, has := fun _ _ => .absent, known := fun _ => false
    nextP := 0, counter := 0, joined := [], owner := none, pc := fun _ => .idle, log := [] }

def upd {β : Type} (f : Nat → β) (i : Nat) (v : β) : Nat → β := fun j => if j = i then v else f j

/-- `ProcessorCompare`: equivalent means same id. -/
def find (s : State) (id : Id) : Option Pid := s.joined.find? fun p => s.idOf p == id

/-- The result of `post` on a processor (Processor.cpp 260-271). -/
def accepts (s : State) (p : Pid) (m : Msg) : Bool := !s.closed p && s.has p m.ty == .live

inductive Act where
  /-- `create(id)` with a name -/
  | create (t : Tid) (n : Nat)
  /-- `create("")` -/
  | createAnon (t : Tid)
  | createFind (t : Tid)
  | add (t : Tid)
  | inform (t : Tid)
  | stop (t : Tid) (p : Pid)
  | close (t : Tid)
  | erase (t : Tid)
  | tell (t : Tid)
  | postToAll (t : Tid) (m : Msg)
  | sweep (t : Tid)
  | sweepPost (t : Tid)
  | post (t : Tid) (id : Id) (m : Msg)
  | postFind (t : Tid)
  | handOver (t : Tid)
  | reuse (t : Tid) (p : Pid)
  /-- handlers of `p` are connected or disconnected -/
  | setHandlers (t : Tid) (p : Pid) (ty : Ty) (h : H)
deriving DecidableEq

def go (s : State) (t : Tid) (pc : Pc) (es : List Ev) : State := { s with pc := upd s.pc t pc, log := s.log ++ es }

/-- The end of a loop: Router.cpp 39, 88, and 78-79 with Processor.cpp 183. -/
def endSweep (s : State) (t : Tid) (m : Msg) (acc : Bool) : Kont → State
  | .done => { go s t .idle [.sweepEnd t m acc] with owner := none }
  | .leaving p => { go s t .idle [.sweepEnd t m acc, .stopped t p true] with owner := none }
  | .joining p => { go s t .idle [.sweepEnd t m acc, .joined t p, .created t p true] with
      owner := none, joined := s.joined ++ [p], known := upd s.known p true }

def step (s : State) : Act → Option State
  -- Processor.cpp 163-173
  | .create t n =>
    if s.pc t = .idle then
      some { go s t (.creating s.nextP) [.made t s.nextP (.name n)] with
        nextP := s.nextP + 1, idOf := upd s.idOf s.nextP (.name n) }
    else none
  -- Processor.cpp 164, 170, 173, 183
  | .createAnon t =>
    if s.pc t = .idle then
      let c := (s.counter + 1) % 2 ^ 32
      some { go s t .idle [.made t s.nextP (.anon c), .created t s.nextP true] with
        nextP := s.nextP + 1, counter := c, idOf := upd s.idOf s.nextP (.anon c), known := upd s.known s.nextP true }
    else none
  -- Processor.cpp 175-176
  | .createFind t =>
    match s.pc t with
    | .creating p =>
      if s.owner ≠ none then none
      else match find s (s.idOf p) with
        | some q => some (go s t .idle [.lookup t (s.idOf p) (some q), .created t p false])
        | none => some (go s t (.toAdd p) [.lookup t (s.idOf p) none])
    | _ => none
  -- Router.cpp 72-77, 120-121
  | .add t =>
    match s.pc t with
    | .toAdd p =>
      if s.owner ≠ none then none
      else if (find s (s.idOf p)).isSome then
        some { go s t .idle [.refused t p, .created t p true] with known := upd s.known p true }
      else if s.has p 0 = .absent then
        some { go s t (.sweep (.status p true) s.joined false (.joining p)) [.sweepBegin t (.status p true)] with owner := some t }
      else some { go s t (.informing p s.joined) [] with owner := some t }
    | _ => none
  -- Router.cpp 122-125
  | .inform t =>
    match s.pc t with
    | .informing p [] => some (go s t (.sweep (.status p true) s.joined false (.joining p)) [.sweepBegin t (.status p true)])
    | .informing p (q :: rest) => some (go s t (.informing p rest) [.informed t p q])
    | _ => none
  -- Processor.cpp 249-250
  | .stop t p =>
    if s.pc t = .idle then
      if s.known p = false then none
      else if s.closed p then some (go s t .idle [.stopped t p false])
      else some (go s t (.stop1 p) [])
    else none
  -- Processor.cpp 251
  | .close t =>
    match s.pc t with
    | .stop1 p => some { go s t (.stop2 p) [.closed t p] with closed := upd s.closed p true }
    | _ => none
  -- Processor.cpp 252, 154-158; Router.cpp 85
  | .erase t =>
    match s.pc t with
    | .stop2 p =>
      match s.idOf p with
      | .anon _ => some (go s t .idle [.stopped t p true])
      | .name _ =>
        if s.owner ≠ none then none
        else match find s (s.idOf p) with
          | none => some (go s t .idle [.lookup t (s.idOf p) none, .stopped t p true])
          | some q => some { go s t (.left p) [.erased t p q] with joined := s.joined.filter (· != q) }
    | _ => none
  -- Router.cpp 86, 35
  | .tell t =>
    match s.pc t with
    | .left p =>
      if s.owner ≠ none then none
      else some { go s t (.sweep (.status p false) s.joined false (.leaving p)) [.sweepBegin t (.status p false)] with owner := some t }
    | _ => none
  -- Router.cpp 33-36
  | .postToAll t m =>
    if s.pc t = .idle then
      if s.owner ≠ none then none
      else some { go s t (.sweep m s.joined false .done) [.sweepBegin t m] with owner := some t }
    else none
  -- one turn of the loop: Router.cpp 36-37, 94, 116
  | .sweep t =>
    match s.pc t with
    | .sweep m [] acc k => some (endSweep s t m acc k)
    | .sweep m (q :: rest) acc k =>
      if s.has q m.ty = .absent then some (go s t (.sweep m rest acc k) [.visit t q m none])
      else some (go s t (.sweepPost m q rest acc k) [])
    | _ => none
  -- Router.cpp 95
  | .sweepPost t =>
    match s.pc t with
    | .sweepPost m q rest acc k =>
      some (go s t (.sweep m rest (acc || accepts s q m) k) [.visit t q m (some (accepts s q m))])
    | _ => none
  -- Router.cpp 18
  | .post t id m => if s.pc t = .idle then some (go s t (.routing id m) []) else none
  -- Router.cpp 19, 22
  | .postFind t =>
    match s.pc t with
    | .routing id m =>
      if s.owner ≠ none then none
      else match find s id with
        | none => some (go s t .idle [.lookup t id none, .result t id m false])
        | some p => some (go s t (.routed id m p) [.lookup t id (some p)])
    | _ => none
  -- Router.cpp 20
  | .handOver t =>
    match s.pc t with
    | .routed id m p => some (go s t .idle [.handed t p m (accepts s p m), .result t id m (accepts s p m)])
    | _ => none
  | .reuse t p =>
    if s.pc t = .idle then
      if s.known p = false then none
      else some { go s t .idle [.reopened p] with closed := upd s.closed p false }
    else none
  | .setHandlers t p ty h =>
    if s.pc t = .idle then
      if s.known p = false then none
      else some { go s t .idle [.handlers p ty h] with has := upd s.has p (upd (s.has p) ty h) }
    else none

/-- Any schedule. -/
def run (s : State) : List Act → Option State
  | [] => some s
  | a :: as => (step s a).bind fun s' => run s' as

end Maf.Route
