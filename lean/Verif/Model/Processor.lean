import Verif.Model.Signal
/-
One `Processor`, used by any number of threads.

Models src/common/maf/messaging/Processor.cpp: `ProcessorDataPrv` (83-134), `run`, `runUntil`,
`runOnceUntil` (194-249), `stop`, `reuse`, `stopped` (249-258), `post` (260-271), `connected`,
`executeAsync`, `execute` (295-314), `connect`, `disconnect` (367-382), the thread-local
`instance_` (388-402), and the operations of `MsgConnection` (515-546) that reach a signal.

Granularity. Every read or write of the queue's `closed_` flag, every critical section of the
queue, of the handler map's mutex (the "map lock") and of a signal's recursive mutex (the
"signal lock") is a step of its own. `msgConnected`, `connect` and `disconnect` keep the map
lock while they need a signal lock; a dispatch keeps the signal lock while handlers run.
User code (executions, handlers) is arbitrary: while it is on top of a thread's stack, that
thread may make any call.

The queue is used through its interface: taking the front element is one step that
fails when the queue is closed (this is what `Model/Queue.lean` does in its step `finish`).
Each message type's signal is a `Maf.Sig.State` and moves only by `Maf.Sig.step`.
Dispatches are numbered; the numbers exist only in the model.

Not modelled: allocation failure in `addExecution` (93-95), exceptions from user code,
`threadInit`/`threadDeinit`, the destructor, `waitableExecute`/`waitablePost` (their futures;
they queue or run inline exactly like `execute`), routing (Model/Router.lean).
-/
namespace Maf.Proc

abbrev Tid := Nat
/-- `MessageID` -/
abbrev Ty := Nat
/-- The `Handlers` objects made by `connect`. -/
abbrev SigId := Nat

structure Msg where
  ty : Ty
  val : Nat
deriving DecidableEq

/-- What can be queued: a user's function, or the closure made by `post` (line 265). -/
inductive Work where
  | exec (n : Nat)
  | msg (m : Msg)
deriving DecidableEq

/-- Which loop: `run`, `runUntil`/`runFor`, `runOnceUntil`/`runOnceFor`. -/
inductive Loop where
  | forever
  | timed
  | once
deriving DecidableEq

/-- Activations on a thread's stack. -/
inductive Frame where
  /-- in a run loop, about to wait on the queue; `set`: this call has set `instance_` -/
  | loop (k : Loop) (set : Bool)
  /-- `runOnceUntil` after its one execution -/
  | leaving (set : Bool)
  /-- an element has been taken out of the queue, `invoke` comes next -/
  | taken (w : Work)
  /-- a queued function runs -/
  | code (n : Nat)
  /-- a function runs inline (`execute`, line 307) -/
  | inline (n : Nat)
  /-- `processMessage`, about to lock the map (102) -/
  | lookup (m : Msg)
  /-- `processMessage`, has the handlers, about to lock the signal (110) -/
  | willNotify (d : Nat) (m : Msg) (g : SigId)
  /-- the emission's loop, the signal is locked -/
  | notifying (d : Nat) (m : Msg) (g : SigId)
  /-- a handler runs -/
  | handler (d : Nat) (m : Msg) (g : SigId)
  /-- `post`: not stopped (262), about to lock the map -/
  | post1 (m : Msg)
  /-- `msgConnected`: the map is locked, about to lock the signal (117) -/
  | post2 (m : Msg) (g : SigId)
  /-- `executeAsync` from `post`, about to test `stopped()` (300) -/
  | async (w : Work)
  /-- `Queue::push`, about to test `isClosed()` -/
  | push1 (w : Work)
  /-- `Queue::push`, found it open, about to insert -/
  | push2 (w : Work)
  /-- `connect`, about to lock the map (370) -/
  | connReq (ty : Ty)
  /-- `connect`, the map is locked, about to lock the signal (375) -/
  | conn (ty : Ty)
  /-- `disconnect`, about to lock the map (379) -/
  | discReq (ty : Ty)
  /-- `cleanupUnconnectedMsgHandlers` (121-127), the map is locked; entries still to visit -/
  | cleanup (rest : List Ty)
  /-- an operation of a `MsgConnection`, about to lock the signal -/
  | sigReq (g : SigId) (a : Sig.Act Msg)
  /-- `stop`: not stopped (250), about to close the queue (131) -/
  | stop1
  /-- `stop`: closed, about to clear the queue (132) -/
  | stop2
deriving DecidableEq

def Frame.isUser : Frame → Bool
  | .code _ | .inline _ | .handler .. => true
  | _ => false

/-- What is observed, in order. -/
inductive Ev where
  /-- `executeAsync`, `post`, or `execute` from another thread, is called -/
  | asked (t : Tid) (w : Work)
  /-- and returns -/
  | result (t : Tid) (w : Work) (b : Bool)
  /-- the queue was open when the push looked -/
  | accepted (t : Tid) (w : Work)
  /-- the queue was closed when the push looked; the work is gone -/
  | dropped (t : Tid) (w : Work)
  | entered (t : Tid) (w : Work)
  /-- taken out of the queue for execution -/
  | began (t : Tid) (w : Work)
  /-- its code starts -/
  | ran (t : Tid) (w : Work)
  | finished (t : Tid) (w : Work)
  | inlined (t : Tid) (n : Nat)
  | inlineDone (t : Tid) (n : Nat)
  | runStart (t : Tid)
  | runEnd (t : Tid)
  /-- the queue is closed by `stop` -/
  | closed (t : Tid)
  /-- thrown away by `stop` -/
  | cleared (w : Work)
  /-- `stop` returns -/
  | stopped (t : Tid)
  | reopened (t : Tid)
  /-- dispatch `d` of a message starts; which handlers object it found -/
  | processing (t : Tid) (d : Nat) (m : Msg) (o : Option SigId)
  /-- the dispatch found no slot at all -/
  | skipped (t : Tid) (d : Nat)
  | emitBegin (t : Tid) (d : Nat)
  | emitEnd (t : Tid) (d : Nat)
  | processed (t : Tid) (d : Nat)
  /-- `connect` has made handlers object `g` for type `ty` -/
  | entry (ty : Ty) (g : SigId)
  /-- `connect` adds a handler for type `ty` to `g` -/
  | connectedTo (t : Tid) (ty : Ty) (g : SigId)
  /-- the map has no entry for type `ty` any more: erased by thread `t`'s `disconnect(ty)`, or by the cleanup -/
  | entryGone (t : Option Tid) (ty : Ty)
  /-- something happened to a signal (see Model/Signal.lean) -/
  | sig (t : Tid) (g : SigId) (e : Sig.Ev Msg)
deriving DecidableEq

structure State where
  /-- `pendingExecutions` -/
  q : List Work
  closed : Bool
  /-- owner of the map lock, while it is kept over a step -/
  mOwner : Option Tid
  /-- `msgHandlersMap` -/
  map : List (Ty × SigId)
  sigs : SigId → Sig.State Msg
  /-- owner of a signal's lock, while it is kept over a step (an emission) -/
  emitter : SigId → Option Tid
  /-- the `HandlersPtr`s held by dispatches (line 100): dispatch, object -/
  refs : List (Nat × SigId)
  nextSig : SigId
  nextD : Nat
  stk : Tid → List Frame
  /-- thread-local `instance_`: null, this processor, another processor -/
  tl : Tid → Option Bool
  ub : Bool
  log : List Ev

def init : State :=
  { q := [], closed := false, mOwner := none, map := [], sigs := fun _ => Sig.init Msg
    emitter := fun _ => none, refs := [], nextSig := 0, nextD := 0, stk := fun _ => []
    tl := fun _ => none, ub := false, log := [] }

/-- Function update. -/
def upd {β : Type} (f : Nat → β) (i : Nat) (v : β) : Nat → β := fun j => if j = i then v else f j

/-- Replace the top of a thread's stack. -/
def setStk (s : State) (t : Tid) (l : List Frame) : State := { s with stk := upd s.stk t l }

def emitLog (s : State) (es : List Ev) : State := { s with log := s.log ++ es }

/-- Only user code (or a thread outside) can make calls. -/
def canCall (s : State) (t : Tid) : Bool :=
  match s.stk t with
  | [] => true
  | f :: _ => f.isUser

/-- The signal's recursive mutex can be taken by `t`. -/
def kFree (s : State) (t : Tid) (g : SigId) : Bool :=
  s.emitter g == none || s.emitter g == some t

/-- One step of a signal. -/
def sigStep (s : State) (t : Tid) (g : SigId) (a : Sig.Act Msg) : Option State :=
  match Sig.step (s.sigs g) a with
  | none => none
  | some g' => some { s with
      sigs := upd s.sigs g g', ub := s.ub || g'.ub
      log := s.log ++ (g'.log.drop (s.sigs g).log.length).map (.sig t g) }

/-- A `HandlersPtr` goes away: the object is destroyed if it was the last (`~BasicSignal_`). -/
def release (s : State) (t : Tid) (g : SigId) : State :=
  if s.map.any (fun p => p.2 == g) || s.refs.any (fun p => p.2 == g) then s
  else match sigStep s t g .destroy with
    | some s' => s'
    | none => s

/-- The end of a dispatch, the handlers pointer goes out of scope (111-112). -/
def endDispatch (s : State) (t : Tid) (rest : List Frame) (d : Nat) (m : Msg) (g : SigId) : State :=
  let s1 := release { s with refs := s.refs.erase (d, g) } t g
  { s1 with stk := upd s1.stk t rest, log := s1.log ++ [.processed t d, .finished t (.msg m)] }

inductive Act where
  | callAsync (t : Tid) (n : Nat)
  | callExecute (t : Tid) (n : Nat)
  | callPost (t : Tid) (m : Msg)
  | lockMap (t : Tid)
  | postCheck (t : Tid)
  | asyncCheck (t : Tid)
  | pushCheck (t : Tid)
  | insert (t : Tid)
  | callRun (t : Tid) (k : Loop)
  | take (t : Tid)
  | timeout (t : Tid)
  | leave (t : Tid)
  | invoke (t : Tid)
  | ret (t : Tid)
  | find (t : Tid)
  | startNotify (t : Tid)
  | iter (t : Tid)
  | callConnect (t : Tid) (ty : Ty)
  | lockConnect (t : Tid)
  | doConnect (t : Tid)
  | callDisconnect (t : Tid) (ty : Ty)
  | lockDisconnect (t : Tid)
  | cleanupStep (t : Tid)
  | callSig (t : Tid) (g : SigId) (a : Sig.Act Msg)
  | doSig (t : Tid)
  | callStop (t : Tid)
  | doClose (t : Tid)
  | doClear (t : Tid)
  | reuse (t : Tid)
  | foreign (t : Tid)
  | home (t : Tid)
deriving DecidableEq

/-- The thread that makes the step. -/
def Act.tid : Act → Tid
  | .callAsync t _ => t
  | .callExecute t _ => t
  | .callPost t _ => t
  | .lockMap t => t
  | .postCheck t => t
  | .asyncCheck t => t
  | .pushCheck t => t
  | .insert t => t
  | .callRun t _ => t
  | .take t => t
  | .timeout t => t
  | .leave t => t
  | .invoke t => t
  | .ret t => t
  | .find t => t
  | .startNotify t => t
  | .iter t => t
  | .callConnect t _ => t
  | .lockConnect t => t
  | .doConnect t => t
  | .callDisconnect t _ => t
  | .lockDisconnect t => t
  | .cleanupStep t => t
  | .callSig t _ _ => t
  | .doSig t => t
  | .callStop t => t
  | .doClose t => t
  | .doClear t => t
  | .reuse t => t
  | .foreign t => t
  | .home t => t

/-- What a `MsgConnection` can do to a signal (525-546): disconnect, reconnect, destroy;
`scopeEnd` is a scoped connection's destructor. -/
def isHandleOp : Sig.Act Msg → Bool
  | .disconnect _ | .reconnect _ | .drop _ | .scopeEnd _ => true
  | _ => false

/-- The end of a run loop (CallOnExit, 200-205, 220-222, 237-239). -/
def endLoop (s : State) (t : Tid) (rest : List Frame) (set : Bool) : State :=
  { s with stk := upd s.stk t rest, tl := if set then upd s.tl t none else s.tl
           log := s.log ++ [.runEnd t] }

def body (s : State) : Act → Option State
  -- executeAsync (299-301): stopped() is evaluated
  | .callAsync t n =>
    if canCall s t = false then none
    else if s.closed then some (emitLog s [.asked t (.exec n), .result t (.exec n) false])
    else some (emitLog (setStk s t (.push1 (.exec n) :: s.stk t)) [.asked t (.exec n)])
  -- execute (303-314)
  | .callExecute t n =>
    if canCall s t = false then none
    else if s.closed then some (emitLog s [.asked t (.exec n), .result t (.exec n) false])
    else if s.tl t = some true then some (emitLog (setStk s t (.inline n :: s.stk t)) [.inlined t n])
    else some (emitLog (setStk s t (.push1 (.exec n) :: s.stk t)) [.asked t (.exec n)])
  -- post (260-262)
  | .callPost t m =>
    if canCall s t = false then none
    else if s.closed then some (emitLog s [.asked t (.msg m), .result t (.msg m) false])
    else some (emitLog (setStk s t (.post1 m :: s.stk t)) [.asked t (.msg m)])
  -- msgConnected (115-117), `find`
  | .lockMap t =>
    match s.stk t with
    | .post1 m :: rest =>
      if s.mOwner ≠ none then none
      else match s.map.lookup m.ty with
        | none => some (emitLog (setStk s t rest) [.result t (.msg m) false])
        | some g => some { setStk s t (.post2 m g :: rest) with mOwner := some t }
    | _ => none
  -- msgConnected (117), `connected()`; then line 264
  | .postCheck t =>
    match s.stk t with
    | .post2 m g :: rest =>
      if kFree s t g then
        if (s.sigs g).slots = [] then
          some { emitLog (setStk s t rest) [.result t (.msg m) false] with mOwner := none }
        else some { setStk s t (.async (.msg m) :: rest) with mOwner := none }
      else none
    | _ => none
  -- executeAsync from post (265, 300)
  | .asyncCheck t =>
    match s.stk t with
    | .async w :: rest =>
      if s.closed then some (emitLog (setStk s t rest) [.result t w false])
      else some (setStk s t (.push1 w :: rest))
    | _ => none
  -- addExecution (89-92), Queue::push: the test of closed_. A closed queue drops the element,
  -- addExecution returns true all the same
  | .pushCheck t =>
    match s.stk t with
    | .push1 w :: rest =>
      if s.closed then some (emitLog (setStk s t rest) [.dropped t w, .result t w true])
      else some (emitLog (setStk s t (.push2 w :: rest)) [.accepted t w])
    | _ => none
  -- Queue::push: insertion
  | .insert t =>
    match s.stk t with
    | .push2 w :: rest =>
      some { emitLog (setStk s t rest) [.entered t w, .result t w true] with q := s.q ++ [w] }
    | _ => none
  -- run, runUntil, runOnceUntil; testAndSetThreadLocalInstance (388-394)
  | .callRun t k =>
    if canCall s t = false then none
    else some { emitLog (setStk s t (.loop k (s.tl t == none) :: s.stk t)) [.runStart t] with
      tl := if s.tl t = none then upd s.tl t (some true) else s.tl }
  -- Queue::wait / waitUntil (208, 224, 241)
  | .take t =>
    match s.stk t with
    | .loop k set :: rest =>
      if s.closed then some (endLoop s t rest set)
      else match s.q with
        | [] => none
        | w :: q' =>
          some { emitLog (setStk s t (.taken w :: (if k = .once then .leaving set else .loop k set) :: rest))
            [.began t w] with q := q' }
    | _ => none
  -- waitUntil times out, the predicate is false
  | .timeout t =>
    match s.stk t with
    | .loop k set :: rest =>
      if k = .forever ∨ s.closed ∨ s.q ≠ [] then none
      else some (endLoop s t rest set)
    | _ => none
  | .leave t =>
    match s.stk t with
    | .leaving set :: rest => some (endLoop s t rest set)
    | _ => none
  -- invoke (136)
  | .invoke t =>
    match s.stk t with
    | .taken w :: rest =>
      some (emitLog (setStk s t ((match w with | .exec n => .code n | .msg m => .lookup m) :: rest)) [.ran t w])
    | _ => none
  -- user code returns
  | .ret t =>
    match s.stk t with
    | .code n :: rest => some (emitLog (setStk s t rest) [.finished t (.exec n)])
    | .inline n :: rest => some (emitLog (setStk s t rest) [.inlineDone t n])
    | .handler _ _ g :: rest => sigStep (setStk s t rest) t g .ret
    | _ => none
  -- processMessage (100-107)
  | .find t =>
    match s.stk t with
    | .lookup m :: rest =>
      if s.mOwner ≠ none then none
      else match s.map.lookup m.ty with
        | none => some { emitLog (setStk s t rest)
            [.processing t s.nextD m none, .processed t s.nextD, .finished t (.msg m)] with nextD := s.nextD + 1 }
        | some g => some { emitLog (setStk s t (.willNotify s.nextD m g :: rest))
            [.processing t s.nextD m (some g)] with nextD := s.nextD + 1, refs := (s.nextD, g) :: s.refs }
    | _ => none
  -- processMessage (109-111): lock the signal, start the emission
  | .startNotify t =>
    match s.stk t with
    | .willNotify d m g :: rest =>
      if kFree s t g = false then none
      else if (s.sigs g).slots = [] then some (endDispatch (emitLog s [.skipped t d]) t rest d m g)
      else sigStep { emitLog (setStk s t (.notifying d m g :: rest)) [.emitBegin t d] with
        emitter := upd s.emitter g (some t) } t g (.emit m)
    | _ => none
  -- one iteration of the emission (SignalSlots.h 112-119)
  | .iter t =>
    match s.stk t with
    | .notifying d m g :: rest =>
      match sigStep s t g .iter with
      | none => none
      | some s1 =>
        match (s1.sigs g).emission with
        | none => some (endDispatch { emitLog s1 [.emitEnd t d] with emitter := upd s1.emitter g none } t rest d m g)
        | some e =>
          if e.running.isSome then some (setStk s1 t (.handler d m g :: .notifying d m g :: rest))
          else some s1
    | _ => none
  -- connect (367-376)
  | .callConnect t ty => if canCall s t = false then none else some (setStk s t (.connReq ty :: s.stk t))
  | .lockConnect t =>
    match s.stk t with
    | .connReq ty :: rest =>
      if s.mOwner ≠ none then none else some { setStk s t (.conn ty :: rest) with mOwner := some t }
    | _ => none
  | .doConnect t =>
    match s.stk t with
    | .conn ty :: rest =>
      match s.map.lookup ty with
      | some g =>
        if kFree s t g then sigStep { emitLog (setStk s t rest) [.connectedTo t ty g] with mOwner := none } t g .connect
        else none
      | none =>
        sigStep { emitLog (setStk s t rest) [.entry ty s.nextSig, .connectedTo t ty s.nextSig] with
          mOwner := none, map := s.map ++ [(ty, s.nextSig)], nextSig := s.nextSig + 1 } t s.nextSig .connect
    | _ => none
  -- disconnect (378-382): erase
  | .callDisconnect t ty => if canCall s t = false then none else some (setStk s t (.discReq ty :: s.stk t))
  | .lockDisconnect t =>
    match s.stk t with
    | .discReq ty :: rest =>
      if s.mOwner ≠ none then none
      else
        let m' := s.map.filter fun p => p.1 != ty
        let s1 := { emitLog (setStk s t (.cleanup (m'.map Prod.fst) :: rest)) [.entryGone (some t) ty] with
          mOwner := some t, map := m' }
        some (match s.map.lookup ty with
          | none => s1
          | some g => release s1 t g)
    | _ => none
  -- cleanupUnconnectedMsgHandlers (120-128): one entry
  | .cleanupStep t =>
    match s.stk t with
    | .cleanup [] :: rest => some { setStk s t rest with mOwner := none }
    | .cleanup (ty :: tys) :: rest =>
      match s.map.lookup ty with
      | none => some (setStk s t (.cleanup tys :: rest))
      | some g =>
        if kFree s t g = false then none
        else if (s.sigs g).slots = [] then
          some (release { emitLog (setStk s t (.cleanup tys :: rest)) [.entryGone none ty] with
            map := s.map.filter fun p => p.1 != ty } t g)
        else some (setStk s t (.cleanup tys :: rest))
    | _ => none
  -- MsgConnection (536-546)
  | .callSig t g a =>
    if canCall s t = false then none
    else if isHandleOp a = false ∨ s.nextSig ≤ g then none
    else some (setStk s t (.sigReq g a :: s.stk t))
  | .doSig t =>
    match s.stk t with
    | .sigReq g a :: rest => if kFree s t g then sigStep (setStk s t rest) t g a else none
    | _ => none
  -- stop (249-254)
  | .callStop t =>
    if canCall s t = false then none
    else if s.closed then some (emitLog s [.stopped t])
    else some (setStk s t (.stop1 :: s.stk t))
  -- Queue::close
  | .doClose t =>
    match s.stk t with
    | .stop1 :: rest =>
      some { emitLog (setStk s t (.stop2 :: rest)) (if s.closed then [] else [.closed t]) with closed := true }
    | _ => none
  -- Queue::clear
  | .doClear t =>
    match s.stk t with
    | .stop2 :: rest =>
      some { emitLog (setStk s t rest) (s.q.map .cleared ++ [.stopped t]) with q := [] }
    | _ => none
  -- reuse (256)
  | .reuse t =>
    if canCall s t = false then none
    else some { emitLog s [.reopened t] with closed := false }
  -- the thread starts / stops running some other processor
  | .foreign t => if s.stk t = [] ∧ s.tl t = none then some { s with tl := upd s.tl t (some false) } else none
  | .home t => if s.stk t = [] ∧ s.tl t = some false then some { s with tl := upd s.tl t none } else none

/-- No step after undefined behaviour. -/
def step (s : State) (a : Act) : Option State := if s.ub then none else body s a

/-- Any schedule. -/
def run (s : State) : List Act → Option State
  | [] => some s
  | a :: as => (step s a).bind fun s' => run s' as

end Maf.Proc
