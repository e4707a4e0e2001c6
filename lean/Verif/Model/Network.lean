import Verif.Model.Signal
/-
Networks of signals: slots that belong to an object, slots that are executed by an executor, and signals connected to signals; any number of signals, objects and threads.

Models include/maf/utils/SignalSlots.h: `connect(TrackableObjPtr, …)` (357-374) and the overloads for `shared_ptr`s and methods (376-382, 429-459), `connect(…, executor)` (329-332,
352-355, 369-374, 391-393, 496-513), `connect(otherSignal)` (395-413), on top of the model of a signal (Model/Signal.lean), which every signal of the network moves by. A signal is locked
by the thread that emits it, from the beginning to the end of the emission (`keeper()`, AtomicObject with a recursive mutex); a thread that wants to use a signal which another thread
emits has to wait.

An executor is anything that takes functions and calls each of them at most once, later, on some thread, in any order, or not at all. (Executors that call at once behave like slots without
one. What the executors of processors do is in Model/Executor.lean.)

An object is destroyed when nobody owns it any more: neither the user (`release`: the last of the user's shared pointers) nor a slot that has locked it (361).
Not modelled: exceptions, connection-aware functions of the user (Model/Signal.lean has them), `SingleSlotKeeper`, methods of shared objects with an executor (442-459: the object is looked
at when the executor calls the function, not when the signal is emitted). A signal that is destroyed while another thread waits to use it is the user's mistake unless that thread's emission
is a slot's, which has a `shared_ptr` to the keeper; here both find a signal without slots.
-/
namespace Maf.Net

abbrev Tid := Nat
abbrev SigId := Nat
abbrev Obj := Nat
abbrev SlotId := Sig.SlotId

/-- How a function was connected. -/
inductive Kind where
  /-- `connect(function)` (324-327) -/
  | plain
  /-- `connect(function, executor)` (329-332) -/
  | queued
  /-- `connect(object, function)` (357-367) -/
  | tracked (o : Obj)
  /-- `connect(object, function, executor)` (369-374) -/
  | trackedQueued (o : Obj)
  /-- `connect(signal)` (395-413) -/
  | forward (h : SigId)
deriving DecidableEq

/-- The slot gets a `ConnectionPtr` of its own. -/
def Kind.aware : Kind → Bool
  | .plain | .queued => false
  | _ => true

inductive Want where
  | emit (a : Nat)
  | connect (k : Kind)
  | op (a : Sig.Act Nat)
deriving DecidableEq

inductive Frame where
  /-- waits for the mutex of signal `g` -/
  | wants (g : SigId) (w : Want)
  /-- the emission's loop, signal `g` is locked -/
  | notifying (g : SigId) (a : Nat)
  /-- a function of the user's, called by an emission, which has locked the object `o` -/
  | user (g : SigId) (sl : SlotId) (a : Nat) (o : Option Obj)
  /-- a slot that emits another signal -/
  | fwd (g : SigId) (sl : SlotId) (h : SigId) (a : Nat)
  /-- a function of the user's, called by an executor -/
  | job (g : SigId) (sl : SlotId) (a : Nat)
deriving DecidableEq

def Frame.isUser : Frame → Bool
  | .user .. | .job .. => true
  | _ => false

inductive Ev where
  /-- something happened to a signal (see Model/Signal.lean) -/
  | sig (t : Tid) (g : SigId) (e : Sig.Ev Nat)
  /-- a slot was made -/
  | connected (t : Tid) (g : SigId) (sl : SlotId) (k : Kind)
  /-- the user's function is called -/
  | ran (t : Tid) (g : SigId) (sl : SlotId) (a : Nat)
  | returned (t : Tid) (g : SigId) (sl : SlotId) (a : Nat)
  /-- the function is given to the executor -/
  | posted (t : Tid) (g : SigId) (sl : SlotId) (a : Nat)
  /-- an emission of a signal without slots -/
  | skipped (t : Tid) (g : SigId) (a : Nat)
  /-- a slot begins to emit another signal, and has done so -/
  | forward (t : Tid) (g : SigId) (sl : SlotId) (h : SigId) (a : Nat)
  | forwarded (t : Tid) (g : SigId) (sl : SlotId) (h : SigId) (a : Nat)
  /-- the object is destroyed -/
  | objGone (o : Obj)
  /-- the signal is destroyed -/
  | destroyed (t : Tid) (g : SigId)
deriving DecidableEq

structure State where
  sigs : SigId → Sig.State Nat
  kinds : SigId → SlotId → Kind
  /-- the thread that has locked the signal for an emission -/
  owner : SigId → Option Tid
  stk : Tid → List Frame
  /-- the user has a shared pointer to the object -/
  owned : Obj → Bool
  /-- calls of functions that have locked their object -/
  active : List (Tid × SigId × SlotId × Obj)
  /-- functions that executors have not called yet -/
  jobs : List (SigId × SlotId × Nat)
  ub : Bool
  log : List Ev

def init : State :=
  { sigs := fun _ => Sig.init Nat, kinds := fun _ _ => .plain, owner := fun _ => none, stk := fun _ => [], owned := fun _ => true, active := [], jobs := [], ub := false, log := [] }

def upd {β : Type} (f : Nat → β) (i : Nat) (v : β) : Nat → β := fun j => if j = i then v else f j

/-- The object exists. -/
def alive (s : State) (o : Obj) : Bool := s.owned o || s.active.any fun x => x.2.2.2 == o

/-- Only user code, or a thread that is not in the library, can make calls. -/
def canCall (s : State) (t : Tid) : Bool :=
  match s.stk t with
  | [] => true
  | f :: _ => f.isUser

/-- The signal's recursive mutex can be taken. -/
def kFree (s : State) (t : Tid) (g : SigId) : Bool := s.owner g == none || s.owner g == some t

/-- One step of a signal. -/
def sigStep (s : State) (t : Tid) (g : SigId) (a : Sig.Act Nat) : Option State :=
  match Sig.step (s.sigs g) a with
  | none => none
  | some g' => some { s with
      sigs := upd s.sigs g g', ub := s.ub || g'.ub
      log := s.log ++ (g'.log.drop (s.sigs g).log.length).map (.sig t g) }

/-- What the user can do to a signal besides connecting and emitting, with the connections `connect` returned. -/
def opOk (g : Sig.State Nat) : Sig.Act Nat → Bool
  | .disconnect h | .reconnect h | .drop h | .scopeEnd h => g.aware.all fun p => p.2 != h
  | .clear | .destroy => true
  | _ => false

def wantOk (g : Sig.State Nat) : Want → Bool
  | .op a => opOk g a
  | _ => true

/-- The object, or the signal, of a slot does not exist any more: `con->disconnect()` (364, 410), and the end of the connection-aware slot (343-346). One step, because the thread has locked
the signal. -/
def abandon (s : State) (t : Tid) (g : SigId) (sl : SlotId) : Option State :=
  match (s.sigs g).aware.lookup sl with
  | none => none
  | some h => (sigStep s t g (.disconnect h)).bind fun s1 => sigStep s1 t g .ret

/-- A slot of signal `g` is called with `a` by thread `t`, whose other frames are `rest`. -/
def start (s : State) (t : Tid) (g : SigId) (sl : SlotId) (a : Nat) (rest : List Frame) : Option State :=
  match s.kinds g sl with
  | .plain => some { s with stk := upd s.stk t (.user g sl a none :: rest), log := s.log ++ [.ran t g sl a] }
  -- 506-512
  | .queued => sigStep { s with jobs := s.jobs ++ [(g, sl, a)], log := s.log ++ [.posted t g sl a] } t g .ret
  -- 361-365
  | .tracked o =>
    if alive s o then
      some { s with stk := upd s.stk t (.user g sl a (some o) :: rest), active := (t, g, sl, o) :: s.active, log := s.log ++ [.ran t g sl a] }
    else abandon s t g sl
  | .trackedQueued o =>
    if alive s o then sigStep { s with jobs := s.jobs ++ [(g, sl, a)], log := s.log ++ [.posted t g sl a] } t g .ret
    else abandon s t g sl
  -- 407-411
  | .forward h =>
    if (s.sigs h).alive then
      some { s with stk := upd s.stk t (.wants h (.emit a) :: .fwd g sl h a :: rest), log := s.log ++ [.forward t g sl h a] }
    else abandon s t g sl

/-- The mutex of signal `g` is taken (and, unless an emission begins, released at the end of the operation). -/
def entered (s : State) (t : Tid) (g : SigId) (rest : List Frame) : Want → Option State
  | .emit a =>
    if (s.sigs g).alive = false ∨ (s.sigs g).slots = [] then some { s with stk := upd s.stk t rest, log := s.log ++ [.skipped t g a] }
    else sigStep { s with stk := upd s.stk t (.notifying g a :: rest), owner := upd s.owner g (some t) } t g (.emit a)
  | .connect k =>
    if (s.sigs g).alive = false then some { s with stk := upd s.stk t rest }
    else sigStep { s with
        stk := upd s.stk t rest, kinds := upd s.kinds g (upd (s.kinds g) (s.sigs g).nextSlot k)
        log := s.log ++ [.connected t g (s.sigs g).nextSlot k] } t g (if k.aware then .connectAware else .connect)
  | .op a =>
    if opOk (s.sigs g) a then
      match sigStep { s with stk := upd s.stk t rest, log := s.log ++ (if a = .destroy ∧ (s.sigs g).emission = none then [.destroyed t g] else []) } t g a with
      | some s' => some s'
      | none => some { s with stk := upd s.stk t rest }
    -- a connection that did not exist when the call was made
    else some { s with stk := upd s.stk t rest }

/-- The function has returned, and its object is unlocked. -/
def unlock (s : State) (t : Tid) (g : SigId) (sl : SlotId) : Option Obj → State
  | none => s
  | some o =>
    { s with
      active := s.active.erase (t, g, sl, o)
      log := s.log ++ (if alive { s with active := s.active.erase (t, g, sl, o) } o then [] else [.objGone o]) }

inductive Act where
  | call (t : Tid) (g : SigId) (w : Want)
  | enter (t : Tid)
  | iter (t : Tid)
  /-- a function of the user's returns; or the emission that a slot made has ended -/
  | ret (t : Tid)
  /-- the user's last shared pointer to the object goes away -/
  | release (o : Obj)
  /-- an executor calls one of its functions on thread `t` -/
  | runJob (t : Tid) (k : Nat)
  /-- an executor forgets one of its functions -/
  | dropJob (k : Nat)
deriving DecidableEq

def body (s : State) : Act → Option State
  | .call t g w => if canCall s t ∧ (s.sigs g).alive ∧ wantOk (s.sigs g) w then some { s with stk := upd s.stk t (.wants g w :: s.stk t) } else none
  | .enter t =>
    match s.stk t with
    | .wants g w :: rest => if kFree s t g then entered s t g rest w else none
    | _ => none
  -- 112-119
  | .iter t =>
    match s.stk t with
    | .notifying g a :: rest =>
      match sigStep s t g .iter with
      | none => none
      | some s1 =>
        match (s1.sigs g).emission with
        | none => some { s1 with stk := upd s1.stk t rest, owner := upd s1.owner g none }
        | some ⟨b, _, some ⟨_, some sl⟩⟩ => start s1 t g sl b (.notifying g a :: rest)
        | _ => some s1
    | _ => none
  | .ret t =>
    match s.stk t with
    | .user g sl a o :: rest =>
      sigStep (unlock { s with stk := upd s.stk t rest, log := s.log ++ [.returned t g sl a] } t g sl o) t g .ret
    | .fwd g sl h a :: rest => sigStep { s with stk := upd s.stk t rest, log := s.log ++ [.forwarded t g sl h a] } t g .ret
    | .job g sl a :: rest => some { s with stk := upd s.stk t rest, log := s.log ++ [.returned t g sl a] }
    | _ => none
  | .release o =>
    if s.owned o then
      some { s with
        owned := upd s.owned o false
        log := s.log ++ (if alive { s with owned := upd s.owned o false } o then [] else [.objGone o]) }
    else none
  | .runJob t k =>
    match s.jobs[k]? with
    | some (g, sl, a) =>
      if canCall s t then some { s with jobs := s.jobs.eraseIdx k, stk := upd s.stk t (.job g sl a :: s.stk t), log := s.log ++ [.ran t g sl a] } else none
    | none => none
  | .dropJob k => if k < s.jobs.length then some { s with jobs := s.jobs.eraseIdx k } else none

/-- No step after undefined behaviour. -/
def step (s : State) (a : Act) : Option State := if s.ub then none else body s a

/-- Any schedule. -/
def run (s : State) : List Act → Option State
  | [] => some s
  | a :: as => (step s a).bind fun s' => run s' as

end Maf.Net
