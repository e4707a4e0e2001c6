/-
Model of connection handles of processors.

Models /repo/src/common/maf/messaging/Processor.cpp 114-128 (`cleanupUnconnectedMsgHandlers`), 367-382 (`connect`, `disconnect`),
514-543 (`MsgConnection`), /repo/include/maf/messaging/Processor.h 15-30, /repo/include/maf/messaging/MsgConnectionGroup.h,
and `Connection` of /repo/include/maf/utils/SignalSlots.h 175-277, 473-495.

One call after the other, none from within a handler (handlers that change their signal: C57).
A signal (`Handlers`) is destroyed when it is taken out of the map, and its slots with it.
The k-th connection made has a `Connection` object and a slot, both with number k.
-/

namespace Maf.Conn

/-- `variant<ConnectorRef_, ConnectorPtr_> ctor_` (SignalSlots.h 275): a weak pointer to the slot, the slot itself, or empty -/
inductive Ctor where
  | ref | own | empty
deriving DecidableEq, Repr

/-- a `Connection` on the heap, made by a `connect` for messages `msg` of processor `proc`, on the signal `hub` -/
structure Obj where
  proc : Nat
  msg : Nat
  hub : Nat
  ctor : Ctor
  deleted : Bool
deriving DecidableEq, Repr

inductive Ev where
  | posted (p m : Nat) (called : List Nat)
  | asked (v : Nat) (yes : Bool)
  /-- a handle that referred to connection `k` was assigned to -/
  | overwritten (k : Nat)
deriving DecidableEq, Repr

structure State where
  /-- `msgHandlersMap` -/
  map : Nat → Nat → Option Nat
  /-- the slots of a signal, in order -/
  slots : Nat → List Nat
  hubs : Nat
  objs : Nat → Option Obj
  next : Nat
  /-- the variables of type `MsgConnection`, empty or not -/
  vars : Nat → Option (Option Nat)
  groups : Nat → Option (List (Option Nat))
  ub : Bool
  log : List Ev

def State.start : State := ⟨fun _ _ => none, fun _ => [], 0, fun _ => none, 0, fun _ => none, fun _ => none, false, []⟩

def upd {α : Type} (f : Nat → α) (i : Nat) (a : α) : Nat → α := fun j => if j = i then a else f j
def upd2 {α : Type} (f : Nat → Nat → α) (i j : Nat) (a : α) : Nat → Nat → α := fun x y => if x = i ∧ y = j then a else f x y

/-- is the signal still there? (`hubref_.lock()`) -/
def State.alive (s : State) (o : Obj) : Bool := s.map o.proc o.msg == some o.hub

/-- is the slot still there, in its signal? (`get<ConnectorRef_>(ctor_).lock()`, SignalSlots.h 202, 218) -/
def State.inHub (s : State) (k : Nat) (o : Obj) : Bool := s.alive o && (s.slots o.hub).contains k

/-! ### `Connection` -/

def State.setObj (s : State) (k : Nat) (o : Obj) : State := { s with objs := upd s.objs k (some o) }

/-- SignalSlots.h 200-215 -/
def State.cut (s : State) (k : Nat) (o : Obj) : State :=
  if o.ctor = .ref ∧ s.inHub k o = true then
    { s.setObj k { o with ctor := .own } with slots := upd s.slots o.hub ((s.slots o.hub).erase k) }
  else s

/-- SignalSlots.h 217-227 -/
def State.linked (s : State) (k : Nat) (o : Obj) : Bool := o.ctor == .ref && s.inHub k o

/-- SignalSlots.h 229-244, 481-484 -/
def State.relink (s : State) (k : Nat) (o : Obj) : State :=
  if o.ctor = .own ∧ s.alive o = true then
    if (s.slots o.hub).contains k then s.setObj k { o with ctor := .empty }
    else { s.setObj k { o with ctor := .ref } with slots := upd s.slots o.hub (s.slots o.hub ++ [k]) }
  else s

/-! ### `MsgConnection` -/

/-- use of the object behind a handle -/
def State.use (s : State) (h : Option Nat) (f : Nat → Obj → State) : State :=
  match h with
  | none => s
  | some k =>
    match s.objs k with
    | some o => if o.deleted then { s with ub := true } else f k o
    | none => { s with ub := true }

/-- `~MsgConnection` (Processor.cpp 529) -/
def State.del (s : State) (h : Option Nat) : State := s.use h fun k o => s.setObj k { o with deleted := true }

/-- `disconnect`, `reconnect` (535-545) -/
def State.cutH (s : State) (h : Option Nat) : State := s.use h s.cut
def State.relinkH (s : State) (h : Option Nat) : State := s.use h s.relink

/-- `connected` (531-533) -/
def State.askH (s : State) (v : Nat) (h : Option Nat) : State :=
  match h with
  | none => { s with log := s.log ++ [.asked v false] }
  | some _ => s.use h fun k o => { s with log := s.log ++ [.asked v (s.linked k o)] }

/-- what is lost by an assignment -/
def State.lose (s : State) (h : Option Nat) : State :=
  match h with
  | none => s
  | some k => { s with log := s.log ++ [.overwritten k] }

def State.setVar (s : State) (v : Nat) (x : Option (Option Nat)) : State := { s with vars := upd s.vars v x }

/-! ### `Processor` -/

/-- the signal for `m`, made if there is none (371-374) -/
def State.hubFor (s : State) (p m : Nat) : State × Nat :=
  match s.map p m with
  | some h => (s, h)
  | none => ({ s with map := upd2 s.map p m (some s.hubs), slots := upd s.slots s.hubs [], hubs := s.hubs + 1 }, s.hubs)

/-- `connect` (367-376), the handle going into the new variable `v` -/
def State.join (s : State) (p m h v : Nat) : State :=
  { s with
    slots := upd s.slots h (s.slots h ++ [s.next])
    objs := upd s.objs s.next (some ⟨p, m, h, .ref, false⟩)
    next := s.next + 1
    vars := upd s.vars v (some (some s.next)) }

def connect (s : State) (p m v : Nat) : Option State :=
  match s.vars v with
  | none => some ((s.hubFor p m).1.join p m (s.hubFor p m).2 v)
  | some _ => none

/-- signals without a slot are erased (120-128) -/
def State.cleaned (s : State) (p m : Nat) : Option Nat :=
  match s.map p m with
  | some h => if (s.slots h).isEmpty then none else some h
  | none => none

/-- `disconnect(msgid)` (378-382) -/
def State.disconnectMsg (s : State) (p m : Nat) : State :=
  { s with map := fun q n => if q = p then (if n = m then none else s.cleaned q n) else s.map q n }

/-- what a message of type `m` calls (`processMessage` 99-112) -/
def State.called (s : State) (p m : Nat) : List Nat :=
  match s.map p m with
  | some h => s.slots h
  | none => []

inductive Act where
  | connect (p m v : Nat)
  /-- `MsgConnection v;` -/
  | make (v : Nat)
  /-- `MsgConnection v{std::move(w)};` -/
  | moveNew (v w : Nat)
  /-- `v = std::move(w);` -/
  | assign (v w : Nat)
  | destroy (v : Nat)
  | disconnect (v : Nat)
  | reconnect (v : Nat)
  | ask (v : Nat)
  | groupNew (g : Nat)
  /-- `g.add(std::move(v));` (MsgConnectionGroup.h 21-24) -/
  | groupAdd (g v : Nat)
  /-- MsgConnectionGroup.h 11-15 -/
  | groupDisconnect (g : Nat)
  /-- MsgConnectionGroup.h 9 -/
  | groupDestroy (g : Nat)
  | disconnectMsg (p m : Nat)
  /-- the processor is destroyed -/
  | endProc (p : Nat)
  | post (p m : Nat)
deriving DecidableEq, Repr

/-- Processor.cpp 518-521 -/
def moveNew (s : State) (v w : Nat) : Option State :=
  match s.vars v, s.vars w with
  | none, some x => some ((s.setVar w (some none)).setVar v (some x))
  | _, _ => none

/-- Processor.cpp 523-527: what `v` referred to is not deleted; the source is emptied last, also if it is `v` -/
def assign (s : State) (v w : Nat) : Option State :=
  match s.vars v, s.vars w with
  | some x, some y => some (((s.lose x).setVar v (some y)).setVar w (some none))
  | _, _ => none

def onVar (s : State) (v : Nat) (f : Option Nat → State) : Option State :=
  match s.vars v with
  | some x => some (f x)
  | none => none

def onGroup (s : State) (g : Nat) (f : List (Option Nat) → State) : Option State :=
  match s.groups g with
  | some l => some (f l)
  | none => none

def groupAdd (s : State) (g v : Nat) : Option State :=
  match s.groups g, s.vars v with
  | some l, some x => some { s.setVar v (some none) with groups := upd s.groups g (some (l ++ [x])) }
  | _, _ => none

def live (s : State) : Act → Option State
  | .connect p m v => Conn.connect s p m v
  | .make v => if s.vars v = none then some (s.setVar v (some none)) else none
  | .moveNew v w => Conn.moveNew s v w
  | .assign v w => Conn.assign s v w
  | .destroy v => onVar s v fun x => (s.del x).setVar v none
  | .disconnect v => onVar s v fun x => s.cutH x
  | .reconnect v => onVar s v fun x => s.relinkH x
  | .ask v => onVar s v fun x => s.askH v x
  | .groupNew g => if s.groups g = none then some { s with groups := upd s.groups g (some []) } else none
  | .groupAdd g v => Conn.groupAdd s g v
  | .groupDisconnect g => onGroup s g fun l => l.foldl State.cutH s
  | .groupDestroy g => onGroup s g fun l => { l.foldl State.del (l.foldl State.cutH s) with groups := upd s.groups g none }
  | .disconnectMsg p m => some (s.disconnectMsg p m)
  | .endProc p => some { s with map := fun q n => if q = p then none else s.map q n }
  | .post p m => some { s with log := s.log ++ [.posted p m (s.called p m)] }

/-- One step; none after undefined behaviour. -/
def step (s : State) (a : Act) : Option State := if s.ub then none else live s a

def runs (s : State) : List Act → Option State
  | [] => some s
  | a :: as => (step s a).bind fun t => runs t as

end Maf.Conn
