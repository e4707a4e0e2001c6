import Verif.Model.Processor
import Verif.Spec.Signal
/-
Specification of the processor, in terms of the log of events only.
-/
namespace Maf.Proc

/-- Works in the order in which they entered the queue. -/
def entries (l : List Ev) : List Work :=
  l.filterMap fun | .entered _ w => some w | _ => none

/-- Works in the order in which they left the queue: taken for execution, or thrown away. -/
def exits (l : List Ev) : List Work :=
  l.filterMap fun | .began _ w => some w | .cleared w => some w | _ => none

/-- Thread `t`'s works that a push found the queue open for, in program order. -/
def acceptedBy (t : Tid) (l : List Ev) : List Work :=
  l.filterMap fun | .accepted u w => if u = t then some w else none | _ => none

/-- Thread `t`'s works that entered the queue, in order. -/
def enteredBy (t : Tid) (l : List Ev) : List Work :=
  l.filterMap fun | .entered u w => if u = t then some w else none | _ => none

/-- Works that thread `t` took out of the queue, in order. -/
def beganBy (t : Tid) (l : List Ev) : List Work :=
  l.filterMap fun | .began u w => if u = t then some w else none | _ => none

/-- Works whose code started on thread `t`, in order. -/
def ranBy (t : Tid) (l : List Ev) : List Work :=
  l.filterMap fun | .ran u w => if u = t then some w else none | _ => none

def closedStep (b : Bool) : Ev → Bool
  | .closed _ => true
  | .reopened _ => false
  | _ => b

/-- Is the processor stopped after this history? -/
def closedOf (l : List Ev) : Bool := l.foldl closedStep false

def depthStep (t : Tid) (n : Nat) : Ev → Nat
  | .runStart u => if u = t then n + 1 else n
  | .runEnd u => if u = t then n - 1 else n
  | _ => n

/-- How many calls of `run`, `runUntil`, `runOnceUntil`... thread `t` is inside. -/
def depthOf (t : Tid) (l : List Ev) : Nat := l.foldl (depthStep t) 0

def openStep (t : Tid) (acc : List Work) : Ev → List Work
  | .ran u w => if u = t then w :: acc else acc
  | .finished u w => if u = t then acc.erase w else acc
  | _ => acc

/-- Queued works that thread `t` is executing, the innermost first. -/
def openWork (t : Tid) (l : List Ev) : List Work := l.foldl (openStep t) []

/-- What happened to one signal. -/
def sigLog (g : SigId) (l : List Ev) : List (Sig.Ev Msg) :=
  l.filterMap fun | .sig _ h e => if h = g then some e else none | _ => none

def entryStep (ty : Ty) (o : Option SigId) : Ev → Option SigId
  | .entry ty' g => if ty' = ty then some g else o
  | .entryGone _ ty' => if ty' = ty then none else o
  | _ => o

/-- The signal that serves message type `ty` after this history. -/
def entryOf (ty : Ty) (l : List Ev) : Option SigId := l.foldl (entryStep ty) none

/-- The handlers connected for message type `ty` after this history, in connection order. -/
def handlersOf (ty : Ty) (l : List Ev) : List (Nat × Sig.SlotId) :=
  match entryOf ty l with
  | none => []
  | some g => Sig.connections (sigLog g l)

/-- Thread `t`'s calls of `executeAsync`, `post`, `execute` and what they do to the queue. -/
def callEv (t : Tid) : Ev → Bool
  | .asked u _ | .result u _ _ | .accepted u _ | .dropped u _ | .entered u _ => u == t
  | _ => false

def callEvs (t : Tid) (l : List Ev) : List Ev := l.filter (callEv t)

/-- A handler is connected for type `ty`; or one has been disconnected while a message of
that type was being dispatched (such a handler leaves a trace, see `post_true_no_handler`). -/
def HandlerSeen (ty : Ty) (l : List Ev) : Prop :=
  ∃ g, entryOf ty l = some g ∧ (Sig.connections (sigLog g l) ≠ [] ∨
    ∃ a k sl b, sigLog g l = a ++ .removed k sl :: b ∧ Sig.current a ≠ none)

/-- A call that asked to queue `w` and returned `b`, the history before the return being `l`.
True: the processor was not stopped when the call started, and the call put the work into the
queue, or found the processor stopped in the meantime and dropped the work; for a message, a
handler was there at some moment of the call. False: nothing was queued; the processor is
stopped, or no handler is connected for the message. -/
def ResultOk (l : List Ev) (t : Tid) (w : Work) (b : Bool) : Prop :=
  ∃ x y, l = x ++ .asked t w :: y ∧
    if b then
      closedOf x = false ∧
      (callEvs t y = [.accepted t w, .entered t w] ∨ callEvs t y = [.dropped t w]) ∧
      ∀ m, w = .msg m → ∃ y1 y2, y = y1 ++ y2 ∧ HandlerSeen m.ty (x ++ .asked t w :: y1)
    else
      callEvs t y = [] ∧ (closedOf l = true ∨ ∃ m, w = .msg m ∧ handlersOf m.ty l = [])

/-- The rules for event `e` after history `l`, except those of dispatches.
Work is taken out of the queue, or run inline, only while the processor is not stopped, by a
thread inside a run call; a thread executes at most one queued work per run call it is in;
a push succeeds only while the processor is not stopped and is dropped only while it is;
results are as in `ResultOk`; a dispatch uses the handlers object serving its message type
and has a number of its own; `connect` uses the handlers object serving its type
and makes one only if there is none; the handlers of a type are
thrown away only by `disconnect` for that type, or when none is connected. -/
def EvOk (l : List Ev) : Ev → Prop
  | .began t _ => closedOf l = false ∧ 0 < depthOf t l
  | .ran t _ => (openWork t l).length < depthOf t l
  | .inlined t _ => closedOf l = false ∧ 0 < depthOf t l
  | .accepted _ _ => closedOf l = false
  | .dropped _ _ => closedOf l = true
  | .result t w b => ResultOk l t w b
  | .processing _ d m o => o = entryOf m.ty l ∧ ∀ t' m' o', Ev.processing t' d m' o' ∉ l
  | .connectedTo _ ty g => entryOf ty l = some g
  | .entry ty _ => entryOf ty l = none
  | .entryGone none ty => handlersOf ty l = []
  | _ => True

/-- The thread that makes an event. -/
def Ev.tid : Ev → Option Tid
  | .asked t _ => some t
  | .result t _ _ => some t
  | .accepted t _ => some t
  | .dropped t _ => some t
  | .entered t _ => some t
  | .began t _ => some t
  | .ran t _ => some t
  | .finished t _ => some t
  | .inlined t _ => some t
  | .inlineDone t _ => some t
  | .runStart t => some t
  | .runEnd t => some t
  | .closed t => some t
  | .stopped t => some t
  | .reopened t => some t
  | .processing t _ _ _ => some t
  | .skipped t _ => some t
  | .emitBegin t _ => some t
  | .emitEnd t _ => some t
  | .processed t _ => some t
  | .sig t _ _ => some t
  | .connectedTo t _ _ => some t
  | .cleared _ => none
  | .entry .. => none
  | .entryGone o _ => o

/-- A dispatch that has ended, the history before its end being `l`. It found the handlers
object `o` of its message's type. None: it does nothing. Otherwise its thread does nothing
until the handlers' turn comes; then either there is no handler at all, or there is exactly
one emission of the message on that handlers object, complete. Afterwards the handlers object
may be destroyed, nothing else. -/
def DispatchOk (l : List Ev) (t : Tid) (d : Nat) : Prop :=
  ∃ m o l1 l2, l = l1 ++ .processing t d m o :: l2 ∧
    match o with
    | none => l2 = []
    | some g =>
      (∃ x z, l2 = x ++ .skipped t d :: z ∧ (∀ e ∈ x, e.tid ≠ some t) ∧
        (∀ e ∈ z, ∃ k sl, e = .sig t g (.removed k sl)) ∧
        Sig.connections (sigLog g (l1 ++ x)) = []) ∨
      (∃ x y z w, l2 = x ++ .emitBegin t d :: y ++ .emitEnd t d :: z ∧ (∀ e ∈ x, e.tid ≠ some t) ∧
        (∀ e ∈ z, ∃ k sl, e = .sig t g (.removed k sl)) ∧
        sigLog g y = .emitted m :: w ++ [.emissionDone] ∧ Sig.WithinEmission w ∧ Ev.emitEnd t d ∉ y)

/-- The calls of handlers made by dispatch `d` of thread `t`, in a history that contains the
whole dispatch: connection, handler, message. -/
def dispatchCalls (t : Tid) (d : Nat) (g : SigId) (l : List Ev) : List (Nat × Sig.SlotId × Msg) :=
  Sig.callsIn (sigLog g ((l.dropWhile (· != .emitBegin t d)).takeWhile (· != .emitEnd t d)))

/-- The rules of dispatches: an ended dispatch is as in `DispatchOk`; a handler is called only
by a dispatch in progress on the same thread, with its message, on a handlers object that was
made for the message's type. -/
def CallOk (l : List Ev) : Ev → Prop
  | .processed t d => DispatchOk l t d
  | .sig t g (.called _ _ m) => Ev.entry m.ty g ∈ l ∧
      ∃ d l1 l2, l = l1 ++ .processing t d m (some g) :: l2 ∧ Ev.processed t d ∉ l2
  | _ => True

end Maf.Proc
