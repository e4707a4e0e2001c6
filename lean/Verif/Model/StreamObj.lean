import Verif.Model.Stream

/-!
# Input stream objects

Programs that make, copy, move, view, read, reset and destroy input streams
(`include/maf/utils/serialization/IByteStream.h`), and the recipients of one incoming payload
(`include/maf/messaging/client-server/ipc/local/IncomingPayload.h`, `ParamTrait.h:21-62`).

`IByteStream` declares a copy constructor and therefore has no move constructor: `IByteStream b = std::move(a)` copies
(`moveTo`, `:63-69`, is never reached).
It has no assignment (the base class has no copy assignment), and an `IByteStreamView` can be neither copied nor moved
(reference member): programs that try do not compile and are not modelled.
-/

namespace Maf
namespace Strm

/-- A stream object.  A view refers to the stream it was made from and has its own position and state: `cur`, of which
only position and state are used. -/
inductive Obj where
  | own (s : IStream)
  | view (of : Nat) (cur : IStream)
  | gone

inductive Op where
  /-- `IByteStream(bytes)`, `IByteStream.h:21-22` -/
  | make (b : Bytes)
  /-- `IByteStream(other)` and `IByteStream(std::move(other))`, `:82-84` -/
  | copy (i : Nat)
  /-- `IByteStreamView(other)`, `:96-98` -/
  | view (i : Nat)
  | read (i n : Nat)
  | reset (i : Nat)
  | clear (i : Nat) (g f e : Bool)
  /-- `other.bytes() = b`, `:85` -/
  | setBytes (i : Nat) (b : Bytes)
  | destroy (i : Nat)

/-- The object the call is made on, if it may change it. -/
def Op.target : Op → Option Nat
  | .make _ => none
  | .copy _ => none
  | .view _ => none
  | .read i _ => some i
  | .reset i => some i
  | .clear i _ _ _ => some i
  | .setBytes i _ => some i
  | .destroy i => some i

/-- The objects in order of creation. -/
abbrev State := List Obj

/-- The stream a call on object `i` works on: a view reads its stream's buffer with its own position and state.
`none`: there is no such object any more, or the view's stream is gone — undefined behaviour. -/
def cursor (s : State) (i : Nat) : Option IStream :=
  match s[i]? with
  | some (.own st) => some st
  | some (.view o cur) =>
    match s[o]? with
    | some (.own st) => some { cur with buf := st.buf }
    | _ => none
  | _ => none

/-- Store what a call left of the stream of object `i`. -/
def put (s : State) (i : Nat) (st : IStream) : State :=
  match s[i]? with
  | some (.own _) => s.set i (.own st)
  | some (.view o _) => s.set i (.view o st)
  | _ => s

/-- One call: the objects afterwards, and for `read` what was read (`none`: the target was not written).
The result `none` stands for undefined behaviour or a program that does not compile (`reset` and `bytes()` exist for
streams, not for views: a view's buffer is constant; views are made of streams). -/
def step (s : State) : Op → Option (State × Option (Nat × Option Bytes))
  | .make b => some (s ++ [.own (IStream.ofBytes b)], none)
  | .copy i =>
    match s[i]? with
    | some (.own st) => some (s ++ [.own st], none)
    | _ => none
  | .view i =>
    match s[i]? with
    | some (.own st) => some (s ++ [.view i st.view], none)
    | _ => none
  | .read i n =>
    match cursor s i with
    | some st => some (put s i (st.read n).2, some (i, (st.read n).1))
    | none => none
  | .reset i =>
    match s[i]? with
    | some (.own st) => some (s.set i (.own st.reset), none)
    | _ => none
  | .clear i g f e =>
    match cursor s i with
    | some st => some (put s i (st.clear g f e), none)
    | none => none
  | .setBytes i b =>
    match s[i]? with
    | some (.own st) => some (s.set i (.own { st with buf := b }), none)
    | _ => none
  | .destroy i =>
    match s[i]? with
    | some .gone => none
    | some _ => some (s.set i .gone, none)
    | none => none

/-- A program: the objects at the end and the reads in order. -/
def run (s : State) : List Op → Option (State × List (Nat × Option Bytes))
  | [] => some (s, [])
  | op :: ops =>
    match step s op with
    | none => none
    | some (s', r) => (run s' ops).map fun (t, l) => (t, r.toList ++ l)

/-! ## Recipients of one payload -/

/-- A decoder: reads one after the other, each depending on what was read before; in the end a result. -/
inductive Dec (α : Type) where
  | done (a : α)
  | read (n : Nat) (k : Option Bytes → Dec α)

/-- The decoder alone on a stream: its result and the stream. -/
def Dec.exec {α : Type} : Dec α → IStream → α × IStream
  | .done a, s => (a, s)
  | .read n k, s => (k (s.read n).1).exec (s.read n).2

/-- A recipient between two reads: what is left of its decoder, and its view (position and state). -/
structure Recipient (α : Type) where
  dec : Dec α
  cur : IStream

/-- `IncomingPayload.h:14-43`: the shared stream, and the recipients that decode. -/
structure Payload (α : Type) where
  stream : IStream
  recips : List (Recipient α)

/-- What happens to a payload. -/
inductive PStep (α : Type) where
  /-- `IncomingPayload.h:39` `streamView()`, called by `ParamTrait.h:45`: a recipient starts.  Clones (`:31-34`) share
  the stream. -/
  | start (d : Dec α)
  /-- recipient `k` makes its next read (any thread, any time) -/
  | advance (k : Nat)

/-- `k`'s next read: through the reference, on the shared buffer. -/
def Recipient.next {α : Type} (buf : Bytes) (r : Recipient α) : Recipient α :=
  match r.dec with
  | .done _ => r
  | .read n k =>
    { dec := k (IStream.read { r.cur with buf := buf } n).1, cur := (IStream.read { r.cur with buf := buf } n).2 }

/-- One step. -/
def Payload.step {α : Type} (p : Payload α) : PStep α → Payload α
  | .start d => { p with recips := p.recips ++ [⟨d, p.stream.view⟩] }
  | .advance k => { p with recips := p.recips.modify k (Recipient.next p.stream.buf) }

end Strm
end Maf
