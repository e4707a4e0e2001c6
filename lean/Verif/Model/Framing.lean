import Verif.Model.Serialize
/-
Framing of buffers on a unix stream socket.

Models
  src/platforms/unix/maf/messaging/client-server/ipc/LocalIPCBufferSenderImpl.cpp:44-87
  src/platforms/unix/maf/messaging/client-server/ipc/LocalIPCBufferReceiverImpl.cpp:152-179
-/
namespace Maf.Framing

/-- `ActionCallStatus` values returned by `send`. -/
inductive SendStatus where
  | success | failedUnknown | receiverUnavailable
deriving DecidableEq, Repr

/-- Result of one `write(2)` call: `none` is -1, `some k` means that the kernel
accepts at most `k` bytes of what is offered. -/
abbrev WriteRes := Option Nat

/-- `LocalIPCBufferSenderImpl.cpp:56-67`: the do-while loop. `rest` is what follows
`payload.data() + totalWritten`. Returns the bytes that went out and whether a write
failed; `none` in the last component: results exhausted, the loop is still running. -/
def sendLoop : Bytes → List WriteRes → Bytes × Option Bool
  | _, [] => ([], none)
  | _, none :: _ => ([], some false)
  | rest, some k :: ws =>
    let out := rest.take k
    let rest' := rest.drop k
    if rest'.isEmpty then (out, some true)
    else let r := sendLoop rest' ws; (out ++ r.1, r.2)

/-- `LocalIPCBufferSenderImpl.cpp:44-87`, `send`: the bytes put on the wire and the
returned status (`none`: still looping). `connected`: whether `connectToSocket`
succeeded. The length prefix is `static_cast<uint32_t>(payload.length())`; the loop
writes `payloadSize` bytes, i.e. the length modulo 2^32. -/
def send (connected : Bool) (payload : Bytes) (ws : List WriteRes) : Bytes × Option SendStatus :=
  if connected then
    let size := payload.length % 2 ^ 32
    match ws with
    | [] => ([], none)
    | w :: ws =>
      let hdr := match w with
        | some k => (leBytes 4 size).take k
        | none => []
      if w.isSome && hdr.length == 4 then
        let r := sendLoop (payload.take size) ws
        -- line 69: `acs = ActionCallStatus::Success;` after the loop, also after `break`
        (hdr ++ r.1, r.2.map fun _ => .success)
      else (hdr, some .failedUnknown)
  else ([], some .receiverUnavailable)

/-- What processing one readable client socket can lead to. -/
inductive Recv where
  /-- `bytesComeCallback_(payload)` was called. -/
  | delivered (b : Bytes)
  /-- The connection was closed without a callback. -/
  | dropped
  /-- `read` wrote past the end of the payload buffer: undefined behaviour. -/
  | overflow
  /-- The given read results are used up and the loop still runs. -/
  | looping
deriving DecidableEq, Repr

/-- `LocalIPCBufferReceiverImpl.cpp:162-174`: `wire` is what the peer has sent and not
been read yet (then end of file), `acc` what was read so far. One entry of the
schedule per `read(sd, data + totalRead, messageLength)`: `none` is -1, `some k` means
the kernel hands out at most `k` bytes. Note the requested size is `len`, not the
remaining room. -/
def recvLoop (len : Nat) : List (Option Nat) → Bytes → Bytes → Recv
  | [], _, acc =>
    if acc.length < len then .looping
    else if acc.length = len then .delivered acc else .dropped
  | r :: sched, wire, acc =>
    if acc.length < len then
      match r with
      | none => if acc.length = len then .delivered acc else .dropped
      | some k =>
        let chunk := wire.take (min k len)
        if acc.length + chunk.length > len then .overflow
        else recvLoop len sched (wire.drop (min k len)) (acc ++ chunk)
    else if acc.length = len then .delivered acc else .dropped

/-- `LocalIPCBufferReceiverImpl.cpp:155-178`: read the 4-byte length, then the body. -/
def recv (wire : Bytes) : List (Option Nat) → Recv
  | [] => .looping
  | none :: _ => .dropped
  | some k :: sched =>
    let hdr := wire.take (min k 4)
    if hdr.length = 4 then recvLoop (leNat hdr) sched (wire.drop 4) []
    else .dropped

end Maf.Framing
