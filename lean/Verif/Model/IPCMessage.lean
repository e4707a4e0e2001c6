import Verif.Model.Serialize
/-
Local IPC messages and their payloads.

Models
  src/common/maf/messaging/client-server/ipc/LocalIPCMessage.cpp
  include/maf/messaging/client-server/CSMessage.h
  include/maf/messaging/client-server/ipc/local/{IncomingPayload,OutgoingPayload,ParamTrait}.h
-/
namespace Maf.IPC

/-- `std::string` contents. -/
abbrev Str := List (Fin (256 ^ 1))

/-- `Address.h:12-47`: name and 16-bit port, serialized through `as_tuple`/`cas_tuple`
(lines 40-41). -/
structure Addr where
  name : Str
  port : Fin (256 ^ 2)

/-- `Address.h:45-46`: member initialisers (`INVALID_NAME`, `INVALID_PORT`). -/
def Addr.dflt : Addr := { name := [], port := ⟨65535, by decide⟩ }

/-- Payloads (`CSMsgPayloadIF` implementations that travel over local IPC).
* `error`: `CSError` (`CSError.h:26-50`)
* `outgoing t c`: `OutgoingPayloadT<Content>` holding a `shared_ptr<Content>`
  (`OutgoingPayload.h:22-63`)
* `incoming s`: `IncomingPayload` holding a stream (`IncomingPayload.h:14-44`) -/
inductive Payload where
  | error (desc : Str) (code : Fin (256 ^ 1))
  | outgoing (t : Ty) (content : Option t.Val)
  | incoming (s : IStream)

/-- `CSMsgPayloadIF.h:10-15`: `CSPayloadType` values. -/
def ctIncoming : Fin (256 ^ 1) := ⟨0, by decide⟩
def ctOutgoing : Fin (256 ^ 1) := ⟨1, by decide⟩
def ctError : Fin (256 ^ 1) := ⟨2, by decide⟩
def ctNA : Fin (256 ^ 1) := ⟨3, by decide⟩

/-- `payload_ ? payload_->type() : ContentType::NA` (`LocalIPCMessage.cpp:41`). -/
def payloadType : Option Payload → Fin (256 ^ 1)
  | none => ctNA
  | some (.error _ _) => ctError
  | some (.outgoing _ _) => ctOutgoing
  | some (.incoming _) => ctIncoming

/-- `CSMessage.h:52-57`: the members of a message. -/
structure Msg where
  serviceID : Str
  operationID : Str
  operationCode : Fin (256 ^ 1)
  requestID : Fin (256 ^ 8)
  sourceAddress : Addr
  payload : Option Payload

/-- Types of the header fields. -/
def strTy : Ty := .str 1
def charTy : Ty := .num 1
def reqTy : Ty := .num 8
def addrTy : Ty := .tup (.cons (.str 1) (.cons (.num 2) .nil))

/-- The tuple of references built by `serializeBatch` (`Serializer.h:441-444`,
`LocalIPCMessage.cpp:39-41`). -/
def headerTy : Ty := .tup (.cons strTy (.cons strTy (.cons charTy (.cons reqTy
  (.cons addrTy (.cons charTy .nil))))))

/-- The values handed to `serializeBatch`, `LocalIPCMessage.cpp:39-41`. -/
def headerVal (m : Msg) : headerTy.Val :=
  (m.serviceID, m.operationID, m.operationCode, m.requestID,
    (m.sourceAddress.name, m.sourceAddress.port, ()), payloadType m.payload, ())

/-- `LocalIPCMessage.cpp:22-26` `encodeAsError`, and `OutgoingPayload.h:47-51`
`serialize` (a `shared_ptr`). `none`: the code would call `OutgoingPayload::serialize`
through a `static_cast` on an `IncomingPayload` — undefined behaviour. -/
def payloadBytes : Option Payload → Option Bytes
  | none => some []
  | some (.error d c) => some (strTy.ser d ++ charTy.ser c)
  | some (.outgoing t c) => some ((Ty.ptr true t).ser c)
  | some (.incoming _) => none

/-- `LocalIPCMessage.cpp:35-52`, `toBytes`. -/
def toBytes (m : Msg) : Option Bytes :=
  (payloadBytes m.payload).map fun p => headerTy.ser (headerVal m) ++ p

/-- `DSR::operator>>` (`Serializer.h:476-481`): throws (here: `none`) when
`deserialize` returns false. -/
def dsr (lt : Orders) (t : Ty) (old : t.Val) (s : IStream) : Option (t.Val × IStream) :=
  let r := t.deser lt old s
  if r.ok then some (r.val, r.st) else none

/-- `LocalIPCMessage.cpp:54-74`, `fromBytes` on a default-constructed message; `none`
when it returns false. `OpCode::Invalid` is 10, `RequestIDInvalid` is 2^64-1
(`CSTypes.h:20-37`). -/
def fromBytes (lt : Orders) (b : Bytes) : Option Msg := do
  let s := IStream.ofBytes b
  let (sid, s) ← dsr lt strTy ([] : List _) s
  let (oid, s) ← dsr lt strTy ([] : List _) s
  let (opc, s) ← dsr lt charTy (⟨10, by decide⟩ : Fin (256 ^ 1)) s
  let (rid, s) ← dsr lt reqTy (⟨2 ^ 64 - 1, by decide⟩ : Fin (256 ^ 8)) s
  let (adr, s) ← dsr lt addrTy (Addr.dflt.name, Addr.dflt.port, ()) s
  let (ct, s) ← dsr lt charTy ctNA s
  if @Fin.val (256 ^ 1) ct = ctError.val then
    -- decodeAsError, LocalIPCMessage.cpp:28-33 (`Unknown` is 9)
    let (desc, s) ← dsr lt strTy ([] : List _) s
    let (code, _) ← dsr lt charTy (⟨9, by decide⟩ : Fin (256 ^ 1)) s
    some ⟨sid, oid, opc, rid, ⟨adr.1, adr.2.1⟩, some (.error desc code)⟩
  else
    some ⟨sid, oid, opc, rid, ⟨adr.1, adr.2.1⟩, some (.incoming s)⟩

/-- `ParamTranslatingStatus.h:9-14`. -/
inductive TranslationStatus where
  | success | noSource | sourceCorrupted | destSrcMismatch
deriving DecidableEq, Repr

/-- `ParamTrait.h:34-65`: `translate<Message>` of an incoming payload with stream `s`.
Returns status, content (`shared_ptr<Message>`, null = `none`) and the payload's
stream afterwards; reading happens on an `IByteStreamView` (`IncomingPayload.h:40`). -/
def translateIncoming (lt : Orders) (t : Ty) (s : IStream) :
    TranslationStatus × Option t.Val × IStream :=
  let v := s.view
  let r := (Ty.ptr true t).deser lt none v
  if r.ok then
    (if r.st.fail = false then .success else .sourceCorrupted, r.val, s)
  else (.destSrcMismatch, none, s)

/-- `ParamTrait.h:22-27`: no payload at all. -/
def translate (lt : Orders) (t : Ty) : Option IStream → TranslationStatus × Option t.Val × Option IStream
  | none => (.noSource, none, none)
  | some s => let r := translateIncoming lt t s; (r.1, r.2.1, some r.2.2)

end Maf.IPC
