import Verif.Model.IPCMessage
import Verif.Model.Framing
/-
Typed requests, responses and notifications: the translation between the user's values and payloads.

Models include/maf/messaging/client-server/BasicProxy.h 244-299 (`getResposne`, `makeError`, `convert`), 500-520 (`sendRequest_`),
ResponseT.h, RequestT.h 61-105 (`getInput`, `respond`, `update`, `error`), ipc/local/ParamTrait.h 17-71 and itc/ParamTrait.h 15-40, on top of Model/IPCMessage and
Model/Framing. Values are copied here: sharing of objects is in Model/Shared.
-/
namespace Maf.Typed

open Maf.IPC

/-- What the user answers or notifies with. -/
inductive Answer (t : Ty) where
  /-- `respond()`, `broadcastSignal<Signal>()`, `sendRequest<Request>()`: no value -/
  | nothing
  /-- a `shared_ptr` to a value, possibly null -/
  | value (c : Option t.Val)
  /-- `error(description, code)` -/
  | error (d : Str) (c : Fin (256 ^ 1))

/-- ResponseT.h: the variant -/
inductive Response (t : Ty) where
  | output (c : Option t.Val)
  | error (d : Str) (c : Fin (256 ^ 1))
  | noValue

/-! ### Local IPC -/

/-- ipc/local/ParamTrait.h 68-71 and RequestT.h 73-115: the payload sent -/
def payload {t : Ty} : Answer t → Option Payload
  | .nothing => none
  | .value c => some (.outgoing t c)
  | .error d c => some (.error d c)

/-- BasicProxy.h 276-299 on an encodable parameter. The payload is one that was read from the wire, or null; a payload of the
own process would be `outgoing`, for which `translate` does not set the status. -/
def convert (lt : Orders) (t : Ty) : Option Payload → Option t.Val
  | some (.incoming s) => if (translateIncoming lt t s).1 = .destSrcMismatch then none else (translateIncoming lt t s).2.1
  | some (.outgoing _ _) => none
  | some (.error _ _) => none
  | none => none

/-- BasicProxy.h 244-262. `enc`: the response type carries data (`PTrait::encodable`). -/
def getResponse (lt : Orders) (enc : Bool) (t : Ty) : Option Payload → Response t
  | none => .output none
  | some (.error d c) => .error d c
  | some p => if enc then .output (convert lt t (some p)) else .noValue

/-- BasicProxy.h 264-272: `OperationFailed` is 6; the text is left to `text` -/
def makeError {t : Ty} (text : Str) : Response t := .error text ⟨6, by decide⟩

/-- BasicProxy.h 498-520; `ok`: the call status is `Success`. -/
def sendRequest (lt : Orders) (enc : Bool) (t : Ty) (ok : Bool) (raw : Option Payload) (text : Str) : Response t :=
  if ok then getResponse lt enc t raw else makeError text

/-- What a notification's callback gets: BasicProxy.h 226-240; `none`: a null pointer. -/
def notified (lt : Orders) (enc : Bool) (t : Ty) (p : Option Payload) : Option t.Val := if enc then convert lt t p else none

/-- What `getInput` leads to. -/
inductive Input (t : Ty) where
  | val (c : Option t.Val)
  /-- undefined behaviour: an error object is used as a stream -/
  | ub

/-- RequestT.h 61-71 on a payload that came in. The translation's status is not looked at. -/
def getInput (lt : Orders) (enc : Bool) (t : Ty) : Option Payload → Input t
  | some (.incoming s) => if enc then .val (translateIncoming lt t s).2.1 else .val none
  | some (.error _ _) => if enc then .ub else .val none
  | _ => .val none

/-- One message from the sender to the receiver's message: `LocalIPCMessage::toBytes`, the socket, `fromBytes`. `ws` the results
of the sender's writes, `rs` those of the receiver's reads. -/
def transfer (lt : Orders) (m : Msg) (ws : List Framing.WriteRes) (rs : List (Option Nat)) : Option Msg :=
  match toBytes m with
  | none => none
  | some b =>
    match Framing.recv (Framing.send true b ws).1 rs with
    | .delivered b' => fromBytes lt b'
    | _ => none

/-! ### Same process -/

/-- itc/Payload.h: what travels is the object; `none` null. -/
inductive Local (t : Ty) where
  | data (c : Option t.Val)
  | error (d : Str) (c : Fin (256 ^ 1))

/-- itc/ParamTrait.h 28-38: null becomes a null payload -/
def localPayload {t : Ty} : Answer t → Option (Local t)
  | .nothing => none
  | .value none => none
  | .value (some v) => some (.data (some v))
  | .error d c => some (.error d c)

/-- BasicProxy.h 276-299 with itc/ParamTrait.h 15-26 -/
def localConvert {t : Ty} : Option (Local t) → Option t.Val
  | some (.data c) => c
  | _ => none

/-- BasicProxy.h 244-262 -/
def localResponse {t : Ty} (enc : Bool) : Option (Local t) → Response t
  | none => .output none
  | some (.error d c) => .error d c
  | some (.data c) => if enc then .output c else .noValue

end Maf.Typed
