import Verif.Model.Typed
import Verif.Model.Logger
/-
Codes that come in from other processes: what is done for them, and how they are printed.

Models include/maf/utils/StringifyableEnum.h 48-64, the enumerations of client-server/{CSTypes.h 20-34, CSError.h 11-22,
CSStatus.h 9-26, ParamTranslatingStatus.h 9-14}, the receipt of bytes in ipc/LocalIPCServer.cpp 96-147 and ipc/LocalIPCClient.cpp 143-153, and the
choice by operation code in ServerBase.cpp 24-32, ServiceProvider.cpp 21-57, ClientBase.cpp 44-75 and ServiceRequester.cpp 25-58. What the chosen function does is
in Model/{Server,Provider,Client,Requester}; here it is named. The allowed log levels do not change while one message is handled.
-/
namespace Maf.Wire

open Maf.IPC

abbrev Byte := Fin (256 ^ 1)

/-- StringifyableEnum.h 56: `static_cast<unsigned long long>` of an enumeration over `char` (signed). -/
def index (c : Byte) : Nat := if c.val < 128 then c.val else 2 ^ 64 - 256 + c.val

/-- StringifyableEnum.h 53-54: the names, then `"_"` for `__` -/
def table (names : List String) : List String := names ++ ["_"]

/-- StringifyableEnum.h 55-58. `none`: an element behind the array is read, undefined behaviour. -/
def print (names : List String) (c : Byte) : Option String := (table names)[index c]?

/-- CSTypes.h 20-34 -/
def opCodes : List String := ["StatusRegister", "SignalRegister", "Unregister", "StatusGet", "Request", "PartialRequestUpdate", "Abort",
  "RegisterServiceStatus", "UnregisterServiceStatus", "ServiceStatusUpdate", "Invalid"]

/-- CSError.h 11-22 -/
def errorCodes : List String := ["InvalidParam", "ServerUnreachable", "ServiceUnavailable", "HandlerUnavailable", "ResourceUnavailable",
  "ResponseIgnored", "OperationFailed", "RequestRejected", "RequestTimeout", "Unknown"]

/-- CSStatus.h 9-13 -/
def availabilities : List String := ["Unavailable", "Available", "Unknown"]

/-- CSStatus.h 15-25 -/
def callStatuses : List String := ["Success", "InvalidCall", "InvalidParam", "ServiceUnavailable", "ReceiverBusy", "ReceiverUnavailable", "Timeout",
  "NoAction", "ActionBroken", "FailedUnknown"]

/-- ParamTranslatingStatus.h 9-14 -/
def translationStatuses : List String := ["Success", "NoSource", "SourceCorrupted", "DestSrcMismatch"]

/-- What handling one message comes to. -/
inductive Out (α : Type) where
  | ub
  | done (a : α) (handled : Bool)

/-- Logger.h 138-148 with an operation code among the pieces: fails only if the message is formatted. -/
def logs (lv : BitVec 8) (l : Log.Level) (c : Byte) : Bool := !Log.allowed lv (Log.bit l) || (print opCodes c).isSome

/-- What a provider does with a message. -/
inductive Action where
  | statusRegister | signalRegister | unregister | clientOff | request | statusGet | abort
deriving DecidableEq

/-- ServiceProvider.cpp 28-54: the switch; the numbers are those of CSTypes.h 20-34 -/
def action (c : Byte) : Option Action :=
  if c.val = 0 then some .statusRegister
  else if c.val = 1 then some .signalRegister
  else if c.val = 2 then some .unregister
  else if c.val = 8 then some .clientOff
  else if c.val = 4 then some .request
  else if c.val = 3 then some .statusGet
  else if c.val = 6 then some .abort
  else none

/-- ServiceProvider.cpp 21-57 -/
def provider (lv : BitVec 8) (c : Byte) : Out (Option Action) :=
  if logs lv .info c then
    match action c with
    | some a => .done (some a) true
    | none => if logs lv .warn c then .done none false else .ub
  else .ub

/-- What a server does with a message. -/
inductive Effect where
  /-- the sender is told about the services from now on, and about the available ones at once -/
  | greet (a : Addr)
  /-- the sender is told nothing more -/
  | forget (a : Addr)
  /-- the provider of this service acts on the message -/
  | act (sid : Str) (a : Action)

/-- LocalIPCServer.cpp 118-121: the message is forwarded to every provider -/
def forwardAll (lv : BitVec 8) (c : Byte) : List Str → Out (List Effect)
  | [] => .done [] true
  | sid :: rest =>
    match provider lv c with
    | .ub => .ub
    | .done a _ =>
      match forwardAll lv c rest with
      | .ub => .ub
      | .done es h => .done (a.toList.map (Effect.act sid) ++ es) h

/-- ServerBase.cpp 24-32 -/
def baseServer (lv : BitVec 8) (provs : List Str) (m : Msg) : Out (List Effect) :=
  if m.serviceID ∈ provs then
    match provider lv m.operationCode with
    | .ub => .ub
    | .done a h => .done (a.toList.map (Effect.act m.serviceID)) h
  else .done [] false

/-- LocalIPCServer.cpp 96-130; `provs`: the services with a provider, in the order of the map -/
def server (lv : BitVec 8) (provs : List Str) (m : Msg) : Out (List Effect) :=
  if m.operationCode.val = 7 then .done [.greet m.sourceAddress] true
  else if m.operationCode.val = 8 ∧ m.serviceID = [] then
    match forwardAll lv m.operationCode provs with
    | .ub => .ub
    | .done es _ => .done (.forget m.sourceAddress :: es) true
  else baseServer lv provs m

/-- LocalIPCServer.cpp 132-146 -/
def serverBytes (lt : Orders) (lv : BitVec 8) (provs : List Str) (b : Bytes) : Out (List Effect) :=
  match fromBytes lt b with
  | some m => server lv provs m
  | none => .done [] false

/-- What a client does with a message. -/
inductive News where
  | available (sid : Str)
  | unavailable (sid : Str)
  /-- the requester passes a signal, a status (that it remembers), an answer on -/
  | signal (sid : Str)
  | status (sid : Str)
  | answer (sid : Str)

/-- CSTypes.h 38-39, as bytes -/
def opAvailable : Str := ("service_available.property".toList.map fun ch => Fin.ofNat (256 ^ 1) ch.toNat)
def opUnavailable : Str := ("service_unavailable.property".toList.map fun ch => Fin.ofNat (256 ^ 1) ch.toNat)

/-- ServiceRequester.cpp 25-58; the requester is the one of the message's service -/
def requester (lv : BitVec 8) (m : Msg) : Out (List News) :=
  if logs lv .info m.operationCode then
    if m.operationCode.val = 1 then .done [.signal m.serviceID] true
    else if m.operationCode.val = 0 then .done [.status m.serviceID] true
    else if m.operationCode.val = 5 ∨ m.operationCode.val = 4 ∨ m.operationCode.val = 3 then .done [.answer m.serviceID] true
    else if logs lv .error m.operationCode then .done [] false else .ub
  else .ub

/-- ClientBase.cpp 44-75; `reqs`: the services with a requester -/
def client (lv : BitVec 8) (reqs : List Str) (m : Msg) : Out (List News) :=
  if m.operationCode.val = 9 ∧ m.serviceID ≠ [] then
    if m.operationID = opAvailable then .done [.available m.serviceID] true
    else if m.operationID = opUnavailable then .done [.unavailable m.serviceID] true
    else .done [] true
  else if m.serviceID ∈ reqs then requester lv m
  else .done [] false

/-- LocalIPCClient.cpp 143-153 -/
def clientBytes (lt : Orders) (lv : BitVec 8) (reqs : List Str) (b : Bytes) : Out (List News) :=
  match fromBytes lt b with
  | some m => client lv reqs m
  | none => .done [] false

end Maf.Wire
