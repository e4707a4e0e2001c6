import Verif.Model.SignalThrow

/-
Messages whose handlers throw.

Models src/common/maf/messaging/Processor.cpp 99-118 (`processMessage`, `msgConnected`), 120-128 (`cleanupUnconnectedMsgHandlers`), 260-271 (`post`, the part that looks for handlers),
367-382 (`connect`, `disconnect`) and 536-540 (`MsgConnection::disconnect`), on signals as in Model/SignalThrow.lean: one for each type of message (28).
An exception out of a handler leaves `processMessage` and the loop that executes it (Model/ThisProcessor.lean); the user catches it and goes on.
Simplified: handlers do not use the processor; every handler is connected once, and its number is that of its connection; messages are dispatched in any order (C18: the queue).
-/
namespace Maf.MExn
open Maf.Exn (SlotId Out)

/-- Types of messages. -/
abbrev Ty := Nat

inductive Op where
  /-- `connect` (367-376) -/
  | connect (m : Ty) (x : SlotId)
  /-- `MsgConnection::disconnect` of the connection of `x` (536-540) -/
  | cut (m : Ty) (x : SlotId)
  /-- `disconnect(msgid)` (378-382) -/
  | disconnect (m : Ty)
  /-- `post` on a processor that is not stopped: is the message accepted (264-266)? -/
  | post (m : Ty)
  /-- a message is dispatched (99-112); the `k`th handler called throws if `throws k` -/
  | dispatch (m : Ty) (throws : Nat → Bool)

/-- `msgHandlersMap` -/
abbrev State := Ty → Option Exn.State

def start : State := fun _ => none

def upd (s : State) (m : Ty) (k : Exn.State) : State := fun j => if j = m then some k else s j

def step (checked : Bool) (s : State) : Op → State × Out
  | .connect m x =>
    -- 371-374
    let k := (s m).getD Exn.start
    (upd s m (Exn.step checked k (.connect x)).1, .bool true)
  | .cut m x =>
    match s m with
    | none => (s, .bool false)
    | some k => (upd s m (Exn.remove k x).1, .bool (Exn.remove k x).2)
  | .disconnect m =>
    (fun j =>
      if j = m then none
      else
        -- 122
        match s j with
        | none => none
        | some k => if k.slots = [] then none else some k, .done)
  | .post m =>
    match s m with
    | none => (s, .bool false)
    | some k => (s, .bool (!k.slots.isEmpty))
  | .dispatch m throws =>
    match s m with
    | none => (s, .calls [] false)
    | some k => (upd s m (Exn.notify checked k throws).1, (Exn.notify checked k throws).2)

def run (checked : Bool) (s : State) : List Op → List Out
  | [] => []
  | op :: ops =>
    match step checked s op with
    | (_, .aborted) => [.aborted]
    | (s', o) => o :: run checked s' ops

end Maf.MExn
