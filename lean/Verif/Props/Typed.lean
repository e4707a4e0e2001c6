import Verif.Model.Typed
import Verif.Props.IPC
import Verif.Props.Framing
/-
C81: typed values from one program to the other.
-/
namespace Maf.Typed

open Maf.IPC

/-! ### Specification -/

/-- What the client should see of the server's answer. -/
def expected {t : Ty} : Answer t → Response t
  | .nothing => .output none
  | .value c => .output c
  | .error d c => .error d c

/-- For a response type without data. -/
def expectedBare {t : Ty} : Answer t → Response t
  | .error d c => .error d c
  | _ => .noValue

/-- The value given to a notification or as a request's input. -/
def given {t : Ty} : Answer t → Option t.Val
  | .value c => c
  | _ => none

/-- The connection works: every write succeeds until `send` is done, the length comes in with one read, every further read
gets something and there are enough of them. -/
structure Works (m : Msg) (ws : List Framing.WriteRes) (rs : List (Option Nat)) : Prop where
  size : ∀ b, toBytes m = some b → b.length < 2 ^ 32
  writes : none ∉ ws
  sent : ∀ b, toBytes m = some b → (Framing.send true b ws).2 = some .success
  reads : ∃ k sched, rs = some k :: sched ∧ 4 ≤ k ∧ (∀ r ∈ sched, ∃ k, r = some (k + 1)) ∧ ∀ b, toBytes m = some b → b.length ≤ sched.length

/-- A value of a message is within the limits of the format. -/
def InLimits (lt : Orders) {t : Ty} : Answer t → Prop
  | .nothing => True
  | .value c => t.Supported ∧ ∀ x, c = some x → t.Fits lt x
  | .error d _ => d.length < 2 ^ 32

/-! ### Theorems -/

theorem fits_of {lt : Orders} {t : Ty} {m : Msg} {a : Answer t} (hs : m.serviceID.length < 2 ^ 32) (ho : m.operationID.length < 2 ^ 32) (ha : m.sourceAddress.name.length < 2 ^ 32) (hp : m.payload = payload a) (hl : InLimits lt a) : m.Fits lt := by
  refine ⟨hs, ho, ha, ?_⟩
  rw [hp]
  cases a with
  | nothing => trivial
  | value c => exact hl
  | error d c => exact hl

/-- What is received for a message. -/
theorem transfer_ok {lt : Orders} (hlt : lt.Asymm) {m : Msg} (hm : m.Fits lt) {ws : List Framing.WriteRes} {rs : List (Option Nat)} (hw : Works m ws rs) :
    ∃ bytes m', toBytes m = some bytes ∧ fromBytes lt bytes = some m' ∧ transfer lt m ws rs = some m' := by
  obtain ⟨bytes, m', h1, h2, -⟩ := message_roundtrip lt hlt m hm
  obtain ⟨k, sched, rfl, hk, hr, hlen⟩ := hw.reads
  refine ⟨bytes, m', h1, h2, ?_⟩
  have := Framing.send_recv bytes (hw.size bytes h1) ws hw.writes (hw.sent bytes h1) k hk sched hr (hlen bytes h1)
  simp only [transfer, h1, this, h2]

theorem convert_val (lt : Orders) (t : Ty) (s : IStream) : convert lt t (some (.incoming s)) = (translateIncoming lt t s).2.1 := by
  simp only [convert]
  split
  · rename_i h
    simp only [translateIncoming] at h ⊢
    split
    · rename_i hr
      simp only [hr, if_true] at h
      split at h <;> cases h
    · rfl
  · rfl

/-- What arrives, whatever the receiver makes of it. -/
theorem arrives {lt : Orders} (hlt : lt.Asymm) {t : Ty} {m : Msg} {a : Answer t} (hs : m.serviceID.length < 2 ^ 32) (ho : m.operationID.length < 2 ^ 32) (ha : m.sourceAddress.name.length < 2 ^ 32)
    (hp : m.payload = payload a) (hl : InLimits lt a) {ws : List Framing.WriteRes} {rs : List (Option Nat)} (hw : Works m ws rs) :
    ∃ m', transfer lt m ws rs = some m' ∧ m'.serviceID = m.serviceID ∧ m'.operationID = m.operationID ∧ m'.operationCode = m.operationCode ∧ m'.requestID = m.requestID ∧ m'.sourceAddress = m.sourceAddress ∧
      ((∃ d c, a = .error d c ∧ m'.payload = some (.error d c)) ∨ ((∀ d c, a ≠ .error d c) ∧ ∃ s, m'.payload = some (.incoming s) ∧ (translateIncoming lt t s).2.1 = given a)) := by
  have hf := fits_of hs ho ha hp hl
  obtain ⟨b, m', h1, h2, h3⟩ := transfer_ok hlt hf hw
  obtain ⟨b', m'', g1, g2, g3, g4, g5, g6, g7, g8⟩ := message_roundtrip lt hlt m hf
  rw [h1] at g1; cases g1
  rw [h2] at g2; cases g2
  refine ⟨m', h3, g3, g4, g5, g6, g7, ?_⟩
  rw [hp] at g8
  cases a with
  | nothing =>
    obtain ⟨s, e1, e2⟩ := g8
    exact .inr ⟨by simp, s, e1, (e2 t).2⟩
  | value c =>
    obtain ⟨s, e1, -, e3⟩ := g8
    exact .inr ⟨by simp, s, e1, e3⟩
  | error d c => exact .inl ⟨d, c, rfl, g8⟩

/-- The server's answer is what the client gets: the same value, null for null or nothing, the same error. -/
theorem response_arrives {lt : Orders} (hlt : lt.Asymm) {t : Ty} {m : Msg} {a : Answer t} (hs : m.serviceID.length < 2 ^ 32) (ho : m.operationID.length < 2 ^ 32) (ha : m.sourceAddress.name.length < 2 ^ 32)
    (hp : m.payload = payload a) (hl : InLimits lt a) {ws : List Framing.WriteRes} {rs : List (Option Nat)} (hw : Works m ws rs) :
    ∃ m', transfer lt m ws rs = some m' ∧ m'.operationID = m.operationID ∧ m'.requestID = m.requestID ∧ getResponse lt true t m'.payload = expected a ∧ getResponse lt false t m'.payload = expectedBare a := by
  obtain ⟨m', h1, -, h3, -, h5, -, h7⟩ := arrives hlt hs ho ha hp hl hw
  refine ⟨m', h1, h3, h5, ?_⟩
  rcases h7 with ⟨d, c, rfl, hx⟩ | ⟨hne, s, hx, hg⟩
  · rw [hx]; exact ⟨rfl, rfl⟩
  · rw [hx]
    simp only [getResponse, if_true, convert_val, hg]
    cases a with
    | nothing => exact ⟨rfl, rfl⟩
    | value c => exact ⟨rfl, rfl⟩
    | error d c => exact absurd rfl (hne d c)

/-- A synchronous call that was successful returns the server's answer; one that was not returns an error with code 6, `OperationFailed`. -/
theorem sync_response {lt : Orders} (hlt : lt.Asymm) {t : Ty} {m : Msg} {a : Answer t} (hs : m.serviceID.length < 2 ^ 32) (ho : m.operationID.length < 2 ^ 32) (ha : m.sourceAddress.name.length < 2 ^ 32)
    (hp : m.payload = payload a) (hl : InLimits lt a) {ws : List Framing.WriteRes} {rs : List (Option Nat)} (hw : Works m ws rs) (text : Str) :
    ∃ m', transfer lt m ws rs = some m' ∧ sendRequest lt true t true m'.payload text = expected a ∧ ∀ enc raw, sendRequest lt enc t false raw text = .error text ⟨6, by decide⟩ := by
  obtain ⟨m', h1, -, -, h2, -⟩ := response_arrives hlt hs ho ha hp hl hw
  exact ⟨m', h1, h2, fun _ _ => rfl⟩

/-- A notification's callback is called with the value of the status or signal. -/
theorem notification_arrives {lt : Orders} (hlt : lt.Asymm) {t : Ty} {m : Msg} {a : Answer t} (hs : m.serviceID.length < 2 ^ 32) (ho : m.operationID.length < 2 ^ 32) (ha : m.sourceAddress.name.length < 2 ^ 32)
    (hp : m.payload = payload a) (hl : InLimits lt a) {ws : List Framing.WriteRes} {rs : List (Option Nat)} (hw : Works m ws rs) :
    ∃ m', transfer lt m ws rs = some m' ∧ m'.operationID = m.operationID ∧ notified lt true t m'.payload = given a := by
  obtain ⟨m', h1, -, h3, -, -, -, h7⟩ := arrives hlt hs ho ha hp hl hw
  refine ⟨m', h1, h3, ?_⟩
  rcases h7 with ⟨d, c, rfl, hx⟩ | ⟨-, s, hx, hg⟩
  · rw [hx]; rfl
  · rw [hx]; simp only [notified, if_true, convert_val, hg]

/-- A request's handler reads the input that was sent, and answers to the address and with the id it came with. -/
theorem input_arrives {lt : Orders} (hlt : lt.Asymm) {t : Ty} {m : Msg} {a : Answer t} (hs : m.serviceID.length < 2 ^ 32) (ho : m.operationID.length < 2 ^ 32) (ha : m.sourceAddress.name.length < 2 ^ 32)
    (hp : m.payload = payload a) (hl : InLimits lt a) (hn : ∀ d c, a ≠ .error d c) {ws : List Framing.WriteRes} {rs : List (Option Nat)} (hw : Works m ws rs) :
    ∃ m', transfer lt m ws rs = some m' ∧ m'.operationID = m.operationID ∧ m'.requestID = m.requestID ∧ m'.sourceAddress = m.sourceAddress ∧ getInput lt true t m'.payload = .val (given a) := by
  obtain ⟨m', h1, -, h3, -, h5, h6, h7⟩ := arrives hlt hs ho ha hp hl hw
  refine ⟨m', h1, h3, h5, h6, ?_⟩
  rcases h7 with ⟨d, c, rfl, hx⟩ | ⟨-, s, hx, hg⟩
  · exact absurd rfl (hn d c)
  · rw [hx]; simp only [getInput, if_true, hg]

/-- Whatever bytes a peer sends: the client gets a value it can read from the stream, null or an error; never more. -/
theorem response_of_any (lt : Orders) (enc : Bool) (t : Ty) (p : Option Payload) : (∃ c, getResponse lt enc t p = .output c) ∨ (∃ d c, getResponse lt enc t p = .error d c ∧ p = some (.error d c)) ∨ getResponse lt enc t p = .noValue := by
  rcases p with _ | (⟨d, c⟩ | ⟨t', c⟩ | s)
  · exact .inl ⟨_, rfl⟩
  · exact .inr (.inl ⟨d, c, rfl, rfl⟩)
  · cases enc
    · exact .inr (.inr rfl)
    · exact .inl ⟨_, rfl⟩
  · cases enc
    · exact .inr (.inr rfl)
    · exact .inl ⟨_, rfl⟩

/-- The full property: a payload that does not translate completely is handed out as null, not as a value. Missing:
`SourceCorrupted` (`corrupt_delivered`). -/
theorem damaged_refused_partial (lt : Orders) (t : Ty) (s : IStream) (h : (translateIncoming lt t s).1 = .destSrcMismatch) :
    getResponse lt true t (some (.incoming s)) = .output none ∧ notified lt true t (some (.incoming s)) = none ∧ getInput lt true t (some (.incoming s)) = .val none := by
  have hv : (translateIncoming lt t s).2.1 = none := by
    simp only [translateIncoming] at h ⊢
    split
    · rename_i hr
      simp only [hr, if_true] at h
      split at h <;> cases h
    · rfl
  simp only [getResponse, notified, getInput, convert_val, hv, if_true, and_self]

example : (translateIncoming numOrders (.seq (.num 2)) (IStream.ofBytes [1, 3, 0])).1 = .destSrcMismatch := by decide +kernel

/-! ### In the same process -/

/-- Without a socket the value is passed on too. -/
theorem local_response {t : Ty} (a : Answer t) : localResponse true (localPayload a) = expected a ∧ localConvert (localPayload a) = given a := by
  rcases a with _ | (_ | v) | ⟨d, c⟩ <;> exact ⟨rfl, rfl⟩

/-! ### What does not hold -/

/-- The same answer to the same request looks different over the two kinds of connection: a request type without data,
answered by `respond()`, has no value over IPC and an output (null) in the same process. -/
theorem bare_differs : localResponse (t := .num 4) false (localPayload .nothing) = .output none ∧ expectedBare (t := .num 4) .nothing = .noValue := ⟨rfl, rfl⟩

/-- A payload that was cut short, or written by a program with another definition of the type, is not refused: the callback
gets a value nobody sent (here `[1, 2, 0]` of `[1, 2, 3]`), although the translation says `SourceCorrupted`. -/
theorem corrupt_delivered : ∃ (b q : Bytes), (Ty.ptr true (.seq (.num 2))).ser (some [1, 2, 3]) = b ++ q ∧ q ≠ [] ∧
    (translateIncoming numOrders (.seq (.num 2)) (IStream.ofBytes b)).1 = .sourceCorrupted ∧
    notified numOrders true (.seq (.num 2)) (some (.incoming (IStream.ofBytes b))) = some [1, 2, 0] ∧
    getInput numOrders true (.seq (.num 2)) (some (.incoming (IStream.ofBytes b))) = .val (some [1, 2, 0]) :=
  ⟨[1, 3, 0, 0, 0, 1, 0, 2, 0], [3, 0], by decide +kernel, by decide +kernel, by decide +kernel, by decide +kernel, by
    simp only [getInput, if_true]
    congr 1⟩

/-- A peer that sends a request whose content is an error: a message the receiver accepts, and undefined behaviour as soon as
the handler asks for the input. -/
theorem error_input_crash {lt : Orders} (hlt : lt.Asymm) {m : Msg} (hs : m.serviceID.length < 2 ^ 32) (ho : m.operationID.length < 2 ^ 32) (ha : m.sourceAddress.name.length < 2 ^ 32) {d : Str} {c : Fin (256 ^ 1)} (hd : d.length < 2 ^ 32)
    (hp : m.payload = some (.error d c)) {ws : List Framing.WriteRes} {rs : List (Option Nat)} (hw : Works m ws rs) (t : Ty) :
    ∃ m', transfer lt m ws rs = some m' ∧ m'.operationCode = m.operationCode ∧ getInput lt true t m'.payload = .ub := by
  obtain ⟨m', h1, -, -, h4, -, -, h7⟩ := arrives (t := t) (a := .error d c) hlt hs ho ha hp hd hw
  refine ⟨m', h1, h4, ?_⟩
  rcases h7 with ⟨d', c', -, hx⟩ | ⟨hn, -⟩
  · rw [hx]; rfl
  · exact absurd rfl (hn d c)

/-! ### Examples -/

/-- A connection that passes the sample message on in pieces. -/
example : Works sampleMsg [some 4, some 10, some 1000] (some 4 :: List.replicate 200 (some 7)) := by
  have hb : toBytes sampleMsg = some ((toBytes sampleMsg).getD []) := by rfl
  refine ⟨fun b h => ?_, by decide, fun b h => ?_, 4, _, rfl, by decide, fun r hr => ⟨6, List.eq_of_mem_replicate hr⟩, fun b h => ?_⟩ <;>
    (rw [hb] at h; cases h; decide +kernel)

example : InLimits numOrders (.value (some sampleVal) : Answer sampleTy) := ⟨sampleTy_supported, fun x hx => by cases hx; exact sampleVal_fits⟩

end Maf.Typed
