import Verif.Model.Framing
import Verif.Lemmas.Serialize
/-
Properties C13, C14, C51, C52: framing of buffers on a local socket.
-/
namespace Maf.Framing
open Maf

/-- What an honest sender puts on the wire for a buffer. -/
def frame (payload : Bytes) : Bytes := leBytes 4 payload.length ++ payload

/-! ### C13 -/

theorem leNat_header (payload : Bytes) (h : payload.length < 2 ^ 32) :
    leNat (leBytes 4 payload.length) = payload.length := by
  rw [leNat_leBytes, Nat.mod_eq_of_lt (by simpa using h)]

theorem recvLoop_exact (payload : Bytes) (sched : List (Option Nat)) (acc rest : Bytes)
    (h : payload = acc ++ rest) :
    recvLoop payload.length sched rest acc = .delivered payload ∨
    recvLoop payload.length sched rest acc = .dropped ∨
    (recvLoop payload.length sched rest acc = .looping) := by
  induction sched generalizing acc rest with
  | nil =>
    simp only [recvLoop]
    split
    · exact Or.inr (Or.inr rfl)
    · next hl =>
      have hlen : payload.length = acc.length + rest.length := by rw [h]; simp
      have hr : rest = [] := List.eq_nil_of_length_eq_zero (by omega)
      subst hr
      left
      simp [h]
  | cons r sched ih =>
    simp only [recvLoop]
    split
    · next hl =>
      cases r with
      | none => simp only; split <;> simp; omega
      | some k =>
        simp only
        have hlen : payload.length = acc.length + rest.length := by rw [h]; simp
        split
        · next ho => simp at ho; omega
        · exact ih (acc ++ rest.take (min k payload.length)) (rest.drop (min k payload.length))
            (by rw [h]; simp)
    · next hl =>
      have hlen : payload.length = acc.length + rest.length := by rw [h]; simp
      have hr : rest = [] := List.eq_nil_of_length_eq_zero (by omega)
      subst hr
      left
      simp [h]

theorem recvLoop_complete (payload : Bytes) (sched : List (Option Nat)) (acc rest : Bytes)
    (h : payload = acc ++ rest) (hpos : ∀ r ∈ sched, ∃ k, r = some (k + 1))
    (hlong : rest.length ≤ sched.length) :
    recvLoop payload.length sched rest acc = .delivered payload := by
  induction sched generalizing acc rest with
  | nil =>
    have hr : rest = [] := List.eq_nil_of_length_eq_zero (by simp at hlong; simp [hlong])
    subst hr
    simp [recvLoop, h]
  | cons r sched ih =>
    obtain ⟨k, rfl⟩ := hpos r (by simp)
    have hlen : payload.length = acc.length + rest.length := by rw [h]; simp
    simp only [recvLoop]
    split
    · next hl =>
      split
      · next ho => simp at ho; omega
      · refine ih _ _ (by rw [h]; simp) (fun r hr => hpos r (by simp [hr])) ?_
        simp only [List.length_drop]
        simp at hlong
        omega
    · next hl =>
      have hr : rest = [] := List.eq_nil_of_length_eq_zero (by omega)
      subst hr
      simp [h]

/-- C13 (part that holds). Whatever the kernel does to the body (any chunk sizes, any
errors), the receiver delivers nothing but the exact buffer, and never writes outside
its own buffer. Missing from the full property: a read that returns only part of the
four-byte length, see `split_length_prefix_dropped`. -/
theorem recv_only_exact_partial (payload : Bytes) (h : payload.length < 2 ^ 32) (sched : List (Option Nat)) :
    recv (frame payload) sched = .delivered payload ∨ recv (frame payload) sched = .dropped ∨
    recv (frame payload) sched = .looping := by
  cases sched with
  | nil => exact Or.inr (Or.inr rfl)
  | cons r sched =>
    cases r with
    | none => exact Or.inr (Or.inl rfl)
    | some k =>
      simp only [recv]
      split
      · next hh =>
        have hk : min k 4 = 4 := by
          simp [frame, leBytes_length] at hh; omega
        have hhd : (frame payload).take (min k 4) = leBytes 4 payload.length := by
          rw [hk, frame, List.take_append_of_le_length (by simp [leBytes_length]),
            List.take_of_length_le (by simp [leBytes_length])]
        have htl : (frame payload).drop 4 = payload := by
          rw [frame, List.drop_append_of_le_length (by simp [leBytes_length]),
            List.drop_of_length_le (by simp [leBytes_length])]
          simp
        rw [hhd, leNat_header payload h, htl]
        exact recvLoop_exact payload sched [] payload rfl
      · exact Or.inr (Or.inl rfl)

/-- C13 (part that holds). If the length prefix arrives in one read (it is one four-byte
write) and reads do not fail, the buffer is delivered, for every way of splitting the
body into non-empty reads. -/
theorem recv_delivers_partial (payload : Bytes) (h : payload.length < 2 ^ 32) (k : Nat) (hk : 4 ≤ k)
    (sched : List (Option Nat)) (hpos : ∀ r ∈ sched, ∃ k, r = some (k + 1))
    (hlong : payload.length ≤ sched.length) :
    recv (frame payload) (some k :: sched) = .delivered payload := by
  have hk : min k 4 = 4 := by omega
  have hhd : (frame payload).take (min k 4) = leBytes 4 payload.length := by
    rw [hk, frame, List.take_append_of_le_length (by simp [leBytes_length]),
      List.take_of_length_le (by simp [leBytes_length])]
  have htl : (frame payload).drop 4 = payload := by
    rw [frame, List.drop_append_of_le_length (by simp [leBytes_length]),
      List.drop_of_length_le (by simp [leBytes_length])]
    simp
  simp only [recv, hhd, leBytes_length, if_true, leNat_header payload h, htl]
  exact recvLoop_complete payload sched [] payload rfl hpos hlong

/-- C13 refuted in full: if the first read returns fewer than four bytes the message is
lost, although all its bytes arrive. -/
theorem split_length_prefix_dropped (payload : Bytes) (k : Nat) (hk : k < 4) (sched : List (Option Nat)) :
    recv (frame payload) (some k :: sched) = .dropped := by
  have : ((frame payload).take (min k 4)).length ≠ 4 := by
    simp [frame, leBytes_length]; omega
  simp only [recv, if_neg this]

example : recv (frame [10, 20, 30]) [some 9, some 1, some 2, some 1] = .delivered [10, 20, 30] := by
  decide

/-! ### C14 -/

theorem sendLoop_prefix (rest : Bytes) (ws : List WriteRes) :
    ∃ q, rest = (sendLoop rest ws).1 ++ q ∧ ((sendLoop rest ws).2 = some true → q = []) := by
  induction ws generalizing rest with
  | nil => exact ⟨rest, rfl, by simp [sendLoop]⟩
  | cons w ws ih =>
    cases w with
    | none => exact ⟨rest, rfl, by simp [sendLoop]⟩
    | some k =>
      simp only [sendLoop]
      split
      · next h =>
        refine ⟨[], ?_, fun _ => rfl⟩
        have : rest.drop k = [] := by simpa using h
        conv => lhs; rw [← List.take_append_drop k rest, this]
      · obtain ⟨q, h1, h2⟩ := ih (rest.drop k)
        refine ⟨q, ?_, h2⟩
        rw [List.append_assoc, ← h1, List.take_append_drop]

theorem sendLoop_nofail (rest : Bytes) (ws : List WriteRes) (h : none ∉ ws) :
    (sendLoop rest ws).2 ≠ some false := by
  induction ws generalizing rest with
  | nil => simp [sendLoop]
  | cons w ws ih =>
    cases w with
    | none => simp at h
    | some k =>
      simp only [sendLoop]
      split
      · simp
      · exact ih _ (by simp at h; exact h)

/-- C14 (part that holds). If no `write` of the body fails, `Success` means that the
complete frame went out; what goes out is always a prefix of the frame. Missing from the
full property: failed body writes, see `failed_write_reported_as_success`. -/
theorem send_success_partial (payload : Bytes) (h : payload.length < 2 ^ 32) (ws : List WriteRes)
    (conn : Bool) :
    (∃ q, frame payload = (send conn payload ws).1 ++ q) ∧
    (none ∉ ws → (send conn payload ws).2 = some .success → (send conn payload ws).1 = frame payload) := by
  have hmod : payload.length % 2 ^ 32 = payload.length := Nat.mod_eq_of_lt h
  cases conn with
  | false => exact ⟨⟨_, rfl⟩, by simp [send]⟩
  | true =>
    cases ws with
    | nil => exact ⟨⟨_, rfl⟩, by simp [send]⟩
    | cons w ws =>
      simp only [send, if_true, hmod, List.take_length]
      cases w with
      | none => exact ⟨⟨_, rfl⟩, by simp⟩
      | some k =>
        simp only [Option.isSome_some, Bool.true_and, beq_iff_eq]
        split
        · next hk =>
          have hhd : (leBytes 4 payload.length).take k = leBytes 4 payload.length := by
            apply List.take_of_length_le
            simp [leBytes_length] at hk ⊢
            omega
          obtain ⟨q, h1, h2⟩ := sendLoop_prefix payload ws
          constructor
          · refine ⟨q, ?_⟩
            show frame payload = (_ ++ _) ++ q
            rw [hhd, List.append_assoc, ← h1]; rfl
          · intro hn hs
            simp only [Option.map_eq_some_iff] at hs
            obtain ⟨b, hb, _⟩ := hs
            have hnf := sendLoop_nofail payload ws (by simp at hn; exact hn)
            have hb' : b = true := by cases b with
              | true => rfl
              | false => exact absurd hb hnf
            subst hb'
            have hq := h2 hb
            subst hq
            simp only [List.append_nil] at h1
            show _ ++ _ = frame payload
            rw [hhd, ← h1]; rfl
        · refine ⟨⟨(leBytes 4 payload.length).drop k ++ payload, ?_⟩, by simp⟩
          simp [frame]
          rw [← List.append_assoc, List.take_append_drop]

/-- C14 refuted in full: for any non-empty buffer, when the write of the body fails
right away, `send` returns Success although none of the body went out (the assignment
`acs = Success` on line 69 follows the `break`). -/
theorem failed_write_reported_as_success (payload : Bytes) (hne : payload ≠ [])
    (h : payload.length < 2 ^ 32) :
    (send true payload [some 4, none]).2 = some .success ∧
    (send true payload [some 4, none]).1 ≠ frame payload := by
  have hmod : payload.length % 2 ^ 32 = payload.length := Nat.mod_eq_of_lt h
  have h4 : (leBytes 4 payload.length).take 4 = leBytes 4 payload.length :=
    List.take_of_length_le (by simp [leBytes_length])
  simp only [send, if_true, hmod, h4, leBytes_length, sendLoop, Option.isSome_some, beq_self_eq_true,
    Bool.and_self]
  refine ⟨rfl, ?_⟩
  intro hc
  have h1 := congrArg List.length hc
  have h2 := List.length_pos_iff.mpr hne
  simp [frame] at h1
  exact hne h1

example : (send true [1, 2, 3] [some 4, some 2, some 5]) = (frame [1, 2, 3], some .success) := by decide

/-- Sender and receiver together: what an unhindered send puts on the wire is delivered
unchanged. -/
theorem send_recv (payload : Bytes) (h : payload.length < 2 ^ 32) (ws : List WriteRes)
    (hw : none ∉ ws) (hs : (send true payload ws).2 = some .success) (k : Nat) (hk : 4 ≤ k)
    (sched : List (Option Nat)) (hpos : ∀ r ∈ sched, ∃ k, r = some (k + 1))
    (hlong : payload.length ≤ sched.length) :
    recv (send true payload ws).1 (some k :: sched) = .delivered payload := by
  rw [(send_success_partial payload h ws true).2 hw hs]
  exact recv_delivers_partial payload h k hk sched hpos hlong

/-! ### C51, C52: misbehaving peers -/

/-- C51 refuted: a peer that sends more bytes than it announced makes the receiver write
past its buffer (each `read` asks for the whole message length again,
`LocalIPCBufferReceiverImpl.cpp:163`). -/
theorem overlong_peer_overflows :
    recv (leBytes 4 2 ++ [1, 2, 3]) [some 4, some 1, some 2] = .overflow := by decide

theorem recvLoop_no_overflow (len : Nat) (sched : List (Option Nat)) (wire acc : Bytes)
    (h : acc.length + wire.length ≤ len) : recvLoop len sched wire acc ≠ .overflow := by
  induction sched generalizing wire acc with
  | nil => simp only [recvLoop]; repeat' split <;> simp
  | cons r sched ih =>
    simp only [recvLoop]
    split
    · cases r with
      | none => simp only; split <;> simp
      | some k =>
        simp only
        split
        · next ho => simp at ho; omega
        · refine ih _ _ ?_
          simp; omega
    · split <;> simp

/-- C51 (part that holds): no overflow as long as the peer does not send more than it
announced. -/
theorem recv_no_overflow_partial (wire : Bytes) (sched : List (Option Nat))
    (h : wire.length ≤ 4 + leNat (wire.take 4)) : recv wire sched ≠ .overflow := by
  cases sched with
  | nil => simp [recv]
  | cons r sched =>
    cases r with
    | none => simp [recv]
    | some k =>
      simp only [recv]
      split
      · next hh =>
        have hk : min k 4 = 4 := by
          simp at hh; omega
        rw [hk]
        refine recvLoop_no_overflow _ _ _ _ ?_
        simp; omega
      · simp

/-- C52 refuted: a peer that closes its connection in the middle of a message keeps the
receiver spinning for ever (`read` returns 0 at end of file and the loop goes on). -/
theorem dead_peer_spins (n : Nat) :
    recv (leBytes 4 2 ++ [1]) (some 4 :: List.replicate n (some 2)) = .looping := by
  have key : ∀ n (acc : Bytes), acc.length = 1 →
      recvLoop 2 (List.replicate n (some 2)) [] acc = .looping := by
    intro n
    induction n with
    | zero => intro acc h; simp [recvLoop, h]
    | succ n ih =>
      intro acc h
      simp only [List.replicate_succ, recvLoop, h]
      have := ih acc h
      simpa using this
  have e : leNat ((leBytes 4 2 ++ [1]).take (min 4 4)) = 2 := by decide
  cases n with
  | zero => decide
  | succ n =>
    have := key n [1] rfl
    simp only [recv, e]
    simp only [List.replicate_succ, recvLoop]
    simpa [leBytes] using this

/-- C52 (part that holds): a message that was cut short is never delivered. -/
theorem dead_peer_never_delivered_partial (payload : Bytes) (p q : Bytes) (hq : q ≠ [])
    (h : payload.length < 2 ^ 32) (hp : frame payload = p ++ q) (sched : List (Option Nat)) (b : Bytes) :
    recv p sched ≠ .delivered b := by
  have key : ∀ len (sched : List (Option Nat)) (wire acc : Bytes), acc.length + wire.length < len →
      recvLoop len sched wire acc ≠ .delivered b := by
    intro len sched
    induction sched with
    | nil =>
      intro wire acc hl
      have : acc.length < len := by omega
      simp [recvLoop, this]
    | cons r sched ih =>
      intro wire acc hl
      have h1 : acc.length < len := by omega
      simp only [recvLoop, h1, if_true]
      cases r with
      | none =>
        have : acc.length ≠ len := by omega
        simp [this]
      | some k =>
        simp only
        split
        · simp
        · refine ih _ _ ?_
          simp; omega
  have hql : 0 < q.length := List.length_pos_iff.mpr hq
  have hlen : p.length + q.length = 4 + payload.length := by
    have := congrArg List.length hp
    simp [frame, leBytes_length] at this
    omega
  cases sched with
  | nil => simp [recv]
  | cons r sched =>
    cases r with
    | none => simp [recv]
    | some k =>
      simp only [recv]
      split
      · next hh =>
        have hk : min k 4 = 4 ∧ 4 ≤ p.length := by
          simp at hh; omega
        have htake : p.take 4 = leBytes 4 payload.length := by
          have h1 : (p ++ q).take 4 = p.take 4 := List.take_append_of_le_length hk.2
          rw [← h1, ← hp, frame, List.take_append_of_le_length (by simp [leBytes_length]),
            List.take_of_length_le (by simp [leBytes_length])]
        rw [hk.1, htake, leNat_header payload h]
        refine key _ _ _ _ ?_
        simp; omega
      · simp

example : recv ((frame [1, 2, 3]).take 6) [some 4, some 1, some 1, some 1, none] ≠ .delivered [1, 2] :=
  dead_peer_never_delivered_partial [1, 2, 3] _ ((frame [1, 2, 3]).drop 6) (by decide) (by decide) (by decide) _ _

end Maf.Framing
