import Verif.Lemmas.SerializeSafe
import Verif.Model.IPCMessage
import Verif.Model.Framing
import Verif.Props.Serialize
/-
Properties C07, C11–C14, C50–C52: payload views, IPC messages, socket framing.
-/
namespace Maf.IPC
open Maf

/-! ### C07 -/

/-- Reading one payload again and again, as the types in the list; results in order and
the payload's stream at the end. -/
def translateAll (lt : Orders) : List Ty → IStream → List ((t : Ty) × TranslationStatus × Option t.Val) × IStream
  | [], s => ([], s)
  | t :: ts, s =>
    let r := translateIncoming lt t s
    let rs := translateAll lt ts r.2.2
    (⟨t, r.1, r.2.1⟩ :: rs.1, rs.2)

/-- C07. Any history of reads of an incoming payload, as any types, leaves the payload's
stream untouched, and every read gives what a first read would have given. -/
theorem payload_reads_repeatable (lt : Orders) (ts : List Ty) (s : IStream) :
    (translateAll lt ts s).2 = s ∧
    (translateAll lt ts s).1 = ts.map fun t =>
      ⟨t, (translateIncoming lt t s).1, (translateIncoming lt t s).2.1⟩ := by
  have hs : ∀ t, (translateIncoming lt t s).2.2 = s := by
    intro t
    simp only [translateIncoming]
    split <;> rfl
  induction ts with
  | nil => exact ⟨rfl, rfl⟩
  | cons t ts ih =>
    simp only [translateAll, hs t, List.map_cons]
    exact ⟨ih.1, by rw [ih.2]⟩

example : (translateAll numOrders [.num 1, .num 2, .num 1] (IStream.ofBytes [1, 5, 6])).1.length = 3 := by
  decide

/-! ### Reading header fields -/

theorem dsr_ok (lt : Orders) (hlt : lt.Asymm) (t : Ty) (ht : t.Supported) (v : t.Val)
    (hv : t.Fits lt v) (old : t.Val) (ho : t.Fresh old) (s : IStream) (rest : Bytes)
    (hs : s.Usable) (hr : s.remaining = t.ser v ++ rest) :
    ∃ s', dsr lt t old s = some (v, s') ∧ s'.Usable ∧ s'.remaining = rest := by
  obtain ⟨h1, h2, h3⟩ := deser_ok lt hlt t ht v hv old ho s rest hs hr
  exact ⟨_, by simp only [dsr, h1, if_true, h2], h3.usable, h3.remaining hr⟩

/-- Types whose `deserialize` returns `!is.fail()`. -/
inductive Scalar : Ty → Prop
  | num (w) : Scalar (.num w)
  | str (cw) : Scalar (.str cw)

theorem scalar_ok {lt : Orders} {t : Ty} (ht : Scalar t) (old : t.Val) (s : IStream) :
    (t.deser lt old s).ok = !(t.deser lt old s).st.fail := by
  cases ht with
  | num w => simp only [Ty.deser, deserNum]
  | str cw =>
    simp only [Ty.deser, deserStr]
    repeat' split
    all_goals rfl

theorem dsr_dead (lt : Orders) (t : Ty) (ht : Scalar t) (old : t.Val) (s : IStream) (hs : s.Dead) :
    dsr lt t old s = none := by
  have := (deser_step lt t old s).dead hs
  simp [dsr, scalar_ok ht, this.2]

theorem dsr_cut (lt : Orders) (hlt : lt.Asymm) (t : Ty) (ht : Scalar t) (hsup : t.Supported) (v : t.Val)
    (hv : t.Fits lt v) (old : t.Val) (ho : t.Fresh old) (s : IStream) (q : Bytes)
    (hs : s.Usable) (hr : t.ser v = s.remaining ++ q) (hq : q ≠ []) :
    dsr lt t old s = none := by
  have := deser_cut lt hlt t hsup v hv old ho s q hs hr hq
  simp [dsr, scalar_ok ht, this.2]

/-- The strings of a message fit the format. -/
structure Msg.Fits (lt : Orders) (m : Msg) : Prop where
  sid : m.serviceID.length < 2 ^ 32
  oid : m.operationID.length < 2 ^ 32
  addr : m.sourceAddress.name.length < 2 ^ 32
  payload : match m.payload with
    | none => True
    | some (.error d _) => d.length < 2 ^ 32
    | some (.outgoing t c) => t.Supported ∧ ∀ x, c = some x → t.Fits lt x
    | some (.incoming _) => False

theorem headerTy_ser (m : Msg) : headerTy.ser (headerVal m) =
    strTy.ser m.serviceID ++ (strTy.ser m.operationID ++ (charTy.ser m.operationCode ++
      (reqTy.ser m.requestID ++ (addrTy.ser (m.sourceAddress.name, m.sourceAddress.port, ()) ++
        charTy.ser (payloadType m.payload))))) := by
  simp [headerTy, headerVal, Ty.ser, Tys.serTuple]

theorem header_remaining (m : Msg) (p : Bytes) :
    (IStream.ofBytes (headerTy.ser (headerVal m) ++ p)).remaining =
    strTy.ser m.serviceID ++ (strTy.ser m.operationID ++ (charTy.ser m.operationCode ++
      (reqTy.ser m.requestID ++ (addrTy.ser (m.sourceAddress.name, m.sourceAddress.port, ()) ++
        (charTy.ser (payloadType m.payload) ++ p))))) := by
  simp only [IStream.remaining, IStream.ofBytes, List.drop_zero]
  rw [headerTy_ser]
  simp only [List.append_assoc]

theorem strTy_supported : strTy.Supported := by simp [strTy, Ty.Supported]
theorem charTy_supported : charTy.Supported := by simp [charTy, Ty.Supported]
theorem reqTy_supported : reqTy.Supported := by simp [reqTy, Ty.Supported]
theorem addrTy_supported : addrTy.Supported := by
  simp [addrTy, Ty.Supported, Tys.AllSupported]

/-! ### C11 -/

/-- C11. What arrives for a message that was sent: `fromBytes` of `toBytes` succeeds,
every header field is equal; an error arrives as the same error; content of any
supported type arrives as an incoming payload that translates, with status Success, to
the same content; a message without payload arrives with an empty payload (which
translates to no content). -/
theorem message_roundtrip (lt : Orders) (hlt : lt.Asymm) (m : Msg) (hm : m.Fits lt) :
    ∃ bytes m', toBytes m = some bytes ∧ fromBytes lt bytes = some m' ∧
      m'.serviceID = m.serviceID ∧ m'.operationID = m.operationID ∧
      m'.operationCode = m.operationCode ∧ m'.requestID = m.requestID ∧
      m'.sourceAddress = m.sourceAddress ∧
      match m.payload with
      | none => ∃ s, m'.payload = some (.incoming s) ∧
          ∀ t, (translateIncoming lt t s).1 ≠ .success ∧ (translateIncoming lt t s).2.1 = none
      | some (.error d c) => m'.payload = some (.error d c)
      | some (.outgoing t c) => ∃ s, m'.payload = some (.incoming s) ∧
          (translateIncoming lt t s).1 = .success ∧ (translateIncoming lt t s).2.1 = c
      | some (.incoming _) => False := by
  obtain ⟨hsid, hoid, haddr, hpl⟩ := hm
  have main : ∀ p, payloadBytes m.payload = some p →
      ∃ s : IStream, s.Usable ∧ s.remaining = p ∧
        fromBytes lt (headerTy.ser (headerVal m) ++ p) =
        if (payloadType m.payload).val = ctError.val then (do
          let (desc, s) ← dsr lt strTy ([] : List _) s
          let (code, _) ← dsr lt charTy (⟨9, by decide⟩ : Fin (256 ^ 1)) s
          some ⟨m.serviceID, m.operationID, m.operationCode, m.requestID, m.sourceAddress,
            some (.error desc code)⟩)
        else some ⟨m.serviceID, m.operationID, m.operationCode, m.requestID, m.sourceAddress,
            some (.incoming s)⟩ := by
    intro p _
    have hr0 := header_remaining m p
    obtain ⟨s1, e1, u1, r1⟩ := dsr_ok lt hlt strTy strTy_supported m.serviceID
      (by simpa [strTy, Ty.Fits] using hsid) ([] : List _) (by simp [strTy, Ty.Fresh]) _ _
      ⟨rfl, rfl, Nat.zero_le _⟩ hr0
    obtain ⟨s2, e2, u2, r2⟩ := dsr_ok lt hlt strTy strTy_supported m.operationID
      (by simpa [strTy, Ty.Fits] using hoid) ([] : List _) (by simp [strTy, Ty.Fresh]) _ _ u1 r1
    obtain ⟨s3, e3, u3, r3⟩ := dsr_ok lt hlt charTy charTy_supported m.operationCode
      (by simp [charTy, Ty.Fits]) (⟨10, by decide⟩ : Fin (256 ^ 1)) (by simp [charTy, Ty.Fresh]) _ _ u2 r2
    obtain ⟨s4, e4, u4, r4⟩ := dsr_ok lt hlt reqTy reqTy_supported m.requestID
      (by simp [reqTy, Ty.Fits]) (⟨2 ^ 64 - 1, by decide⟩ : Fin (256 ^ 8)) (by simp [reqTy, Ty.Fresh]) _ _ u3 r3
    obtain ⟨s5, e5, u5, r5⟩ := dsr_ok lt hlt addrTy addrTy_supported
      (m.sourceAddress.name, m.sourceAddress.port, ())
      (by simpa [addrTy, Ty.Fits, Tys.FitsTuple] using haddr) (Addr.dflt.name, Addr.dflt.port, ())
      (by simp [addrTy, Ty.Fresh, Tys.FreshTuple, Addr.dflt]) _ _ u4 r4
    obtain ⟨s6, e6, u6, r6⟩ := dsr_ok lt hlt charTy charTy_supported (payloadType m.payload)
      (by simp [charTy, Ty.Fits]) ctNA (by simp [charTy, Ty.Fresh]) _ _ u5 r5
    refine ⟨s6, u6, r6, ?_⟩
    unfold fromBytes
    simp only [e1, e2, e3, e4, e5, e6, bind, Option.bind]
  cases hp : m.payload with
  | none =>
    obtain ⟨s, hs, hr, hf⟩ := main [] (by simp [hp, payloadBytes])
    refine ⟨headerTy.ser (headerVal m) ++ [],
      ⟨m.serviceID, m.operationID, m.operationCode, m.requestID, m.sourceAddress,
        some (.incoming s)⟩, by simp [toBytes, hp, payloadBytes], ?_, rfl, rfl, rfl, rfl, rfl,
        s, rfl, fun t => ?_⟩
    · rw [hf, hp, if_neg (by decide)]
    · have hv : s.view = s := rfl
      obtain ⟨h1, h2⟩ := read_short hs (n := 1) (by rw [hr]; simp)
      simp [translateIncoming, hv, Ty.deser, h1, h2.2]
  | some pl =>
    cases pl with
    | error d c =>
      rw [hp] at hpl
      obtain ⟨s, hs, hr, hf⟩ := main (strTy.ser d ++ charTy.ser c) (by simp [hp, payloadBytes])
      obtain ⟨s1, e1, u1, r1⟩ := dsr_ok lt hlt strTy strTy_supported d
        (by simpa [strTy, Ty.Fits] using hpl) ([] : List _) (by simp [strTy, Ty.Fresh]) _ _ hs hr
      obtain ⟨s2, e2, u2, r2⟩ := dsr_ok lt hlt charTy charTy_supported c
        (by simp [charTy, Ty.Fits]) (⟨9, by decide⟩ : Fin (256 ^ 1)) (by simp [charTy, Ty.Fresh]) s1 []
        u1 (by simpa using r1)
      refine ⟨headerTy.ser (headerVal m) ++ (strTy.ser d ++ charTy.ser c),
        ⟨m.serviceID, m.operationID, m.operationCode, m.requestID, m.sourceAddress,
          some (.error d c)⟩, by simp [toBytes, hp, payloadBytes], ?_, rfl, rfl, rfl, rfl, rfl, rfl⟩
      rw [hf, hp]
      simp only [payloadType, if_true, e1, e2, bind, Option.bind]
    | outgoing t c =>
      rw [hp] at hpl
      obtain ⟨s, hs, hr, hf⟩ := main ((Ty.ptr true t).ser c) (by simp [hp, payloadBytes])
      refine ⟨headerTy.ser (headerVal m) ++ (Ty.ptr true t).ser c,
        ⟨m.serviceID, m.operationID, m.operationCode, m.requestID, m.sourceAddress,
          some (.incoming s)⟩, by simp [toBytes, hp, payloadBytes], ?_, rfl, rfl, rfl, rfl, rfl,
        s, rfl, ?_⟩
      · rw [hf, hp, if_neg (by show ¬ ctOutgoing.val = ctError.val; decide)]
      · have hv : s.view = s := rfl
        have := deser_ok lt hlt (.ptr true t) (by simpa [Ty.Supported] using hpl.1) c
          (by simpa [Ty.Fits] using hpl.2) none (by simp [Ty.Fresh]) s [] hs (by simpa using hr)
        simp [translateIncoming, hv, this.1, this.2.1, this.2.2.usable.nofail]
    | incoming s => rw [hp] at hpl; exact hpl.elim

/-- A message with a service id, an operation, a request id, an address and content. -/
def sampleMsg : Msg :=
  { serviceID := [⟨115, by decide⟩], operationID := [⟨111, by decide⟩, ⟨112, by decide⟩],
    operationCode := ⟨4, by decide⟩, requestID := ⟨77, by decide⟩,
    sourceAddress := ⟨[⟨97, by decide⟩], ⟨8080, by decide⟩⟩,
    payload := some (.outgoing sampleTy (some sampleVal)) }

theorem sampleMsg_fits : sampleMsg.Fits numOrders :=
  ⟨by decide, by decide, by decide, sampleTy_supported, fun x hx => by
    cases hx; exact sampleVal_fits⟩

example := message_roundtrip numOrders numOrders_asymm sampleMsg sampleMsg_fits

/-! ### C12 -/

theorem cut_at {a b p q : Bytes} (h : a ++ b = p ++ q) (hq : q ≠ []) :
    (∃ a', a' ≠ [] ∧ a = p ++ a') ∨ (∃ p', p = a ++ p' ∧ b = p' ++ q) := split_cut h hq

/-- C12. A message cut anywhere inside its header is refused, whatever its payload. -/
theorem truncated_header_rejected (lt : Orders) (hlt : lt.Asymm) (m : Msg) (hm : m.Fits lt)
    (p q : Bytes) (h : headerTy.ser (headerVal m) = p ++ q) (hq : q ≠ []) :
    fromBytes lt p = none := by
  obtain ⟨hsid, hoid, haddr, _⟩ := hm
  rw [headerTy_ser] at h
  have u0 : (IStream.ofBytes p).Usable := ⟨rfl, rfl, Nat.zero_le _⟩
  have r0 : (IStream.ofBytes p).remaining = p := by simp [IStream.remaining, IStream.ofBytes]
  unfold fromBytes
  simp only [bind, Option.bind]
  -- service id
  rcases split_cut h hq with ⟨a', ha', h1⟩ | ⟨p1, h1, h2⟩
  · rw [dsr_cut lt hlt strTy (.str 1) strTy_supported m.serviceID
      (by simpa [strTy, Ty.Fits] using hsid) ([] : List _) (by simp [strTy, Ty.Fresh]) _ a' u0
      (by rw [r0]; exact h1) ha']
  obtain ⟨s1, e1, u1, r1⟩ := dsr_ok lt hlt strTy strTy_supported m.serviceID
      (by simpa [strTy, Ty.Fits] using hsid) ([] : List _) (by simp [strTy, Ty.Fresh]) _ p1 u0
      (by rw [r0]; exact h1)
  simp only [e1]
  -- operation id
  rcases split_cut h2 hq with ⟨a', ha', h1⟩ | ⟨p2, h1, h3⟩
  · rw [dsr_cut lt hlt strTy (.str 1) strTy_supported m.operationID
      (by simpa [strTy, Ty.Fits] using hoid) ([] : List _) (by simp [strTy, Ty.Fresh]) _ a' u1
      (by rw [r1]; exact h1) ha']
  obtain ⟨s2, e2, u2, r2⟩ := dsr_ok lt hlt strTy strTy_supported m.operationID
      (by simpa [strTy, Ty.Fits] using hoid) ([] : List _) (by simp [strTy, Ty.Fresh]) _ p2 u1
      (by rw [r1]; exact h1)
  simp only [e2]
  -- operation code
  rcases split_cut h3 hq with ⟨a', ha', h1⟩ | ⟨p3, h1, h4⟩
  · rw [dsr_cut lt hlt charTy (.num 1) charTy_supported m.operationCode
      (by simp [charTy, Ty.Fits]) (⟨10, by decide⟩ : Fin (256 ^ 1)) (by simp [charTy, Ty.Fresh]) _ a' u2
      (by rw [r2]; exact h1) ha']
  obtain ⟨s3, e3, u3, r3⟩ := dsr_ok lt hlt charTy charTy_supported m.operationCode
      (by simp [charTy, Ty.Fits]) (⟨10, by decide⟩ : Fin (256 ^ 1)) (by simp [charTy, Ty.Fresh]) _ p3 u2
      (by rw [r2]; exact h1)
  simp only [e3]
  -- request id
  rcases split_cut h4 hq with ⟨a', ha', h1⟩ | ⟨p4, h1, h5⟩
  · rw [dsr_cut lt hlt reqTy (.num 8) reqTy_supported m.requestID
      (by simp [reqTy, Ty.Fits]) (⟨2 ^ 64 - 1, by decide⟩ : Fin (256 ^ 8)) (by simp [reqTy, Ty.Fresh])
      _ a' u3 (by rw [r3]; exact h1) ha']
  obtain ⟨s4, e4, u4, r4⟩ := dsr_ok lt hlt reqTy reqTy_supported m.requestID
      (by simp [reqTy, Ty.Fits]) (⟨2 ^ 64 - 1, by decide⟩ : Fin (256 ^ 8)) (by simp [reqTy, Ty.Fresh])
      _ p4 u3 (by rw [r3]; exact h1)
  simp only [e4]
  -- source address: its own failure, or the content type fails after it
  rcases split_cut h5 hq with ⟨a', ha', h1⟩ | ⟨p5, h1, h6⟩
  · have hd := deser_cut lt hlt addrTy addrTy_supported
      (m.sourceAddress.name, m.sourceAddress.port, ())
      (by simpa [addrTy, Ty.Fits, Tys.FitsTuple] using haddr) (Addr.dflt.name, Addr.dflt.port, ())
      (by simp [addrTy, Ty.Fresh, Tys.FreshTuple, Addr.dflt]) s4 a' u4 (by rw [r4]; exact h1) ha'
    by_cases hok : (addrTy.deser lt (Addr.dflt.name, Addr.dflt.port, ()) s4).ok = true
    · have : dsr lt addrTy (Addr.dflt.name, Addr.dflt.port, ()) s4 = some
          ((addrTy.deser lt (Addr.dflt.name, Addr.dflt.port, ()) s4).val,
           (addrTy.deser lt (Addr.dflt.name, Addr.dflt.port, ()) s4).st) := by
        simp [dsr, hok]
      simp only [this]
      rw [dsr_dead lt charTy (.num 1) ctNA _ hd]
    · have : dsr lt addrTy (Addr.dflt.name, Addr.dflt.port, ()) s4 = none := by
        simp [dsr, hok]
      simp only [this]
  obtain ⟨s5, e5, u5, r5⟩ := dsr_ok lt hlt addrTy addrTy_supported
      (m.sourceAddress.name, m.sourceAddress.port, ())
      (by simpa [addrTy, Ty.Fits, Tys.FitsTuple] using haddr) (Addr.dflt.name, Addr.dflt.port, ())
      (by simp [addrTy, Ty.Fresh, Tys.FreshTuple, Addr.dflt]) s4 p5 u4 (by rw [r4]; exact h1)
  simp only [e5]
  -- content type
  rw [dsr_cut lt hlt charTy (.num 1) charTy_supported (payloadType m.payload)
      (by simp [charTy, Ty.Fits]) ctNA (by simp [charTy, Ty.Fresh]) _ q u5
      (by rw [r5]; exact h6) hq]

/-- C12. A message carrying an error is refused also when it is cut inside the error. -/
theorem truncated_error_rejected (lt : Orders) (hlt : lt.Asymm) (m : Msg) (hm : m.Fits lt)
    (d : Str) (c : Fin (256 ^ 1)) (hp : m.payload = some (.error d c)) (bytes p q : Bytes)
    (hb : toBytes m = some bytes) (h : bytes = p ++ q) (hq : q ≠ []) :
    fromBytes lt p = none := by
  have hbytes : bytes = headerTy.ser (headerVal m) ++ (strTy.ser d ++ charTy.ser c) := by
    have := hb; simp [toBytes, hp, payloadBytes] at this; exact this.symm
  rw [hbytes] at h
  rcases split_cut h hq with ⟨a', ha', h1⟩ | ⟨p', h1, h2⟩
  · exact truncated_header_rejected lt hlt m hm p a' h1 ha'
  · obtain ⟨hsid, hoid, haddr, hpl⟩ := hm
    rw [hp] at hpl
    subst h1
    have hr0 := header_remaining m p'
    obtain ⟨s1, e1, u1, r1⟩ := dsr_ok lt hlt strTy strTy_supported m.serviceID
      (by simpa [strTy, Ty.Fits] using hsid) ([] : List _) (by simp [strTy, Ty.Fresh]) _ _
      ⟨rfl, rfl, Nat.zero_le _⟩ hr0
    obtain ⟨s2, e2, u2, r2⟩ := dsr_ok lt hlt strTy strTy_supported m.operationID
      (by simpa [strTy, Ty.Fits] using hoid) ([] : List _) (by simp [strTy, Ty.Fresh]) _ _ u1 r1
    obtain ⟨s3, e3, u3, r3⟩ := dsr_ok lt hlt charTy charTy_supported m.operationCode
      (by simp [charTy, Ty.Fits]) (⟨10, by decide⟩ : Fin (256 ^ 1)) (by simp [charTy, Ty.Fresh]) _ _ u2 r2
    obtain ⟨s4, e4, u4, r4⟩ := dsr_ok lt hlt reqTy reqTy_supported m.requestID
      (by simp [reqTy, Ty.Fits]) (⟨2 ^ 64 - 1, by decide⟩ : Fin (256 ^ 8)) (by simp [reqTy, Ty.Fresh]) _ _ u3 r3
    obtain ⟨s5, e5, u5, r5⟩ := dsr_ok lt hlt addrTy addrTy_supported
      (m.sourceAddress.name, m.sourceAddress.port, ())
      (by simpa [addrTy, Ty.Fits, Tys.FitsTuple] using haddr) (Addr.dflt.name, Addr.dflt.port, ())
      (by simp [addrTy, Ty.Fresh, Tys.FreshTuple, Addr.dflt]) _ _ u4 r4
    obtain ⟨s6, e6, u6, r6⟩ := dsr_ok lt hlt charTy charTy_supported (payloadType m.payload)
      (by simp [charTy, Ty.Fits]) ctNA (by simp [charTy, Ty.Fresh]) _ _ u5 r5
    unfold fromBytes
    simp only [e1, e2, e3, e4, e5, e6, bind, Option.bind, hp, payloadType, if_true]
    rcases split_cut h2 hq with ⟨a', ha', h3⟩ | ⟨p2, h3, h4⟩
    · rw [dsr_cut lt hlt strTy (.str 1) strTy_supported d
        (by simpa [strTy, Ty.Fits] using hpl) ([] : List _) (by simp [strTy, Ty.Fresh]) _ a' u6
        (by rw [r6]; exact h3) ha']
    · obtain ⟨s7, e7, u7, r7⟩ := dsr_ok lt hlt strTy strTy_supported d
        (by simpa [strTy, Ty.Fits] using hpl) ([] : List _) (by simp [strTy, Ty.Fresh]) s6 p2 u6
        (by rw [r6]; exact h3)
      simp only [e7]
      rw [dsr_cut lt hlt charTy (.num 1) charTy_supported c
        (by simp [charTy, Ty.Fits]) (⟨9, by decide⟩ : Fin (256 ^ 1)) (by simp [charTy, Ty.Fresh]) _ q u7
        (by rw [r7]; exact h4) hq]

example : fromBytes numOrders ((headerTy.ser (headerVal sampleMsg)).take 20) = none :=
  truncated_header_rejected numOrders numOrders_asymm sampleMsg sampleMsg_fits _
    ((headerTy.ser (headerVal sampleMsg)).drop 20) (by simp) (by decide)

/-! ### C50: translating a damaged payload never reports Success -/

/-- C50. Translating a payload that was cut short anywhere never reports Success (and
translating the complete payload does, see `message_roundtrip`). -/
theorem truncated_payload_not_success (lt : Orders) (hlt : lt.Asymm) (t : Ty) (ht : t.Supported)
    (c : Option t.Val) (hc : ∀ x, c = some x → t.Fits lt x) (s : IStream) (hs : s.Usable) (q : Bytes)
    (h : (Ty.ptr true t).ser c = s.remaining ++ q) (hq : q ≠ []) :
    (translateIncoming lt t s).1 ≠ .success := by
  have hv : s.view = s := rfl
  have hd := deser_cut lt hlt (.ptr true t) (by simpa [Ty.Supported] using ht) c
    (by simpa [Ty.Fits] using hc) none (by simp [Ty.Fresh]) s q hs h hq
  simp only [translateIncoming, hv]
  split
  · simp [hd.2]
  · simp

example : (translateIncoming numOrders sampleTy
    (IStream.ofBytes (((Ty.ptr true sampleTy).ser (some sampleVal)).take 9))).1 ≠ .success :=
  truncated_payload_not_success numOrders numOrders_asymm sampleTy sampleTy_supported
    (some sampleVal) (fun x hx => by cases hx; exact sampleVal_fits) _ ⟨rfl, rfl, Nat.zero_le _⟩
    (((Ty.ptr true sampleTy).ser (some sampleVal)).drop 9)
    (by simp [IStream.remaining, IStream.ofBytes]) (by decide)

end Maf.IPC
