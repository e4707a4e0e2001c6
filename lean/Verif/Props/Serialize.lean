import Verif.Lemmas.SerializeSafe
/-
Properties C01–C10: serialization.
-/
namespace Maf

/-! ### Sample data for the non-vacuity examples -/

/-- Numbers ordered by value; other types unordered. -/
def numOrders : Orders := fun t => match t with
  | .num _ => fun a b => decide (a.val < b.val)
  | _ => fun _ _ => false

theorem numOrders_asymm : numOrders.Asymm := by
  intro t a b h
  cases t
  case num w =>
    simp only [numOrders, decide_eq_true_eq, decide_eq_false_iff_not] at *
    omega
  all_goals simp [numOrders] at h

/-- `std::tuple<std::map<uint16_t, std::vector<std::string>>,
std::variant<double, std::shared_ptr<int>>>`. -/
def sampleTy : Ty :=
  .tup (.cons (.map (.num 2) (.seq (.str 1)))
    (.cons (.var (.num 8) (.cons (.ptr true (.num 4)) .nil)) .nil))

/-- `{ {3: ["ab", ""], 7: []}, shared_ptr(258) }`. -/
def sampleVal : sampleTy.Val :=
  ([((⟨3, by decide⟩ : Fin (256 ^ 2)), [[(⟨97, by decide⟩ : Fin (256 ^ 1)), ⟨98, by decide⟩], []]),
    (⟨7, by decide⟩, [])],
   .inr (.inl (some (⟨258, by decide⟩ : Fin (256 ^ 4)))), ())

theorem sampleTy_supported : sampleTy.Supported := by
  simp [sampleTy, Ty.Supported, Tys.AllSupported, Tys.length]

theorem sampleVal_fits : sampleTy.Fits numOrders sampleVal := by
  simp [sampleTy, sampleVal, Ty.Fits, Tys.FitsTuple, Tys.FitsAlt, numOrders]
  decide

/-! ### C01 -/

/-- C01. Deserializing what serialize wrote, into any fresh object, succeeds and gives
the value back. -/
theorem serialize_roundtrip (lt : Orders) (hlt : lt.Asymm) (t : Ty) (ht : t.Supported)
    (v : t.Val) (hv : t.Fits lt v) (target : t.Val) (hfresh : t.Fresh target) :
    let r := t.deser lt target (IStream.ofBytes (t.ser v))
    r.ok = true ∧ r.val = v ∧ r.st.fail = false := by
  have := deser_ok lt hlt t ht v hv target hfresh (IStream.ofBytes (t.ser v)) []
    ⟨rfl, rfl, Nat.zero_le _⟩ (by simp [IStream.remaining, IStream.ofBytes])
  exact ⟨this.1, this.2.1, this.2.2.usable.nofail⟩

/-- Default-constructed objects are fresh targets. -/
theorem default_is_fresh (t : Ty) : t.Fresh t.dflt := dflt_fresh t

example : (sampleTy.deser numOrders sampleTy.dflt (IStream.ofBytes (sampleTy.ser sampleVal))).val
    = sampleVal :=
  (serialize_roundtrip numOrders numOrders_asymm sampleTy sampleTy_supported sampleVal
    sampleVal_fits _ (dflt_fresh _)).2.1

/-- Limits of C01 (1): a target that is not fresh is not overwritten: sequences are
appended to. -/
theorem stale_target_is_appended (lt : Orders) (hlt : lt.Asymm) (t : Ty) (ht : t.Supported)
    (v old : List t.Val) (hv : (Ty.seq t).Fits lt v) :
    ((Ty.seq t).deser lt old (IStream.ofBytes ((Ty.seq t).ser v))).val = old ++ v := by
  have hf := hv
  simp only [Ty.Fits] at hf
  have := deserCont_ok (fun s => t.deser lt t.dflt s) (fun c x => c ++ [x]) t.ser v hf.1
      (fun x hx => deser_ok lt hlt t (by simpa [Ty.Supported] using ht) x (hf.2 x hx) _ (dflt_fresh t))
      old (IStream.ofBytes ((Ty.seq t).ser v)) [] ⟨rfl, rfl, Nat.zero_le _⟩
      (by simp [IStream.remaining, IStream.ofBytes, Ty.ser])
  simp only [Ty.deser]
  rw [this.2.1, foldl_snoc]

/-- Limits of C01 (2): an empty tuple (or struct without members) never deserializes
successfully, which is why `Supported` excludes it. -/
theorem empty_tuple_never_succeeds (lt : Orders) (s : IStream) :
    ((Ty.tup .nil).deser lt () s).ok = false := by
  simp [Ty.deser, Tys.deserTuple]

/-! ### C02 -/

/-- C02. Whatever bytes precede and follow the encoding, deserialization consumes
exactly the bytes that serialization wrote. -/
theorem deserialize_consumes_exactly (lt : Orders) (hlt : lt.Asymm) (t : Ty) (ht : t.Supported)
    (v : t.Val) (hv : t.Fits lt v) (target : t.Val) (hfresh : t.Fresh target)
    (before after : Bytes) (s : IStream) (hs : s.Usable) (hb : s.buf = before ++ t.ser v ++ after)
    (hp : s.pos = before.length) :
    let r := t.deser lt target s
    r.ok = true ∧ r.val = v ∧ r.st.buf = s.buf ∧ r.st.pos = before.length + (t.ser v).length ∧
      r.st.Usable ∧ r.st.remaining = after := by
  have hr : s.remaining = t.ser v ++ after := by simp [IStream.remaining, hb, hp]
  have h := deser_ok lt hlt t ht v hv target hfresh s after hs hr
  exact ⟨h.1, h.2.1, h.2.2.buf, hp ▸ h.2.2.pos, h.2.2.usable, h.2.2.remaining hr⟩

/-- Writing a list of values (of any types) one after another with `SR::operator<<`. -/
def writeAll : List ((t : Ty) × t.Val) → Bytes
  | [] => []
  | x :: xs => x.1.ser x.2 ++ writeAll xs

/-- Reading values of the given types one after another with `DSR::operator>>`
(`Serializer.h:476-481`), each into a default-constructed object. -/
def readAll (lt : Orders) : List Ty → IStream → Option (List ((t : Ty) × t.Val))
  | [], _ => some []
  | t :: ts, s =>
    let r := t.deser lt t.dflt s
    if r.ok then (readAll lt ts r.st).map (⟨t, r.val⟩ :: ·) else none

theorem readAll_writeAll (lt : Orders) (hlt : lt.Asymm) (xs : List ((t : Ty) × t.Val))
    (h : ∀ x ∈ xs, x.1.Supported ∧ x.1.Fits lt x.2) (rest : Bytes) (s : IStream) (hs : s.Usable)
    (hr : s.remaining = writeAll xs ++ rest) : readAll lt (xs.map (·.1)) s = some xs := by
  induction xs generalizing s with
  | nil => rfl
  | cons x xs ih =>
    simp only [writeAll, List.append_assoc] at hr
    obtain ⟨h1, h2⟩ := h x (by simp)
    obtain ⟨e1, e2, e3⟩ := deser_ok lt hlt x.1 h1 x.2 h2 _ (dflt_fresh _) s _ hs hr
    have := ih (fun y hy => h y (by simp [hy])) _ e3.usable (e3.remaining hr)
    simp only [List.map_cons, readAll, e1, if_true, e2, this, Option.map_some]

/-- C02, for sequences of values: values written back to back are read back in order. -/
theorem sequence_roundtrip (lt : Orders) (hlt : lt.Asymm) (xs : List ((t : Ty) × t.Val))
    (h : ∀ x ∈ xs, x.1.Supported ∧ x.1.Fits lt x.2) (rest : Bytes) :
    readAll lt (xs.map (·.1)) (IStream.ofBytes (writeAll xs ++ rest)) = some xs :=
  readAll_writeAll lt hlt xs h rest _ ⟨rfl, rfl, Nat.zero_le _⟩
    (by simp [IStream.remaining, IStream.ofBytes])

/-- Two values written back to back. -/
def sampleSeq : List ((t : Ty) × t.Val) :=
  [⟨sampleTy, sampleVal⟩, ⟨.num 1, (⟨5, by decide⟩ : Fin (256 ^ 1))⟩]

example : readAll numOrders (sampleSeq.map (·.1)) (IStream.ofBytes (writeAll sampleSeq ++ [1, 2])) =
    some sampleSeq :=
  sequence_roundtrip numOrders numOrders_asymm sampleSeq (by
    intro x hx
    simp only [sampleSeq, List.mem_cons, List.not_mem_nil, or_false] at hx
    rcases hx with rfl | rfl
    · exact ⟨sampleTy_supported, sampleVal_fits⟩
    · exact ⟨by simp [Ty.Supported], by simp [Ty.Fits]⟩) _

/-! ### C03 -/

/-- C03. No encoding is a prefix of the encoding of another value: if `ser v ++ x`
equals `ser w ++ y` then `v = w` (and `x = y`). Injectivity is the case `x = y = []`. -/
theorem serialize_prefix_free (lt : Orders) (hlt : lt.Asymm) (t : Ty) (ht : t.Supported)
    (v w : t.Val) (hv : t.Fits lt v) (hw : t.Fits lt w) (x y : Bytes)
    (h : t.ser v ++ x = t.ser w ++ y) : v = w ∧ x = y := by
  have hvw : v = w := by
    have a := deser_ok lt hlt t ht v hv _ (dflt_fresh t) (IStream.ofBytes (t.ser v ++ x)) x
      ⟨rfl, rfl, Nat.zero_le _⟩ (by simp [IStream.remaining, IStream.ofBytes])
    have b := deser_ok lt hlt t ht w hw _ (dflt_fresh t) (IStream.ofBytes (t.ser v ++ x)) y
      ⟨rfl, rfl, Nat.zero_le _⟩ (by simp [IStream.remaining, IStream.ofBytes, h])
    exact a.2.1.symm.trans b.2.1
  subst hvw
  exact ⟨rfl, List.append_cancel_left h⟩

theorem serialize_injective (lt : Orders) (hlt : lt.Asymm) (t : Ty) (ht : t.Supported)
    (v w : t.Val) (hv : t.Fits lt v) (hw : t.Fits lt w) (h : t.ser v = t.ser w) : v = w :=
  (serialize_prefix_free lt hlt t ht v w hv hw [] [] (by simp [h])).1

example : sampleTy.ser sampleVal ≠ sampleTy.ser sampleTy.dflt := by
  intro h
  have := serialize_injective numOrders numOrders_asymm sampleTy sampleTy_supported _ _
    sampleVal_fits (by simp [sampleTy, Ty.Fits, Tys.FitsTuple, Ty.dflt, Tys.dfltTuple]) h
  simp [sampleVal, sampleTy, Ty.dflt, Tys.dfltTuple] at this

/-! ### C04 -/

/-- C04. `serializedSize` is the number of bytes written, modulo 2^32 (no bound on the
value's size). -/
theorem serializedSize_eq (t : Ty) (v : t.Val) (n : Nat) (h : t.size v = some n) :
    n = (t.ser v).length % 2 ^ 32 := size_ok t v n h

/-- C04, for encodings below 4 GiB. -/
theorem serializedSize_exact (t : Ty) (v : t.Val) (n : Nat) (h : t.size v = some n)
    (hs : (t.ser v).length < 2 ^ 32) : n = (t.ser v).length := by
  rw [serializedSize_eq t v n h, Nat.mod_eq_of_lt hs]

mutual
/-- `serializedSize` is available for every type without a variant in it. -/
def Ty.NoVariant : Ty → Prop
  | .num _ => True
  | .str _ => True
  | .ptr _ t => t.NoVariant
  | .seq t => t.NoVariant
  | .set t => t.NoVariant
  | .map k v => k.NoVariant ∧ v.NoVariant
  | .pair a b => a.NoVariant ∧ b.NoVariant
  | .tup ts => ts.NoVariants
  | .var _ _ => False
def Tys.NoVariants : Tys → Prop
  | .nil => True
  | .cons t ts => t.NoVariant ∧ ts.NoVariants
end

theorem foldl_isSome {α : Type} (f : Nat → α → Option Nat) (xs : List α)
    (h : ∀ x ∈ xs, ∀ a, (f a x).isSome) (a : Nat) :
    (xs.foldl (fun acc x => acc.bind fun a => f a x) (some a)).isSome := by
  induction xs generalizing a with
  | nil => rfl
  | cons x xs ih =>
    simp only [List.foldl_cons, Option.bind_some]
    obtain ⟨b, hb⟩ := Option.isSome_iff_exists.mp (h x (by simp) a)
    rw [hb]
    exact ih (fun y hy => h y (by simp [hy])) b

mutual
theorem serializedSize_defined : (t : Ty) → t.NoVariant → (v : t.Val) → (t.size v).isSome
  | .num _, _, _ => by simp [Ty.size]
  | .str _, _, _ => by simp [Ty.size]
  | .ptr _ t, _, none => by simp [Ty.size]
  | .ptr _ t, h, some v => by
    simp only [Ty.NoVariant] at h
    simpa [Ty.size] using serializedSize_defined t h v
  | .seq t, h, v => by
    simp only [Ty.NoVariant] at h
    simp only [Ty.size, Option.isSome_map]
    exact foldl_isSome _ v (fun x _ a => by simpa using serializedSize_defined t h x) 0
  | .set t, h, v => by
    simp only [Ty.NoVariant] at h
    simp only [Ty.size, Option.isSome_map]
    exact foldl_isSome _ v (fun x _ a => by simpa using serializedSize_defined t h x) 0
  | .map k w, h, v => by
    simp only [Ty.NoVariant] at h
    simp only [Ty.size, Option.isSome_map]
    refine foldl_isSome _ v (fun x _ a => ?_) 0
    obtain ⟨i, hi⟩ := Option.isSome_iff_exists.mp (serializedSize_defined k h.1 x.1)
    simpa [hi] using serializedSize_defined w h.2 x.2
  | .pair a b, h, v => by
    simp only [Ty.NoVariant] at h
    obtain ⟨i, hi⟩ := Option.isSome_iff_exists.mp (serializedSize_defined a h.1 v.1)
    simpa [Ty.size, hi] using serializedSize_defined b h.2 v.2
  | .tup ts, h, v => by
    simp only [Ty.NoVariant] at h
    simp only [Ty.size]; exact sizeTuple_defined ts h 0 v
  | .var _ _, h, _ => by simp [Ty.NoVariant] at h
theorem sizeTuple_defined : (ts : Tys) → ts.NoVariants → (acc : Nat) → (v : ts.Tuple) →
    (ts.sizeTuple acc v).isSome
  | .nil, _, _, _ => by simp [Tys.sizeTuple]
  | .cons t ts, h, acc, v => by
    simp only [Tys.NoVariants] at h
    obtain ⟨i, hi⟩ := Option.isSome_iff_exists.mp (serializedSize_defined t h.1 v.1)
    simp only [Tys.sizeTuple, hi, Option.bind_some]
    exact sizeTuple_defined ts h.2 _ v.2
end

example : (Ty.map (.num 2) (.seq (.str 1))).size
    [((⟨3, by decide⟩ : Fin (256 ^ 2)), [[(⟨97, by decide⟩ : Fin (256 ^ 1))]])] = some 15 := by
  decide

/-! ### C05 -/

/-- C05 (part that holds). However a serialized value is cut short, deserializing the
cut bytes leaves the stream failed. Missing from the full property: `deserialize`
also returning false (refuted below for containers). -/
theorem truncation_fails_stream_partial (lt : Orders) (hlt : lt.Asymm) (t : Ty) (ht : t.Supported)
    (v : t.Val) (hv : t.Fits lt v) (target : t.Val) (hfresh : t.Fresh target) (k : Nat)
    (hk : k < (t.ser v).length) :
    (t.deser lt target (IStream.ofBytes ((t.ser v).take k))).st.fail = true := by
  have := deser_cut lt hlt t ht v hv target hfresh (IStream.ofBytes ((t.ser v).take k))
    ((t.ser v).drop k) ⟨rfl, rfl, Nat.zero_le _⟩
    (by simp [IStream.remaining, IStream.ofBytes])
    (by intro h; have := congrArg List.length h; simp at this; omega)
  exact this.2

/-- C05 (part that holds). For numbers and strings, deserialize returns false on every
truncated input. -/
theorem truncated_scalar_rejected (lt : Orders) (w : Nat) (v target : Fin (256 ^ w)) (k : Nat)
    (hk : k < w) :
    ((Ty.num w).deser lt target (IStream.ofBytes (((Ty.num w).ser v).take k))).ok = false := by
  have hd := deserNum_cut (w := w) (n := v.val) (old := target)
    (IStream.ofBytes ((leBytes w v.val).take k)) ((leBytes w v.val).drop k)
    ⟨rfl, rfl, Nat.zero_le _⟩ (by simp [IStream.remaining, IStream.ofBytes])
    (by intro h; have := congrArg List.length h; simp [leBytes_length] at this; omega)
  simpa [Ty.deser, Ty.ser] using deserNum_cut_ok hd

theorem truncated_string_rejected (lt : Orders) (hlt : lt.Asymm) (cw : Nat) (hcw : 0 < cw)
    (v : (Ty.str cw).Val) (hv : v.length < 2 ^ 32) (k : Nat) (hk : k < ((Ty.str cw).ser v).length) :
    ((Ty.str cw).deser lt ([] : List _) (IStream.ofBytes (((Ty.str cw).ser v).take k))).ok = false := by
  have h := truncation_fails_stream_partial lt hlt (.str cw) (by simpa [Ty.Supported])
    v (by simpa [Ty.Fits] using hv) ([] : List _) (by simp [Ty.Fresh]) k hk
  simp only [Ty.deser] at h ⊢
  revert h
  simp only [deserStr]
  split
  · split
    · intro h; simpa using h
    · intro h; simpa using h
  · intro h; simpa using h

/-- C05 refuted in full: a `std::vector<uint8_t>` cut after its first element is
accepted (`success |= ...`, `Serializer.h:278`), with a made-up last element. -/
theorem truncated_vector_accepted (lt : Orders) :
    let v : (Ty.seq (.num 1)).Val := [(⟨7, by decide⟩ : Fin (256 ^ 1)), ⟨8, by decide⟩]
    let r := (Ty.seq (.num 1)).deser lt ([] : List _)
      (IStream.ofBytes (((Ty.seq (.num 1)).ser v).take 5))
    r.ok = true ∧ r.val = [(⟨7, by decide⟩ : Fin (256 ^ 1)), ⟨0, by decide⟩] := by
  exact ⟨rfl, rfl⟩

/-- The same for tuples: `std::tuple<uint8_t, uint8_t>` cut after its first element. -/
theorem truncated_tuple_accepted (lt : Orders) :
    let t := Ty.tup (.cons (.num 1) (.cons (.num 1) .nil))
    let v : t.Val := ((⟨7, by decide⟩ : Fin (256 ^ 1)), (⟨8, by decide⟩ : Fin (256 ^ 1)), ())
    (t.deser lt t.dflt (IStream.ofBytes ((t.ser v).take 1))).ok = true := rfl

/-- The same for pointers: no input at all decodes as a null pointer. -/
theorem truncated_pointer_accepted (lt : Orders) (t : Ty) (smart : Bool) (v : t.Val) :
    ((Ty.ptr smart t).deser lt none (IStream.ofBytes (((Ty.ptr smart t).ser (some v)).take 0))).ok
      = true := by
  simp [Ty.deser, IStream.ofBytes, IStream.read]

example : (sampleTy.deser numOrders sampleTy.dflt
    (IStream.ofBytes ((sampleTy.ser sampleVal).take 12))).st.fail = true :=
  truncation_fails_stream_partial numOrders numOrders_asymm sampleTy sampleTy_supported sampleVal
    sampleVal_fits _ (dflt_fresh _) 12 (by decide)

/-! ### C06 -/

/-- C06. For any type, any target and any stream (hence any bytes): the buffer is
unchanged, the position never moves back nor past the end, a failed stream stays
failed, and a stream that is not good does not advance. -/
theorem deserialize_safe (lt : Orders) (t : Ty) (target : t.Val) (s : IStream)
    (hi : s.pos ≤ s.buf.length) :
    let s' := (t.deser lt target s).st
    s'.buf = s.buf ∧ s.pos ≤ s'.pos ∧ s'.pos ≤ s.buf.length ∧ (s.fail = true → s'.fail = true) ∧
      (s.good = false → s'.good = false ∧ s'.pos = s.pos) := by
  have h := deser_step lt t target s
  exact ⟨h.buf, h.mono, h.inside hi, h.failSticky, h.badStays⟩

/-- C06. A read hands out only bytes of the buffer: exactly the `n` bytes at the current
position, all inside the buffer. -/
theorem read_inside (s : IStream) (n : Nat) (bs : Bytes) (h : (s.read n).1 = some bs) :
    s.pos + n ≤ s.buf.length ∧ bs.length = n ∧
      ∀ i, i < n → bs[i]? = s.buf[s.pos + i]? := by
  obtain ⟨h1, h2, _⟩ := read_some h
  subst h2
  refine ⟨h1, by simp; omega, fun i hi => ?_⟩
  rw [List.getElem?_take_of_lt hi, List.getElem?_drop]

/-- C06. A refused read writes nothing and leaves the stream failed for good. -/
theorem read_refused (s : IStream) (n : Nat) (h : (s.read n).1 = none) :
    (s.read n).2.Dead ∧ ∀ m, ((s.read n).2.read m).1 = none := by
  have hd := read_none_dead h
  exact ⟨hd, fun m => (read_dead hd m).1⟩

/-- C06. A read is refused exactly when the stream is not good or too few bytes are left. -/
theorem read_refused_iff (s : IStream) (n : Nat) (hs : s.Usable) :
    (s.read n).1 = none ↔ s.remaining.length < n := by
  have hi := hs.inside
  rw [remaining_length]
  unfold IStream.read
  simp only [hs.good, if_true]
  split
  · simp; omega
  · simp; omega

example : (sampleTy.deser numOrders sampleTy.dflt (IStream.ofBytes [255, 255, 0, 0, 1])).st.pos ≤ 5 :=
  (deserialize_safe numOrders sampleTy _ _ (Nat.zero_le _)).2.2.1

/-! ### C08 -/

/-- C08. Decoding a variant from any stream into any target: on failure the target is
unchanged; on success the first four bytes name an existing alternative and the
variant holds that alternative. -/
theorem variant_decode (lt : Orders) (t : Ty) (ts : Tys) (target : (Ty.var t ts).Val) (s : IStream) :
    let r := (Ty.var t ts).deser lt target s
    (r.ok = false → r.val = target) ∧
    (r.ok = true → ∃ bs, (s.read 4).1 = some bs ∧ leNat bs % 2 ^ 32 < ts.length + 1 ∧
      varIndex r.val = leNat bs % 2 ^ 32) := by
  have halt : ∀ (ts : Tys) i s a, (ts.deserAlt lt i s).val = some a → ts.altIndex a = i := by
    intro ts
    induction ts using Tys.rec (motive_1 := fun _ => True) with
    | num _ => trivial
    | str _ => trivial
    | ptr _ _ _ => trivial
    | seq _ _ => trivial
    | set _ _ => trivial
    | map _ _ _ _ => trivial
    | pair _ _ _ _ => trivial
    | tup _ _ => trivial
    | var _ _ _ _ => trivial
    | nil => intro i s a; exact a.elim
    | cons t ts _ ih =>
      intro i s a h
      cases i with
      | zero =>
        simp only [Tys.deserAlt] at h
        split at h
        · simp at h; subst h; rfl
        · simp at h
      | succ i =>
        simp only [Tys.deserAlt, Option.map_eq_some_iff] at h
        obtain ⟨b, hb, rfl⟩ := h
        simp [Tys.altIndex, ih i s b hb]
  simp only [Ty.deser]
  split
  · next hc =>
    simp only [Bool.and_eq_true, decide_eq_true_eq] at hc
    obtain ⟨hok, hidx⟩ := hc
    have hread : ∃ bs, (s.read 4).1 = some bs ∧
        (deserNum 4 (zeroNum 4) s).val.val = leNat bs % 2 ^ 32 := by
      cases hr : (s.read 4).1 with
      | none =>
        have := (read_none_dead hr).2
        simp [deserNum, this] at hok
      | some bs => exact ⟨bs, rfl, by simp [deserNum, hr, numOfBytes]⟩
    obtain ⟨bs, hbs, hval⟩ := hread
    split
    · next h0 =>
      split
      · exact ⟨by simp, fun _ => ⟨bs, hbs, by omega, by simp only [varIndex]; omega⟩⟩
      · exact ⟨by simp, by simp⟩
    · next i hi =>
      split
      · next a ha =>
        have := halt ts i _ a ha
        exact ⟨by simp, fun _ => ⟨bs, hbs, by omega, by simp only [varIndex]; omega⟩⟩
      · exact ⟨by simp, by simp⟩
  · exact ⟨by simp, by simp⟩

/-- C08. An index that names no alternative is always refused. -/
theorem variant_bad_index (lt : Orders) (t : Ty) (ts : Tys) (target : (Ty.var t ts).Val)
    (s : IStream) (bs : Bytes) (hr : (s.read 4).1 = some bs)
    (hbad : ts.length + 1 ≤ leNat bs % 2 ^ 32) :
    let r := (Ty.var t ts).deser lt target s
    r.ok = false ∧ r.val = target := by
  have h := variant_decode lt t ts target s
  intro r
  have hf : r.ok = false := by
    cases hk : r.ok with
    | false => rfl
    | true =>
      obtain ⟨bs', h1, h2, _⟩ := h.2 hk
      rw [hr] at h1; cases h1; omega
  exact ⟨hf, h.1 hf⟩

example : ((Ty.var (.num 1) (.cons (.str 1) .nil)).deser numOrders (.inl (⟨9, by decide⟩ : Fin (256 ^ 1)))
    (IStream.ofBytes [2, 0, 0, 0, 1])).ok = false := rfl
example : ((Ty.var (.num 1) (.cons (.num 2) .nil)).deser numOrders (.inl (⟨9, by decide⟩ : Fin (256 ^ 1)))
    (IStream.ofBytes [1, 0, 0, 0, 1, 2])).ok = true := rfl

/-! ### C09 -/

/-- Calls on an output stream. -/
inductive OOp where
  | write (b : Bytes)
  | reset

/-- The output stream after a call. -/
def OOp.apply (o : OStream) : OOp → OStream
  | .write b => o.write b
  | .reset => o.reset

/-- Specification: what was written since the last reset. -/
def written (ops : List OOp) : Bytes :=
  ops.foldl (fun acc op => match op with
    | .write b => acc ++ b
    | .reset => []) []

theorem ostream_write (o : OStream) (b : Bytes) (hg : o.good = true) (hp : o.pos = o.data.length) :
    (o.write b).data = o.data ++ b ∧ (o.write b).pos = (o.data ++ b).length ∧
      (o.write b).good = true ∧ (o.write b).fail = o.fail := by
  unfold OStream.write OStream.prepareNextWrite
  simp only [hg, if_true, hp]
  by_cases hb : b = []
  · subst hb
    simp [hp, hg, OStream.overwrite]
  · have hpos : 0 < b.length := List.length_pos_iff.mpr hb
    have hgt : o.data.length + b.length > o.data.length := by omega
    simp only [hgt, if_true, OStream.resize, OStream.overwrite]
    have htake : o.data.take (o.data.length + b.length) = o.data :=
      List.take_of_length_le (by omega)
    rw [htake]
    refine ⟨?_, by simp, trivial, trivial⟩
    rw [List.take_append_of_le_length (Nat.le_refl _), List.take_of_length_le (Nat.le_refl _),
      List.drop_of_length_le (by simp)]
    simp

/-- C09. After any sequence of writes and resets the stream holds exactly the
concatenation of the blocks written since the last reset, and is good. -/
theorem ostream_concatenates (ops : List OOp) :
    let o := ops.foldl OOp.apply OStream.empty
    o.data = written ops ∧ o.good = true ∧ o.fail = false := by
  have key : ∀ (ops : List OOp) (o : OStream) (acc : Bytes), o.data = acc → o.pos = acc.length →
      o.good = true → o.fail = false →
      (ops.foldl OOp.apply o).data = ops.foldl (fun acc op => match op with
        | .write b => acc ++ b
        | .reset => []) acc ∧ (ops.foldl OOp.apply o).good = true ∧
        (ops.foldl OOp.apply o).fail = false := by
    intro ops
    induction ops with
    | nil => intro o acc h1 _ h3 h4; exact ⟨h1, h3, h4⟩
    | cons op ops ih =>
      intro o acc h1 h2 h3 h4
      cases op with
      | write b =>
        obtain ⟨w1, w2, w3, w4⟩ := ostream_write o b h3 (by rw [h1]; exact h2)
        refine ih (o.write b) (acc ++ b) (by rw [w1, h1]) (by rw [w2, h1]) w3 (by rw [w4, h4])
      | reset => exact ih o.reset [] rfl rfl rfl rfl
  exact key ops OStream.empty [] rfl rfl rfl rfl

example : ([OOp.write [1], .reset, .write [2, 3], .write [], .write [4]].foldl OOp.apply
    OStream.empty).data = [2, 3, 4] := by decide

/-- Limit of C09: after the bytes were moved out (as `toBytes` does), writing again
without `reset` prepends zeros. -/
theorem write_after_move_pads : ((OStream.empty.write [1, 2]).takeBytes.2.write [3]).data = [0, 0, 3] := by
  decide

/-! ### C10 -/

/-- C10 (part that holds). If the stream has not failed afterwards, a decoded sequence
gained at most as many elements as bytes were consumed. -/
theorem decoded_sequence_bounded_partial (lt : Orders) (t : Ty) (ht : t.Supported) (s : IStream)
    (target : (Ty.seq t).Val) (h : ((Ty.seq t).deser lt target s).st.fail = false) :
    ((Ty.seq t).deser lt target s).val.length ≤
      target.length + (((Ty.seq t).deser lt target s).st.pos - s.pos) := by
  have := deserCont_bound (fun s => t.deser lt t.dflt s) (fun c x => c ++ [x])
    (fun s => deser_step lt t t.dflt s) (fun s hs => deser_progress lt t ht t.dflt s hs)
    (by simp) target s (by simpa [Ty.deser] using h)
  simp only [Ty.deser]
  omega

/-- C10 (part that holds), for sets. -/
theorem decoded_set_bounded_partial (lt : Orders) (t : Ty) (ht : t.Supported) (s : IStream)
    (target : (Ty.set t).Val) (h : ((Ty.set t).deser lt target s).st.fail = false) :
    ((Ty.set t).deser lt target s).val.length ≤
      target.length + (((Ty.set t).deser lt target s).st.pos - s.pos) := by
  have := deserCont_bound (fun s => t.deser lt t.dflt s) (fun c x => insertBy (lt t) x c)
    (fun s => deser_step lt t t.dflt s) (fun s hs => deser_progress lt t ht t.dflt s hs)
    (fun c x => insertBy_length _ _ _) target s (by simpa [Ty.deser] using h)
  simp only [Ty.deser]
  omega

/-- C10 (part that holds), for maps: the number of entries. -/
theorem decoded_map_bounded_partial (lt : Orders) (k v : Ty) (hk : k.Supported) (hv : v.Supported) (s : IStream)
    (target : (Ty.map k v).Val) (h : ((Ty.map k v).deser lt target s).st.fail = false) :
    ((Ty.map k v).deser lt target s).val.length ≤
      target.length + (((Ty.map k v).deser lt target s).st.pos - s.pos) := by
  have e : ∀ s, deserPair (fun o s => k.deser lt o s) (fun o s => v.deser lt o s) (k.dflt, v.dflt) s =
      (Ty.pair k v).deser lt (k.dflt, v.dflt) s := fun s => by rw [Ty.deser]
  have := deserCont_bound (fun s => deserPair (fun o s => k.deser lt o s) (fun o s => v.deser lt o s) (k.dflt, v.dflt) s)
    (fun c x => insertBy (fun a b => lt k a.1 b.1) x c)
    (fun s => by rw [e]; exact deser_step lt (.pair k v) (k.dflt, v.dflt) s)
    (fun s hs => by rw [e] at hs ⊢; exact deser_progress lt (.pair k v) ⟨hk, hv⟩ (k.dflt, v.dflt) s hs)
    (fun c x => insertBy_length _ _ _) target s (by simpa [Ty.deser] using h)
  simp only [Ty.deser]
  omega

/-- C10 (part that holds), for strings: either nothing was stored, or the bytes were there. -/
theorem decoded_string_bounded_partial (lt : Orders) (cw : Nat) (s : IStream) (target : (Ty.str cw).Val)
    (h : ((Ty.str cw).deser lt target s).st.fail = false) :
    ((Ty.str cw).deser lt target s).val = target ∨
    s.pos + 4 + ((Ty.str cw).deser lt target s).val.length * cw = ((Ty.str cw).deser lt target s).st.pos := by
  have clen : ∀ (n : Nat) (bs : Bytes), (charsOfBytes cw n bs).length = n := by
    intro n
    induction n with
    | zero => intro bs; rfl
    | succ n ih => intro bs; simp [charsOfBytes, ih]
  simp only [Ty.deser, deserStr] at h ⊢
  by_cases hok : (deserNum 4 (zeroNum 4) s).ok = true
  · simp only [hok, if_true] at h ⊢
    by_cases hpos : (deserNum 4 (zeroNum 4) s).val.val > 0
    · simp only [hpos, if_true] at h ⊢
      have hp := read_progress h
      have hn := deserNum_progress (nofail_back (read_step _ _) h)
      right
      rw [hp, hn]
      cases hr : ((deserNum 4 (zeroNum 4) s).st.read ((deserNum 4 (zeroNum 4) s).val.val * cw)).1 with
      | some bs => simp only [clen]
      | none =>
        exfalso
        unfold IStream.read at hr h
        split at hr
        · rename_i hg
          split at hr
          · rename_i ho
            rw [if_pos hg, if_pos ho] at h
            cases h
          · cases hr
        · rename_i hg
          rw [if_neg hg] at h
          cases h
    · simp only [hpos, if_false] at h ⊢
      exact .inl trivial
  · simp only [hok] at h ⊢
    exact .inl (by simp)

/-- C10 refuted for strings: any count in a four-byte input makes the target string that long before the read is
refused. -/
theorem hostile_string_size (lt : Orders) (n : Nat) (h0 : 0 < n) (hn : n < 2 ^ 32) :
    let r := (Ty.str 1).deser lt ([] : List _) (IStream.ofBytes (leBytes 4 n))
    r.ok = false ∧ r.val.length = n := by
  obtain ⟨n1, n2, n3⟩ := deserSize_ok hn (s := IStream.ofBytes (leBytes 4 n)) (rest := [])
    ⟨rfl, rfl, Nat.zero_le _⟩ (by simp [IStream.remaining, IStream.ofBytes])
  have h1 := n3.usable.good
  have hrem : (deserNum 4 (zeroNum 4) (IStream.ofBytes (leBytes 4 n))).st.pos + n * 1 >
      (deserNum 4 (zeroNum 4) (IStream.ofBytes (leBytes 4 n))).st.buf.length := by
    rw [n3.buf, n3.pos]
    simp [IStream.ofBytes, leBytes_length]
    omega
  simp only [Ty.deser, deserStr, n1, n2, if_true, h0, IStream.read, h1, hrem]
  simp [resizeStr]

/-- C10 refuted in full: any count `n` in a four-byte input makes `deserialize` report
success and build `n` elements. -/
theorem hostile_size_accepted (lt : Orders) (n : Nat) (hn : n < 2 ^ 32) :
    let r := (Ty.seq (.num 1)).deser lt ([] : List _) (IStream.ofBytes (leBytes 4 n))
    r.ok = true ∧ r.val.length = n := by
  obtain ⟨n1, n2, n3⟩ := deserSize_ok hn (s := IStream.ofBytes (leBytes 4 n)) (rest := [])
    ⟨rfl, rfl, Nat.zero_le _⟩ (by simp [IStream.remaining, IStream.ofBytes])
  have hloop : ∀ (k : Nat) (c : List (Fin (256 ^ 1))) (s : IStream),
      let r := deserLoop (fun s => (Ty.num 1).deser lt (Ty.num 1).dflt s) (fun c x => c ++ [x]) k true c s
      r.ok = true ∧ r.val.length = c.length + k := by
    intro k
    induction k with
    | zero => intro c s; exact ⟨rfl, rfl⟩
    | succ k ih =>
      intro c s
      have := ih (c ++ [((Ty.num 1).deser lt (Ty.num 1).dflt s).val])
        ((Ty.num 1).deser lt (Ty.num 1).dflt s).st
      simp only [deserLoop, Bool.true_or, if_true]
      refine ⟨this.1, this.2.trans ?_⟩
      simp; omega
  simp only [Ty.deser, deserCont, n1, n2, Bool.false_or, Bool.true_and]
  by_cases h0 : n > 0
  · simp only [h0, decide_true, if_true]
    have := hloop n [] (deserNum 4 (zeroNum 4) (IStream.ofBytes (leBytes 4 n))).st
    refine ⟨this.1, this.2.trans (by simp)⟩
  · have : n = 0 := by omega
    subst this
    exact ⟨rfl, rfl⟩

example : ((Ty.seq (.num 1)).deser numOrders ([] : List _) (IStream.ofBytes [2, 0, 0, 0, 7, 8, 9])).st.fail
    = false := rfl

/-! ### C53 -/

theorem insertBy_mem {α : Type} (lt : α → α → Bool) (x : α) (ys : List α) (z : α)
    (h : z ∈ insertBy lt x ys) : z = x ∨ z ∈ ys := by
  induction ys with
  | nil => simpa [insertBy] using h
  | cons y ys ih =>
    simp only [insertBy] at h
    split at h
    · simpa using h
    · split at h
      · rcases List.mem_cons.mp h with h | h
        · simp [h]
        · rcases ih h with h | h <;> simp [h]
      · exact Or.inr h

theorem insertBy_sorted {α : Type} (lt : α → α → Bool)
    (htr : ∀ a b c, lt a b = true → lt b c = true → lt a c = true) (x : α) (ys : List α)
    (h : ys.Pairwise fun a b => lt a b = true) : (insertBy lt x ys).Pairwise fun a b => lt a b = true := by
  induction ys with
  | nil => simp [insertBy]
  | cons y ys ih =>
    have hy := List.pairwise_cons.mp h
    simp only [insertBy]
    split
    · next hxy =>
      refine List.pairwise_cons.mpr ⟨fun z hz => ?_, h⟩
      rcases List.mem_cons.mp hz with rfl | hz
      · exact hxy
      · exact htr _ _ _ hxy (hy.1 z hz)
    · split
      · next hyx =>
        refine List.pairwise_cons.mpr ⟨fun z hz => ?_, ih hy.2⟩
        rcases insertBy_mem lt x ys z hz with rfl | hz
        · exact hyx
        · exact hy.1 z hz
      · exact h

theorem deserLoop_keeps {α β : Type} (elem : IStream → DR α) (push : List β → α → List β)
    (P : List β → Prop) (hp : ∀ c x, P c → P (push c x)) (n : Nat) (b : Bool) (c : List β) (s : IStream)
    (h : P c) : P (deserLoop elem push n b c s).val := by
  induction n generalizing b c s with
  | zero => exact h
  | succ n ih =>
    simp only [deserLoop]
    split
    · exact ih _ _ _ (hp _ _ h)
    · exact h

theorem deserCont_keeps {α β : Type} (elem : IStream → DR α) (push : List β → α → List β)
    (P : List β → Prop) (hp : ∀ c x, P c → P (push c x)) (c : List β) (s : IStream)
    (h : P c) : P (deserCont elem push c s).val := by
  simp only [deserCont]
  split
  · exact deserLoop_keeps elem push P hp _ _ _ _ h
  · exact h

/-- C53. Whatever the input, a decoded set is strictly ordered (so it has no duplicates),
if it was before. -/
theorem decoded_set_ordered (lt : Orders) (t : Ty)
    (htr : ∀ a b c, lt t a b = true → lt t b c = true → lt t a c = true) (target : (Ty.set t).Val)
    (hs : target.Pairwise fun a b => lt t a b = true) (s : IStream) :
    ((Ty.set t).deser lt target s).val.Pairwise fun a b => lt t a b = true := by
  simp only [Ty.deser]
  exact deserCont_keeps _ _ (fun c => c.Pairwise fun a b => lt t a b = true)
    (fun c x hc => insertBy_sorted (lt t) htr x c hc) target s hs

/-- C53. Whatever the input, a decoded map is strictly ordered by key, so every key
occurs once. -/
theorem decoded_map_ordered (lt : Orders) (k v : Ty)
    (htr : ∀ a b c, lt k a b = true → lt k b c = true → lt k a c = true) (target : (Ty.map k v).Val)
    (hs : target.Pairwise fun a b => lt k a.1 b.1 = true) (s : IStream) :
    ((Ty.map k v).deser lt target s).val.Pairwise fun a b => lt k a.1 b.1 = true := by
  simp only [Ty.deser]
  exact deserCont_keeps _ _ (fun c => c.Pairwise fun a b => lt k a.1 b.1 = true)
    (fun c x hc => insertBy_sorted (fun a b => lt k a.1 b.1)
      (fun a b c h1 h2 => htr a.1 b.1 c.1 h1 h2) x c hc) target s hs

/-- Hostile bytes: elements out of order and repeated. -/
example : (((Ty.set (.num 1)).deser numOrders ([] : List (Fin (256 ^ 1)))
    (IStream.ofBytes [3, 0, 0, 0, 7, 5, 7])).val : List (Fin (256 ^ 1))).map (·.val) = [5, 7] := by decide

end Maf
